import Verif.Lemmas.MultiJoinRows
/-
C14: the multi-column join returns exactly the join.  C15: OPTIONAL returns exactly the left join.
-/
namespace Verif.MultiJoin
open JoinSpec Merge

/-- The shape of the inputs that the query planner guarantees: tables of widths `wa` and `wb`, at least one pair of join
columns, join columns inside the tables and pairwise different on either side, tables sorted by the join columns, at most 32
columns (the column sets are kept in `int`s). -/
structure Valid (a b : Table) (wa wb : Nat) (jcs : JoinCols) : Prop where
  ha : a.WF wa
  hb : b.WF wb
  ne : jcs ≠ []
  ca : ∀ jc ∈ jcs, jc.1 < wa
  cb : ∀ jc ∈ jcs, jc.2 < wb
  na : (jcs.map (·.1)).Nodup
  nb : (jcs.map (·.2)).Nodup
  wa32 : wa ≤ 32
  wb32 : wb ≤ 32
  sa : SortedOnCols (jcs.map (·.1)) a
  sb : SortedOnCols (jcs.map (·.2)) b

/-- A concrete valid input. -/
theorem Valid.sample : Valid [[1, 5], [1, 6], [2, 5]] [[1, 1, 5], [9, 1, 6], [8, 1, 6], [7, 3, 0]] 2 3 [(0, 1), (1, 2)] where
  ha := by unfold Table.WF; decide
  hb := by unfold Table.WF; decide
  ne := by decide
  ca := by decide
  cb := by decide
  na := by decide
  nb := by decide
  wa32 := by decide
  wb32 := by decide
  sa := by unfold SortedOnCols; decide
  sb := by unfold SortedOnCols; decide

theorem Valid.input {a b : Table} {wa wb : Nat} {jcs : JoinCols} (h : Valid a b wa wb jcs) : Input a b jcs where
  ne := h.ne
  wa := fun r hr jc hjc => by rw [h.ha r hr]; exact h.ca jc hjc
  wb := fun r hr jc hjc => by rw [h.hb r hr]; exact h.cb jc hjc
  sa := sorted_ka h.sa
  sb := sorted_kb h.sb

theorem Valid.width {a b : Table} {wa wb : Nat} {jcs : JoinCols} (h : Valid a b wa wb jcs) {y : Row} (hy : y ∈ b) :
    (without (jcs.map (·.2)) y).length = wb - jcs.length ∧ jcs.length ≤ wb := by
  have hc : ∀ c ∈ jcs.map (·.2), c < y.length := by
    intro c hc
    obtain ⟨jc, hjc, rfl⟩ := List.mem_map.mp hc
    rw [h.hb y hy]; exact h.cb jc hjc
  have h1 := without_length h.nb hc
  have h2 := kept_length h.nb hc
  rw [h.hb y hy, List.length_map] at h1 h2
  exact ⟨h1, by omega⟩

theorem Valid.pair {a b : Table} {wa wb : Nat} {jcs : JoinCols} (h : Valid a b wa wb jcs) {bm : Nat}
    (hbm : ∀ c, bm.testBit c = decide (c ∈ jcs.map (·.2))) {x y : Row} (hx : x ∈ a) (hy : y ∈ b) :
    pairRow (wa + wb - jcs.length) bm x y = .ok (x ++ without (jcs.map (·.2)) y) := by
  have hw := h.width hy
  have hxl := h.ha x hx
  unfold pairRow
  rw [keepCols_without hbm (by rw [h.hb y hy]; exact h.wb32)]
  simp only [Outcome.bind, writeRow]
  rw [if_pos]
  rw [List.length_append]
  omega

theorem Valid.key_append {a b : Table} {wa wb : Nat} {jcs : JoinCols} (h : Valid a b wa wb jcs) {x : Row} (hx : x ∈ a)
    (z : Row) : key (jcs.map (·.1)) (x ++ z) = ka jcs x := by
  unfold key ka
  rw [List.map_map]
  apply List.map_congr_left
  intro jc hjc
  have := h.ca jc hjc
  rw [← h.ha x hx] at this
  simp [List.getElem?_append_left this]

theorem Valid.find {a b : Table} {wa wb : Nat} {jcs : JoinCols} (h : Valid a b wa wb jcs) {jc : Nat × Nat}
    (hjc : jc ∈ jcs) : jcs.find? (fun jc' => jc'.1 = jc.1) = some jc := find_nodup h.na hjc

theorem Valid.key_padLeft {a b : Table} {wa wb : Nat} {jcs : JoinCols} (h : Valid a b wa wb jcs) (y : Row) :
    key (jcs.map (·.1)) (JoinSpec.padLeft jcs wa y) = kb jcs y := by
  unfold key kb
  rw [List.map_map]
  apply List.map_congr_left
  intro jc hjc
  have := h.ca jc hjc
  simp only [Function.comp, JoinSpec.padLeft]
  rw [List.getD_eq_getElem?_getD, List.getElem?_append_left (by simpa using this), List.getElem?_map,
    List.getElem?_range this]
  simp only [Option.map_some, Option.getD_some, h.find hjc]

theorem L_eq_multiJoin (jcs : JoinCols) (a b : Table) :
    L jcs (fun x y => x ++ without (jcs.map (·.2)) y) (fun _ => []) a b = multiJoin jcs a b := by
  simp only [L]
  rw [left_noPad]
  unfold multiJoin
  congr 1
  funext x
  congr 1
  apply List.filter_congr
  intro y _
  rw [Bool.eq_iff_iff, agree_iff, decide_eq_true_eq]
  exact eq_comm

/-- C14: `computeMultiColumnJoin` returns, for all tables sorted by their join columns, exactly the rows of the join, in the
order of the left table. In particular it terminates and reads and writes only inside the tables. -/
theorem C14_multi_column_join {a b : Table} {wa wb : Nat} {jcs : JoinCols} (h : Valid a b wa wb jcs) {fuel : Nat}
    (hf : a.length + b.length < fuel) :
    multiColumnJoin fuel a b jcs (wa + wb - jcs.length) = .ok (multiJoin jcs a b) := by
  unfold multiColumnJoin
  by_cases he : a.length = 0 ∨ b.length = 0
  · rw [if_pos he]
    rcases he with he | he
    · rw [List.length_eq_zero_iff.mp he]; rfl
    · rw [List.length_eq_zero_iff.mp he]; simp [multiJoin]
  · rw [if_neg he]
    have hc : ∀ c ∈ jcs.map (·.2), c < 32 := by
      intro c hc
      obtain ⟨jc, hjc, rfl⟩ := List.mem_map.mp hc
      have := h.cb jc hjc
      have := h.wb32
      omega
    obtain ⟨bm, hbm, hbm'⟩ := bitmap_spec hc
    simp only [hbm, Outcome.bind]
    obtain ⟨r, hr, hI, hend⟩ := main_spec (fuel := fuel) (pair := pairRow (wa + wb - jcs.length) bm)
      (padA := fun _ => .ok []) (padB := fun _ => .ok []) (pairF := fun x y => x ++ without (jcs.map (·.2)) y)
      (padAF := fun _ => []) (padBF := fun _ => []) (kr := key (jcs.map (·.1))) h.input
      ⟨fun x hx y hy => h.pair hbm' hx hy, fun _ _ => rfl, fun _ _ => rfl, fun x hx y _ => h.key_append hx _, by simp, by simp⟩
      hf
    have hs := hI.final hend
    have hR : R jcs (fun _ => []) a b = [] := by
      simp only [R, right]
      rw [List.flatMap_eq_nil_iff]
      intro y _
      split <;> rfl
    have := hs.eq_left hR
    simp only [hr]
    rw [← L_eq_multiJoin, ← this]
    simp

example : multiColumnJoin 100 [[1, 5], [1, 6], [2, 5]] [[1, 1, 5], [9, 1, 6], [8, 1, 6], [7, 3, 0]] [(0, 1), (1, 2)] 3
    = .ok [[1, 5, 1], [1, 6, 9], [1, 6, 8]] := by
  refine (C14_multi_column_join Valid.sample (by decide)).trans ?_
  decide

/-- C14: the result is sorted by the left join columns, as `resultSortedOn`
(/repo/src/engine/MultiColumnJoin.cpp:151-158) promises to later operations. -/
theorem C14_result_sorted {a b : Table} {wa wb : Nat} {jcs : JoinCols} (h : Valid a b wa wb jcs) :
    SortedOnCols (jcs.map (·.1)) (multiJoin jcs a b) := by
  have hk : ∀ x ∈ a, ∀ z, key (jcs.map (·.1)) (x ++ z) = key (jcs.map (·.1)) x := by
    intro x hx z
    rw [h.key_append hx, ← h.key_append hx [], List.append_nil]
  unfold SortedOnCols multiJoin
  rw [List.pairwise_flatMap]
  constructor
  · intro x hx
    rw [List.pairwise_map]
    rw [List.pairwise_iff_forall_sublist]
    intro y z _
    rw [hk x hx, hk x hx]
    exact lt_irrefl _
  · have hsa : a.Pairwise fun x y => ¬ key (jcs.map (·.1)) y < key (jcs.map (·.1)) x := h.sa
    refine (List.Pairwise.and_mem.mp hsa).imp ?_
    rintro x y ⟨hx, hy, hxy⟩ p hp q hq
    obtain ⟨p', _, rfl⟩ := List.mem_map.mp hp
    obtain ⟨q', _, rfl⟩ := List.mem_map.mp hq
    rw [hk x hx, hk y hy]
    exact hxy

/-- C14, limit of the implementation: with more than 32 columns on the right side the shift `1 << col` of a 32 bit `int` is
undefined. -/
theorem C14_wide_tables_undefined :
    ∃ a b jcs, a.WF 1 ∧ b.WF 33 ∧ SortedOnCols (jcs.map (·.1)) a ∧ SortedOnCols (jcs.map (·.2)) b ∧
      multiColumnJoin 10 a b jcs 33 = .ub := by
  refine ⟨[[0]], [List.replicate 33 0], [(0, 0)], ?_, ?_, ?_, ?_, ?_⟩
  · unfold Table.WF; decide
  · unfold Table.WF; decide
  · unfold SortedOnCols; decide
  · unfold SortedOnCols; decide
  · decide

/-! ### Which variable is in which column -/

/-- A map from variables to columns describes the rows of a join: left variables are found in the left row's columns and the
not joined right variables have the values of the right row. -/
def Describes (jcs : JoinCols) (left right out : VarMap) (x y row : Row) : Prop :=
  (∀ v c, (v, c) ∈ left → ∃ i, (v, i) ∈ out ∧ row[i]? = x[c]?) ∧
  (∀ v c, (v, c) ∈ right → c ∉ jcs.map (·.2) → ∃ i, (v, i) ∈ out ∧ row[i]? = y[c]?)

/-- C14: with an iteration order of the right hash map that is not the order of the columns, the variables of a multi-column
join are assigned to the wrong columns: here `?b` is reported in the column that contains the values of `?c`. -/
theorem C14_labels_violated :
    ∃ (left right : VarMap) (jcs : JoinCols) (x y : Row), left.map (·.2) = List.range x.length ∧
      (right.map (·.2)).Perm (List.range y.length) ∧
      (right.map (·.1)).Nodup ∧ agree jcs x y = true ∧
      ("?b", 1) ∈ right ∧ y[1]? = some 10 ∧
      ∃ i, multiVariableColumns left right jcs = left ++ [("?c", 1), ("?b", i)] ∧
        (x ++ without (jcs.map (·.2)) y)[i]? = some 20 := by
  refine ⟨[("?a", 0)], [("?c", 2), ("?b", 1), ("?a", 0)], [(0, 0)], [7], [7, 10, 20], by decide, ?_, by decide, by decide,
    by decide, by decide, 2, by decide, by decide⟩
  simp only [List.map_cons, List.map_nil]
  decide

/-- C14: the assignment of variables to columns is right if the right map happens to be iterated in the order of the columns
and every column has a variable. (Missing: other iteration orders, see `C14_labels_violated`.) -/
theorem C14_labels_partial {left right : VarMap} {jcs : JoinCols} {x y : Row}
    (hl : left.length = x.length) (hlc : ∀ p ∈ left, p.2 < x.length) (hr : right.map (·.2) = List.range y.length) :
    Describes jcs left right (multiVariableColumns left right jcs) x y (x ++ without (jcs.map (·.2)) y) := by
  constructor
  · intro v c hv
    exact ⟨c, List.mem_append_left _ hv, List.getElem?_append_left (hlc _ hv)⟩
  · intro v c hv hc
    have hw : without (jcs.map (·.2)) y = (right.filter fun p => p.2 ∉ jcs.map (·.2)).map fun p => y.getD p.2 0 := by
      rw [without_eq]
      unfold kept
      rw [← hr, List.filter_map, List.map_map]
      rfl
    have hm : (v, c) ∈ right.filter fun p => p.2 ∉ jcs.map (·.2) :=
      List.mem_filter.mpr ⟨hv, by simpa using hc⟩
    obtain ⟨k, hk, he⟩ := List.mem_iff_getElem.mp hm
    have hcy : c < y.length := by
      have : c ∈ right.map (·.2) := List.mem_map.mpr ⟨_, hv, rfl⟩
      rw [hr] at this
      exact List.mem_range.mp this
    refine ⟨x.length + k, List.mem_append_right _ (List.mem_map.mpr ⟨((v, c), left.length + k), ?_, ?_⟩), ?_⟩
    · rw [List.mk_mem_zipIdx_iff_le_and_getElem?_sub]
      rw [Nat.add_sub_cancel_left]
      refine ⟨by omega, ?_⟩
      rw [List.getElem?_eq_getElem hk, he]
    · simp only [hl]
    · rw [List.getElem?_append_right (by omega), Nat.add_sub_cancel_left, hw, List.getElem?_map,
        List.getElem?_eq_getElem hk, he]
      simp [hcy]

example : Describes [(0, 0)] [("?a", 0)] [("?a", 0), ("?b", 1), ("?c", 2)]
    (multiVariableColumns [("?a", 0)] [("?a", 0), ("?b", 1), ("?c", 2)] [(0, 0)]) [7] [7, 10, 20]
    ([7] ++ without ([(0, 0)].map (·.2)) [7, 10, 20]) :=
  C14_labels_partial (jcs := [(0, 0)]) (by decide) (by decide) (by decide)

/-! ### OPTIONAL -/

theorem L_eq_outerLeft (jcs : JoinCols) (w : Nat) (bOpt : Bool) (a b : Table) :
    L jcs (fun x y => x ++ without (jcs.map (·.2)) y) (fun x => if bOpt then [padRight w x] else []) a b =
      outerLeft jcs w bOpt a b := by
  simp only [L, Merge.left, outerLeft]
  congr 1
  funext x
  have hf : b.filter (fun y => kb jcs y = ka jcs x) = b.filter (agree jcs x) := by
    apply List.filter_congr
    intro y _
    rw [Bool.eq_iff_iff, agree_iff, decide_eq_true_eq]
    exact eq_comm
  by_cases h : b.any (agree jcs x) = true
  · rw [if_pos h]
    apply row_eq hf
    intro hn
    rw [List.filter_eq_nil_iff] at hn
    obtain ⟨y, hy, hy'⟩ := List.any_eq_true.mp h
    exact hn y hy hy'
  · rw [if_neg h]
    apply row_none
    intro y hy he
    apply h
    rw [List.any_eq_true]
    exact ⟨y, hy, (agree_iff jcs x y).mpr he.symm⟩

theorem R_eq_outerRight (jcs : JoinCols) (wa : Nat) (aOpt : Bool) (a b : Table) :
    R jcs (fun y => if aOpt then [JoinSpec.padLeft jcs wa y] else []) a b = outerRight jcs wa aOpt a b := by
  unfold R Merge.right outerRight
  cases aOpt with
  | false =>
    simp only [Bool.false_eq_true, if_false]
    rw [List.flatMap_eq_nil_iff]
    intro y _
    split <;> rfl
  | true =>
    simp only [if_true]
    induction b with
    | nil => rfl
    | cons y b ih =>
      rw [List.flatMap_cons, ih]
      have hiff : (a.any fun x => agree jcs x y) = true ↔ ∃ x ∈ a, ka jcs x = kb jcs y := by
        simp only [List.any_eq_true, agree_iff]
      by_cases h : ∃ x ∈ a, ka jcs x = kb jcs y
      · rw [if_pos h, List.filter_cons_of_neg (by rw [hiff.mpr h]; simp)]
        rfl
      · have hfalse : (a.any fun x => agree jcs x y) = false := by
          rw [Bool.eq_false_iff]
          exact fun e => h (hiff.mp e)
        rw [if_neg h, List.filter_cons_of_pos (by rw [hfalse]; rfl), List.map_cons]
        rfl

/-- C15: for all sorted tables and all four combinations of optional sides, `optionalJoin` terminates without undefined
behaviour; the rows of the result are an interleaving of the rows with a left part (partners of every left row, in order, or
the padded left row) and, if the left side is optional, the padded right rows without partner (in order).  The result is
sorted by the left join columns, as `resultSortedOn` (/repo/src/engine/OptionalJoin.cpp:160-167) promises. -/
theorem C15_optional_join {a b : Table} {wa wb : Nat} {jcs : JoinCols} (h : Valid a b wa wb jcs) (aOpt bOpt : Bool)
    {fuel : Nat} (hf : a.length + b.length < fuel) :
    ∃ r, optionalJoin fuel a b wa aOpt bOpt jcs (wa + wb - jcs.length) = .ok r ∧
      Shuffle (outerLeft jcs (wa + wb - jcs.length) bOpt a b) (outerRight jcs wa aOpt a b) r ∧
      SortedOnCols (jcs.map (·.1)) r := by
  have hca : ∀ c ∈ jcs.map (·.1), c < 32 := by
    intro c hc
    obtain ⟨jc, hjc, rfl⟩ := List.mem_map.mp hc
    have := h.ca jc hjc
    have := h.wa32
    omega
  have hcb : ∀ c ∈ jcs.map (·.2), c < 32 := by
    intro c hc
    obtain ⟨jc, hjc, rfl⟩ := List.mem_map.mp hc
    have := h.cb jc hjc
    have := h.wb32
    omega
  obtain ⟨bmA, hbmA, hbmA'⟩ := bitmap_spec hca
  obtain ⟨bmB, hbmB, hbmB'⟩ := bitmap_spec hcb
  have hjl : b ≠ [] → jcs.length ≤ wb := by
    intro hb
    obtain ⟨y, hy⟩ := List.exists_mem_of_ne_nil b hb
    exact (h.width hy).2
  have hjl' : jcs.length ≤ wb := by
    have h1 := kept_length (n := wb) h.nb (by
      intro c hc
      obtain ⟨jc, hjc, rfl⟩ := List.mem_map.mp hc
      exact h.cb jc hjc)
    rw [List.length_map] at h1
    omega
  have hA : ∀ x ∈ a, (if bOpt then rowA (wa + wb - jcs.length) else fun _ => .ok []) x =
      .ok (if bOpt then [padRight (wa + wb - jcs.length) x] else []) := by
    intro x hx
    cases bOpt with
    | false => rfl
    | true =>
      simp only [if_true, rowA, writeRow]
      rw [if_pos]
      · rfl
      · simp only [List.length_append, List.length_replicate, h.ha x hx]
        omega
  have hB : ∀ y ∈ b, (if aOpt then rowB (wa + wb - jcs.length) wa bmA bmB (joinColumnAToB jcs) else fun _ => .ok []) y =
      .ok (if aOpt then [JoinSpec.padLeft jcs wa y] else []) := by
    intro y hy
    cases aOpt with
    | false => rfl
    | true =>
      have hyl := h.hb y hy
      simp only [if_true, rowB]
      rw [padLeft_spec hbmA' h.na (by intro jc hjc; rw [hyl]; exact h.cb jc hjc) wa 0 (by have := h.wa32; omega),
        keepCols_without hbmB' (by rw [hyl]; exact h.wb32)]
      simp only [Outcome.bind, writeRow]
      rw [if_pos]
      · simp only [JoinSpec.padLeft, List.range_eq_range']
        rfl
      · have hw := h.width hy
        simp only [List.length_append, List.length_map, List.length_range']
        omega
  have kA : ∀ x ∈ a, ∀ r ∈ (if bOpt then [padRight (wa + wb - jcs.length) x] else []),
      key (jcs.map (·.1)) r = ka jcs x := by
    intro x hx r hr
    cases bOpt with
    | false => simp at hr
    | true =>
      simp only [if_true, List.mem_singleton] at hr
      rw [hr, padRight, h.key_append hx]
  have kB : ∀ y ∈ b, ∀ r ∈ (if aOpt then [JoinSpec.padLeft jcs wa y] else []), key (jcs.map (·.1)) r = kb jcs y := by
    intro y _ r hr
    cases aOpt with
    | false => simp at hr
    | true =>
      simp only [if_true, List.mem_singleton] at hr
      rw [hr, h.key_padLeft]
  have hsorted : ∀ t : Table, (t.Pairwise fun r s => key (jcs.map (·.1)) r ≤ key (jcs.map (·.1)) s) →
      SortedOnCols (jcs.map (·.1)) t := fun t ht => ht.imp (fun h => not_lt.mpr h)
  rw [← L_eq_outerLeft, ← R_eq_outerRight]
  unfold optionalJoin
  by_cases h0 : (a.length = 0 ∧ b.length = 0) ∨ (a.length = 0 ∧ ¬ aOpt = true) ∨ (b.length = 0 ∧ ¬ bOpt = true)
  · rw [if_pos h0]
    refine ⟨[], rfl, ?_, .nil⟩
    rcases h0 with ⟨h1, h2⟩ | ⟨h1, h2⟩ | ⟨h1, h2⟩
    · rw [List.length_eq_zero_iff.mp h1, List.length_eq_zero_iff.mp h2]
      exact .nil
    · rw [List.length_eq_zero_iff.mp h1]
      simp only [R, L, right_nil_left, left_nil, h2]
      rw [List.flatMap_eq_nil_iff.mpr (by intro _ _; rfl)]
      exact Shuffle.nil
    · rw [List.length_eq_zero_iff.mp h1]
      simp only [R, L, left_nil_right, right_nil, h2]
      rw [List.flatMap_eq_nil_iff.mpr (by intro _ _; rfl)]
      exact Shuffle.nil
  · rw [if_neg h0]
    simp only [hbmA, hbmB, Outcome.bind]
    by_cases h1 : a.length = 0 ∧ aOpt = true
    · rw [if_pos h1, forRows_ok hB]
      refine ⟨_, rfl, ?_, hsorted _ (pairwise_flatMap_key h.input.sb kB)⟩
      rw [List.length_eq_zero_iff.mp h1.1]
      simp only [R, L, right_nil_left, left_nil]
      simpa using Shuffle.nil.appendR _
    · rw [if_neg h1]
      by_cases h2 : b.length = 0 ∧ bOpt = true
      · rw [if_pos h2, forRows_ok hA]
        refine ⟨_, rfl, ?_, hsorted _ (pairwise_flatMap_key h.input.sa kA)⟩
        rw [List.length_eq_zero_iff.mp h2.1]
        simp only [R, L, left_nil_right, right_nil]
        simpa using Shuffle.nil.appendL _
      · rw [if_neg h2]
        have ho : Output a b (pairRow (wa + wb - jcs.length) bmB) _ _ jcs (fun x y => x ++ without (jcs.map (·.2)) y) _ _
            (key (jcs.map (·.1))) :=
          ⟨fun x hx y hy => h.pair hbmB' hx hy, hA, hB, fun x hx y _ => h.key_append hx _, kA, kB⟩
        obtain ⟨r, hr, hI, hend⟩ := main_spec (fuel := fuel) h.input ho hf
        simp only [hr]
        rw [forRows_ok (fun y hy => hB y (List.mem_of_mem_drop hy)),
          forRows_ok (fun x hx => hA x (List.mem_of_mem_drop hx))]
        exact ⟨_, rfl, hI.final hend, hsorted _ (hI.sorted h.input ho hend)⟩

/-- C15: the usual case, `A OPTIONAL B`: exactly the left join, in the order of the left table. -/
theorem C15_left_join {a b : Table} {wa wb : Nat} {jcs : JoinCols} (h : Valid a b wa wb jcs) {fuel : Nat}
    (hf : a.length + b.length < fuel) :
    optionalJoin fuel a b wa false true jcs (wa + wb - jcs.length) =
      .ok (outerLeft jcs (wa + wb - jcs.length) true a b) := by
  obtain ⟨r, hr, hs, _⟩ := C15_optional_join h false true hf
  rw [hr, hs.eq_left rfl]

/-- C15: no row is lost or invented, for all combinations of optional sides. -/
theorem C15_rows {a b : Table} {wa wb : Nat} {jcs : JoinCols} (h : Valid a b wa wb jcs) (aOpt bOpt : Bool) {fuel : Nat}
    (hf : a.length + b.length < fuel) :
    ∃ r, optionalJoin fuel a b wa aOpt bOpt jcs (wa + wb - jcs.length) = .ok r ∧
      r.Perm (outerLeft jcs (wa + wb - jcs.length) bOpt a b ++ outerRight jcs wa aOpt a b) := by
  obtain ⟨r, hr, hs, _⟩ := C15_optional_join h aOpt bOpt hf
  exact ⟨r, hr, hs.perm⟩

/-- C15: without optional sides the operation is the ordinary join. -/
theorem C15_inner {a b : Table} {wa wb : Nat} {jcs : JoinCols} (h : Valid a b wa wb jcs) {fuel : Nat}
    (hf : a.length + b.length < fuel) :
    optionalJoin fuel a b wa false false jcs (wa + wb - jcs.length) = .ok (multiJoin jcs a b) := by
  obtain ⟨r, hr, hs, _⟩ := C15_optional_join h false false hf
  rw [hr, hs.eq_left rfl, ← L_eq_outerLeft, ← L_eq_multiJoin]
  rfl

/-- C15: in `A OPTIONAL B` every left row is represented, and the first columns are always those of a left row. -/
theorem C15_left_rows_kept {a b : Table} {wa wb : Nat} {jcs : JoinCols} (h : Valid a b wa wb jcs) {fuel : Nat}
    (hf : a.length + b.length < fuel) :
    ∃ r, optionalJoin fuel a b wa false true jcs (wa + wb - jcs.length) = .ok r ∧
      (∀ x ∈ a, ∃ row ∈ r, row.take wa = x) ∧ (∀ row ∈ r, row.take wa ∈ a) := by
  refine ⟨_, C15_left_join h hf, ?_, ?_⟩
  · intro x hx
    have hxl := h.ha x hx
    simp only [outerLeft, List.mem_flatMap]
    by_cases hp : b.any (agree jcs x) = true
    · obtain ⟨y, hy, hy'⟩ := List.any_eq_true.mp hp
      refine ⟨x ++ without (jcs.map (·.2)) y, ⟨x, hx, ?_⟩, by rw [← hxl, List.take_left]⟩
      rw [if_pos hp]
      exact List.mem_map.mpr ⟨y, List.mem_filter.mpr ⟨hy, hy'⟩, rfl⟩
    · refine ⟨padRight (wa + wb - jcs.length) x, ⟨x, hx, ?_⟩, by rw [padRight, ← hxl, List.take_left]⟩
      rw [if_neg hp]
      simp
  · intro row hrow
    simp only [outerLeft, List.mem_flatMap] at hrow
    obtain ⟨x, hx, hrow⟩ := hrow
    have hxl := h.ha x hx
    split at hrow
    · obtain ⟨y, _, rfl⟩ := List.mem_map.mp hrow
      rw [← hxl, List.take_left]; exact hx
    · simp only [if_true, List.mem_singleton] at hrow
      rw [hrow, padRight, ← hxl, List.take_left]; exact hx

example : optionalJoin 100 [[1, 5], [1, 6], [2, 5]] [[1, 1, 5], [9, 1, 6], [8, 1, 6], [7, 3, 0]] 2 false true
    [(0, 1), (1, 2)] 3 = .ok [[1, 5, 1], [1, 6, 9], [1, 6, 8], [2, 5, ID_NO_VALUE]] := by
  refine (C15_left_join Valid.sample (by decide)).trans ?_
  decide

/-- C15: the variables of an OPTIONAL are assigned to the right columns, for every iteration order of the hash maps, in rows
with a partner and in padded right rows. -/
theorem C15_labels {left right : VarMap} {jcs : JoinCols} {x y : Row} (hn : (jcs.map (·.2)).Nodup)
    (hlc : ∀ p ∈ left, p.2 < x.length) (hrc : ∀ p ∈ right, p.2 < y.length) :
    Describes jcs left right (optionalVariableColumns left right x.length jcs) x y (x ++ without (jcs.map (·.2)) y) := by
  constructor
  · intro v c hv
    exact ⟨c, List.mem_append_left _ hv, List.getElem?_append_left (hlc _ hv)⟩
  · intro v c hv hc
    have hcy : c < y.length := hrc _ hv
    have hle : ((jcs.map (·.2)).filter fun d => d < c).length ≤ c := by
      have := kept_length (n := c) (List.Pairwise.filter (fun d => decide (d < c)) hn)
        (by intro d hd; simpa using (List.mem_filter.mp hd).2)
      omega
    refine ⟨x.length + (c - ((jcs.map (·.2)).filter fun d => d < c).length), ?_, ?_⟩
    · apply List.mem_append_right
      rw [List.mem_filterMap]
      refine ⟨(v, c), hv, ?_⟩
      rw [optionalColumn_spec, if_neg hc]
      simp only [Option.map_some]
      rw [Nat.add_sub_assoc hle]
    · rw [List.getElem?_append_right (by omega), Nat.add_sub_cancel_left, without_eq, List.getElem?_map,
        kept_index hn hc hcy]
      simp [hcy]

example : Describes [(0, 1)] [("?a", 0)] [("?c", 2), ("?a", 1), ("?b", 0)]
    (optionalVariableColumns [("?a", 0)] [("?c", 2), ("?a", 1), ("?b", 0)] [7].length [(0, 1)]) [7] [10, 7, 20]
    ([7] ++ without ([(0, 1)].map (·.2)) [10, 7, 20]) :=
  C15_labels (jcs := [(0, 1)]) (by decide) (by decide) (by decide)

end Verif.MultiJoin
