import Verif.Lemmas.Modifiers
import Mathlib.Data.List.Perm.Subperm
/-
C18: DISTINCT.  C19: ORDER BY.  C20: LIMIT and OFFSET.  C56: HAVING.
-/
namespace Verif.Modifiers
open JoinSpec ModifiersSpec

/-! ### C18 -/

theorem nodup_length_le {keep : List Nat} {w : Nat} (hn : keep.Nodup) (hk : ∀ c ∈ keep, c < w) : keep.length ≤ w := by
  have := (hn.subperm (fun c hc => List.mem_range.mpr (hk c hc))).length_le
  simpa using this

/-- C18: on every input that is sorted on the kept columns, `Engine::distinct` keeps for every combination of values exactly one
row, and the kept rows are rows of the input in their order. -/
theorem C18_distinct {w : Nat} {keep : List Nat} {t : Table} (hn : keep.Nodup) (hk : ∀ c ∈ keep, c < w) (hw : t.WF w)
    (hs : SortedOnCols keep t) : ∃ t', distinct w keep t = .ok t' ∧ DistinctOf keep t t' :=
  distinct_spec hk (nodup_length_le hn hk) hw hs

example : ∃ t', distinct 3 [2, 0] [[1, 5, 1], [1, 6, 1], [2, 0, 1], [1, 0, 2], [1, 9, 2]] = .ok t' ∧
    DistinctOf [2, 0] [[1, 5, 1], [1, 6, 1], [2, 0, 1], [1, 0, 2], [1, 9, 2]] t' :=
  C18_distinct (by decide) (by decide) (by unfold Table.WF; decide) (by unfold SortedOnCols; decide)

/-- A test of the result. -/
example : distinct 3 [2, 0] [[1, 5, 1], [1, 6, 1], [2, 0, 1], [1, 0, 2], [1, 9, 2]] = .ok [[1, 5, 1], [2, 0, 1], [1, 0, 2]] := by
  decide

/-- C18 with the planner, and with the order that the plan for DISTINCT declares. -/
theorem C18_planned_sorted {w : Nat} {keep sortedOn : List Nat} {t : Table} (hn : keep.Nodup) (hk : ∀ c ∈ keep, c < w) (hw : t.WF w)
    (hs : SortedOnCols sortedOn t) {o : Outcome Table} (ho : DistinctRow w sortedOn keep t o) :
    ∃ t' p, o = .ok t' ∧ p.Perm t ∧ DistinctOf keep p t' ∧ SortedOnCols (distinctSortedOn sortedOn keep) t' := by
  unfold DistinctRow at ho
  unfold distinctSortedOn
  have wf_perm : ∀ {p : Table}, p.Perm t → p.WF w := fun hp r hr => hw r (hp.subset hr)
  split at ho
  · rename_i hi
    rw [if_pos hi]
    have hs0 := hs
    unfold isSorted at hi
    simp only [Bool.and_eq_true, decide_eq_true_eq, beq_iff_eq] at hi
    have : SortedOnCols keep t := by
      rw [← List.take_append_drop keep.length sortedOn, hi.2] at hs
      exact sortedOn_prefix hs
    obtain ⟨t', h1, h2⟩ := C18_distinct hn hk hw this
    exact ⟨t', t, by rw [ho, h1], List.Perm.refl _, h2, hs0.sublist h2.1⟩
  · rename_i hi0
    rw [if_neg hi0]
    split at ho
    · rename_i h1
      rw [if_pos h1]
      obtain ⟨c, rfl⟩ := List.length_eq_one_iff.mp h1
      obtain ⟨o', ho', rfl⟩ := ho
      obtain ⟨p, rfl, hp, hsp⟩ := sorts_spec (fun r : Row => r.getD c 0) (lessColumn_eq hw (hk c (by simp))) ho'
      have : SortedOnCols [c] p := by
        refine hsp.imp fun {x y} h h' => ?_
        simp only [key, List.map_cons, List.map_nil, List.cons_lt_cons_iff] at h'
        rcases h' with h' | ⟨_, h'⟩
        · omega
        · exact absurd h' (lt_irrefl _)
      obtain ⟨t', h1, h2⟩ := C18_distinct hn hk (wf_perm hp) this
      exact ⟨t', p, by simp [h1], hp, h2, this.sublist h2.1⟩
    · rename_i h1
      rw [if_neg h1]
      obtain ⟨o', ho', rfl⟩ := ho
      unfold OrderByOp at ho'
      by_cases hke : keep = []
      · subst hke
        simp [isSorted] at hi0
      · rw [if_neg (by simpa using hke)] at ho'
        obtain ⟨c, hc⟩ := List.exists_mem_of_ne_nil _ hke
        have hkc := hk c hc
        have hks : ∀ k ∈ keep.map (fun c => (c, false)), k.1 < w := by
          intro k hk'
          obtain ⟨c, hc, rfl⟩ := List.mem_map.mp hk'
          exact hk c hc
        obtain ⟨p, rfl, hp, hsp⟩ := sorts_spec (image (keep.map fun c => (c, false)))
          (lessKeys_eq hw (by omega) hks) ho'
        have := sortedOnCols_of_image (by simp) hsp
        rw [List.map_map] at this
        have hid : keep.map ((fun x => x.1) ∘ fun c => (c, false)) = keep := by
          conv => rhs; rw [← List.map_id keep]
          rfl
        rw [hid] at this
        have hob : orderBySortedOn (keep.map fun c => (c, false)) = keep := by
          unfold orderBySortedOn
          rw [List.filter_eq_self.mpr (by simp), List.map_map]
          exact hid
        rw [hob]
        obtain ⟨t', h1, h2⟩ := C18_distinct hn hk (wf_perm hp) this
        exact ⟨t', p, by simp [h1], hp, h2, this.sublist h2.1⟩

/-- C18 with the planner: whatever order the plan truthfully declares, DISTINCT on the (possibly sorted) plan returns rows of the
plan, for every combination of values of the kept columns exactly one. -/
theorem C18_planned {w : Nat} {keep sortedOn : List Nat} {t : Table} (hn : keep.Nodup) (hk : ∀ c ∈ keep, c < w) (hw : t.WF w)
    (hs : SortedOnCols sortedOn t) {o : Outcome Table} (ho : DistinctRow w sortedOn keep t o) :
    ∃ t' p, o = .ok t' ∧ p.Perm t ∧ DistinctOf keep p t' :=
  let ⟨t', p, h1, h2, h3, _⟩ := C18_planned_sorted hn hk hw hs ho
  ⟨t', p, h1, h2, h3⟩

/-- There is always an outcome. -/
theorem C18_planned_total {w : Nat} {keep sortedOn : List Nat} {t : Table} (hk : ∀ c ∈ keep, c < w) (hw : t.WF w) :
    ∃ o, DistinctRow w sortedOn keep t o := by
  unfold DistinctRow
  split
  · exact ⟨_, rfl⟩
  · split
    · rename_i h1
      obtain ⟨c, rfl⟩ := List.length_eq_one_iff.mp h1
      obtain ⟨p, hp⟩ := sorts_exists (fun r : Row => r.getD c 0) (lessColumn_eq hw (hk c (by simp)))
      exact ⟨_, _, hp, rfl⟩
    · unfold OrderByOp
      by_cases hke : keep = []
      · exact ⟨_, _, by rw [if_pos (by simpa using hke)], rfl⟩
      · obtain ⟨c, hc⟩ := List.exists_mem_of_ne_nil _ hke
        have hkc := hk c hc
        have hks : ∀ k ∈ keep.map (fun c => (c, false)), k.1 < w := by
          intro k hk'
          obtain ⟨c, hc, rfl⟩ := List.mem_map.mp hk'
          exact hk c hc
        obtain ⟨p, hp⟩ := sorts_exists (image (keep.map fun c => (c, false))) (lessKeys_eq hw (by omega) hks)
        exact ⟨_, _, by rw [if_neg (by simpa using hke)]; exact hp, rfl⟩

/-- A plan sorted by column 1 only, DISTINCT on columns 0 and 1. -/
example : ∃ o t' p, DistinctRow 2 [1] [0, 1] [[2, 1], [1, 1], [2, 1], [1, 3]] o ∧ o = .ok t' ∧
    p.Perm [[2, 1], [1, 1], [2, 1], [1, 3]] ∧ DistinctOf [0, 1] p t' := by
  obtain ⟨o, ho⟩ := C18_planned_total (w := 2) (keep := [0, 1]) (sortedOn := [1]) (t := [[2, 1], [1, 1], [2, 1], [1, 3]])
    (by decide) (by unfold Table.WF; decide)
  obtain ⟨t', p, h1, h2, h3⟩ := C18_planned (by decide) (by decide) (by unfold Table.WF; decide)
    (by unfold SortedOnCols; decide) ho
  exact ⟨o, t', p, ho, h1, h2, h3⟩

/-! ### C19 -/

/-- C19: ORDER BY with at least one key returns a permutation of the rows in which no row has to come before an earlier one; the
comparison is a strict weak ordering, so nothing is undefined. -/
theorem C19_orderBy {w : Nat} {keys : List (Nat × Bool)} {t : Table} (hw : t.WF w) (hne : keys ≠ []) (hk : ∀ k ∈ keys, k.1 < w)
    {o : Outcome Table} (ho : OrderByOp keys t o) :
    ∃ t', o = .ok t' ∧ t'.Perm t ∧ t'.Pairwise fun x y => ¬ Before keys y x := by
  unfold OrderByOp at ho
  rw [if_neg hne] at ho
  obtain ⟨k, hkm⟩ := List.exists_mem_of_ne_nil _ hne
  have := hk k hkm
  obtain ⟨t', h1, h2, h3⟩ := sorts_spec (image keys) (lessKeys_eq hw (by omega) hk) ho
  exact ⟨t', h1, h2, h3.imp fun h hb => absurd (image_lt_of_before hb) (not_lt.mpr h)⟩

/-- The comparison of ORDER BY is a strict weak ordering on all rows of one width. -/
theorem C19_comparable {w : Nat} {keys : List (Nat × Bool)} {t : Table} (hw : t.WF w) (hne : keys ≠ []) (hk : ∀ k ∈ keys, k.1 < w) :
    Comparable (lessKeys keys) t := by
  obtain ⟨k, hkm⟩ := List.exists_mem_of_ne_nil _ hne
  have := hk k hkm
  exact comparable_of_image (image keys) (lessKeys_eq hw (by omega) hk)

/-- There is always an outcome. -/
theorem C19_total {w : Nat} {keys : List (Nat × Bool)} {t : Table} (hw : t.WF w) (hne : keys ≠ []) (hk : ∀ k ∈ keys, k.1 < w) :
    ∃ o, OrderByOp keys t o := by
  obtain ⟨k, hkm⟩ := List.exists_mem_of_ne_nil _ hne
  have := hk k hkm
  obtain ⟨p, hp⟩ := sorts_exists (image keys) (lessKeys_eq hw (by omega) hk)
  exact ⟨.ok p, by unfold OrderByOp; rw [if_neg hne]; exact hp⟩

example : ∃ o t', OrderByOp [(1, true), (0, false)] [[2, 1], [1, 1], [3, 2]] o ∧ o = .ok t' ∧
    t'.Perm [[2, 1], [1, 1], [3, 2]] ∧ t'.Pairwise fun x y => ¬ Before [(1, true), (0, false)] y x := by
  obtain ⟨o, ho⟩ := C19_total (w := 2) (keys := [(1, true), (0, false)]) (t := [[2, 1], [1, 1], [3, 2]])
    (by unfold Table.WF; decide) (by decide) (by decide)
  obtain ⟨t', h1, h2, h3⟩ := C19_orderBy (w := 2) (by unfold Table.WF; decide) (by decide) (by decide) ho
  exact ⟨o, t', ho, h1, h2, h3⟩

/-- `Sort` returns a permutation sorted by the column. -/
theorem C19_sort {w c : Nat} {t : Table} (hw : t.WF w) (hc : c < w) {o : Outcome Table} (ho : SortOp c t o) :
    ∃ t', o = .ok t' ∧ t'.Perm t ∧ SortedOn c t' :=
  sorts_spec (fun r : Row => r.getD c 0) (lessColumn_eq hw hc) ho

/-- There is always an outcome. -/
theorem C19_sort_total {w c : Nat} {t : Table} (hw : t.WF w) (hc : c < w) : ∃ o, SortOp c t o :=
  let ⟨p, hp⟩ := sorts_exists (fun r : Row => r.getD c 0) (lessColumn_eq hw hc)
  ⟨.ok p, hp⟩

example : ∃ o t', SortOp 1 [[2, 3], [1, 1], [3, 2]] o ∧ o = .ok t' ∧ t'.Perm [[2, 3], [1, 1], [3, 2]] ∧ SortedOn 1 t' :=
  let ⟨o, ho⟩ := C19_sort_total (w := 2) (c := 1) (t := [[2, 3], [1, 1], [3, 2]]) (by unfold Table.WF; decide) (by decide)
  let ⟨t', h⟩ := C19_sort (w := 2) (by unfold Table.WF; decide) (by decide) ho
  ⟨o, t', ho, h⟩

/-- C19 with the planner: whatever order the plan truthfully declares, the ordered plan is a permutation of the rows of the plan in
which no row has to come before an earlier one. -/
theorem C19_planned {w : Nat} {keys : List (Nat × Bool)} {sortedOn : List Nat} {t : Table} (hw : t.WF w) (hne : keys ≠ [])
    (hk : ∀ k ∈ keys, k.1 < w) (hs : SortedOnCols sortedOn t) {o : Outcome Table} (ho : OrderByRow sortedOn keys t o) :
    ∃ t', o = .ok t' ∧ t'.Perm t ∧ t'.Pairwise fun x y => ¬ Before keys y x := by
  unfold OrderByRow at ho
  split at ho
  · rename_i c
    split at ho
    · rename_i hh
      obtain ⟨rest, rfl⟩ : ∃ rest, sortedOn = [c] ++ rest := by
        cases sortedOn with
        | nil => simp at hh
        | cons d ds => exact ⟨ds, by simpa using hh⟩
      have hs' : SortedOnCols [c] t := sortedOn_prefix hs
      exact ⟨t, ho, List.Perm.refl _, hs'.imp fun h => not_before_of_key (keys := [(c, false)]) (by simp) h⟩
    · obtain ⟨t', h1, h2, h3⟩ := C19_sort hw (hk (c, false) (by simp)) ho
      refine ⟨t', h1, h2, h3.imp fun h => not_before_of_key (by simp) ?_⟩
      rw [List.map_cons, List.map_nil, key_lt_single]
      omega
  · split at ho
    · rename_i hh
      simp only [Bool.and_eq_true, decide_eq_true_eq, List.all_eq_true, Bool.not_eq_true', beq_iff_eq] at hh
      obtain ⟨hl, hz⟩ := hh
      have hd : ∀ k ∈ keys, k.2 = false := by
        intro k hk'
        obtain ⟨i, hi, rfl⟩ := List.getElem_of_mem hk'
        have := hz (keys[i], sortedOn[i]) (by
          rw [List.mem_iff_getElem]
          exact ⟨i, by simp; omega, by simp⟩)
        exact this.1
      have hpre : keys.map (·.1) = sortedOn.take keys.length := by
        apply List.ext_getElem
        · simp; omega
        · intro i hi hi'
          simp only [List.length_map] at hi
          have := hz (keys[i], sortedOn[i]) (by
            rw [List.mem_iff_getElem]
            exact ⟨i, by simp; omega, by simp⟩)
          simpa using this.2
      rw [← List.take_append_drop keys.length sortedOn, ← hpre] at hs
      exact ⟨t, ho, List.Perm.refl _, (sortedOn_prefix hs).imp fun h => not_before_of_key hd h⟩
    · exact C19_orderBy hw hne hk ho

/-- There is always an outcome. -/
theorem C19_planned_total {w : Nat} {keys : List (Nat × Bool)} {sortedOn : List Nat} {t : Table} (hw : t.WF w) (hne : keys ≠ [])
    (hk : ∀ k ∈ keys, k.1 < w) : ∃ o, OrderByRow sortedOn keys t o := by
  unfold OrderByRow
  split
  · split
    · exact ⟨_, rfl⟩
    · exact C19_sort_total hw (hk _ (List.mem_singleton.mpr rfl))
  · split
    · exact ⟨_, rfl⟩
    · exact C19_total hw hne hk

/-- A plan that declares to be sorted by columns 1 and 0, ordered by column 1. -/
example : [[5, 1], [6, 1], [2, 3]].Pairwise fun x y => ¬ Before [(1, false)] y x := by
  obtain ⟨t', h1, _, h3⟩ := C19_planned (w := 2) (keys := [(1, false)]) (sortedOn := [1, 0]) (t := [[5, 1], [6, 1], [2, 3]])
    (o := .ok [[5, 1], [6, 1], [2, 3]]) (by unfold Table.WF; decide) (by decide) (by decide) (by unfold SortedOnCols; decide)
    (by simp [OrderByRow])
  cases h1
  exact h3

/-! ### C56 -/

/-- C56 for at most one condition.  Missing: several conditions, see `C56_violated`. -/
theorem C56_having_partial {conditions : List (Row → Bool)} {t : Table} (h : conditions.length ≤ 1) :
    havingRow conditions t = having conditions t := by
  match conditions, h with
  | [], _ => simp [havingRow, having]
  | [c], _ => simp [havingRow, having]

example : havingRow [fun r => r.getD 0 0 < 3] [[1], [5]] = [[1]] := (C56_having_partial (by decide)).trans (by decide)

/-- C56 is violated: of several conditions only the last is applied, whatever the others are. -/
theorem C56_violated (conditions : List (Row → Bool)) (last : Row → Bool) (t : Table) :
    havingRow (conditions ++ [last]) t = t.filter last := by
  simp [havingRow]

/-- `HAVING (?x < 3) (?x > 0)` keeps a row with `?x = 5`. -/
example : havingRow [fun r => r.getD 0 0 < 3, fun r => r.getD 0 0 > 0] [[1], [5], [0]] = [[1], [5]] ∧
    having [fun r => r.getD 0 0 < 3, fun r => r.getD 0 0 > 0] [[1], [5], [0]] = [[1]] := by decide

/-! ### C20 -/

/-- How an optional number is written in the query. -/
def written (n : Option Nat) : List Char := n.elim [] (Nat.toDigits 10)

theorem sizeOr_written {d : Nat} {n : Option Nat} (h : ∀ k ∈ n, k < 2 ^ 63) : sizeOr d (written n) = .ok (n.getD d) := by
  cases n with
  | none => rfl
  | some k => exact sizeOr_toDigits (h k rfl)

/-- C20 for JSON: the exported rows are those that LIMIT and OFFSET select, where the limit is capped by the number of rows that
the client asked for, and is 100000 if there is no LIMIT. -/
theorem C20_json {t : Table} {limit offset : Option Nat} {maxSend : Nat} (hl : ∀ k ∈ limit, k < 2 ^ 63)
    (ho : ∀ k ∈ offset, k < 2 ^ 63) (hm : maxSend < 2 ^ 63) :
    composeJson t (written limit) (written offset) maxSend =
      .ok (slice (some (min (limit.getD 100000) maxSend)) (offset.getD 0) t) := by
  unfold composeJson
  rw [sizeOr_written hl, sizeOr_written ho]
  have h1 : offset.getD 0 < 2 ^ 63 := by
    cases offset with
    | none => simp
    | some k => exact ho k rfl
  simp only [Outcome.bind, writeJsonTable, maxRows, slice]
  generalize offset.getD 0 = f at *
  generalize he : min (limit.getD 100000) maxSend = l
  have h2 : l < 2 ^ 63 := by omega
  rw [writeRows_spec _ _ _ (by omega), Nat.mod_eq_of_lt (by omega)]
  congr 1
  apply List.take_eq_take_iff.mpr
  simp; omega

example : composeJson [[1], [2], [3], [4]] (written (some 2)) (written (some 1)) 100 = .ok [[2], [3]] :=
  (C20_json (by simp) (by simp) (by omega)).trans rfl

/-- The strings of the example are the ones of the query. -/
example : written (some 2) = ['2'] ∧ written (some 105) = ['1', '0', '5'] ∧ written none = [] := by decide

/-- C20 for TSV and CSV: with a LIMIT, or without OFFSET, the exported rows are those that LIMIT and OFFSET select.
Missing: OFFSET without LIMIT, see `C20_violated`. -/
theorem C20_separated_partial {t : Table} {limit offset : Option Nat} (hl : ∀ k ∈ limit, k < 2 ^ 63)
    (ho : ∀ k ∈ offset, k < 2 ^ 63) (ht : t.length < 2 ^ 64) (h : limit.isSome ∨ offset.getD 0 = 0) :
    composeSepValues t (written limit) (written offset) = .ok (slice limit (offset.getD 0) t) := by
  unfold composeSepValues
  rw [sizeOr_written hl, sizeOr_written ho]
  have h1 : offset.getD 0 < 2 ^ 63 := by
    cases offset with
    | none => simp
    | some k => exact ho k rfl
  simp only [Outcome.bind, writeResultToStream, slice]
  generalize offset.getD 0 = f at *
  rw [writeRows_spec _ _ _ (by omega)]
  congr 1
  cases limit with
  | some l =>
    have := hl l rfl
    simp only [Option.getD_some]
    rw [Nat.mod_eq_of_lt (by omega)]
    apply List.take_eq_take_iff.mpr
    simp; omega
  | none =>
    simp only [Option.isSome_none, Bool.false_eq_true, false_or] at h
    subst h
    simp only [Option.getD_none, Nat.zero_add, List.drop_zero]
    rw [Nat.mod_eq_of_lt (by omega)]
    exact List.take_of_length_le (by omega)

example : composeSepValues [[1], [2], [3], [4]] (written (some 9)) (written (some 1)) = .ok [[2], [3], [4]] :=
  (C20_separated_partial (by simp) (by simp) (by simp) (by simp)).trans rfl

theorem sizeOr_nil (d : Nat) : sizeOr d [] = .ok d := rfl

theorem ok_bind {α β : Type} (a : α) (f : α → Outcome β) : (Outcome.ok a).bind f = f a := rfl

theorem wraps {t : Table} {n l : Nat} (h0 : 0 < n) (h : n < 2 ^ 63) (hl : l + 1 = 2 ^ 64) :
    writeResultToStream t l n = .ok [] := by
  unfold writeResultToStream
  have hw : (n + l) % 2 ^ 64 = n - 1 := by omega
  rw [hw, writeRows_spec _ _ _ (by omega)]
  have : min (n - 1) t.length - n = 0 := by omega
  rw [this, List.take_zero]

/-- C20 is violated for TSV and CSV: a query with OFFSET and without LIMIT exports nothing, whatever the result is: the sum of
the offset and of the default limit `2^64 - 1` wraps around. -/
theorem C20_violated {t : Table} {n : Nat} (h0 : 0 < n) (h : n < 2 ^ 63) :
    composeSepValues t [] (Nat.toDigits 10 n) = .ok [] := by
  unfold composeSepValues
  rw [sizeOr_toDigits h, sizeOr_nil, ok_bind, ok_bind]
  exact wraps h0 h (by omega)

/-- For instance, of three rows `OFFSET 1` exports none. -/
example : composeSepValues [[1], [2], [3]] [] (Nat.toDigits 10 1) = .ok [] := C20_violated (by omega) (by omega)

/-- A negative number for `send` is no restriction: the conversion to `size_t` makes it larger than any limit. -/
theorem C20_negative {t : Table} {limit offset : Option Nat} {d k : Nat} (h0 : 0 < k) (hk : k ≤ 2 ^ 63) (hl : ∀ k ∈ limit, k < 2 ^ 63)
    (ho : ∀ k ∈ offset, k < 2 ^ 63) : ∃ maxSend, sizeOr d ('-' :: Nat.toDigits 10 k) = .ok maxSend ∧ maxSend = 2 ^ 64 - k ∧
      composeJson t (written limit) (written offset) maxSend = .ok (slice (some (limit.getD 100000)) (offset.getD 0) t) := by
  have h1 : limit.getD 100000 < 2 ^ 63 := by
    cases limit with
    | none => simp
    | some k => exact hl k rfl
  refine ⟨2 ^ 64 - k, ?_, rfl, ?_⟩
  · have ha : atol ('-' :: Nat.toDigits 10 k) = .ok (-(k : Int)) := by
      have hd : ∀ c ∈ Nat.toDigits 10 k, c.isDigit = true := fun c => Nat.isDigit_of_mem_toDigits (by omega) (by omega)
      have htw : (Nat.toDigits 10 k).takeWhile Char.isDigit = Nat.toDigits 10 k := takeWhile_all hd
      have hv : (Nat.toDigits 10 k).foldl (fun (acc : Nat) c => 10 * acc + (c.toNat - 48)) 0 = k := by
        have := Nat.ofDigitChars_ten_toDigits (n := k)
        rwa [Nat.ofDigitChars_eq_foldl] at this
      have hsplit : splitSign ('-' :: Nat.toDigits 10 k) = (true, Nat.toDigits 10 k) := rfl
      unfold atol
      simp only [hsplit, htw, hv, if_true, if_pos hk]
    unfold sizeOr
    rw [if_pos (by simp), ha]
    simp only [Outcome.map, toSize, Outcome.ok.injEq]
    omega
  · have hj := C20_json (t := t) (maxSend := limit.getD 100000) hl ho h1
    rw [Nat.min_self] at hj
    rw [← hj]
    unfold composeJson
    rw [sizeOr_written hl, sizeOr_written ho]
    simp only [Outcome.bind, maxRows]
    rw [Nat.min_self, Nat.min_eq_left (by omega)]

example : ∃ m, sizeOr 0 ('-' :: Nat.toDigits 10 5) = .ok m ∧ m = 2 ^ 64 - 5 ∧
    composeJson [[1], [2], [3], [4]] (written (some 2)) (written (some 1)) m = .ok [[2], [3]] :=
  C20_negative (limit := some 2) (offset := some 1) (by omega) (by omega) (by simp) (by simp)

end Verif.Modifiers
