import Verif.Lemmas.Modifiers
import Verif.Props.C12_C13_Join
import Verif.Props.C14_C15_MultiJoin
import Verif.Props.C16_C50_Minus
/-
C54: the sort order that an operation declares (`resultSortedOn`) is the order of its result.  The planner leaves out sorting
when the declared order suffices, so a wrong declaration makes joins lose rows.
-/
namespace Verif.SortedOn
open JoinSpec Modifiers

/-- C54 for `Sort`. -/
theorem C54_sort {w c : Nat} {t : Table} (hw : t.WF w) (hc : c < w) {t' : Table} (ho : SortOp c t (.ok t')) :
    SortedOnCols (sortSortedOn c) t' := by
  obtain ⟨t'', h1, _, h3⟩ := sorts_spec (fun r : Row => r.getD c 0) (lessColumn_eq hw hc) ho
  cases h1
  refine h3.imp fun {x y} h h' => ?_
  simp only [sortSortedOn, key, List.map_cons, List.map_nil, List.cons_lt_cons_iff] at h'
  rcases h' with h' | ⟨_, h'⟩
  · omega
  · exact absurd h' (lt_irrefl _)

/-- C54 for `OrderBy` when no descending key comes before an ascending one.
Missing: other keys, see `C54_orderBy_violated`. -/
theorem C54_orderBy_partial {w : Nat} {asc desc : List (Nat × Bool)} {t : Table} (hw : t.WF w) (hne : asc ++ desc ≠ [])
    (hk : ∀ k ∈ asc ++ desc, k.1 < w) (ha : ∀ k ∈ asc, k.2 = false) (hd : ∀ k ∈ desc, k.2 = true) {t' : Table}
    (ho : OrderByOp (asc ++ desc) t (.ok t')) : SortedOnCols (orderBySortedOn (asc ++ desc)) t' := by
  unfold OrderByOp at ho
  rw [if_neg hne] at ho
  obtain ⟨k, hkm⟩ := List.exists_mem_of_ne_nil _ hne
  have hk0 := hk k hkm
  obtain ⟨t'', h1, _, h3⟩ := sorts_spec (image (asc ++ desc)) (lessKeys_eq hw (by omega) hk) ho
  cases h1
  have he : orderBySortedOn (asc ++ desc) = asc.map (·.1) := by
    unfold orderBySortedOn
    rw [List.filter_append, List.filter_eq_self.mpr (by intro k hk; simp [ha k hk]),
      List.filter_eq_nil_iff.mpr (by intro k hk; simp [hd k hk]), List.append_nil]
  rw [he]
  refine h3.imp fun {x y} h h' => absurd ?_ (not_lt.mpr h)
  clear h h3 ho hk hkm hne he
  induction asc with
  | nil => exact absurd h' (lt_irrefl _)
  | cons k ks ih =>
    have hk := ha k List.mem_cons_self
    unfold key at h'
    rw [List.map_cons, List.map_cons, List.map_cons, List.cons_lt_cons_iff] at h'
    unfold image
    rw [List.cons_append, List.map_cons, List.map_cons, List.cons_append, List.cons_append, List.cons_lt_cons_iff, hk]
    rcases h' with h' | ⟨h1, h2⟩
    · left; simp only [Bool.false_eq_true, if_false]; omega
    · right
      exact ⟨by rw [h1], ih (fun c hc => ha c (List.mem_cons_of_mem _ hc)) h2⟩

example (t' : Table) (h : OrderByOp ([(1, false)] ++ [(0, true)]) [[2, 1], [1, 1], [3, 0]] (.ok t')) : SortedOnCols [1] t' :=
  C54_orderBy_partial (w := 2) (by unfold Table.WF; decide) (by decide) (by decide) (by decide) (by decide) h

/-- C54 is violated by `OrderBy`: `ORDER BY DESC(?a) ?b` declares that the result is sorted by `?b`, and it is not; a merge join of
the result with another table on `?b`, which the planner builds without sorting again, loses rows. -/
theorem C54_orderBy_violated :
    OrderByOp [(0, true), (1, false)] [[1, 5], [2, 7]] (.ok [[2, 7], [1, 5]]) ∧
    orderBySortedOn [(0, true), (1, false)] = [1] ∧
    ¬ SortedOnCols [1] [[2, 7], [1, 5]] ∧
    Join.join 10 [[2, 7], [1, 5]] 1 [[5], [7]] 0 = .ok [[2, 7]] ∧
    JoinSpec.join 1 0 [[2, 7], [1, 5]] [[5], [7]] = [[2, 7], [1, 5]] := by
  refine ⟨?_, by decide, by unfold SortedOnCols; decide, by decide, by decide⟩
  unfold OrderByOp
  rw [if_neg (by decide)]
  have hw : Table.WF [[1, 5], [2, 7]] 2 := by unfold Table.WF; decide
  exact .sorted _ (comparable_of_image _ (lessKeys_eq hw (by decide) (by decide))) (by decide) (by decide)

/-- C54 for operations that return some of the rows of their input in order (`Distinct`, `Filter`, `Minus`); they declare the
order of their input. -/
theorem C54_sublist {cols : List Nat} {t t' : Table} (h : SortedOnCols cols t) (hs : t'.Sublist t) : SortedOnCols cols t' :=
  h.sublist hs

/-- C54 for `Minus` (/repo/src/engine/Minus.cpp:86). -/
theorem C54_minus {a b : Table} {wa wb : Nat} {jcs : MultiJoin.JoinCols} (ha : a.WF wa) (hb : b.WF wb)
    (ca : ∀ jc ∈ jcs, jc.1 < wa) (cb : ∀ jc ∈ jcs, jc.2 < wb)
    (sa : SortedOnCols (jcs.map (·.1)) a) (sb : SortedOnCols (jcs.map (·.2)) b) {fuel : Nat}
    (hf : a.length + b.length < fuel) {declared : List Nat} (hd : SortedOnCols declared a) {r : Table}
    (hr : Minus.computeMinus fuel a b jcs = .ok r) : SortedOnCols declared r := by
  rw [Minus.C16_minus ha hb ca cb sa sb hf] at hr
  cases hr
  unfold minus
  split
  · exact hd
  · exact C54_sublist hd List.filter_sublist

example : SortedOnCols [0] [[1, 3], [2, 4]] :=
  C54_minus (a := [[1, 3], [1, 5], [2, 4]]) (b := [[1, 5]]) (wa := 2) (wb := 2) (jcs := [(0, 0), (1, 1)]) (fuel := 10)
    (by unfold Table.WF; decide) (by unfold Table.WF; decide) (by decide) (by decide) (by unfold SortedOnCols; decide)
    (by unfold SortedOnCols; decide) (by decide) (by unfold SortedOnCols; decide) (by decide)

/-- `Join::resultSortedOn` without full scan dummy (/repo/src/engine/Join.cpp:188-191). -/
def joinSortedOn (leftJoinCol : Nat) : List Nat := [leftJoinCol]

/-- C54 for `Join` without full scan, whatever algorithm is chosen. -/
theorem C54_join {a b : Table} {jc1 jc2 fuel : Nat} (h : Join.Ok a jc1 b jc2) (hf : a.length + b.length < fuel) {r : Table}
    (hr : Join.join fuel a jc1 b jc2 = .ok r) : SortedOnCols (joinSortedOn jc1) r := by
  have he : r = JoinSpec.join jc1 jc2 a b := by
    by_cases hea : a = []
    · subst hea; simp [Join.join] at hr; subst hr; simp [JoinSpec.join]
    by_cases heb : b = []
    · subst heb; simp [Join.join] at hr; subst hr; simp [JoinSpec.join]
    by_cases h1 : a.length / b.length > 1000
    · rcases Join.C13_left_larger_partial h heb h1 hf with h' | h'
      · rw [h'] at hr; cases hr; rfl
      · rw [h'] at hr; cases hr
    · by_cases h2 : b.length / a.length > 1000
      · rw [Join.C13_right_larger h hea h2 hf] at hr; cases hr; rfl
      · rw [Join.C12_merge_join h (by omega) (by omega) hf] at hr; cases hr; rfl
  subst he
  refine (Join.C12_result_sorted h).imp fun {x y} h h' => ?_
  simp only [joinSortedOn, key, List.map_cons, List.map_nil, List.cons_lt_cons_iff] at h'
  rcases h' with h' | ⟨_, h'⟩
  · omega
  · exact absurd h' (lt_irrefl _)

example : SortedOnCols [0] [[1, 8], [1, 9], [2, 7]] :=
  C54_join (a := [[1], [2], [3]]) (b := [[1, 8], [1, 9], [2, 7]]) (jc1 := 0) (jc2 := 0) (fuel := 10)
    ⟨by decide, by decide, by unfold JoinSpec.SortedOn; decide, by unfold JoinSpec.SortedOn; decide⟩ (by decide) (by decide)

/-- C54 for `MultiColumnJoin` (/repo/src/engine/MultiColumnJoin.cpp:151-158). -/
theorem C54_multiColumnJoin {a b : Table} {wa wb : Nat} {jcs : MultiJoin.JoinCols} (h : MultiJoin.Valid a b wa wb jcs)
    {fuel : Nat} (hf : a.length + b.length < fuel) {r : Table}
    (hr : MultiJoin.multiColumnJoin fuel a b jcs (wa + wb - jcs.length) = .ok r) : SortedOnCols (jcs.map (·.1)) r := by
  rw [MultiJoin.C14_multi_column_join h hf] at hr
  cases hr
  exact MultiJoin.C14_result_sorted h

/-- C54 for `OptionalJoin` (/repo/src/engine/OptionalJoin.cpp:160-167). -/
theorem C54_optionalJoin {a b : Table} {wa wb : Nat} {jcs : MultiJoin.JoinCols} (h : MultiJoin.Valid a b wa wb jcs)
    (aOpt bOpt : Bool) {fuel : Nat} (hf : a.length + b.length < fuel) {r : Table}
    (hr : MultiJoin.optionalJoin fuel a b wa aOpt bOpt jcs (wa + wb - jcs.length) = .ok r) :
    SortedOnCols (jcs.map (·.1)) r := by
  obtain ⟨r', h1, _, h3⟩ := MultiJoin.C15_optional_join h aOpt bOpt hf
  rw [h1] at hr
  cases hr
  exact h3

end Verif.SortedOn
