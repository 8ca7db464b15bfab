import Verif.Lemmas.Minus
/-
C16: MINUS removes exactly the rows with a partner.  C50: two-column joins and multiplicities.
-/
namespace Verif.Minus
open MultiJoin JoinSpec

/-- C16: for all tables sorted by the shared columns, `computeMinus` returns exactly the left rows that agree with no right
row, in their order and with their multiplicities; without shared columns nothing is removed. -/
theorem C16_minus {a b : Table} {wa wb : Nat} {jcs : JoinCols} (ha : a.WF wa) (hb : b.WF wb)
    (ca : ∀ jc ∈ jcs, jc.1 < wa) (cb : ∀ jc ∈ jcs, jc.2 < wb)
    (sa : SortedOnCols (jcs.map (·.1)) a) (sb : SortedOnCols (jcs.map (·.2)) b) {fuel : Nat}
    (hf : a.length + b.length < fuel) : computeMinus fuel a b jcs = .ok (minus jcs a b) := by
  unfold computeMinus minus
  by_cases h0 : a.length = 0
  · rw [if_pos h0, List.length_eq_zero_iff.mp h0]
    split <;> rfl
  · rw [if_neg h0]
    by_cases h1 : jcs = []
    · rw [if_pos (.inr h1), if_pos h1]
    · rw [if_neg h1]
      by_cases h2 : b.length = 0
      · rw [if_pos (.inl h2), List.length_eq_zero_iff.mp h2]
        simp
      · rw [if_neg (by simp only [h2, h1, or_self, not_false_eq_true])]
        have hi : Input a b jcs :=
          ⟨h1, fun r hr jc hjc => by rw [ha r hr]; exact ca jc hjc, fun r hr jc hjc => by rw [hb r hr]; exact cb jc hjc,
            sorted_ka sa, sorted_kb sb⟩
        obtain ⟨r, hr, he⟩ := main_spec (fuel := fuel) hi hf
        simp only [hr, Outcome.bind, he]
        congr 1
        unfold sel
        apply List.filter_congr
        intro x _
        cases b.any (agree jcs x) <;> rfl

example : computeMinus 100 [[1, 1], [1, 2], [1, 2], [2, 1], [3, 0]] [[5, 1, 2], [5, 1, 2], [4, 2, 2]] [(0, 1), (1, 2)]
    = .ok [[1, 1], [2, 1], [3, 0]] := by
  refine (C16_minus (wa := 2) (wb := 3) ?_ ?_ (by decide) (by decide) ?_ ?_ (by decide)).trans (by decide)
  · unfold Table.WF; decide
  · unfold Table.WF; decide
  · unfold SortedOnCols; decide
  · unfold SortedOnCols; decide

namespace Filter

/-- C50: the two-column filter keeps exactly the rows with a partner, with the multiplicities of the filtered table. -/
theorem C50_filter {v f : Table} {wv wf fc1 fc2 : Nat} (hv : v.WF wv) (hff : f.WF wf) (h1 : fc1 < wv) (h2 : fc2 < wv)
    (hw : 2 ≤ wf) (sv : SortedOnCols [fc1, fc2] v) (sf : SortedOnCols [0, 1] f) {fuel : Nat}
    (hf : v.length + f.length < fuel) :
    filter fuel v fc1 fc2 f = .ok (v.filter fun x => f.any (agree [(fc1, 0), (fc2, 1)] x)) := by
  have hi : Input v f (jc2 fc1 fc2) := by
    refine ⟨by simp, ?_, ?_, sorted_ka (jcs := jc2 fc1 fc2) sv, sorted_kb (jcs := jc2 fc1 fc2) sf⟩
    · intro r hr jc hjc
      rw [hv r hr]
      simp only [List.mem_cons, List.not_mem_nil, or_false] at hjc
      rcases hjc with rfl | rfl <;> assumption
    · intro r hr jc hjc
      rw [hff r hr]
      simp only [List.mem_cons, List.not_mem_nil, or_false] at hjc
      rcases hjc with rfl | rfl <;> simp only <;> omega
  rw [filter_spec hi hf]
  congr 1
  unfold sel
  apply List.filter_congr
  intro x _
  cases f.any (agree (jc2 fc1 fc2) x) <;> rfl

example : filter 100 [[1, 7, 1], [1, 8, 2], [1, 9, 2], [2, 3, 1]] 0 2 [[1, 2], [2, 0]] = .ok [[1, 8, 2], [1, 9, 2]] := by
  refine (C50_filter (wv := 3) (wf := 2) ?_ ?_ (by decide) (by decide) (by decide) ?_ ?_ (by decide)).trans (by decide)
  · unfold Table.WF; decide
  · unfold Table.WF; decide
  · unfold SortedOnCols; decide
  · unfold SortedOnCols; decide

theorem filter_agree_eq {x : Row} {fc1 fc2 : Nat} : ∀ {f : Table}, f.WF 2 → f.Nodup →
    (f.filter (agree [(fc1, 0), (fc2, 1)] x)).map (fun y => x ++ without [0, 1] y) =
      if f.any (agree [(fc1, 0), (fc2, 1)] x) then [x] else [] := by
  intro f
  induction f with
  | nil => intro _ _; rfl
  | cons y f ih =>
    intro hw hn
    have hy : y.length = 2 := hw y List.mem_cons_self
    have ih' := ih (fun r hr => hw r (List.mem_cons_of_mem _ hr)) (List.nodup_cons.mp hn).2
    by_cases ha : agree [(fc1, 0), (fc2, 1)] x y = true
    · rw [List.filter_cons_of_pos ha, List.any_cons, ha, Bool.true_or, if_pos rfl, List.map_cons]
      have hnone : f.filter (agree [(fc1, 0), (fc2, 1)] x) = [] := by
        rw [List.filter_eq_nil_iff]
        intro z hz hza
        have hz2 : z.length = 2 := hw z (List.mem_cons_of_mem _ hz)
        have e : z = y := by
          obtain ⟨y0, y1, rfl⟩ : ∃ y0 y1, y = [y0, y1] := by
            match y, hy with
            | [y0, y1], _ => exact ⟨y0, y1, rfl⟩
          obtain ⟨z0, z1, rfl⟩ : ∃ z0 z1, z = [z0, z1] := by
            match z, hz2 with
            | [z0, z1], _ => exact ⟨z0, z1, rfl⟩
          simp only [agree, List.all_cons, List.all_nil, Bool.and_true, Bool.and_eq_true, decide_eq_true_eq,
            List.getD_cons_zero, List.getD_cons_succ] at ha hza
          rw [← ha.1, ← ha.2, ← hza.1, ← hza.2]
        subst e
        exact (List.nodup_cons.mp hn).1 hz
      rw [hnone]
      match y, hy with
      | [y0, y1], _ => simp [without, List.zipIdx_cons]
    · rw [List.filter_cons_of_neg ha, ih', List.any_cons]
      simp only [Bool.not_eq_true] at ha
      rw [ha, Bool.false_or]

theorem filter_eq_join {l r : Table} {wl jc1 jc2 : Nat} (hl : l.WF wl) (hr : r.WF 2) (h1 : jc1 < wl)
    (h2 : jc2 < wl) (sl : SortedOnCols [jc1, jc2] l) (sr : SortedOnCols [0, 1] r) (hn : r.Nodup) {fuel : Nat}
    (hf : l.length + r.length < fuel) :
    filter fuel l jc1 jc2 r = .ok (multiJoin [(jc1, 0), (jc2, 1)] l r) := by
  rw [C50_filter hl hr h1 h2 (Nat.le_refl 2) sl sr hf]
  congr 1
  unfold multiJoin
  simp only [List.map_cons, List.map_nil]
  induction l with
  | nil => rfl
  | cons x l ih =>
    have ih' := ih (fun r hr => hl r (List.mem_cons_of_mem _ hr)) (List.pairwise_cons.mp sl).2
      (by simp only [List.length_cons] at hf; omega)
    rw [List.flatMap_cons, ← ih', filter_agree_eq hr hn]
    by_cases ha : r.any (agree [(jc1, 0), (jc2, 1)] x) = true
    · rw [if_pos ha, List.filter_cons, if_pos ha]; rfl
    · rw [if_neg ha, List.filter_cons, if_neg ha]; rfl

/-- C50: if the two-column relation (here the right side) has no duplicate rows, the two-column join returns exactly the rows of
the join. (Missing: relations with duplicates, where the claim is false, see `C50_violated`.) -/
theorem C50_two_column_join_partial {l r : Table} {wl jc1 jc2 : Nat} (hl : l.WF wl) (hr : r.WF 2) (h1 : jc1 < wl)
    (h2 : jc2 < wl) (sl : SortedOnCols [jc1, jc2] l) (sr : SortedOnCols [0, 1] r) (hn : r.Nodup) {fuel : Nat}
    (hf : l.length + r.length < fuel) :
    twoColumnJoin fuel l wl jc1 jc2 r 2 0 1 = .ok (multiJoin [(jc1, 0), (jc2, 1)] l r) := by
  unfold twoColumnJoin
  rw [if_pos ⟨rfl, rfl, rfl⟩, filter_eq_join hl hr h1 h2 sl sr hn hf]

/-- C50, the two-column relation is the left side: the rows of the right side that have a partner, i.e. the join with the columns
of the right side. (Missing: as above.) -/
theorem C50_two_column_join_left_partial {l r : Table} {wr jc1 jc2 : Nat} (hl : l.WF 2) (hr : r.WF wr) (h1 : jc1 < wr)
    (h2 : jc2 < wr) (sl : SortedOnCols [0, 1] l) (sr : SortedOnCols [jc1, jc2] r) (hn : l.Nodup)
    (hne : ¬ (wr = 2 ∧ jc1 = 0 ∧ jc2 = 1)) {fuel : Nat} (hf : l.length + r.length < fuel) :
    twoColumnJoin fuel l 2 0 1 r wr jc1 jc2 = .ok (multiJoin [(jc1, 0), (jc2, 1)] r l) := by
  unfold twoColumnJoin
  rw [if_neg hne, if_pos ⟨rfl, rfl, rfl⟩, filter_eq_join hr hl h1 h2 sr sl hn (by omega)]

example : twoColumnJoin 100 [[1, 2], [2, 0]] 2 0 1 [[1, 7, 1], [1, 8, 2], [1, 8, 2]] 3 0 2
    = .ok [[1, 8, 2], [1, 8, 2]] := by
  refine (C50_two_column_join_left_partial ?_ ?_ (by decide) (by decide) ?_ ?_ (by decide) (by decide) (by decide)).trans
    (by decide)
  · unfold Table.WF; decide
  · unfold Table.WF; decide
  · unfold SortedOnCols; decide
  · unfold SortedOnCols; decide

example : twoColumnJoin 100 [[1, 7, 1], [1, 8, 2], [1, 8, 2]] 3 0 2 [[1, 2], [2, 0]] 2 0 1
    = .ok [[1, 8, 2], [1, 8, 2]] := by
  refine (C50_two_column_join_partial ?_ ?_ (by decide) (by decide) ?_ ?_ (by decide) (by decide)).trans (by decide)
  · unfold Table.WF; decide
  · unfold Table.WF; decide
  · unfold SortedOnCols; decide
  · unfold SortedOnCols; decide

/-- C50 is violated: the filter loses multiplicities. With the row `[1, 2]` twice in the two-column relation, the join has two
rows but the result has one. -/
theorem C50_violated :
    ∃ l r, l.WF 2 ∧ r.WF 2 ∧ SortedOnCols [0, 1] l ∧ SortedOnCols [0, 1] r ∧
      twoColumnJoin 10 l 2 0 1 r 2 0 1 = .ok [[1, 2]] ∧ multiJoin [(0, 0), (1, 1)] l r = [[1, 2], [1, 2]] := by
  refine ⟨[[1, 2]], [[1, 2], [1, 2]], ?_, ?_, ?_, ?_, by decide, by decide⟩
  · unfold Table.WF; decide
  · unfold Table.WF; decide
  · unfold SortedOnCols; decide
  · unfold SortedOnCols; decide

/-- C50: joins that are not covered by the filter case are refused. -/
theorem C50_other_cases_refused {fuel : Nat} {l r : Table} {wl a1 a2 wr b1 b2 : Nat} :
    twoColumnJoin fuel l wl a1 a2 r wr b1 b2 = .throw ∨ (wl = 2 ∧ a1 = 0 ∧ a2 = 1) ∨ (wr = 2 ∧ b1 = 0 ∧ b2 = 1) := by
  unfold twoColumnJoin
  by_cases h1 : wr = 2 ∧ b1 = 0 ∧ b2 = 1
  · exact .inr (.inr h1)
  · by_cases h2 : wl = 2 ∧ a1 = 0 ∧ a2 = 1
    · exact .inr (.inl h2)
    · rw [if_neg h1, if_neg h2]; exact .inl rfl

end Filter
end Verif.Minus
