import Verif.Lemmas.Join
/-
C12 The merge join returns exactly the join.
C13 The galloping join returns exactly the join.
-/
namespace Verif.Join
open JoinSpec (SortedOn)

/-- What the callers of `Join::join` guarantee: the join columns exist and the tables are sorted on them. -/
structure Ok (a : Table) (jc1 : Nat) (b : Table) (jc2 : Nat) : Prop where
  wa : ∀ r ∈ a, jc1 < r.length
  wb : ∀ r ∈ b, jc2 < r.length
  sa : SortedOn jc1 a
  sb : SortedOn jc2 b

theorem Ok.input {a b : Table} {jc1 jc2 : Nat} (h : Ok a jc1 b jc2) : Input a jc1 b jc2 := ⟨h.wa, h.wb, h.sa, h.sb⟩

theorem rest_eq_spec {a b : Table} {jc1 jc2 : Nat} (h : Ok a jc1 b jc2) :
    rest jc1 jc2 a b = JoinSpec.join jc1 jc2 a b := by
  unfold rest JoinSpec.join
  rw [Merge.left_noPad]
  unfold List.flatMap
  congr 1
  apply List.map_congr_left
  intro x hx
  have hx' := h.wa x hx
  have hf : b.filter (fun y => decide (col jc2 y = col jc1 x)) = b.filter (fun y => decide (x[jc1]? = y[jc2]?)) := by
    apply List.filter_congr
    intro y hy
    have hy' := h.wb y hy
    simp only [List.getElem?_eq_getElem hx', List.getElem?_eq_getElem hy', Option.some.injEq, decide_eq_decide]
    simp only [col, List.getD_eq_getElem?_getD, List.getElem?_eq_getElem hx', List.getElem?_eq_getElem hy',
      Option.getD_some]
    exact eq_comm
  rw [hf]
  apply List.map_congr_left
  intro y _
  simp only [combine, List.eraseIdx_eq_take_drop_succ, List.append_assoc]

/-- **C12**. When the sizes of two sorted tables are comparable (the merge join is chosen) the result is the join, in the
order of the left table; in particular the algorithm terminates and never reads outside the tables. -/
theorem C12_merge_join {a b : Table} {jc1 jc2 fuel : Nat} (h : Ok a jc1 b jc2)
    (h1 : a.length / b.length ≤ 1000) (h2 : b.length / a.length ≤ 1000) (hf : a.length + b.length < fuel) :
    join fuel a jc1 b jc2 = .ok (JoinSpec.join jc1 jc2 a b) := by
  unfold join
  split
  · rename_i he
    congr 1
    rcases he with he | he
    · rw [List.length_eq_zero_iff.mp he]; rfl
    · rw [List.length_eq_zero_iff.mp he]; simp [JoinSpec.join]
  · rw [if_neg (by unfold GALLOP_THRESHOLD; omega), if_neg (by unfold GALLOP_THRESHOLD; omega)]
    rw [zipper_spec h.input hf, rest_eq_spec h]

/-- **C12** for tables of any sizes when the merge join is called directly. -/
theorem C12_zipper {a b : Table} {jc1 jc2 fuel : Nat} (h : Ok a jc1 b jc2) (hf : a.length + b.length < fuel) :
    zipper fuel a jc1 b jc2 = .ok (JoinSpec.join jc1 jc2 a b) := by
  rw [zipper_spec h.input hf, rest_eq_spec h]

/-- **C12** (order). The join of sorted tables is sorted by the join column (which keeps its position). -/
theorem C12_result_sorted {a b : Table} {jc1 jc2 : Nat} (h : Ok a jc1 b jc2) :
    SortedOn jc1 (JoinSpec.join jc1 jc2 a b) := by
  obtain ⟨wa, _, sa, _⟩ := h
  unfold SortedOn JoinSpec.join at *
  induction a with
  | nil => simp
  | cons x a ih =>
    rw [List.flatMap_cons]
    obtain ⟨s1, s2⟩ := List.pairwise_cons.mp sa
    have hval : ∀ {z : Row} {r : Row}, z ∈ x :: a → (z ++ r).getD jc1 0 = z.getD jc1 0 := by
      intro z r hz
      simp only [List.getD_eq_getElem?_getD]
      rw [List.getElem?_append_left (wa z hz)]
    rw [List.pairwise_append]
    refine ⟨?_, ih (fun r hr => wa r (List.mem_cons_of_mem _ hr)) s2, ?_⟩
    · rw [List.pairwise_map]
      apply List.Pairwise.imp_of_mem (R := fun _ _ => True)
      · intro y y' _ _ _
        rw [hval List.mem_cons_self, hval List.mem_cons_self]
      · exact List.pairwise_of_forall (fun _ _ => trivial)
    · intro u hu v hv
      obtain ⟨y, _, rfl⟩ := List.mem_map.mp hu
      obtain ⟨z, hz, hv⟩ := List.mem_flatMap.mp hv
      obtain ⟨y', _, rfl⟩ := List.mem_map.mp hv
      rw [hval List.mem_cons_self, hval (List.mem_cons_of_mem _ hz)]
      exact s1 z hz

/-- **C12** (width). Every row of the join has the width of both tables minus one. -/
theorem C12_width {a b : Table} {jc1 jc2 wa wb : Nat} (ha : a.WF wa) (hb : b.WF wb) (h : jc2 < wb) :
    (JoinSpec.join jc1 jc2 a b).WF (wa + wb - 1) := by
  intro r hr
  obtain ⟨x, hx, hr⟩ := List.mem_flatMap.mp hr
  obtain ⟨y, hy, rfl⟩ := List.mem_map.mp hr
  have hy' := hb y (List.mem_filter.mp hy).1
  rw [List.length_append, ha x hx, List.length_eraseIdx, hy']
  rw [if_pos h]
  omega

/-- **C13**. When the right table is more than 1000 times larger, the galloping join returns exactly the join. -/
theorem C13_right_larger {a b : Table} {jc1 jc2 fuel : Nat} (h : Ok a jc1 b jc2) (hne : a ≠ [])
    (h2 : b.length / a.length > 1000) (hf : a.length + b.length < fuel) :
    join fuel a jc1 b jc2 = .ok (JoinSpec.join jc1 jc2 a b) := by
  have ha : 0 < a.length := List.length_pos_iff.mpr hne
  have hb : b.length ≥ 1001 * a.length := by
    have := (Nat.le_div_iff_mul_le ha).mp (show 1001 ≤ b.length / a.length by omega)
    omega
  have h1 : a.length / b.length = 0 := Nat.div_eq_of_lt (by omega)
  unfold join GALLOP_THRESHOLD
  rw [if_neg (by omega), if_neg (by omega), if_pos (by omega)]
  rw [gallopRight_spec h.input hf, rest_eq_spec h]

/-- **C13** for tables of any sizes when the galloping join is called directly; it agrees with the merge join. -/
theorem C13_gallopRight {a b : Table} {jc1 jc2 fuel : Nat} (h : Ok a jc1 b jc2) (hf : a.length + b.length < fuel) :
    gallopRight fuel a jc1 b jc2 = .ok (JoinSpec.join jc1 jc2 a b) ∧
      gallopRight fuel a jc1 b jc2 = zipper fuel a jc1 b jc2 := by
  rw [zipper_spec h.input hf, gallopRight_spec h.input hf, rest_eq_spec h]
  exact ⟨rfl, rfl⟩

/-- **C13**, partial. When the left table is more than 1000 times larger, the galloping join returns exactly the join *if it
does not call `std::lower_bound` on an invalid range*; see `C13_left_larger_ub` for inputs on which it does. Missing from
the full property: that this never happens, which is false. -/
theorem C13_left_larger_partial {a b : Table} {jc1 jc2 fuel : Nat} (h : Ok a jc1 b jc2) (hne : b ≠ [])
    (h2 : a.length / b.length > 1000) (hf : a.length + b.length < fuel) :
    join fuel a jc1 b jc2 = .ok (JoinSpec.join jc1 jc2 a b) ∨ join fuel a jc1 b jc2 = .ub := by
  have hb : 0 < b.length := List.length_pos_iff.mpr hne
  have ha : a.length ≥ 1001 * b.length := by
    have := (Nat.le_div_iff_mul_le hb).mp (show 1001 ≤ a.length / b.length by omega)
    omega
  unfold join GALLOP_THRESHOLD
  rw [if_neg (by omega), if_pos (by omega), ← rest_eq_spec h]
  exact gallopLeft_or_ub h.input hf

/-- **C13**, partial. The left-larger case is right when the values of the right join column are pairwise different and all
occur in the left table (for instance when the right table lists the subjects of the left one). -/
theorem C13_left_larger_keys_present_partial {a b : Table} {jc1 jc2 fuel : Nat} (h : Ok a jc1 b jc2) (hne : b ≠ [])
    (h2 : a.length / b.length > 1000) (hf : a.length + b.length < fuel)
    (hinc : b.Pairwise fun x y => x.getD jc2 0 < y.getD jc2 0)
    (hpres : ∀ y ∈ b, ∃ x ∈ a, x.getD jc1 0 = y.getD jc2 0) :
    join fuel a jc1 b jc2 = .ok (JoinSpec.join jc1 jc2 a b) := by
  have hb : 0 < b.length := List.length_pos_iff.mpr hne
  have ha : a.length ≥ 1001 * b.length := by
    have := (Nat.le_div_iff_mul_le hb).mp (show 1001 ≤ a.length / b.length by omega)
    omega
  unfold join GALLOP_THRESHOLD
  rw [if_neg (by omega), if_pos (by omega), ← rest_eq_spec h]
  exact gallopLeft_keys_present h.input hf hinc hpres

/-- The left table of the counterexample: the value 10, then any number of times the value 20. -/
def badLeft (n : Nat) : Table := [10] :: List.replicate n [20]
/-- The right table of the counterexample. -/
def badRight : Table := [[1], [10], [11], [20]]

theorem badLeft_zero (n : Nat) : (badLeft n).at 0 0 = .ok 10 := by simp [badLeft, Table.at, Outcome.read]
theorem badLeft_succ (n k : Nat) (h : k < n) : (badLeft n).at (k + 1) 0 = .ok 20 := by
  simp [badLeft, Table.at, Outcome.read, h]

/-- **C13** is false in the left-larger case: sorted tables for which `std::lower_bound` is called with an end before its
beginning (Join.cpp:672 with `last` initialised to a position of the other table in line 650). -/
theorem C13_left_larger_ub (n fuel : Nat) (hn : 5000 ≤ n) (hf : n + 5 < fuel) :
    Ok (badLeft n) 0 badRight 0 ∧ join fuel (badLeft n) 0 badRight 0 = .ub := by
  have hok : Ok (badLeft n) 0 badRight 0 := by
    refine ⟨?_, by decide, ?_, by unfold JoinSpec.SortedOn; decide⟩
    · intro r hr
      rcases List.mem_cons.mp hr with rfl | hr
      · decide
      · rw [(List.mem_replicate.mp hr).2]; decide
    · refine List.pairwise_cons.mpr ⟨?_, List.pairwise_replicate.mpr (.inr (by simp))⟩
      intro r hr
      rw [(List.mem_replicate.mp hr).2]; decide
  refine ⟨hok, ?_⟩
  have hlen : (badLeft n).length = n + 1 := by simp [badLeft]
  have hblen : badRight.length = 4 := rfl
  unfold join
  rw [if_neg (by rw [hlen, hblen]; omega), if_pos (by rw [hlen, hblen, GALLOP_THRESHOLD]; omega)]
  obtain ⟨m, rfl⟩ : ∃ m, fuel = m + 5 := ⟨fuel - 5, by omega⟩
  have h1 : (badLeft n).at 1 0 = .ok 20 := badLeft_succ n 0 (by omega)
  have hr0 : Outcome.read (badLeft n) 0 = .ok [10] := rfl
  have b0 : badRight.at 0 0 = .ok 1 := rfl
  have b1 : badRight.at 1 0 = .ok 10 := rfl
  have b2 : badRight.at 2 0 = .ok 11 := rfl
  have hrb : Outcome.read badRight 1 = .ok [10] := rfl
  have hlb0 : lowerBound (badLeft n) 0 0 0 1 = .ok 0 := by simp [lowerBound]
  have hlb1 : lowerBound (badLeft n) 0 2 1 11 = .ub := by simp [lowerBound]
  have g0 : gallop (m + 5) (badLeft n) 0 1 0 0 = .ok (some (0, 0)) := by
    simp [gallop, loop, badLeft_zero]
  have l0 : locate (m + 5) (badLeft n) 0 1 0 0 = .ok 0 := by
    simp [locate, badLeft_zero, hlb0]
  have s0 : skipB (m + 5) (badLeft n) 0 badRight 0 0 0 = .ok (some 1) := by
    simp [skipB, loop, badLeft_zero, b0, b1, hblen]
  have i0 : inner (m + 5) (badLeft n) 0 badRight 0 0 1 [] = .ok (2, [[10]]) := by
    simp [inner, loop, badLeft_zero, b1, b2, hblen, hr0, combine]
    rfl
  have m0 : matching (m + 5) (badLeft n) 0 badRight 0 0 1 [] = .ok (.more 1 2 [[10]]) := by
    have hend : ¬ (n + 1 ≤ 1) := by omega
    simp [matching, loop, badLeft_zero, b1, b2, hblen, i0, h1, hlen, hend]
  have g1 : gallop (m + 5) (badLeft n) 0 11 1 2 = .ok (some (1, 2)) := by
    simp [gallop, loop, h1]
  have l1 : locate (m + 5) (badLeft n) 0 11 1 2 = .ub := by
    simp [locate, h1, hlb1]
  have hpos : 0 < n := by omega
  unfold gallopLeft
  rw [show m + 5 = (m + 3) + 2 by omega] at *
  simp [loop, b0, b2, g0, l0, s0, m0, g1, l1, hblen, hlen, hpos]

/-- The hypotheses of the theorems can be met (with duplicates on both sides). -/
example : Ok [[1, 5], [2, 6], [2, 7], [4, 8]] 0 [[9, 2], [8, 2], [7, 3]] 1 :=
  ⟨by decide, by decide, by unfold JoinSpec.SortedOn; decide, by unfold JoinSpec.SortedOn; decide⟩

/-- A test, not a proof: the join of these tables. -/
example : join 8 [[1, 5], [2, 6], [2, 7], [4, 8]] 0 [[9, 2], [8, 2], [7, 3]] 1 =
    .ok [[2, 6, 9], [2, 6, 8], [2, 7, 9], [2, 7, 8]] := by decide

/-- The hypotheses of `C13_left_larger_keys_present_partial` can be met. -/
example : (badLeft 5000).length / ([[10], [20]] : Table).length > 1000 ∧
    ∀ y ∈ ([[10], [20]] : Table), ∃ x ∈ badLeft 5000, x.getD 0 0 = y.getD 0 0 := by
  refine ⟨by simp only [badLeft, List.length_cons, List.length_replicate]; decide, ?_⟩
  intro y hy
  simp only [List.mem_cons, List.not_mem_nil, or_false] at hy
  rcases hy with rfl | rfl
  · exact ⟨[10], List.mem_cons_self, rfl⟩
  · exact ⟨[20], List.mem_cons_of_mem _ (List.mem_replicate.mpr ⟨by decide, rfl⟩), rfl⟩

end Verif.Join
