import Verif.Model.Join
import Verif.Lemmas.Merge
import Mathlib.Order.Basic
import Mathlib.Order.Nat
/-
Correctness of the loops of `Join::join`.
-/
namespace Verif.Join
open Merge

/-- The value of a row in a column (used only where the column exists). -/
abbrev col (c : Nat) (r : Row) : Nat := r.getD c 0

theorem at_ok {t : Table} {c i : Nat} (hw : ∀ r ∈ t, c < r.length) (hi : i < t.length) :
    t.at i c = .ok (col c t[i]) := by
  have h := hw t[i] (List.getElem_mem hi)
  simp [Table.at, hi, h]

/-- The result that is still to come. -/
abbrev rest (jc1 jc2 : Nat) (as bs : Table) : Table :=
  left (col jc1) (col jc2) (combine jc2) (fun _ => []) as bs

variable {fuel : Nat} {a : Table} {jc1 : Nat} {b : Table} {jc2 : Nat}

/-- Assumptions on the input. -/
structure Input (a : Table) (jc1 : Nat) (b : Table) (jc2 : Nat) : Prop where
  wa : ∀ r ∈ a, jc1 < r.length
  wb : ∀ r ∈ b, jc2 < r.length
  sa : a.Pairwise fun x y => col jc1 x ≤ col jc1 y
  sb : b.Pairwise fun x y => col jc2 x ≤ col jc2 y

theorem rest_skipA (h : Input a jc1 b jc2) {i j : Nat} (hi : i < a.length) (hj : j < b.length)
    (hlt : col jc1 a[i] < col jc2 b[j]) :
    rest jc1 jc2 (a.drop i) (b.drop j) = rest jc1 jc2 (a.drop (i + 1)) (b.drop j) := by
  rw [drop_eq hi]
  simp only [rest]
  rw [left_cons, row_none]
  · rfl
  · intro y hy
    have := sorted_le h.sb hj hy
    omega

theorem rest_skipB (h : Input a jc1 b jc2) {i j : Nat} (hi : i < a.length) (hj : j < b.length)
    (hlt : col jc2 b[j] < col jc1 a[i]) :
    rest jc1 jc2 (a.drop i) (b.drop j) = rest jc1 jc2 (a.drop i) (b.drop (j + 1)) := by
  rw [drop_eq hj]
  have := left_skip_right (ka := col jc1) (kb := col jc2) (pair := combine jc2) (padA := fun _ => [])
    (as := a.drop i) (ys := [b[j]]) (bs := b.drop (j + 1)) (by
      intro x hx y hy
      rw [List.mem_singleton.mp hy]
      have := sorted_le h.sa hi hx
      omega)
  simpa using this

/-- Skipping several rows of `b` at once. -/
theorem rest_skipB' (h : Input a jc1 b jc2) {i j j' : Nat} (hi : i < a.length) (hj : j ≤ j')
    (hlt : ∀ t, (ht : t < b.length) → j ≤ t → t < j' → col jc2 b[t] < col jc1 a[i]) :
    rest jc1 jc2 (a.drop i) (b.drop j) = rest jc1 jc2 (a.drop i) (b.drop j') := by
  rw [drop_split (l := b) hj]
  apply left_skip_right
  intro x hx y hy
  obtain ⟨t, ht, h1, h2, rfl⟩ := mem_slice hy
  have := sorted_le h.sa hi hx
  have := hlt t ht h1 h2
  omega

theorem rest_skipA' (h : Input a jc1 b jc2) {i i' j : Nat} (hj : j < b.length) (hi : i ≤ i')
    (hlt : ∀ t, (ht : t < a.length) → i ≤ t → t < i' → col jc1 a[t] < col jc2 b[j]) :
    rest jc1 jc2 (a.drop i) (b.drop j) = rest jc1 jc2 (a.drop i') (b.drop j) := by
  rw [drop_split (l := a) hi]
  simp only [rest]
  rw [left_append]
  have : left (col jc1) (col jc2) (combine jc2) (fun _ => []) ((a.drop i).take (i' - i)) (b.drop j) = [] := by
    unfold left
    rw [List.flatMap_eq_nil_iff]
    intro x hx
    obtain ⟨t, ht, h1, h2, rfl⟩ := mem_slice hx
    apply row_none
    intro y hy
    have := sorted_le h.sb hj hy
    have := hlt t ht h1 h2
    omega
  rw [this, List.nil_append]

theorem skipA_spec (h : Input a jc1 b jc2) {i j : Nat} (hi : i < a.length) (hj : j < b.length) (hf : a.length < fuel) :
    ∃ o, skipA fuel a jc1 b jc2 i j = .ok o ∧
      (o = none → rest jc1 jc2 (a.drop i) (b.drop j) = []) ∧
      (∀ i', o = some i' → i ≤ i' ∧ ∃ hi' : i' < a.length, col jc2 b[j] ≤ col jc1 a[i'] ∧
        (∀ t, (ht : t < a.length) → i ≤ t → t < i' → col jc1 a[t] < col jc2 b[j]) ∧
        rest jc1 jc2 (a.drop i) (b.drop j) = rest jc1 jc2 (a.drop i') (b.drop j)) := by
  unfold skipA
  refine loop_spec
    (fun i' => i ≤ i' ∧ i' < a.length ∧ (∀ t, (ht : t < a.length) → i ≤ t → t < i' → col jc1 a[t] < col jc2 b[j]) ∧
      rest jc1 jc2 (a.drop i) (b.drop j) = rest jc1 jc2 (a.drop i') (b.drop j))
    _ (fun i' => a.length - i') ?_ fuel i ⟨by omega, hi, by intro t _ _ _; omega, rfl⟩ (by omega)
  rintro i' ⟨h1, h2, h3, h4⟩
  simp only [at_ok h.wa h2, at_ok h.wb hj, Outcome.bind]
  by_cases hlt : col jc1 a[i'] < col jc2 b[j]
  · rw [if_pos hlt]
    by_cases hend : i' + 1 ≥ a.length
    · rw [if_pos hend]
      right
      refine ⟨none, rfl, ?_, by simp⟩
      intro _
      rw [h4, rest_skipA h h2 hj hlt, List.drop_eq_nil_of_le hend]
      rfl
    · rw [if_neg hend]
      left
      refine ⟨i' + 1, rfl, ⟨by omega, by omega, ?_, ?_⟩, by omega⟩
      · intro t ht g1 g2
        by_cases hii : t < i'
        · exact h3 t ht g1 hii
        · have : t = i' := by omega
          subst this; exact hlt
      · rw [h4, rest_skipA h h2 hj hlt]
  · rw [if_neg hlt]
    right
    refine ⟨some i', rfl, by simp, ?_⟩
    intro i'' hi''
    cases hi''
    exact ⟨h1, h2, by omega, h3, h4⟩

theorem skipB_spec (h : Input a jc1 b jc2) {i j : Nat} (hi : i < a.length) (hj : j < b.length) (hf : b.length < fuel) :
    ∃ o, skipB fuel a jc1 b jc2 i j = .ok o ∧
      (o = none → rest jc1 jc2 (a.drop i) (b.drop j) = []) ∧
      (∀ j', o = some j' → j ≤ j' ∧ ∃ hj' : j' < b.length, col jc1 a[i] ≤ col jc2 b[j'] ∧
        (∀ t, (ht : t < b.length) → j ≤ t → t < j' → col jc2 b[t] < col jc1 a[i]) ∧
        rest jc1 jc2 (a.drop i) (b.drop j) = rest jc1 jc2 (a.drop i) (b.drop j')) := by
  unfold skipB
  refine loop_spec
    (fun j' => j ≤ j' ∧ j' < b.length ∧ (∀ t, (ht : t < b.length) → j ≤ t → t < j' → col jc2 b[t] < col jc1 a[i]) ∧
      rest jc1 jc2 (a.drop i) (b.drop j) = rest jc1 jc2 (a.drop i) (b.drop j'))
    _ (fun j' => b.length - j') ?_ fuel j ⟨by omega, hj, by intro t _ _ _; omega, rfl⟩ (by omega)
  rintro j' ⟨h1, h2, h3, h4⟩
  simp only [at_ok h.wa hi, at_ok h.wb h2, Outcome.bind]
  by_cases hlt : col jc2 b[j'] < col jc1 a[i]
  · rw [if_pos hlt]
    by_cases hend : j' + 1 ≥ b.length
    · rw [if_pos hend]
      right
      refine ⟨none, rfl, ?_, by simp⟩
      intro _
      rw [h4, rest_skipB h hi h2 hlt, List.drop_eq_nil_of_le hend]
      simp [rest, left_nil_right]
    · rw [if_neg hend]
      left
      refine ⟨j' + 1, rfl, ⟨by omega, by omega, ?_, ?_⟩, by omega⟩
      · intro t ht g1 g2
        by_cases hjj : t < j'
        · exact h3 t ht g1 hjj
        · have : t = j' := by omega
          subst this; exact hlt
      · rw [h4, rest_skipB h hi h2 hlt]
  · rw [if_neg hlt]
    right
    refine ⟨some j', rfl, by simp, ?_⟩
    intro j'' hj''
    cases hj''
    exact ⟨h1, h2, by omega, h3, h4⟩

theorem inner_spec (h : Input a jc1 b jc2) {i j : Nat} {res : Table} (hi : i < a.length) (hj : j < b.length)
    (heq : col jc1 a[i] = col jc2 b[j]) (hf : b.length < fuel) :
    ∃ r, inner fuel a jc1 b jc2 i j res = .ok r ∧ j < r.1 ∧ r.1 ≤ b.length ∧
      (∀ t, (ht : t < b.length) → j ≤ t → t < r.1 → col jc2 b[t] = col jc1 a[i]) ∧
      (∀ hr : r.1 < b.length, col jc1 a[i] < col jc2 b[r.1]) ∧
      r.2 = res ++ row (col jc1) (col jc2) (combine jc2) (fun _ => []) (b.drop j) a[i] := by
  unfold inner
  have hcore : ∀ j', j < j' → j' ≤ b.length →
      (∀ t, (ht : t < b.length) → j ≤ t → t < j' → col jc2 b[t] = col jc1 a[i]) →
      (∀ hr : j' < b.length, col jc1 a[i] < col jc2 b[j']) →
      ((b.drop j).take (j' - j)).map (combine jc2 a[i]) =
        row (col jc1) (col jc2) (combine jc2) (fun _ => []) (b.drop j) a[i] := by
    intro j' h1 h2 h3 h4
    symm
    apply row_eq
    · conv_lhs => rw [drop_split (l := b) (show j ≤ j' by omega), List.filter_append]
      have e1 : ((b.drop j).take (j' - j)).filter (fun y => col jc2 y = col jc1 a[i]) = (b.drop j).take (j' - j) := by
        rw [List.filter_eq_self]
        intro y hy
        obtain ⟨t, ht, g1, g2, rfl⟩ := mem_slice hy
        simpa using h3 t ht g1 g2
      have e2 : (b.drop j').filter (fun y => col jc2 y = col jc1 a[i]) = [] := by
        rw [List.filter_eq_nil_iff]
        intro y hy
        have hlt : j' < b.length := by
          by_contra hge
          rw [List.drop_eq_nil_of_le (by omega)] at hy
          simp at hy
        have g1 := h4 hlt
        have g2 := sorted_le h.sb hlt hy
        simp only [decide_eq_true_eq]
        omega
      rw [e1, e2, List.append_nil]
    · intro hn
      have := congrArg List.length hn
      simp at this
      omega
  refine loop_spec
    (fun s => j ≤ s.1 ∧ s.1 < b.length ∧
      (∀ t, (ht : t < b.length) → j ≤ t → t < s.1 → col jc2 b[t] = col jc1 a[i]) ∧
      s.2 = res ++ ((b.drop j).take (s.1 - j)).map (combine jc2 a[i]))
    _ (fun s => b.length - s.1) ?_ fuel (j, res) ⟨by omega, hj, by intro t _ h1 h2; simp only at h2; omega, by simp⟩
    (by simp only; omega)
  rintro ⟨j', res'⟩ ⟨h1, h2, h3, h4⟩
  simp only at h1 h2 h3 h4
  simp only [at_ok h.wa hi, at_ok h.wb h2, Outcome.bind, Outcome.read_lt _ _ hi, Outcome.read_lt _ _ h2]
  by_cases he : col jc1 a[i] = col jc2 b[j']
  · rw [if_pos he]
    have hall : ∀ t, (ht : t < b.length) → j ≤ t → t < j' + 1 → col jc2 b[t] = col jc1 a[i] := by
      intro t ht g1 g2
      by_cases htj : t < j'
      · exact h3 t ht g1 htj
      · have : t = j' := by omega
        subst this; exact he.symm
    have hres : res' ++ [combine jc2 a[i] b[j']] =
        res ++ ((b.drop j).take (j' + 1 - j)).map (combine jc2 a[i]) := by
      rw [h4, slice_succ h1 h2, List.map_append]
      simp
    by_cases hend : j' + 1 ≥ b.length
    · rw [if_pos hend]
      right
      refine ⟨_, rfl, by simp only; omega, by simp only; omega, hall, by simp only; omega, ?_⟩
      simp only
      rw [hres, hcore (j' + 1) (by omega) (by omega) hall (by omega)]
    · rw [if_neg hend]
      left
      exact ⟨_, rfl, ⟨by simp only; omega, by simp only; omega, hall, hres⟩, by simp only; omega⟩
  · rw [if_neg he]
    right
    have hjj : j < j' := by
      by_contra hge
      have : j' = j := by omega
      subst this
      exact he heq
    have hgt : ∀ hr : j' < b.length, col jc1 a[i] < col jc2 b[j'] := by
      intro hr
      have := sorted_getElem_le h.sb h1 h2
      omega
    refine ⟨_, rfl, hjj, by simp only; omega, h3, hgt, ?_⟩
    simp only
    rw [h4, hcore j' hjj (by omega) h3 hgt]

theorem matching_spec (h : Input a jc1 b jc2) {i j : Nat} {res : Table} (hi : i < a.length) (hj : j < b.length)
    (hf : a.length < fuel) (hf' : b.length < fuel) :
    ∃ e, matching fuel a jc1 b jc2 i j res = .ok e ∧
      (∀ res', e = .finish res' → res' = res ++ rest jc1 jc2 (a.drop i) (b.drop j)) ∧
      (∀ i' j' res', e = .more i' j' res' → i ≤ i' ∧ j ≤ j' ∧ i' < a.length ∧ j' < b.length ∧
        (col jc1 a[i] = col jc2 b[j] → i < i') ∧
        (j < j' → i < i') ∧
        res' ++ rest jc1 jc2 (a.drop i') (b.drop j') = res ++ rest jc1 jc2 (a.drop i) (b.drop j)) := by
  unfold matching
  refine loop_spec
    (fun s => i ≤ s.1 ∧ j ≤ s.2.1 ∧ s.1 < a.length ∧ s.2.1 < b.length ∧
      (j < s.2.1 → i < s.1) ∧
      s.2.2 ++ rest jc1 jc2 (a.drop s.1) (b.drop s.2.1) = res ++ rest jc1 jc2 (a.drop i) (b.drop j))
    _ (fun s => a.length - s.1) ?_ fuel (i, j, res) ⟨Nat.le_refl _, Nat.le_refl _, hi, hj, by simp, rfl⟩
    (by simp only; omega)
  rintro ⟨i', j', res'⟩ ⟨h1, h2, h3, h4, h5, h6⟩
  simp only at h1 h2 h3 h4 h5 h6
  simp only [at_ok h.wa h3, at_ok h.wb h4, Outcome.bind]
  by_cases he : col jc1 a[i'] = col jc2 b[j']
  · rw [if_pos he]
    obtain ⟨⟨j2, res2⟩, hin, g1, g2, g3, g4, g5⟩ := inner_spec (fuel := fuel) (res := res') h h3 h4 he hf'
    simp only at g1 g2 g3 g4 g5
    simp only [hin]
    have hrest : res2 ++ rest jc1 jc2 (a.drop (i' + 1)) (b.drop j') = res ++ rest jc1 jc2 (a.drop i) (b.drop j) := by
      rw [← h6, drop_eq h3, g5]
      simp only [rest]
      rw [left_cons, List.append_assoc]
    by_cases hend : i' + 1 ≥ a.length
    · rw [if_pos hend]
      right
      refine ⟨_, rfl, ?_, by simp⟩
      intro r hr
      cases hr
      rw [← hrest, List.drop_eq_nil_of_le hend]
      simp [rest, left_nil]
    · rw [if_neg hend]
      have h3' : i' + 1 < a.length := by omega
      simp only [at_ok h.wa h3']
      by_cases he2 : col jc1 a[i' + 1] = col jc2 b[j']
      · rw [if_pos he2]
        left
        exact ⟨_, rfl, ⟨by simp only; omega, by simp only; omega, h3', h4, by simp only; omega, hrest⟩, by simp only; omega⟩
      · rw [if_neg he2]
        have hskip : rest jc1 jc2 (a.drop (i' + 1)) (b.drop j') = rest jc1 jc2 (a.drop (i' + 1)) (b.drop j2) := by
          apply rest_skipB' h h3' (by omega)
          intro t ht k1 k2
          have e1 := g3 t ht k1 k2
          have e2 := sorted_getElem_le h.sa (show i' ≤ i' + 1 by omega) h3'
          omega
        by_cases hend2 : j2 ≥ b.length
        · rw [if_pos hend2]
          right
          refine ⟨_, rfl, ?_, by simp⟩
          intro r hr
          cases hr
          rw [← hrest, hskip, List.drop_eq_nil_of_le hend2]
          simp [rest, left_nil_right]
        · rw [if_neg hend2]
          left
          refine ⟨_, rfl, ⟨by simp only; omega, by simp only; omega, h3', by simp only; omega, by simp only; omega, ?_⟩,
            by simp only; omega⟩
          simp only
          rw [← hskip, hrest]
  · rw [if_neg he]
    right
    refine ⟨_, rfl, by simp, ?_⟩
    intro i2 j2 r2 hr
    cases hr
    refine ⟨h1, h2, h3, h4, ?_, h5, h6⟩
    intro heq
    by_contra hge
    have e1 : i' = i := by omega
    have e2 : j' = j := by
      by_contra hne
      exact hge (h5 (by omega))
    subst e1; subst e2
    exact he heq

theorem zipper_spec (h : Input a jc1 b jc2) (hf : a.length + b.length < fuel) :
    zipper fuel a jc1 b jc2 = .ok (rest jc1 jc2 a b) := by
  have key : ∃ r, zipper fuel a jc1 b jc2 = .ok r ∧ r = rest jc1 jc2 a b := by
    unfold zipper
    refine loop_spec
      (fun s => s.1 ≤ a.length ∧ s.2.1 ≤ b.length ∧
        s.2.2 ++ rest jc1 jc2 (a.drop s.1) (b.drop s.2.1) = rest jc1 jc2 a b)
      _ (fun s => (a.length - s.1) + (b.length - s.2.1)) ?_ fuel (0, 0, []) ⟨by simp, by simp, by simp⟩
      (by simp only; omega)
    rintro ⟨i, j, res⟩ ⟨h1, h2, h3⟩
    simp only at h1 h2 h3
    simp only
    by_cases hb : i < a.length ∧ j < b.length
    · rw [if_pos hb]
      obtain ⟨hi, hj⟩ := hb
      obtain ⟨o, ho, hn, hs⟩ := skipA_spec (fuel := fuel) h hi hj (by omega)
      simp only [ho, Outcome.bind]
      cases o with
      | none =>
        right
        refine ⟨_, rfl, ?_⟩
        rw [← h3, hn rfl, List.append_nil]
      | some i' =>
        obtain ⟨k1, hi', k2, k3, k4⟩ := hs i' rfl
        obtain ⟨o2, ho2, hn2, hs2⟩ := skipB_spec (fuel := fuel) h hi' hj (by omega)
        simp only [ho2]
        cases o2 with
        | none =>
          right
          refine ⟨_, rfl, ?_⟩
          rw [← h3, k4, hn2 rfl, List.append_nil]
        | some j' =>
          obtain ⟨l1, hj', l2, l3, l4⟩ := hs2 j' rfl
          obtain ⟨e, he, hfin, hmore⟩ := matching_spec (fuel := fuel) (res := res) h hi' hj' (by omega) (by omega)
          simp only [he]
          cases e with
          | finish r =>
            right
            refine ⟨_, rfl, ?_⟩
            rw [hfin r rfl, ← l4, ← k4, h3]
          | more i2 j2 r =>
            left
            obtain ⟨m1, m2, m3, m4, m5, _, m6⟩ := hmore i2 j2 r rfl
            refine ⟨_, rfl, ⟨by simp only; omega, by simp only; omega, ?_⟩, ?_⟩
            · simp only; rw [m6, ← l4, ← k4, h3]
            · simp only
              by_cases hjj : j < j'
              · omega
              · have : j' = j := by omega
                subst this
                have := m5 (by omega)
                omega
    · rw [if_neg hb]
      right
      refine ⟨_, rfl, ?_⟩
      rw [← h3]
      by_cases hi : i < a.length
      · have : b.length ≤ j := by
          by_contra hh
          exact hb ⟨hi, by omega⟩
        rw [List.drop_eq_nil_of_le this]
        simp [rest, left_nil_right]
      · rw [List.drop_eq_nil_of_le (by omega : a.length ≤ i)]
        simp [rest, left_nil]
  obtain ⟨r, h1, rfl⟩ := key
  exact h1

/-! ### Galloping -/

/-- What has been passed in one table is smaller than what is left of the other. -/
structure Sep (a : Table) (jc1 : Nat) (b : Table) (jc2 : Nat) (i j : Nat) : Prop where
  x : ∀ t, (ht : t < b.length) → t < j → ∀ hi : i < a.length, col jc2 b[t] < col jc1 a[i]
  y : ∀ t, (ht : t < a.length) → t < i → ∀ hj : j < b.length, col jc1 a[t] < col jc2 b[j]

theorem matching_sep (h : Input a jc1 b jc2) {i j : Nat} {res : Table} (hi : i < a.length) (hj : j < b.length)
    (hf' : b.length < fuel) (hsep : Sep a jc1 b jc2 i j) {i' j' : Nat} {res' : Table}
    (hm : matching fuel a jc1 b jc2 i j res = .ok (.more i' j' res')) : Sep a jc1 b jc2 i' j' := by
  unfold matching at hm
  have := loop_partial
    (fun s : Nat × Nat × Table => s.1 < a.length ∧ s.2.1 < b.length ∧
      (∀ t, (ht : t < b.length) → t < s.2.1 → ∀ hi : s.1 < a.length, col jc2 b[t] < col jc1 a[s.1]) ∧
      (∀ t, (ht : t < a.length) → t < s.1 → ∀ hi : s.1 < a.length, ∀ hj : s.2.1 < b.length,
        col jc1 a[s.1] ≠ col jc2 b[s.2.1] → col jc1 a[t] < col jc2 b[s.2.1]))
    (fun e => ∀ i' j' res', e = Exit.more i' j' res' → Sep a jc1 b jc2 i' j') ?_ fuel (i, j, res) _
    ⟨hi, hj, hsep.x, fun t ht h1 _ h2 _ => hsep.y t ht h1 h2⟩ hm
  · exact this i' j' res' rfl
  rintro ⟨i', j', res'⟩ ⟨h3, h4, h5, h6⟩
  simp only at h3 h4 h5 h6
  simp only [at_ok h.wa h3, at_ok h.wb h4, Outcome.bind]
  by_cases he : col jc1 a[i'] = col jc2 b[j']
  · rw [if_pos he]
    obtain ⟨⟨j2, res2⟩, hin, g1, g2, g3, g4, g5⟩ := inner_spec (fuel := fuel) (res := res') h h3 h4 he hf'
    simp only at g1 g2 g3 g4 g5
    simp only [hin]
    by_cases hend : i' + 1 ≥ a.length
    · rw [if_pos hend]
      exact ⟨by simp, by simp⟩
    · rw [if_neg hend]
      have h3' : i' + 1 < a.length := by omega
      have hle := sorted_getElem_le h.sa (show i' ≤ i' + 1 by omega) h3'
      simp only [at_ok h.wa h3']
      by_cases he2 : col jc1 a[i' + 1] = col jc2 b[j']
      · rw [if_pos he2]
        refine ⟨?_, by simp⟩
        intro s' hs'
        simp only [Outcome.ok.injEq, Sum.inl.injEq] at hs'
        subst hs'
        refine ⟨h3', h4, ?_, ?_⟩
        · intro t ht k1 k2
          have := h5 t ht k1 h3
          simp only
          omega
        · intro t ht k1 k2 k3 k4
          exact absurd he2 k4
      · rw [if_neg he2]
        by_cases hend2 : j2 ≥ b.length
        · rw [if_pos hend2]
          exact ⟨by simp, by simp⟩
        · rw [if_neg hend2]
          refine ⟨?_, by simp⟩
          intro s' hs'
          simp only [Outcome.ok.injEq, Sum.inl.injEq] at hs'
          subst hs'
          refine ⟨h3', by simp only; omega, ?_, ?_⟩
          · intro t ht k1 k2
            simp only at k1 ⊢
            by_cases ht' : t < j'
            · have := h5 t ht ht' h3
              omega
            · have := g3 t ht (by omega) k1
              omega
          · intro t ht k1 k2 k3 k4
            simp only at k1 k3 ⊢
            have e1 := g4 k3
            have e2 := sorted_getElem_le h.sa (show t ≤ i' by omega) h3
            omega
  · rw [if_neg he]
    refine ⟨by simp, ?_⟩
    intro r hr i2 j2 r2 hr2
    simp only [Outcome.ok.injEq, Sum.inr.injEq] at hr
    subst hr
    cases hr2
    exact ⟨h5, fun t ht h1 h2 => h6 t ht h1 h3 h2 he⟩

/-- A table sorted on a column that exists. -/
structure Sorted (t : Table) (c : Nat) : Prop where
  w : ∀ r ∈ t, c < r.length
  s : t.Pairwise fun x y => col c x ≤ col c y

theorem gallop_spec {t : Table} {c : Nat} (h : Sorted t c) {needle p last : Nat} (hp : p < t.length)
    (hf : t.length < fuel) :
    ∃ o, gallop fuel t c needle p last = .ok o ∧
      (o = none → ∀ q, (hq : q < t.length) → col c t[q] < needle) ∧
      (∀ p' last', o = some (p', last') → p ≤ p' ∧ (∃ hp' : p' < t.length, needle ≤ col c t[p']) ∧
        ((p' = p ∧ last' = last) ∨
          (p ≤ last' ∧ last' < p' ∧ col c t[p] < needle ∧ ∃ hl : last' < t.length, col c t[last'] < needle))) := by
  unfold gallop
  refine loop_spec
    (fun s => p ≤ s.1 ∧ s.1 < t.length ∧ 1 ≤ s.2.2 ∧
      ((s.1 = p ∧ s.2.1 = last) ∨
        (p ≤ s.2.1 ∧ s.2.1 < s.1 ∧ col c t[p] < needle ∧ ∃ hl : s.2.1 < t.length, col c t[s.2.1] < needle)))
    _ (fun s => t.length - s.1) ?_ fuel (p, last, 1) ⟨Nat.le_refl _, hp, Nat.le_refl _, .inl ⟨rfl, rfl⟩⟩
    (by simp only; omega)
  rintro ⟨q, l, step⟩ ⟨h1, h2, h3, h4⟩
  simp only at h1 h2 h3 h4
  simp only [at_ok h.w h2, Outcome.bind]
  by_cases hgt : needle > col c t[q]
  · rw [if_pos hgt]
    have hfirst : col c t[p] < needle := by
      have := sorted_getElem_le h.s h1 h2
      omega
    by_cases hend : q + step ≥ t.length
    · rw [if_pos hend]
      have hl : t.length - 1 < t.length := by omega
      simp only [at_ok h.w hl]
      by_cases hgt2 : needle > col c t[t.length - 1]
      · rw [if_pos hgt2]
        right
        refine ⟨none, rfl, ?_, by simp⟩
        intro _ q' hq'
        have := sorted_getElem_le h.s (show q' ≤ t.length - 1 by omega) hl
        omega
      · rw [if_neg hgt2]
        left
        have hne : q ≠ t.length - 1 := by
          intro he
          subst he
          exact hgt2 hgt
        refine ⟨_, rfl, ⟨by simp only; omega, hl, by simp only; omega, .inr ⟨h1, by simp only; omega, hfirst, h2, hgt⟩⟩, ?_⟩
        simp only
        omega
    · rw [if_neg hend]
      left
      exact ⟨_, rfl, ⟨by simp only; omega, by simp only; omega, by simp only; omega,
        .inr ⟨h1, by simp only; omega, hfirst, h2, hgt⟩⟩, by simp only; omega⟩
  · rw [if_neg hgt]
    right
    refine ⟨_, rfl, by simp, ?_⟩
    intro p' last' he
    cases he
    exact ⟨h1, ⟨h2, by omega⟩, h4⟩

theorem stepBack_spec {t : Table} {c : Nat} (h : Sorted t c) {needle p : Nat} (hp : p < t.length)
    (he : col c t[p] = needle) (hf : t.length < fuel) :
    ∃ p', stepBack fuel t c needle p = .ok p' ∧ p' ≤ p ∧ (∃ hp' : p' < t.length, col c t[p'] = needle) ∧
      ∀ q, (hq : q < t.length) → q < p' → col c t[q] < needle := by
  unfold stepBack
  refine loop_spec (fun q => q ≤ p ∧ ∃ hq : q < t.length, col c t[q] = needle) _ (fun q => q) ?_ fuel p
    ⟨Nat.le_refl _, hp, he⟩ (by omega)
  rintro q ⟨h1, h2, h3⟩
  by_cases hq : q > 0
  · simp only [if_pos hq]
    have hq1 : q - 1 < t.length := by omega
    simp only [at_ok h.w hq1, Outcome.bind]
    by_cases he2 : col c t[q - 1] = needle
    · rw [if_pos he2]
      left
      exact ⟨_, rfl, ⟨by omega, hq1, he2⟩, by omega⟩
    · rw [if_neg he2]
      right
      refine ⟨q, rfl, h1, ⟨h2, h3⟩, ?_⟩
      intro q' hq' hlt
      have e1 := sorted_getElem_le h.s (show q' ≤ q - 1 by omega) hq1
      have e2 := sorted_getElem_le h.s (show q - 1 ≤ q by omega) h2
      omega
  · simp only [if_neg hq]
    right
    exact ⟨q, rfl, h1, ⟨h2, h3⟩, fun q' _ hlt => by omega⟩

theorem lowerBound_spec {t : Table} {c lo hi needle : Nat} (hlo : lo ≤ hi) (hhi : hi ≤ t.length) :
    ∃ r, lowerBound t c lo hi needle = .ok r ∧ lo ≤ r ∧ r ≤ hi ∧
      (∀ q, (hq : q < t.length) → lo ≤ q → q < r → col c t[q] < needle) ∧
      (∀ hr : r < t.length, r < hi → needle ≤ col c t[r]) := by
  unfold lowerBound
  rw [if_pos ⟨hlo, hhi⟩]
  generalize hL : (t.drop lo).take (hi - lo) = L
  have hLlen : L.length = hi - lo := by rw [← hL]; simp; omega
  have hle : (L.takeWhile (fun r => r.getD c 0 < needle)).length ≤ L.length := (List.takeWhile_sublist _).length_le
  have hget : ∀ q (hq : q < L.length), L[q] = t[lo + q]'(by omega) := by
    intro q hq
    subst hL
    simp
  refine ⟨_, rfl, by omega, by omega, ?_, ?_⟩
  · intro q hq h1 h2
    have h3 : q - lo < (L.takeWhile (fun r => r.getD c 0 < needle)).length := by omega
    have h4 := List.getElem_mem h3
    have h5 := List.all_eq_true.mp List.all_takeWhile _ h4
    simp only [decide_eq_true_eq] at h5
    rw [(List.takeWhile_prefix (fun r : Row => decide (r.getD c 0 < needle))).getElem h3, hget] at h5
    simp only [show lo + (q - lo) = q by omega] at h5
    exact h5
  · intro hr h1
    have h2 : (L.takeWhile (fun r => r.getD c 0 < needle)).length < L.length := by omega
    by_contra hlt
    have hall : ∀ (l : List Row) (hl : (l.takeWhile (fun r => r.getD c 0 < needle)).length < l.length),
        ¬ (l[(l.takeWhile (fun r => r.getD c 0 < needle)).length]).getD c 0 < needle := by
      intro l
      induction l with
      | nil => intro hl; simp at hl
      | cons x l ih =>
        intro hl
        by_cases hx : x.getD c 0 < needle
        · simp only [List.takeWhile_cons, hx, decide_true, if_true, List.length_cons, List.getElem_cons_succ] at hl ⊢
          exact ih (by omega)
        · simp only [List.takeWhile_cons, hx, decide_false, Bool.false_eq_true, if_false, List.length_nil,
            List.getElem_cons_zero]
          exact fun hh => hh
    have := hall L h2
    rw [hget] at this
    simp only [col] at hlt
    omega

/-- After an exponential search from `p` that has moved, `locate` finds the first position whose value is not smaller. -/
theorem locate_spec {t : Table} {c : Nat} (h : Sorted t c) {needle p last : Nat} (hp : p < t.length)
    (hge : needle ≤ col c t[p]) (hf : t.length < fuel) (hl : needle < col c t[p] → last < p)
    (hlv : needle < col c t[p] → ∀ hl : last < t.length, col c t[last] < needle) :
    ∃ p', locate fuel t c needle p last = .ok p' ∧ p' ≤ p ∧ (∃ hp' : p' < t.length, needle ≤ col c t[p']) ∧
      ∀ q, (hq : q < t.length) → q < p' → col c t[q] < needle := by
  unfold locate
  simp only [at_ok h.w hp, Outcome.bind]
  by_cases he : needle = col c t[p]
  · rw [if_pos he]
    obtain ⟨p', h1, h2, ⟨h3, h4⟩, h5⟩ := stepBack_spec (fuel := fuel) h hp he.symm hf
    exact ⟨p', h1, h2, ⟨h3, by omega⟩, h5⟩
  · rw [if_neg he]
    have hlt : needle < col c t[p] := by omega
    rw [if_pos hlt]
    have hlp := hl hlt
    obtain ⟨r, h1, h2, h3, h4, h5⟩ := lowerBound_spec (t := t) (c := c) (lo := last) (hi := p) (needle := needle)
      (by omega) (by omega)
    have hr : r < t.length := by omega
    have hlv' := hlv hlt (by omega)
    have hrl : last < r := by
      by_contra hge2
      have : r = last := by omega
      subst this
      have := h5 hr hlp
      omega
    refine ⟨r, h1, h3, ⟨hr, ?_⟩, ?_⟩
    · by_cases hrp : r < p
      · exact h5 hr hrp
      · have : r = p := by omega
        subst this; omega
    · intro q hq hqr
      by_cases hql : last ≤ q
      · exact h4 q hq hql hqr
      · have := sorted_getElem_le h.s (show q ≤ last by omega) (show last < t.length by omega)
        omega

theorem gallopRight_spec (h : Input a jc1 b jc2) (hf : a.length + b.length < fuel) :
    gallopRight fuel a jc1 b jc2 = .ok (rest jc1 jc2 a b) := by
  have hsb : Sorted b jc2 := ⟨h.wb, h.sb⟩
  have key : ∃ r, gallopRight fuel a jc1 b jc2 = .ok r ∧ r = rest jc1 jc2 a b := by
    unfold gallopRight
    refine loop_spec
      (fun s => s.1 ≤ a.length ∧ s.2.1 ≤ b.length ∧ Sep a jc1 b jc2 s.1 s.2.1 ∧
        s.2.2 ++ rest jc1 jc2 (a.drop s.1) (b.drop s.2.1) = rest jc1 jc2 a b)
      _ (fun s => (a.length - s.1) + (b.length - s.2.1)) ?_ fuel (0, 0, [])
      ⟨by simp, by simp, ⟨by simp, by simp⟩, by simp⟩ (by simp only; omega)
    rintro ⟨i, j, res⟩ ⟨h1, h2, hsep, h3⟩
    simp only at h1 h2 hsep h3
    simp only
    by_cases hb : i < a.length ∧ j < b.length
    · rw [if_pos hb]
      obtain ⟨hi, hj⟩ := hb
      obtain ⟨o, ho, hn, hs⟩ := skipA_spec (fuel := fuel) h hi hj (by omega)
      simp only [ho, Outcome.bind]
      cases o with
      | none =>
        right
        refine ⟨_, rfl, ?_⟩
        rw [← h3, hn rfl, List.append_nil]
      | some i' =>
        obtain ⟨k1, hi', k2, k3, k4⟩ := hs i' rfl
        simp only [at_ok h.wa hi']
        obtain ⟨o2, ho2, hn2, hs2⟩ := gallop_spec (fuel := fuel) hsb (needle := col jc1 a[i']) (last := j) hj (by omega)
        simp only [ho2]
        cases o2 with
        | none =>
          right
          refine ⟨_, rfl, ?_⟩
          have := hn2 rfl
          rw [← h3, k4, rest_skipB' h hi' (show j ≤ b.length by omega) (fun t ht _ _ => this t ht)]
          simp [rest, left_nil_right]
        | some pl =>
          obtain ⟨j1, last⟩ := pl
          obtain ⟨l1, ⟨hj1, l2⟩, l3⟩ := hs2 j1 last rfl
          have hcase : ∀ hlt : col jc1 a[i'] < col jc2 b[j1], j ≤ last ∧ last < j1 ∧
              ∃ hl : last < b.length, col jc2 b[last] < col jc1 a[i'] := by
            intro hlt
            rcases l3 with ⟨e1, e2⟩ | ⟨e1, e2, _, e3⟩
            · subst e1; omega
            · exact ⟨e1, e2, e3⟩
          obtain ⟨j', hj'e, m1, ⟨hj', m2⟩, m3⟩ := locate_spec (fuel := fuel) (last := last) hsb hj1 l2 (by omega)
            (fun hlt => (hcase hlt).2.1) (fun hlt hl => (hcase hlt).2.2.2)
          simp only [hj'e]
          have hjj' : j ≤ j' := by
            by_contra hlt
            have := hsep.x j' hj' (by omega) hi
            have := sorted_getElem_le h.sa k1 hi'
            omega
          have hrest : rest jc1 jc2 (a.drop i') (b.drop j) = rest jc1 jc2 (a.drop i') (b.drop j') :=
            rest_skipB' h hi' hjj' (fun t ht _ k => m3 t ht k)
          have hsep' : Sep a jc1 b jc2 i' j' := by
            refine ⟨fun t ht htj _ => m3 t ht htj, ?_⟩
            intro t ht hti hj2
            have hbj := sorted_getElem_le h.sb hjj' hj'
            by_cases hti2 : t < i
            · have := hsep.y t ht hti2 hj
              omega
            · have := k3 t ht (by omega) hti
              omega
          obtain ⟨e, he, hfin, hmore⟩ := matching_spec (fuel := fuel) (res := res) h hi' hj' (by omega) (by omega)
          simp only [he]
          cases e with
          | finish r =>
            right
            refine ⟨_, rfl, ?_⟩
            rw [hfin r rfl, ← hrest, ← k4, h3]
          | more i2 j2 r =>
            left
            obtain ⟨n1, n2, n3, n4, n5, _, n6⟩ := hmore i2 j2 r rfl
            refine ⟨_, rfl, ⟨by simp only; omega, by simp only; omega,
              matching_sep h hi' hj' (by omega) hsep' he, ?_⟩, ?_⟩
            · simp only; rw [n6, ← hrest, ← k4, h3]
            · simp only
              by_cases heq : col jc1 a[i'] = col jc2 b[j']
              · have := n5 heq
                omega
              · have hjlt : j < j' := by
                  by_contra hge
                  have : j' = j := by omega
                  subst this
                  omega
                omega
    · rw [if_neg hb]
      right
      refine ⟨_, rfl, ?_⟩
      rw [← h3]
      by_cases hi : i < a.length
      · have : b.length ≤ j := by
          by_contra hh
          exact hb ⟨hi, by omega⟩
        rw [List.drop_eq_nil_of_le this]
        simp [rest, left_nil_right]
      · rw [List.drop_eq_nil_of_le (by omega : a.length ≤ i)]
        simp [rest, left_nil]
  obtain ⟨r, h1, rfl⟩ := key
  exact h1

/-- In `gallopLeft` the search may also stop at once; then everything before the position is known to be smaller. -/
theorem locate_here {t : Table} {c : Nat} (h : Sorted t c) {needle p last : Nat} (hp : p < t.length)
    (hge : needle ≤ col c t[p]) (hf : t.length < fuel)
    (hbefore : ∀ q, (hq : q < t.length) → q < p → col c t[q] < needle) :
    (needle < col c t[p] ∧ p < last ∧ locate fuel t c needle p last = .ub) ∨
      locate fuel t c needle p last = .ok p := by
  unfold locate
  simp only [at_ok h.w hp, Outcome.bind]
  by_cases he : needle = col c t[p]
  · rw [if_pos he]
    right
    obtain ⟨p', h1, h2, ⟨h3, h4⟩, h5⟩ := stepBack_spec (fuel := fuel) h hp he.symm hf
    rw [h1]
    congr 1
    by_contra hne
    have := hbefore p' h3 (by omega)
    omega
  · rw [if_neg he]
    have hlt : needle < col c t[p] := by omega
    rw [if_pos hlt]
    by_cases hlp : last ≤ p
    · right
      obtain ⟨r, h1, h2, h3, h4, h5⟩ := lowerBound_spec (t := t) (c := c) (lo := last) (hi := p) (needle := needle)
        hlp (by omega)
      rw [h1]
      congr 1
      by_contra hne
      have e1 := h5 (by omega) (by omega)
      have e2 := hbefore r (by omega) (by omega)
      omega
    · left
      refine ⟨hlt, by omega, ?_⟩
      unfold lowerBound
      rw [if_neg (by omega)]

/-- The values of column `c` are pairwise different and increasing. -/
def Increasing (t : Table) (c : Nat) : Prop := t.Pairwise fun x y => col c x < col c y

theorem matching_balance (h : Input a jc1 b jc2) (hinc : Increasing b jc2) {i j : Nat} {res : Table} (hi : i < a.length)
    (hj : j < b.length) (hf' : b.length < fuel) (hji : j ≤ i) {i' j' : Nat} {res' : Table}
    (hm : matching fuel a jc1 b jc2 i j res = .ok (.more i' j' res')) : j' ≤ i' := by
  unfold matching at hm
  have := loop_partial
    (fun s : Nat × Nat × Table => s.1 < a.length ∧ s.2.1 < b.length ∧ s.2.1 ≤ s.1)
    (fun e => ∀ i' j' res', e = Exit.more i' j' res' → j' ≤ i') ?_ fuel (i, j, res) _ ⟨hi, hj, hji⟩ hm
  · exact this i' j' res' rfl
  rintro ⟨i', j', res'⟩ ⟨h3, h4, h5⟩
  simp only at h3 h4 h5
  simp only [at_ok h.wa h3, at_ok h.wb h4, Outcome.bind]
  by_cases he : col jc1 a[i'] = col jc2 b[j']
  · rw [if_pos he]
    obtain ⟨⟨j2, res2⟩, hin, g1, g2, g3, g4, g5⟩ := inner_spec (fuel := fuel) (res := res') h h3 h4 he hf'
    simp only at g1 g2 g3 g4 g5
    simp only [hin]
    have hj2 : j2 = j' + 1 := by
      by_contra hne
      have hlt : j' + 1 < b.length := by omega
      have e1 := g3 j' h4 (by omega) (by omega)
      have e2 := g3 (j' + 1) hlt (by omega) (by omega)
      have e3 := List.pairwise_iff_getElem.mp hinc j' (j' + 1) h4 hlt (by omega)
      omega
    by_cases hend : i' + 1 ≥ a.length
    · rw [if_pos hend]
      exact ⟨by simp, by simp⟩
    · rw [if_neg hend]
      have h3' : i' + 1 < a.length := by omega
      simp only [at_ok h.wa h3']
      by_cases he2 : col jc1 a[i' + 1] = col jc2 b[j']
      · rw [if_pos he2]
        refine ⟨?_, by simp⟩
        intro s' hs'
        simp only [Outcome.ok.injEq, Sum.inl.injEq] at hs'
        subst hs'
        exact ⟨h3', h4, by simp only; omega⟩
      · rw [if_neg he2]
        by_cases hend2 : j2 ≥ b.length
        · rw [if_pos hend2]
          exact ⟨by simp, by simp⟩
        · rw [if_neg hend2]
          refine ⟨?_, by simp⟩
          intro s' hs'
          simp only [Outcome.ok.injEq, Sum.inl.injEq] at hs'
          subst hs'
          exact ⟨h3', by simp only; omega, by simp only; omega⟩
  · rw [if_neg he]
    refine ⟨by simp, ?_⟩
    intro r hr i2 j2 r2 hr2
    simp only [Outcome.ok.injEq, Sum.inr.injEq] at hr
    subst hr
    cases hr2
    exact h5

/-- What holds at the start of each round of `gallopLeft`. -/
def LeftInv (a : Table) (jc1 : Nat) (b : Table) (jc2 : Nat) (s : Nat × Nat × Table) : Prop :=
  s.1 ≤ a.length ∧ s.2.1 ≤ b.length ∧ Sep a jc1 b jc2 s.1 s.2.1 ∧
    s.2.2 ++ rest jc1 jc2 (a.drop s.1) (b.drop s.2.1) = rest jc1 jc2 a b

/-- One round of `gallopLeft`. -/
theorem gallopLeft_round (h : Input a jc1 b jc2) (hf : a.length + b.length < fuel) {i j : Nat} {res : Table}
    (hP : LeftInv a jc1 b jc2 (i, j, res)) (hi : i < a.length) (hj : j < b.length)
    {body : Outcome ((Nat × Nat × Table) ⊕ Table)}
    (hbody : body = ((b.at j jc2).bind fun needle =>
      (gallop fuel a jc1 needle i j).bind fun
      | none => .ok (.inr res)
      | some (i, last) =>
        (locate fuel a jc1 needle i last).bind fun i =>
        (skipB fuel a jc1 b jc2 i j).bind fun
        | none => .ok (.inr res)
        | some j =>
          (matching fuel a jc1 b jc2 i j res).bind fun
          | .finish res => .ok (.inr res)
          | .more i j res => .ok (.inl (i, j, res)))) :
    (∃ s' : Nat × Nat × Table, body = .ok (.inl s') ∧ LeftInv a jc1 b jc2 s' ∧
      (a.length - s'.1) + (b.length - s'.2.1) < (a.length - i) + (b.length - j) ∧
      (Increasing b jc2 → (∀ y ∈ b, ∃ x ∈ a, col jc1 x = col jc2 y) → j ≤ i → s'.2.1 ≤ s'.1)) ∨
    (∃ r, body = .ok (.inr r) ∧ r = rest jc1 jc2 a b) ∨
    (body = .ub ∧ i < j) := by
  obtain ⟨h1, h2, hsep, h3⟩ := hP
  simp only at h1 h2 hsep h3
  have hsa : Sorted a jc1 := ⟨h.wa, h.sa⟩
  simp only [at_ok h.wb hj, Outcome.bind] at hbody
  obtain ⟨o2, ho2, hn2, hs2⟩ := gallop_spec (fuel := fuel) hsa (needle := col jc2 b[j]) (last := j) hi (by omega)
  simp only [ho2] at hbody
  cases o2 with
  | none =>
    right; left
    refine ⟨_, hbody, ?_⟩
    have := hn2 rfl
    rw [← h3, rest_skipA' h hj (show i ≤ a.length by omega) (fun t ht _ _ => this t ht)]
    simp [rest, left_nil]
  | some pl =>
    obtain ⟨i1, last⟩ := pl
    obtain ⟨l1, ⟨hi1, l2⟩, l3⟩ := hs2 i1 last rfl
    have hloc : (locate fuel a jc1 (col jc2 b[j]) i1 last = .ub ∧ i < j) ∨
        ∃ i', locate fuel a jc1 (col jc2 b[j]) i1 last = .ok i' ∧ i ≤ i' ∧
          (∃ hi' : i' < a.length, col jc2 b[j] ≤ col jc1 a[i']) ∧
          ∀ q, (hq : q < a.length) → q < i' → col jc1 a[q] < col jc2 b[j] := by
      rcases l3 with ⟨rfl, rfl⟩ | ⟨e1, e2, e3, e4, e5⟩
      · have hbefore : ∀ q, (hq : q < a.length) → q < i1 → col jc1 a[q] < col jc2 b[last] :=
          fun q hq hlt => hsep.y q hq hlt hj
        rcases locate_here (fuel := fuel) (last := last) hsa hi1 l2 (by omega) hbefore with ⟨g1, g2, g3⟩ | g3
        · exact .inl ⟨g3, g2⟩
        · exact .inr ⟨i1, g3, Nat.le_refl _, ⟨hi1, l2⟩, hbefore⟩
      · obtain ⟨i', g1, g2, g3, g4⟩ := locate_spec (fuel := fuel) (last := last) hsa hi1 l2 (by omega)
          (fun _ => e2) (fun _ _ => e5)
        refine .inr ⟨i', g1, ?_, g3, g4⟩
        obtain ⟨g3, g3'⟩ := g3
        by_contra hlt
        have := sorted_getElem_le h.sa (show i' ≤ i by omega) hi
        omega
    rcases hloc with ⟨g1, g2⟩ | ⟨i', g1, g2, ⟨hi', g3⟩, g4⟩
    · right; right
      simp only [g1] at hbody
      exact ⟨hbody, g2⟩
    · simp only [g1] at hbody
      have hrest : rest jc1 jc2 (a.drop i) (b.drop j) = rest jc1 jc2 (a.drop i') (b.drop j) :=
        rest_skipA' h hj g2 (fun t ht _ k => g4 t ht k)
      obtain ⟨o3, ho3, hn3, hs3⟩ := skipB_spec (fuel := fuel) h hi' hj (by omega)
      simp only [ho3] at hbody
      cases o3 with
      | none =>
        right; left
        refine ⟨_, hbody, ?_⟩
        rw [← h3, hrest, hn3 rfl, List.append_nil]
      | some j' =>
        obtain ⟨m1, hj', m2, m3, m4⟩ := hs3 j' rfl
        have hsep' : Sep a jc1 b jc2 i' j' := by
          refine ⟨?_, ?_⟩
          · intro t ht htj hi2
            by_cases htj2 : t < j
            · have e1 := hsep.x t ht htj2 hi
              have e2 := sorted_getElem_le h.sa g2 hi'
              omega
            · exact m3 t ht (by omega) htj
          · intro t ht hti hj2
            have e1 := g4 t ht hti
            have e2 := sorted_getElem_le h.sb m1 hj'
            omega
        obtain ⟨e, he, hfin, hmore⟩ := matching_spec (fuel := fuel) (res := res) h hi' hj' (by omega) (by omega)
        simp only [he] at hbody
        cases e with
        | finish r =>
          right; left
          refine ⟨_, hbody, ?_⟩
          rw [hfin r rfl, ← m4, ← hrest, h3]
        | more i2 j2 r =>
          left
          obtain ⟨n1, n2, n3, n4, n5, _, n6⟩ := hmore i2 j2 r rfl
          refine ⟨_, hbody, ⟨by simp only; omega, by simp only; omega,
              matching_sep h hi' hj' (by omega) hsep' he, ?_⟩, ?_, ?_⟩
          · simp only; rw [n6, ← m4, ← hrest, h3]
          · simp only
            by_cases heq : col jc1 a[i'] = col jc2 b[j']
            · have := n5 heq
              omega
            · have hjlt : j < j' := by
                by_contra hge
                have : j' = j := by omega
                subst this
                omega
              omega
          · intro hinc hpres hji
            have heq : col jc1 a[i'] = col jc2 b[j] := by
              obtain ⟨x, hx, hxe⟩ := hpres b[j] (List.getElem_mem hj)
              obtain ⟨q, hq, rfl⟩ := List.mem_iff_getElem.mp hx
              by_contra hne
              by_cases hqi : q < i'
              · have := g4 q hq hqi
                omega
              · have := sorted_getElem_le h.sa (show i' ≤ q by omega) hq
                omega
            have hjj : j' = j := by
              by_contra hne
              have := m3 j hj (by omega) (by omega)
              omega
            subst hjj
            exact matching_balance h hinc hi' hj' (by omega) (by omega) he

theorem gallopLeft_end (h : ¬ (i < a.length ∧ j < b.length)) {res : Table}
    (hP : LeftInv a jc1 b jc2 (i, j, res)) : res = rest jc1 jc2 a b := by
  obtain ⟨h1, h2, hsep, h3⟩ := hP
  simp only at h1 h2 hsep h3
  rw [← h3]
  by_cases hi : i < a.length
  · have : b.length ≤ j := by
      by_contra hh
      exact h ⟨hi, by omega⟩
    rw [List.drop_eq_nil_of_le this]
    simp [rest, left_nil_right]
  · rw [List.drop_eq_nil_of_le (by omega : a.length ≤ i)]
    simp [rest, left_nil]

theorem gallopLeft_or_ub (h : Input a jc1 b jc2) (hf : a.length + b.length < fuel) :
    gallopLeft fuel a jc1 b jc2 = .ok (rest jc1 jc2 a b) ∨ gallopLeft fuel a jc1 b jc2 = .ub := by
  have key : (∃ r, gallopLeft fuel a jc1 b jc2 = .ok r ∧ r = rest jc1 jc2 a b) ∨ gallopLeft fuel a jc1 b jc2 = .ub := by
    unfold gallopLeft
    refine loop_spec_ub (LeftInv a jc1 b jc2) _ (fun s => (a.length - s.1) + (b.length - s.2.1)) ?_ fuel (0, 0, [])
      ⟨by simp, by simp, ⟨by simp, by simp⟩, by simp⟩ (by simp only; omega)
    rintro ⟨i, j, res⟩ hP
    by_cases hb : i < a.length ∧ j < b.length
    · simp only [if_pos hb]
      rcases gallopLeft_round h hf hP hb.1 hb.2 rfl with ⟨s', g1, g2, g3, _⟩ | g | ⟨g, _⟩
      · exact .inl ⟨s', g1, g2, g3⟩
      · exact .inr (.inl g)
      · exact .inr (.inr g)
    · simp only [if_neg hb]
      exact .inr (.inl ⟨_, rfl, gallopLeft_end hb hP⟩)
  rcases key with ⟨r, h1, rfl⟩ | h1
  · exact .inl h1
  · exact .inr h1

theorem gallopLeft_keys_present (h : Input a jc1 b jc2) (hf : a.length + b.length < fuel) (hinc : Increasing b jc2)
    (hpres : ∀ y ∈ b, ∃ x ∈ a, col jc1 x = col jc2 y) :
    gallopLeft fuel a jc1 b jc2 = .ok (rest jc1 jc2 a b) := by
  have key : ∃ r, gallopLeft fuel a jc1 b jc2 = .ok r ∧ r = rest jc1 jc2 a b := by
    unfold gallopLeft
    refine loop_spec (fun s => LeftInv a jc1 b jc2 s ∧ s.2.1 ≤ s.1) _
      (fun s => (a.length - s.1) + (b.length - s.2.1)) ?_ fuel (0, 0, [])
      ⟨⟨by simp, by simp, ⟨by simp, by simp⟩, by simp⟩, by simp⟩ (by simp only; omega)
    rintro ⟨i, j, res⟩ ⟨hP, hji⟩
    simp only at hji
    by_cases hb : i < a.length ∧ j < b.length
    · simp only [if_pos hb]
      rcases gallopLeft_round h hf hP hb.1 hb.2 rfl with ⟨s', g1, g2, g3, g4⟩ | g | ⟨g, g'⟩
      · exact .inl ⟨s', g1, ⟨g2, g4 hinc hpres hji⟩, g3⟩
      · exact .inr g
      · omega
    · simp only [if_neg hb]
      exact .inr ⟨_, rfl, gallopLeft_end hb hP⟩
  obtain ⟨r, h1, rfl⟩ := key
  exact h1

end Verif.Join
