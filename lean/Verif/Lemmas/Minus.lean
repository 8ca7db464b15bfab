import Verif.Model.Minus
import Verif.Lemmas.MultiJoinRows
/-
Correctness of the loops of `Minus` and of the two-column `Engine::filter`.
-/
namespace Verif.Minus
open Merge MultiJoin JoinSpec
open Verif.Join (col at_ok)

/-- The rows of `as` that have a partner in `bs` (`flag = true`) or have none (`flag = false`). -/
def sel (jcs : JoinCols) (flag : Bool) (as bs : Table) : Table := as.filter fun x => bs.any (agree jcs x) == flag

variable {fuel : Nat} {a b : Table} {jcs : JoinCols}

theorem any_drop_lt (h : Input a b jcs) {i j : Nat} (hi : i < a.length) (hj : j < b.length)
    (hlt : ka jcs a[i] < kb jcs b[j]) : (b.drop j).any (agree jcs a[i]) = false := by
  rw [Bool.eq_false_iff]
  intro he
  obtain ⟨y, hy, hag⟩ := List.any_eq_true.mp he
  have := lt_of_lt_of_le hlt (sorted_le h.sb hj hy)
  exact this.ne ((agree_iff jcs _ _).mp hag)

theorem sel_lt (h : Input a b jcs) {i j : Nat} (hi : i < a.length) (hj : j < b.length)
    (hlt : ka jcs a[i] < kb jcs b[j]) (flag : Bool) :
    sel jcs flag (a.drop i) (b.drop j) =
      (if flag then [] else [a[i]]) ++ sel jcs flag (a.drop (i + 1)) (b.drop j) := by
  have := any_drop_lt h hi hj hlt
  rw [drop_eq hi]
  unfold sel
  cases flag
  · rw [List.filter_cons_of_pos (by rw [this]; rfl)]
    rfl
  · rw [List.filter_cons_of_neg (by rw [this]; decide)]
    rfl

theorem sel_gt (h : Input a b jcs) {i j : Nat} (hi : i < a.length) (hj : j < b.length)
    (hlt : kb jcs b[j] < ka jcs a[i]) (flag : Bool) :
    sel jcs flag (a.drop i) (b.drop j) = sel jcs flag (a.drop i) (b.drop (j + 1)) := by
  unfold sel
  apply List.filter_congr
  intro x hx
  rw [drop_eq hj, List.any_cons]
  have : agree jcs x b[j] = false := by
    rw [Bool.eq_false_iff]
    intro he
    have h1 := lt_of_lt_of_le hlt (sorted_le h.sa hi hx)
    exact h1.ne' ((agree_iff jcs _ _).mp he)
  rw [this, Bool.false_or]

theorem sel_eq {i j : Nat} (hi : i < a.length) (hj : j < b.length)
    (he : ka jcs a[i] = kb jcs b[j]) (flag : Bool) :
    sel jcs flag (a.drop i) (b.drop j) =
      (if flag then [a[i]] else []) ++ sel jcs flag (a.drop (i + 1)) (b.drop j) := by
  have : (b.drop j).any (agree jcs a[i]) = true := by
    rw [List.any_eq_true]
    exact ⟨b[j], by rw [drop_eq hj]; exact List.mem_cons_self, (agree_iff jcs _ _).mpr he⟩
  rw [drop_eq hi]
  unfold sel
  cases flag
  · rw [List.filter_cons_of_neg (by rw [this]; decide)]
    rfl
  · rw [List.filter_cons_of_pos (by rw [this]; rfl)]
    rfl

theorem sel_nil_right (as : Table) : sel jcs true as [] = [] ∧ sel jcs false as [] = as := by
  constructor <;> simp [sel]

/-! ### Minus -/

theorem skipA_spec (h : Input a b jcs) {ia ib : Nat} {res tot : Table} (hi : ia < a.length) (hj : ib < b.length)
    (hI : res ++ sel jcs false (a.drop ia) (b.drop ib) = tot) (hf : a.length < fuel) :
    ∃ r, skipA fuel a b jcs ia ib res = .ok r ∧ r.2.2 ++ sel jcs false (a.drop r.2.1) (b.drop ib) = tot ∧ ia ≤ r.2.1 ∧
      (r.1 = true → r.2.1 = a.length) ∧
      (r.1 = false → ∃ hr : r.2.1 < a.length, ∀ jc, Outcome.read jcs 0 = .ok jc → ¬ col jc.1 a[r.2.1] < col jc.2 b[ib]) := by
  obtain ⟨jc, hjm, hjc⟩ := read_head h
  unfold skipA
  refine loop_spec (fun s => ia ≤ s.1 ∧ s.1 < a.length ∧ s.2 ++ sel jcs false (a.drop s.1) (b.drop ib) = tot)
    _ (fun s => a.length - s.1) ?_ fuel (ia, res) ⟨Nat.le_refl _, hi, hI⟩ (by simp only; omega)
  rintro ⟨i, rs⟩ ⟨h1, h2, h3⟩
  simp only at h1 h2 h3
  simp only [hjc, at_ok (fun r hr => h.wa r hr jc hjm) h2, at_ok (fun r hr => h.wb r hr jc hjm) hj, Outcome.bind,
    Outcome.read_lt _ _ h2]
  by_cases hlt : col jc.1 a[i] < col jc.2 b[ib]
  · rw [if_pos hlt]
    have hI' : (rs ++ [a[i]]) ++ sel jcs false (a.drop (i + 1)) (b.drop ib) = tot := by
      rw [← h3, sel_lt h h2 hj ((key_lt_of_head hjc).1 hlt)]
      simp
    by_cases hend : i + 1 ≥ a.length
    · rw [if_pos hend]
      right
      exact ⟨_, rfl, hI', by simp only; omega, by simp only; omega, by simp⟩
    · rw [if_neg hend]
      left
      exact ⟨_, rfl, ⟨by simp only; omega, by simp only; omega, hI'⟩, by simp only; omega⟩
  · rw [if_neg hlt]
    right
    refine ⟨_, rfl, h3, h1, by simp, fun _ => ⟨h2, ?_⟩⟩
    intro jc' hjc'
    cases hjc'
    exact hlt

theorem skipB_spec (h : Input a b jcs) {ia ib : Nat} (hi : ia < a.length) (hj : ib < b.length) (hf : b.length < fuel) :
    ∃ r, skipB fuel a b jcs ia ib = .ok r ∧
      sel jcs false (a.drop ia) (b.drop ib) = sel jcs false (a.drop ia) (b.drop r.2) ∧ ib ≤ r.2 ∧
      (r.1 = true → r.2 = b.length) ∧
      (r.1 = false → ∃ hr : r.2 < b.length, ∀ jc, Outcome.read jcs 0 = .ok jc → ¬ col jc.2 b[r.2] < col jc.1 a[ia]) := by
  obtain ⟨jc, hjm, hjc⟩ := read_head h
  unfold skipB
  refine loop_spec (fun s => ib ≤ s ∧ s < b.length ∧
      sel jcs false (a.drop ia) (b.drop ib) = sel jcs false (a.drop ia) (b.drop s))
    _ (fun s => b.length - s) ?_ fuel ib ⟨Nat.le_refl _, hj, rfl⟩ (by omega)
  rintro j ⟨h1, h2, h3⟩
  simp only [hjc, at_ok (fun r hr => h.wa r hr jc hjm) hi, at_ok (fun r hr => h.wb r hr jc hjm) h2, Outcome.bind]
  by_cases hlt : col jc.2 b[j] < col jc.1 a[ia]
  · rw [if_pos hlt]
    have hI' : sel jcs false (a.drop ia) (b.drop ib) = sel jcs false (a.drop ia) (b.drop (j + 1)) := by
      rw [h3, sel_gt h hi h2 ((key_lt_of_head hjc).2 hlt)]
    by_cases hend : j + 1 ≥ b.length
    · rw [if_pos hend]
      right
      exact ⟨_, rfl, hI', by simp only; omega, by simp only; omega, by simp⟩
    · rw [if_neg hend]
      left
      exact ⟨_, rfl, ⟨by omega, by omega, hI'⟩, by omega⟩
  · rw [if_neg hlt]
    right
    refine ⟨_, rfl, h3, h1, by simp, fun _ => ⟨h2, ?_⟩⟩
    intro jc' hjc'
    cases hjc'
    exact hlt

/-- With equal first columns, the remaining columns decide. -/
theorem tail_spec (h : Input a b jcs) {jc : Nat × Nat} (hjc : Outcome.read jcs 0 = .ok jc) {ia ib : Nat}
    (hi : ia < a.length) (hj : ib < b.length) (he : col jc.2 b[ib] = col jc.1 a[ia]) :
    ∃ o, isRowEqSkipFirst a b jcs ia ib = .ok o ∧ (o = .lt → ka jcs a[ia] < kb jcs b[ib]) ∧
      (o = .gt → kb jcs b[ib] < ka jcs a[ia]) ∧ (o = .eq → ka jcs a[ia] = kb jcs b[ib]) := by
  cases jcs with
  | nil => simp [Outcome.read] at hjc
  | cons c cs =>
    have : c = jc := by simpa [Outcome.read] using hjc
    subst this
    obtain ⟨o, ho, p1, p2, p3⟩ := compareRows_spec hi hj cs
      (fun r hr jc hjc => h.wa r hr jc (List.mem_cons_of_mem _ hjc))
      (fun r hr jc hjc => h.wb r hr jc (List.mem_cons_of_mem _ hjc))
    refine ⟨o, ho, ?_, ?_, ?_⟩
    · intro e; simp only [ka, kb, List.map_cons]; rw [he]; exact List.Lex.cons (p1 e)
    · intro e; simp only [ka, kb, List.map_cons]; rw [he]; exact List.Lex.cons (p2 e)
    · intro e; simp only [ka, kb, List.map_cons]; rw [he]; congr 1; exact p3 e

theorem equalLoop_spec (h : Input a b jcs) {ia ib : Nat} {res tot : Table} (hi : ia < a.length) (hj : ib < b.length)
    {jc : Nat × Nat} (hjc : Outcome.read jcs 0 = .ok jc)
    (hI : res ++ sel jcs false (a.drop ia) (b.drop ib) = tot) (hf : a.length + b.length < fuel) :
    ∃ r, equalLoop fuel a b jcs ia ib res = .ok r ∧ r.2.2.2 ++ sel jcs false (a.drop r.2.1) (b.drop r.2.2.1) = tot ∧
      (col jc.2 b[ib] = col jc.1 a[ia] → ia + ib < r.2.1 + r.2.2.1) ∧ ia ≤ r.2.1 ∧ ib ≤ r.2.2.1 ∧ r.2.1 ≤ a.length ∧ r.2.2.1 ≤ b.length ∧
      (r.1 = true → r.2.1 = a.length ∨ r.2.2.1 = b.length) := by
  have hjm : jc ∈ jcs := by
    obtain ⟨jc', hm, hr⟩ := read_head h
    rw [hjc] at hr
    cases hr
    exact hm
  unfold equalLoop
  refine loop_spec
    (fun s => ia + ib ≤ s.1 + s.2.1 ∧ ia ≤ s.1 ∧ ib ≤ s.2.1 ∧ s.1 < a.length ∧ s.2.1 < b.length ∧
      s.2.2 ++ sel jcs false (a.drop s.1) (b.drop s.2.1) = tot)
    _ (fun s => (a.length - s.1) + (b.length - s.2.1)) ?_ fuel (ia, ib, res)
    ⟨Nat.le_refl _, Nat.le_refl _, Nat.le_refl _, hi, hj, hI⟩ (by simp only; omega)
  rintro ⟨i, j, rs⟩ ⟨h0, h0a, h0b, h1, h2, h3⟩
  simp only at h0 h0a h0b h1 h2 h3
  simp only [hjc, at_ok (fun r hr => h.wa r hr jc hjm) h1, at_ok (fun r hr => h.wb r hr jc hjm) h2, Outcome.bind]
  by_cases he : col jc.2 b[j] = col jc.1 a[i]
  · rw [if_pos he]
    obtain ⟨o, ho, p1, p2, p3⟩ := tail_spec h hjc h1 h2 he
    simp only [ho]
    cases o with
    | eq =>
      simp only
      have hI' : rs ++ sel jcs false (a.drop (i + 1)) (b.drop j) = tot := by
        rw [← h3, sel_eq h1 h2 (p3 rfl)]; rfl
      by_cases hend : i + 1 ≥ a.length
      · rw [if_pos hend]
        exact .inr ⟨_, rfl, hI', by simp only; omega, by simp only; omega, by simp only; omega, by simp only; omega,
          by simp only; omega, by simp only; omega⟩
      · rw [if_neg hend]
        exact .inl ⟨_, rfl, ⟨by simp only; omega, by simp only; omega, h0b, by simp only; omega, h2, hI'⟩,
          by simp only; omega⟩
    | lt =>
      simp only [Outcome.read_lt _ _ h1]
      have hI' : (rs ++ [a[i]]) ++ sel jcs false (a.drop (i + 1)) (b.drop j) = tot := by
        rw [← h3, sel_lt h h1 h2 (p1 rfl)]; simp
      by_cases hend : i + 1 ≥ a.length
      · rw [if_pos hend]
        exact .inr ⟨_, rfl, hI', by simp only; omega, by simp only; omega, by simp only; omega, by simp only; omega,
          by simp only; omega, by simp only; omega⟩
      · rw [if_neg hend]
        exact .inl ⟨_, rfl, ⟨by simp only; omega, by simp only; omega, h0b, by simp only; omega, h2, hI'⟩,
          by simp only; omega⟩
    | gt =>
      simp only
      have hI' : rs ++ sel jcs false (a.drop i) (b.drop (j + 1)) = tot := by
        rw [← h3, sel_gt h h1 h2 (p2 rfl)]
      by_cases hend : j + 1 ≥ b.length
      · rw [if_pos hend]
        exact .inr ⟨_, rfl, hI', by simp only; omega, by simp only; omega, by simp only; omega, by simp only; omega,
          by simp only; omega, by simp only; omega⟩
      · rw [if_neg hend]
        exact .inl ⟨_, rfl, ⟨by simp only; omega, h0a, by simp only; omega, h1, by simp only; omega, hI'⟩,
          by simp only; omega⟩
  · rw [if_neg he]
    refine .inr ⟨_, rfl, h3, ?_, h0a, h0b, by simp only; omega, by simp only; omega, by simp⟩
    simp only
    intro heq
    by_contra hge
    have e1 : i = ia := by omega
    have e2 : j = ib := by omega
    subst e1; subst e2
    exact he heq

theorem main_spec (h : Input a b jcs) (hf : a.length + b.length < fuel) :
    ∃ r, main fuel a b jcs = .ok r ∧ r.2 ++ a.drop r.1 = sel jcs false a b := by
  obtain ⟨jc, hjm, hjc⟩ := read_head h
  unfold main
  refine loop_spec (fun s => s.1 ≤ a.length ∧ s.2.1 ≤ b.length ∧
      s.2.2 ++ sel jcs false (a.drop s.1) (b.drop s.2.1) = sel jcs false a b)
    _ (fun s => (a.length - s.1) + (b.length - s.2.1)) ?_ fuel (0, 0, []) ⟨by simp, by simp, by simp⟩ (by simp only; omega)
  rintro ⟨i, j, res⟩ ⟨h1, h2, h3⟩
  simp only at h1 h2 h3
  simp only
  have hfin : ∀ {i j : Nat} {res : Table}, res ++ sel jcs false (a.drop i) (b.drop j) = sel jcs false a b →
      i ≥ a.length ∨ j ≥ b.length → res ++ a.drop i = sel jcs false a b := by
    intro i j res hs he
    rw [← hs]
    congr 1
    rcases he with he | he
    · rw [List.drop_eq_nil_of_le he]; rfl
    · rw [List.drop_eq_nil_of_le he, (sel_nil_right _).2]
  by_cases hc : i < a.length ∧ j < b.length
  · rw [if_pos hc]
    obtain ⟨⟨fA, iA, rA⟩, e1, p1, p2, p3, p4⟩ := skipA_spec (fuel := fuel) h hc.1 hc.2 h3 (by omega)
    simp only at p1 p2 p3 p4
    simp only [e1, Outcome.bind]
    cases fA with
    | true =>
      simp only [if_true]
      exact .inr ⟨_, rfl, hfin p1 (.inl (by rw [p3 rfl]))⟩
    | false =>
      simp only [Bool.false_eq_true, if_false]
      obtain ⟨hiA, hnA⟩ := p4 rfl
      obtain ⟨⟨fB, jB⟩, e2, q1, q2, q3, q4⟩ := skipB_spec (fuel := fuel) h hiA hc.2 (by omega)
      simp only at q1 q2 q3 q4
      simp only [e2]
      rw [q1] at p1
      cases fB with
      | true =>
        simp only [if_true]
        exact .inr ⟨_, rfl, hfin p1 (.inr (by rw [q3 rfl]))⟩
      | false =>
        simp only [Bool.false_eq_true, if_false]
        obtain ⟨hjB, hnB⟩ := q4 rfl
        obtain ⟨⟨fE, iE, jE, rE⟩, e4, d1, d2, d2a, d2b, d3, d4, d5⟩ :=
          equalLoop_spec (fuel := fuel) h hiA hjB hjc p1 (by omega)
        simp only at d1 d2 d2a d2b d3 d4 d5
        simp only [e4]
        cases fE with
        | true =>
          simp only [if_true]
          exact .inr ⟨_, rfl, hfin d1 (by rcases d5 rfl with e | e <;> omega)⟩
        | false =>
          simp only [Bool.false_eq_true, if_false]
          refine .inl ⟨_, rfl, ⟨d3, d4, d1⟩, ?_⟩
          simp only
          by_cases hjj : jB = j
          · subst hjj
            have := hnA jc hjc
            have := hnB jc hjc
            have := d2 (by omega)
            omega
          · omega
  · rw [if_neg hc]
    exact .inr ⟨_, rfl, hfin h3 (by omega)⟩

/-! ### The two-column filter -/

namespace Filter
variable {v f : Table} {fc1 fc2 : Nat}

/-- The join columns of the two-column filter. -/
abbrev jc2 (fc1 fc2 : Nat) : JoinCols := [(fc1, 0), (fc2, 1)]

theorem skipV_spec (h : Input v f (jc2 fc1 fc2)) {i j : Nat} (hi : i < v.length) (hj : j < f.length) (hf : v.length < fuel) :
    ∃ o, skipV fuel v fc1 f i j = .ok o ∧
      (o = none → sel (jc2 fc1 fc2) true (v.drop i) (f.drop j) = []) ∧
      (∀ i', o = some i' → i ≤ i' ∧ ∃ hi' : i' < v.length, col 0 f[j] ≤ col fc1 v[i'] ∧
        sel (jc2 fc1 fc2) true (v.drop i) (f.drop j) = sel (jc2 fc1 fc2) true (v.drop i') (f.drop j)) := by
  have w1 : ∀ r ∈ v, fc1 < r.length := fun r hr => h.wa r hr (fc1, 0) (by simp)
  have w2 : ∀ r ∈ f, 0 < r.length := fun r hr => h.wb r hr (fc1, 0) (by simp)
  unfold skipV
  refine loop_spec
    (fun i' => i ≤ i' ∧ i' < v.length ∧
      sel (jc2 fc1 fc2) true (v.drop i) (f.drop j) = sel (jc2 fc1 fc2) true (v.drop i') (f.drop j))
    _ (fun i' => v.length - i') ?_ fuel i ⟨Nat.le_refl _, hi, rfl⟩ (by omega)
  rintro i' ⟨h1, h2, h4⟩
  simp only [at_ok w1 h2, at_ok w2 hj, Outcome.bind]
  by_cases hlt : col fc1 v[i'] < col 0 f[j]
  · rw [if_pos hlt]
    have hs := sel_lt h h2 hj (List.Lex.rel hlt) true
    simp only [if_true, List.nil_append] at hs
    by_cases hend : i' + 1 ≥ v.length
    · rw [if_pos hend]
      refine .inr ⟨none, rfl, ?_, by simp⟩
      intro _
      rw [h4, hs, List.drop_eq_nil_of_le hend]
      rfl
    · rw [if_neg hend]
      exact .inl ⟨i' + 1, rfl, ⟨by omega, by omega, by rw [h4, hs]⟩, by omega⟩
  · rw [if_neg hlt]
    refine .inr ⟨some i', rfl, by simp, ?_⟩
    intro i'' hi''
    cases hi''
    exact ⟨h1, h2, by omega, h4⟩

theorem skipF_spec (h : Input v f (jc2 fc1 fc2)) {i j : Nat} (hi : i < v.length) (hj : j < f.length) (hf : f.length < fuel) :
    ∃ o, skipF fuel v fc1 f i j = .ok o ∧
      (o = none → sel (jc2 fc1 fc2) true (v.drop i) (f.drop j) = []) ∧
      (∀ j', o = some j' → j ≤ j' ∧ ∃ hj' : j' < f.length, col fc1 v[i] ≤ col 0 f[j'] ∧
        sel (jc2 fc1 fc2) true (v.drop i) (f.drop j) = sel (jc2 fc1 fc2) true (v.drop i) (f.drop j')) := by
  have w1 : ∀ r ∈ v, fc1 < r.length := fun r hr => h.wa r hr (fc1, 0) (by simp)
  have w2 : ∀ r ∈ f, 0 < r.length := fun r hr => h.wb r hr (fc1, 0) (by simp)
  unfold skipF
  refine loop_spec
    (fun j' => j ≤ j' ∧ j' < f.length ∧
      sel (jc2 fc1 fc2) true (v.drop i) (f.drop j) = sel (jc2 fc1 fc2) true (v.drop i) (f.drop j'))
    _ (fun j' => f.length - j') ?_ fuel j ⟨Nat.le_refl _, hj, rfl⟩ (by omega)
  rintro j' ⟨h1, h2, h4⟩
  simp only [at_ok w1 hi, at_ok w2 h2, Outcome.bind]
  by_cases hlt : col 0 f[j'] < col fc1 v[i]
  · rw [if_pos hlt]
    have hs := sel_gt h hi h2 (List.Lex.rel hlt) true
    by_cases hend : j' + 1 ≥ f.length
    · rw [if_pos hend]
      refine .inr ⟨none, rfl, ?_, by simp⟩
      intro _
      rw [h4, hs, List.drop_eq_nil_of_le hend, (sel_nil_right _).1]
    · rw [if_neg hend]
      exact .inl ⟨j' + 1, rfl, ⟨by omega, by omega, by rw [h4, hs]⟩, by omega⟩
  · rw [if_neg hlt]
    refine .inr ⟨some j', rfl, by simp, ?_⟩
    intro j'' hj''
    cases hj''
    exact ⟨h1, h2, by omega, h4⟩

theorem equalLoop_spec (h : Input v f (jc2 fc1 fc2)) {i j : Nat} {res tot : Table} (hi : i < v.length) (hj : j < f.length)
    (hI : res ++ sel (jc2 fc1 fc2) true (v.drop i) (f.drop j) = tot) (hf : v.length + f.length < fuel) :
    ∃ r, equalLoop fuel v fc1 fc2 f i j res = .ok r ∧
      r.2.2 ++ sel (jc2 fc1 fc2) true (v.drop r.1) (f.drop r.2.1) = tot ∧
      (col fc1 v[i] = col 0 f[j] → i + j < r.1 + r.2.1) ∧ i ≤ r.1 ∧ j ≤ r.2.1 ∧ r.1 ≤ v.length ∧ r.2.1 ≤ f.length := by
  have w1 : ∀ r ∈ v, fc1 < r.length := fun r hr => h.wa r hr (fc1, 0) (by simp)
  have w2 : ∀ r ∈ f, 0 < r.length := fun r hr => h.wb r hr (fc1, 0) (by simp)
  have w3 : ∀ r ∈ v, fc2 < r.length := fun r hr => h.wa r hr (fc2, 1) (by simp)
  have w4 : ∀ r ∈ f, 1 < r.length := fun r hr => h.wb r hr (fc2, 1) (by simp)
  unfold equalLoop
  refine loop_spec
    (fun s => i ≤ s.1 ∧ j ≤ s.2.1 ∧ s.1 < v.length ∧ s.2.1 < f.length ∧
      s.2.2 ++ sel (jc2 fc1 fc2) true (v.drop s.1) (f.drop s.2.1) = tot)
    _ (fun s => (v.length - s.1) + (f.length - s.2.1)) ?_ fuel (i, j, res)
    ⟨Nat.le_refl _, Nat.le_refl _, hi, hj, hI⟩ (by simp only; omega)
  rintro ⟨i', j', rs⟩ ⟨h0a, h0b, h1, h2, h3⟩
  simp only at h0a h0b h1 h2 h3
  simp only [at_ok w1 h1, at_ok w2 h2, at_ok w3 h1, at_ok w4 h2, Outcome.bind]
  by_cases he : col fc1 v[i'] = col 0 f[j']
  · rw [if_pos he]
    by_cases he2 : col fc2 v[i'] = col 1 f[j']
    · rw [if_pos he2]
      have hI' : (rs ++ [v[i']]) ++ sel (jc2 fc1 fc2) true (v.drop (i' + 1)) (f.drop j') = tot := by
        rw [← h3, sel_eq (jcs := jc2 fc1 fc2) h1 h2 (by simp only [ka, kb, List.map_cons, List.map_nil, he, he2])]
        simp
      simp only [Outcome.read_lt _ _ h1]
      by_cases hend : i' + 1 ≥ v.length
      · rw [if_pos hend]
        exact .inr ⟨_, rfl, hI', by simp only; omega, by simp only; omega, by simp only; omega, by simp only; omega,
          by simp only; omega⟩
      · rw [if_neg hend]
        exact .inl ⟨_, rfl, ⟨by simp only; omega, h0b, by simp only; omega, h2, hI'⟩, by simp only; omega⟩
    · rw [if_neg he2]
      by_cases hlt : col fc2 v[i'] < col 1 f[j']
      · rw [if_pos hlt]
        have hI' : rs ++ sel (jc2 fc1 fc2) true (v.drop (i' + 1)) (f.drop j') = tot := by
          rw [← h3, sel_lt h h1 h2 (by
            simp only [ka, kb, List.map_cons, List.map_nil, he]
            exact List.Lex.cons (List.Lex.rel hlt))]
          simp
        by_cases hend : i' + 1 ≥ v.length
        · rw [if_pos hend]
          exact .inr ⟨_, rfl, hI', by simp only; omega, by simp only; omega, by simp only; omega, by simp only; omega,
            by simp only; omega⟩
        · rw [if_neg hend]
          exact .inl ⟨_, rfl, ⟨by simp only; omega, h0b, by simp only; omega, h2, hI'⟩, by simp only; omega⟩
      · rw [if_neg hlt]
        have hI' : rs ++ sel (jc2 fc1 fc2) true (v.drop i') (f.drop (j' + 1)) = tot := by
          rw [← h3, sel_gt h h1 h2 (by
            simp only [ka, kb, List.map_cons, List.map_nil, he]
            exact List.Lex.cons (List.Lex.rel (by omega)))]
        by_cases hend : j' + 1 ≥ f.length
        · rw [if_pos hend]
          exact .inr ⟨_, rfl, hI', by simp only; omega, by simp only; omega, by simp only; omega, by simp only; omega,
            by simp only; omega⟩
        · rw [if_neg hend]
          exact .inl ⟨_, rfl, ⟨h0a, by simp only; omega, h1, by simp only; omega, hI'⟩, by simp only; omega⟩
  · rw [if_neg he]
    refine .inr ⟨_, rfl, h3, ?_, h0a, h0b, by simp only; omega, by simp only; omega⟩
    simp only
    intro heq
    by_contra hge
    have e1 : i' = i := by omega
    have e2 : j' = j := by omega
    subst e1; subst e2
    exact he heq

theorem eq_ok_of_exists {α : Type} {x : Outcome α} {t : α} (h : ∃ r, x = .ok r ∧ r = t) : x = .ok t := by
  obtain ⟨r, hr, rfl⟩ := h
  exact hr

theorem filter_spec (h : Input v f (jc2 fc1 fc2)) (hf : v.length + f.length < fuel) :
    filter fuel v fc1 fc2 f = .ok (sel (jc2 fc1 fc2) true v f) := by
  unfold filter
  by_cases he : v.length = 0 ∨ f.length = 0
  · rw [if_pos he]
    rcases he with he | he
    · rw [List.length_eq_zero_iff.mp he]; rfl
    · rw [List.length_eq_zero_iff.mp he, (sel_nil_right _).1]
  · rw [if_neg he]
    apply eq_ok_of_exists
    refine loop_spec (fun (s : Nat × Nat × Table) => s.1 ≤ v.length ∧ s.2.1 ≤ f.length ∧
        s.2.2 ++ sel (jc2 fc1 fc2) true (v.drop s.1) (f.drop s.2.1) = sel (jc2 fc1 fc2) true v f)
      _ (fun s => (v.length - s.1) + (f.length - s.2.1)) ?_ fuel (0, 0, []) ⟨by simp, by simp, by simp⟩
      (by simp only; omega)
    rintro ⟨i, j, res⟩ ⟨h1, h2, h3⟩
    simp only at h1 h2 h3
    simp only
    by_cases hc : i < v.length ∧ j < f.length
    · rw [if_pos hc]
      obtain ⟨oA, e1, p1, p2⟩ := skipV_spec (fuel := fuel) h hc.1 hc.2 (by omega)
      simp only [e1, Outcome.bind]
      cases oA with
      | none => exact .inr ⟨_, rfl, by rw [← h3, p1 rfl, List.append_nil]⟩
      | some iA =>
        obtain ⟨q1, hiA, q2, q3⟩ := p2 iA rfl
        obtain ⟨oB, e2, r1, r2⟩ := skipF_spec (fuel := fuel) h hiA hc.2 (by omega)
        simp only [e2]
        rw [q3] at h3
        cases oB with
        | none => exact .inr ⟨_, rfl, by rw [← h3, r1 rfl, List.append_nil]⟩
        | some jB =>
          obtain ⟨s1, hjB, s2, s3⟩ := r2 jB rfl
          rw [s3] at h3
          obtain ⟨⟨iE, jE, rE⟩, e3, d1, d2, d3, d4, d5, d6⟩ := equalLoop_spec (fuel := fuel) h hiA hjB h3 (by omega)
          simp only at d1 d2 d3 d4 d5 d6
          simp only [e3]
          refine .inl ⟨_, rfl, ⟨d5, d6, d1⟩, ?_⟩
          simp only
          by_cases hjj : jB = j
          · subst hjj
            have := d2 (by omega)
            omega
          · omega
    · rw [if_neg hc]
      refine .inr ⟨_, rfl, ?_⟩
      rw [← h3]
      by_cases hi : i < v.length
      · rw [List.drop_eq_nil_of_le (as := f) (i := j) (by omega), (sel_nil_right _).1, List.append_nil]
      · rw [List.drop_eq_nil_of_le (as := v) (i := i) (by omega)]; simp [sel]

end Filter

end Verif.Minus
