import Verif.Model.MultiJoin
import Verif.Lemmas.Merge
import Verif.Lemmas.Join
import Mathlib.Data.List.Lex
import Mathlib.Order.Nat
/-
Correctness of the loops of `MultiColumnJoin` and `OptionalJoin`.
-/
namespace Verif.MultiJoin
open Merge
open Verif.Join (col at_ok)

abbrev ka (jcs : JoinCols) (x : Row) : List Nat := jcs.map fun jc => col jc.1 x
abbrev kb (jcs : JoinCols) (y : Row) : List Nat := jcs.map fun jc => col jc.2 y

/-- Assumptions on the input. -/
structure Input (a b : Table) (jcs : JoinCols) : Prop where
  ne : jcs ≠ []
  wa : ∀ r ∈ a, ∀ jc ∈ jcs, jc.1 < r.length
  wb : ∀ r ∈ b, ∀ jc ∈ jcs, jc.2 < r.length
  sa : a.Pairwise fun x y => ka jcs x ≤ ka jcs y
  sb : b.Pairwise fun x y => kb jcs x ≤ kb jcs y

/-- The outputs, for inputs on which no undefined behaviour occurs. -/
structure Output (a b : Table) (pair : Row → Row → Outcome Row) (padA padB : Row → Outcome Table)
    (jcs : JoinCols) (pairF : Row → Row → Row) (padAF padBF : Row → Table) (kr : Row → List Nat) : Prop where
  hp : ∀ x ∈ a, ∀ y ∈ b, pair x y = .ok (pairF x y)
  hA : ∀ x ∈ a, padA x = .ok (padAF x)
  hB : ∀ y ∈ b, padB y = .ok (padBF y)
  kp : ∀ x ∈ a, ∀ y ∈ b, kr (pairF x y) = ka jcs x
  kA : ∀ x ∈ a, ∀ r ∈ padAF x, kr r = ka jcs x
  kB : ∀ y ∈ b, ∀ r ∈ padBF y, kr r = kb jcs y

section cmp
variable {a b : Table} {ia ib : Nat}

theorem compareRows_spec (hi : ia < a.length) (hj : ib < b.length) (jcs : JoinCols)
    (wa : ∀ r ∈ a, ∀ jc ∈ jcs, jc.1 < r.length) (wb : ∀ r ∈ b, ∀ jc ∈ jcs, jc.2 < r.length) :
    ∃ o, compareRows a b ia ib jcs = .ok o ∧ (o = .lt → ka jcs a[ia] < kb jcs b[ib]) ∧
      (o = .gt → kb jcs b[ib] < ka jcs a[ia]) ∧ (o = .eq → ka jcs a[ia] = kb jcs b[ib]) := by
  induction jcs with
  | nil => exact ⟨.eq, rfl, by simp, by simp, by simp⟩
  | cons jc jcs ih =>
    have h1 := at_ok (fun r hr => wa r hr jc List.mem_cons_self) hi
    have h2 := at_ok (fun r hr => wb r hr jc List.mem_cons_self) hj
    obtain ⟨o, ho, p1, p2, p3⟩ := ih (fun r hr jc hjc => wa r hr jc (List.mem_cons_of_mem _ hjc))
      (fun r hr jc hjc => wb r hr jc (List.mem_cons_of_mem _ hjc))
    simp only [compareRows, h1, h2, Outcome.bind, ka, kb, List.map_cons]
    by_cases hlt : col jc.1 a[ia] < col jc.2 b[ib]
    · rw [if_pos hlt]
      exact ⟨.lt, rfl, fun _ => List.Lex.rel hlt, by simp, by simp⟩
    · rw [if_neg hlt]
      by_cases hgt : col jc.2 b[ib] < col jc.1 a[ia]
      · rw [if_pos hgt]
        exact ⟨.gt, rfl, by simp, fun _ => List.Lex.rel hgt, by simp⟩
      · rw [if_neg hgt]
        have he : col jc.1 a[ia] = col jc.2 b[ib] := by omega
        refine ⟨o, ho, ?_, ?_, ?_⟩
        · intro h; rw [he]; exact List.Lex.cons (p1 h)
        · intro h; rw [he]; exact List.Lex.cons (p2 h)
        · intro h; rw [he]; congr 1; exact p3 h

theorem stillMatchB_spec (hi : ia < a.length) (jcs : JoinCols) (hne : jcs ≠ [])
    (wa : ∀ r ∈ a, ∀ jc ∈ jcs, jc.1 < r.length) (wb : ∀ r ∈ b, ∀ jc ∈ jcs, jc.2 < r.length) :
    ∃ m, stillMatchB a b ia ib jcs = .ok m ∧
      (m = true ↔ ∃ h : ib < b.length, ka jcs a[ia] = kb jcs b[ib]) := by
  by_cases hj : ib < b.length
  · clear hne
    induction jcs with
    | nil => exact ⟨true, rfl, by simp [hj]⟩
    | cons jc jcs ih =>
      have h1 := at_ok (fun r hr => wa r hr jc List.mem_cons_self) hi
      have h2 := at_ok (fun r hr => wb r hr jc List.mem_cons_self) hj
      obtain ⟨m, hm, hi'⟩ := ih (fun r hr jc hjc => wa r hr jc (List.mem_cons_of_mem _ hjc))
        (fun r hr jc hjc => wb r hr jc (List.mem_cons_of_mem _ hjc))
      simp only [stillMatchB, h1, h2, Outcome.bind, ka, kb, List.map_cons]
      rw [if_neg (by omega)]
      by_cases he : col jc.1 a[ia] = col jc.2 b[ib]
      · rw [if_neg (by simpa using he)]
        refine ⟨m, hm, hi'.trans ?_⟩
        constructor
        · rintro ⟨g, e⟩; exact ⟨g, List.cons_eq_cons.mpr ⟨he, e⟩⟩
        · rintro ⟨g, e⟩; exact ⟨g, (List.cons_eq_cons.mp e).2⟩
      · rw [if_pos he]
        refine ⟨false, rfl, by simp only [Bool.false_eq_true, false_iff]; rintro ⟨g, e⟩; exact he (List.cons_eq_cons.mp e).1⟩
  · cases jcs with
    | nil => exact absurd rfl hne
    | cons jc jcs =>
      refine ⟨false, ?_, by simp [hj]⟩
      simp only [stillMatchB]
      rw [if_pos (by omega)]

theorem stillMatchA_spec (hj : ib < b.length) (jcs : JoinCols) (hne : jcs ≠ [])
    (wa : ∀ r ∈ a, ∀ jc ∈ jcs, jc.1 < r.length) (wb : ∀ r ∈ b, ∀ jc ∈ jcs, jc.2 < r.length) :
    ∃ m, stillMatchA a b ia ib jcs = .ok m ∧
      (m = true ↔ ∃ h : ia < a.length, ka jcs a[ia] = kb jcs b[ib]) := by
  by_cases hi : ia < a.length
  · clear hne
    induction jcs with
    | nil => exact ⟨true, rfl, by simp [hi]⟩
    | cons jc jcs ih =>
      have h1 := at_ok (fun r hr => wa r hr jc List.mem_cons_self) hi
      have h2 := at_ok (fun r hr => wb r hr jc List.mem_cons_self) hj
      obtain ⟨m, hm, hi'⟩ := ih (fun r hr jc hjc => wa r hr jc (List.mem_cons_of_mem _ hjc))
        (fun r hr jc hjc => wb r hr jc (List.mem_cons_of_mem _ hjc))
      simp only [stillMatchA, h1, h2, Outcome.bind, ka, kb, List.map_cons]
      rw [if_neg (by omega)]
      by_cases he : col jc.1 a[ia] = col jc.2 b[ib]
      · rw [if_neg (by simpa using he)]
        refine ⟨m, hm, hi'.trans ?_⟩
        constructor
        · rintro ⟨g, e⟩; exact ⟨g, List.cons_eq_cons.mpr ⟨he, e⟩⟩
        · rintro ⟨g, e⟩; exact ⟨g, (List.cons_eq_cons.mp e).2⟩
      · rw [if_pos he]
        refine ⟨false, rfl, by simp only [Bool.false_eq_true, false_iff]; rintro ⟨g, e⟩; exact he (List.cons_eq_cons.mp e).1⟩
  · cases jcs with
    | nil => exact absurd rfl hne
    | cons jc jcs =>
      refine ⟨false, ?_, by simp [hi]⟩
      simp only [stillMatchA]
      rw [if_pos (by omega)]
end cmp

section
variable {fuel : Nat} {a b : Table} {jcs : JoinCols} {pair : Row → Row → Outcome Row} {padA padB : Row → Outcome Table}
  {pairF : Row → Row → Row} {padAF padBF : Row → Table} {kr : Row → List Nat}

abbrev L (jcs : JoinCols) (pairF : Row → Row → Row) (padAF : Row → Table) (as bs : Table) : Table :=
  left (ka jcs) (kb jcs) pairF padAF as bs
abbrev R (jcs : JoinCols) (padBF : Row → Table) (as bs : Table) : Table := right (ka jcs) (kb jcs) padBF as bs

/-- The rows written so far are sorted and not larger than what is still to come. -/
def Ord (a b : Table) (jcs : JoinCols) (kr : Row → List Nat) (ia ib : Nat) (res : Table) : Prop :=
  (res.Pairwise fun r s => kr r ≤ kr s) ∧ (∀ r ∈ res, ∀ x ∈ a.drop ia, kr r ≤ ka jcs x) ∧
    ∀ r ∈ res, ∀ y ∈ b.drop ib, kr r ≤ kb jcs y

theorem pairwise_append_const {res p : Table} {k : List Nat} (h : res.Pairwise fun r s => kr r ≤ kr s)
    (h1 : ∀ r ∈ res, kr r ≤ k) (h2 : ∀ r ∈ p, kr r = k) : (res ++ p).Pairwise fun r s => kr r ≤ kr s := by
  rw [List.pairwise_append]
  refine ⟨h, ?_, ?_⟩
  · rw [List.pairwise_iff_forall_sublist]
    intro r s hrs
    have h3 := hrs.subset List.mem_cons_self
    have h4 := hrs.subset (List.mem_cons_of_mem _ List.mem_cons_self)
    rw [h2 r h3, h2 s h4]
  · intro r hr s hs
    rw [h2 s hs]
    exact h1 r hr

/-- The invariant of the outer loop. -/
def Inv (a b : Table) (jcs : JoinCols) (pairF : Row → Row → Row) (padAF padBF : Row → Table) (kr : Row → List Nat)
    (ia ib : Nat) (res : Table) : Prop :=
  Ord a b jcs kr ia ib res ∧ ia ≤ a.length ∧ ib ≤ b.length ∧ ∃ ra rb, Shuffle ra rb res ∧
    ra ++ L jcs pairF padAF (a.drop ia) (b.drop ib) = L jcs pairF padAF a b ∧
    rb ++ R jcs padBF (a.drop ia) (b.drop ib) = R jcs padBF a b

theorem stepA (h : Input a b jcs) (ho : Output a b pair padA padB jcs pairF padAF padBF kr) {ia ib : Nat} {res : Table} (hi : ia < a.length) (hj : ib < b.length)
    (hlt : ka jcs a[ia] < kb jcs b[ib]) (hI : Inv a b jcs pairF padAF padBF kr ia ib res) :
    Inv a b jcs pairF padAF padBF kr (ia + 1) ib (res ++ padAF a[ia]) := by
  obtain ⟨⟨o1, o2, o3⟩, _, h2, ra, rb, hs, hL, hR⟩ := hI
  have hO : Ord a b jcs kr (ia + 1) ib (res ++ padAF a[ia]) := by
    have hk := ho.kA a[ia] (List.getElem_mem hi)
    have hai : a[ia] ∈ a.drop ia := by rw [drop_eq hi]; exact List.mem_cons_self
    refine ⟨pairwise_append_const o1 (fun r hr => o2 r hr _ hai) hk, ?_, ?_⟩
    · intro r hr x hx
      rcases List.mem_append.mp hr with hr | hr
      · exact o2 r hr x (mem_drop_of_le (by omega) hx)
      · rw [hk r hr]; exact sorted_le h.sa hi (mem_drop_of_le (by omega) hx)
    · intro r hr y hy
      rcases List.mem_append.mp hr with hr | hr
      · exact o3 r hr y hy
      · rw [hk r hr]; exact (lt_of_lt_of_le hlt (sorted_le h.sb hj hy)).le
  have hne : ∀ y ∈ b.drop ib, kb jcs y ≠ ka jcs a[ia] := by
    intro y hy
    exact (lt_of_lt_of_le hlt (sorted_le h.sb hj hy)).ne'
  refine ⟨hO, hi, h2, ra ++ padAF a[ia], rb, hs.appendL _, ?_, ?_⟩
  · rw [← hL, drop_eq hi]
    simp only [L]
    rw [left_cons, row_none hne, List.append_assoc]
  · rw [← hR, drop_eq hi]
    congr 1
    symm
    exact right_skip_left (xs := [a[ia]]) (by
      intro x hx y hy
      rw [List.mem_singleton.mp hx]
      exact hne y hy)

theorem stepB (h : Input a b jcs) (ho : Output a b pair padA padB jcs pairF padAF padBF kr) {ia ib : Nat} {res : Table} (hi : ia < a.length) (hj : ib < b.length)
    (hlt : kb jcs b[ib] < ka jcs a[ia]) (hI : Inv a b jcs pairF padAF padBF kr ia ib res) :
    Inv a b jcs pairF padAF padBF kr ia (ib + 1) (res ++ padBF b[ib]) := by
  obtain ⟨⟨o1, o2, o3⟩, h1, _, ra, rb, hs, hL, hR⟩ := hI
  have hO : Ord a b jcs kr ia (ib + 1) (res ++ padBF b[ib]) := by
    have hk := ho.kB b[ib] (List.getElem_mem hj)
    have hbi : b[ib] ∈ b.drop ib := by rw [drop_eq hj]; exact List.mem_cons_self
    refine ⟨pairwise_append_const o1 (fun r hr => o3 r hr _ hbi) hk, ?_, ?_⟩
    · intro r hr x hx
      rcases List.mem_append.mp hr with hr | hr
      · exact o2 r hr x hx
      · rw [hk r hr]; exact (lt_of_lt_of_le hlt (sorted_le h.sa hi hx)).le
    · intro r hr y hy
      rcases List.mem_append.mp hr with hr | hr
      · exact o3 r hr y (mem_drop_of_le (by omega) hy)
      · rw [hk r hr]; exact sorted_le h.sb hj (mem_drop_of_le (by omega) hy)
  have hne : ∀ x ∈ a.drop ia, ka jcs x ≠ kb jcs b[ib] := by
    intro x hx
    exact (lt_of_lt_of_le hlt (sorted_le h.sa hi hx)).ne'
  refine ⟨hO, h1, hj, ra, rb ++ padBF b[ib], hs.appendR _, ?_, ?_⟩
  · rw [← hL, drop_eq hj]
    congr 1
    symm
    exact left_skip_right (ys := [b[ib]]) (by
      intro x hx y hy
      rw [List.mem_singleton.mp hy]
      exact (hne x hx).symm)
  · rw [← hR, drop_eq hj]
    simp only [R]
    rw [right_cons, if_neg (by rintro ⟨x, hx, he⟩; exact hne x hx he), List.append_assoc]

theorem key_lt_of_head {jc : Nat × Nat} {x y : Row} (hjc : Outcome.read jcs 0 = .ok jc) :
    (col jc.1 x < col jc.2 y → ka jcs x < kb jcs y) ∧ (col jc.2 y < col jc.1 x → kb jcs y < ka jcs x) := by
  cases jcs with
  | nil => simp [Outcome.read] at hjc
  | cons c cs =>
    have : c = jc := by simpa [Outcome.read] using hjc
    subst this
    exact ⟨fun h => List.Lex.rel h, fun h => List.Lex.rel h⟩

theorem read_head (h : Input a b jcs) : ∃ jc ∈ jcs, Outcome.read jcs 0 = .ok jc := by
  cases hj : jcs with
  | nil => exact absurd hj h.ne
  | cons c cs => exact ⟨c, List.mem_cons_self, rfl⟩

theorem skipA_spec (h : Input a b jcs) (ho : Output a b pair padA padB jcs pairF padAF padBF kr) {ia ib : Nat} {res : Table}
    (hi : ia < a.length) (hj : ib < b.length) (hI : Inv a b jcs pairF padAF padBF kr ia ib res) (hf : a.length < fuel) :
    ∃ r, skipA fuel a b jcs padA ia ib res = .ok r ∧ Inv a b jcs pairF padAF padBF kr r.2.1 ib r.2.2 ∧ ia ≤ r.2.1 ∧
      (r.1 = true → r.2.1 = a.length) ∧ (r.1 = false → r.2.1 < a.length) := by
  obtain ⟨jc, hjm, hjc⟩ := read_head h
  unfold skipA
  refine loop_spec (fun s => ia ≤ s.1 ∧ s.1 < a.length ∧ Inv a b jcs pairF padAF padBF kr s.1 ib s.2)
    _ (fun s => a.length - s.1) ?_ fuel (ia, res) ⟨Nat.le_refl _, hi, hI⟩ (by simp only; omega)
  rintro ⟨i, rs⟩ ⟨h1, h2, h3⟩
  simp only at h1 h2 h3
  simp only [hjc, at_ok (fun r hr => h.wa r hr jc hjm) h2, at_ok (fun r hr => h.wb r hr jc hjm) hj, Outcome.bind,
    Outcome.read_lt _ _ h2, ho.hA _ (List.getElem_mem h2)]
  by_cases hlt : col jc.1 a[i] < col jc.2 b[ib]
  · rw [if_pos hlt]
    have hI' := stepA h ho h2 hj ((key_lt_of_head hjc).1 hlt) h3
    by_cases hend : i + 1 ≥ a.length
    · rw [if_pos hend]
      right
      exact ⟨_, rfl, hI', by simp only; omega, by simp only; omega, by simp⟩
    · rw [if_neg hend]
      left
      exact ⟨_, rfl, ⟨by simp only; omega, by simp only; omega, hI'⟩, by simp only; omega⟩
  · rw [if_neg hlt]
    right
    exact ⟨_, rfl, h3, h1, by simp, by simp only; omega⟩

theorem skipB_spec (h : Input a b jcs) (ho : Output a b pair padA padB jcs pairF padAF padBF kr) {ia ib : Nat} {res : Table}
    (hi : ia < a.length) (hj : ib < b.length) (hI : Inv a b jcs pairF padAF padBF kr ia ib res) (hf : b.length < fuel) :
    ∃ r, skipB fuel a b jcs padB ia ib res = .ok r ∧ Inv a b jcs pairF padAF padBF kr ia r.2.1 r.2.2 ∧ ib ≤ r.2.1 ∧
      (r.1 = true → r.2.1 = b.length) ∧ (r.1 = false → r.2.1 < b.length) := by
  obtain ⟨jc, hjm, hjc⟩ := read_head h
  unfold skipB
  refine loop_spec (fun s => ib ≤ s.1 ∧ s.1 < b.length ∧ Inv a b jcs pairF padAF padBF kr ia s.1 s.2)
    _ (fun s => b.length - s.1) ?_ fuel (ib, res) ⟨Nat.le_refl _, hj, hI⟩ (by simp only; omega)
  rintro ⟨i, rs⟩ ⟨h1, h2, h3⟩
  simp only at h1 h2 h3
  simp only [hjc, at_ok (fun r hr => h.wa r hr jc hjm) hi, at_ok (fun r hr => h.wb r hr jc hjm) h2, Outcome.bind,
    Outcome.read_lt _ _ h2, ho.hB _ (List.getElem_mem h2)]
  by_cases hlt : col jc.2 b[i] < col jc.1 a[ia]
  · rw [if_pos hlt]
    have hI' := stepB h ho hi h2 ((key_lt_of_head hjc).2 hlt) h3
    by_cases hend : i + 1 ≥ b.length
    · rw [if_pos hend]
      right
      exact ⟨_, rfl, hI', by simp only; omega, by simp only; omega, by simp⟩
    · rw [if_neg hend]
      left
      exact ⟨_, rfl, ⟨by simp only; omega, by simp only; omega, hI'⟩, by simp only; omega⟩
  · rw [if_neg hlt]
    right
    exact ⟨_, rfl, h3, h1, by simp, by simp only; omega⟩

theorem partners_spec (h : Input a b jcs) (ho : Output a b pair padA padB jcs pairF padAF padBF kr) {ia ib : Nat} {res : Table}
    (hi : ia < a.length) (hj : ib < b.length) (heq : ka jcs a[ia] = kb jcs b[ib]) (hf : b.length < fuel) :
    ∃ r, partners fuel a b jcs pair ia ib res = .ok r ∧ ib < r.1 ∧ r.1 ≤ b.length ∧
      (∀ t, (ht : t < b.length) → ib ≤ t → t < r.1 → kb jcs b[t] = ka jcs a[ia]) ∧
      (∀ hr : r.1 < b.length, ka jcs a[ia] < kb jcs b[r.1]) ∧
      r.2 = res ++ row (ka jcs) (kb jcs) pairF padAF (b.drop ib) a[ia] := by
  have hcore : ∀ j', ib < j' → j' ≤ b.length →
      (∀ t, (ht : t < b.length) → ib ≤ t → t < j' → kb jcs b[t] = ka jcs a[ia]) →
      (∀ hr : j' < b.length, ka jcs a[ia] < kb jcs b[j']) →
      ((b.drop ib).take (j' - ib)).map (pairF a[ia]) = row (ka jcs) (kb jcs) pairF padAF (b.drop ib) a[ia] := by
    intro j' h1 h2 h3 h4
    symm
    apply row_eq
    · conv_lhs => rw [drop_split (l := b) (show ib ≤ j' by omega), List.filter_append]
      have e1 : ((b.drop ib).take (j' - ib)).filter (fun y => kb jcs y = ka jcs a[ia]) = (b.drop ib).take (j' - ib) := by
        rw [List.filter_eq_self]
        intro y hy
        obtain ⟨t, ht, g1, g2, rfl⟩ := mem_slice hy
        exact decide_eq_true (h3 t ht g1 g2)
      have e2 : (b.drop j').filter (fun y => kb jcs y = ka jcs a[ia]) = [] := by
        rw [List.filter_eq_nil_iff]
        intro y hy
        have hlt : j' < b.length := by
          by_contra hge
          rw [List.drop_eq_nil_of_le (by omega)] at hy
          simp at hy
        have := lt_of_lt_of_le (h4 hlt) (sorted_le h.sb hlt hy)
        rw [decide_eq_true_eq]
        exact this.ne'
      rw [e1, e2, List.append_nil]
    · intro hn
      have := congrArg List.length hn
      simp at this
      omega
  unfold partners
  refine loop_spec
    (fun s => ib ≤ s.1 ∧ s.1 < b.length ∧
      (∀ t, (ht : t < b.length) → ib ≤ t → t ≤ s.1 → kb jcs b[t] = ka jcs a[ia]) ∧
      s.2 = res ++ ((b.drop ib).take (s.1 - ib)).map (pairF a[ia]))
    _ (fun s => b.length - s.1) ?_ fuel (ib, res) ⟨Nat.le_refl _, hj, ?_, by simp⟩ (by simp only; omega)
  · rintro ⟨j', res'⟩ ⟨h1, h2, h3, h4⟩
    simp only at h1 h2 h3 h4
    obtain ⟨m, hm, hm'⟩ := stillMatchB_spec (ib := j' + 1) hi jcs h.ne h.wa h.wb
    simp only [Outcome.bind, Outcome.read_lt _ _ hi, Outcome.read_lt _ _ h2,
      ho.hp _ (List.getElem_mem hi) _ (List.getElem_mem h2), hm]
    have hres : res' ++ [pairF a[ia] b[j']] = res ++ ((b.drop ib).take (j' + 1 - ib)).map (pairF a[ia]) := by
      rw [h4, slice_succ h1 h2, List.map_append]
      simp
    cases m with
    | true =>
      obtain ⟨hlt, he⟩ := hm'.mp rfl
      simp only [if_true]
      left
      refine ⟨_, rfl, ⟨by simp only; omega, hlt, ?_, hres⟩, by simp only; omega⟩
      intro t ht g1 g2
      simp only at g2
      by_cases htj : t ≤ j'
      · exact h3 t ht g1 htj
      · have : t = j' + 1 := by omega
        subst this; exact he.symm
    | false =>
      simp only [Bool.false_eq_true, if_false]
      right
      have hall : ∀ t, (ht : t < b.length) → ib ≤ t → t < j' + 1 → kb jcs b[t] = ka jcs a[ia] :=
        fun t ht g1 g2 => h3 t ht g1 (by omega)
      have hgt : ∀ hr : j' + 1 < b.length, ka jcs a[ia] < kb jcs b[j' + 1] := by
        intro hr
        have h5 := sorted_getElem_le h.sb (show j' ≤ j' + 1 by omega) hr
        rw [h3 j' h2 h1 (Nat.le_refl _)] at h5
        refine lt_of_le_of_ne h5 ?_
        intro he
        have := hm'.mpr ⟨hr, he⟩
        simp at this
      refine ⟨_, rfl, by simp only; omega, by simp only; omega, hall, hgt, ?_⟩
      simp only
      rw [hres, hcore (j' + 1) (by omega) (by omega) hall hgt]
  · intro t ht g1 g2
    have : t = ib := by simp only at g2; omega
    subst this; exact heq.symm

theorem cross_spec (h : Input a b jcs) (ho : Output a b pair padA padB jcs pairF padAF padBF kr) {ia ib : Nat} {res : Table}
    (hi : ia < a.length) (hj : ib < b.length) (heq : ka jcs a[ia] = kb jcs b[ib])
    (hI : Inv a b jcs pairF padAF padBF kr ia ib res) (hf : a.length < fuel) (hf' : b.length < fuel) :
    ∃ r, cross fuel a b jcs pair ia ib res = .ok r ∧ Inv a b jcs pairF padAF padBF kr r.1 r.2.1 r.2.2 ∧ ia < r.1 ∧
      ib < r.2.1 := by
  obtain ⟨⟨o1, o2, o3⟩, _, _, ra, rb, hs, hL, hR⟩ := hI
  unfold cross
  refine loop_spec
    (fun s => ia ≤ s.1 ∧ s.2.1 = ib ∧ (∃ hi' : s.1 < a.length, ka jcs a[s.1] = kb jcs b[ib]) ∧
      (s.2.2.Pairwise fun r s => kr r ≤ kr s) ∧ (∀ r ∈ s.2.2, kr r ≤ kb jcs b[ib]) ∧
      ∃ ra', Shuffle ra' rb s.2.2 ∧ ra' ++ L jcs pairF padAF (a.drop s.1) (b.drop ib) = L jcs pairF padAF a b)
    _ (fun s => a.length - s.1) ?_ fuel (ia, ib, res)
    ⟨Nat.le_refl _, rfl, ⟨hi, heq⟩, o1, fun r hr => o3 r hr _ (by rw [drop_eq hj]; exact List.mem_cons_self), ra, hs, hL⟩ (by simp only; omega)
  rintro ⟨i, j, res'⟩ ⟨h1, h2, ⟨h3, h4⟩, o4, o5, ra', h5, h6⟩
  simp only at h1 h2 h3 h4 h5 h6 o4 o5
  subst h2
  simp only
  rw [if_pos ⟨h3, hj⟩]
  obtain ⟨⟨j2, res2⟩, hin, g1, g2, g3, g4, g5⟩ := partners_spec (fuel := fuel) (res := res') h ho h3 hj h4 hf'
  simp only at g1 g2 g3 g4 g5
  obtain ⟨m, hm, hm'⟩ := stillMatchA_spec (ia := i + 1) hj jcs h.ne h.wa h.wb
  simp only [hin, Outcome.bind, hm]
  have hS : Shuffle (ra' ++ row (ka jcs) (kb jcs) pairF padAF (b.drop j) a[i]) rb res2 := by
    rw [g5]; exact h5.appendL _
  have hkr : ∀ r ∈ row (ka jcs) (kb jcs) pairF padAF (b.drop j) a[i], kr r = kb jcs b[j] := by
    intro r hr
    unfold row at hr
    split at hr
    · rw [ho.kA _ (List.getElem_mem h3) r hr, h4]
    · obtain ⟨y, hy, rfl⟩ := List.mem_map.mp hr
      rw [ho.kp _ (List.getElem_mem h3) y (List.mem_of_mem_drop (List.mem_filter.mp hy).1), h4]
  have hsort : res2.Pairwise fun r s => kr r ≤ kr s := by
    rw [g5]
    exact pairwise_append_const o4 o5 hkr
  have hle : ∀ r ∈ res2, kr r ≤ kb jcs b[j] := by
    intro r hr
    rw [g5] at hr
    rcases List.mem_append.mp hr with hr | hr
    · exact o5 r hr
    · rw [hkr r hr]
  have hL' : (ra' ++ row (ka jcs) (kb jcs) pairF padAF (b.drop j) a[i]) ++
      L jcs pairF padAF (a.drop (i + 1)) (b.drop j) = L jcs pairF padAF a b := by
    rw [← h6, drop_eq h3]
    simp only [L]
    rw [left_cons, List.append_assoc]
  cases m with
  | true =>
    obtain ⟨hlt, he⟩ := hm'.mp rfl
    simp only [if_true]
    left
    exact ⟨_, rfl, ⟨by simp only; omega, rfl, ⟨hlt, he⟩, hsort, hle, _, hS, hL'⟩, by simp only; omega⟩
  | false =>
    simp only [Bool.false_eq_true, if_false]
    right
    -- all remaining left rows are larger
    have hgt : ∀ x ∈ a.drop (i + 1), kb jcs b[j] < ka jcs x := by
      intro x hx
      have hlt : i + 1 < a.length := by
        by_contra hge
        rw [List.drop_eq_nil_of_le (by omega)] at hx
        simp at hx
      have e1 := sorted_getElem_le h.sa (show i ≤ i + 1 by omega) hlt
      rw [h4] at e1
      have e2 : kb jcs b[j] ≠ ka jcs a[i + 1] := by
        intro he
        have := hm'.mpr ⟨hlt, he.symm⟩
        simp at this
      exact lt_of_lt_of_le (lt_of_le_of_ne e1 e2) (sorted_le h.sa hlt hx)
    have hkb : ∀ y ∈ (b.drop j).take (j2 - j), kb jcs y = kb jcs b[j] := by
      intro y hy
      obtain ⟨t, ht, k1, k2, rfl⟩ := mem_slice hy
      rw [g3 t ht k1 k2, h4]
    have hO : Ord a b jcs kr (i + 1) j2 res2 := by
      refine ⟨hsort, ?_, ?_⟩
      · intro r hr x hx
        exact le_trans (hle r hr) (hgt x hx).le
      · intro r hr y hy
        exact le_trans (hle r hr) (sorted_le h.sb hj (mem_drop_of_le (by omega) hy))
    refine ⟨_, rfl, ⟨hO, h3, g2, _, rb, hS, ?_, ?_⟩, by simp only; omega, g1⟩
    · simp only
      rw [← hL']
      congr 1
      conv_rhs => rw [drop_split (l := b) (show j ≤ j2 by omega)]
      symm
      apply left_skip_right
      intro x hx y hy
      rw [hkb y hy]
      exact (hgt x hx).ne
    · simp only
      rw [← hR]
      congr 1
      -- the group of rows in `b` has partners, the rest does not see the consumed rows of `a`
      have e1 : R jcs padBF (a.drop ia) (b.drop j) = R jcs padBF (a.drop ia) (b.drop j2) := by
        rw [drop_split (l := b) (show j ≤ j2 by omega)]
        simp only [R, right, List.flatMap_append]
        rw [show (((b.drop j).take (j2 - j)).flatMap fun y => if ∃ x ∈ a.drop ia, ka jcs x = kb jcs y then [] else padBF y)
          = [] from ?_, List.nil_append]
        rw [List.flatMap_eq_nil_iff]
        intro y hy
        rw [if_pos]
        refine ⟨a[ia], ?_, ?_⟩
        · rw [drop_eq hi]; exact List.mem_cons_self
        · rw [heq, hkb y hy]
      rw [e1]
      symm
      conv_lhs => rw [drop_split (l := a) (show ia ≤ i + 1 by omega)]
      apply right_skip_left
      intro x hx y hy
      obtain ⟨t, ht, k1, k2, rfl⟩ := mem_slice hx
      have hlt : j2 < b.length := by
        by_contra hge
        rw [List.drop_eq_nil_of_le (by omega)] at hy
        simp at hy
      have e2 := lt_of_lt_of_le (g4 hlt) (sorted_le h.sb hlt hy)
      have e3 := sorted_getElem_le h.sa (show t ≤ i by omega) h3
      exact (lt_of_le_of_lt e3 e2).ne'

theorem main_spec (h : Input a b jcs) (ho : Output a b pair padA padB jcs pairF padAF padBF kr)
    (hf : a.length + b.length < fuel) :
    ∃ r, main fuel a b jcs pair padA padB = .ok r ∧ Inv a b jcs pairF padAF padBF kr r.1 r.2.1 r.2.2 ∧
      (r.1 = a.length ∨ r.2.1 = b.length) := by
  unfold main
  refine loop_spec (fun s => Inv a b jcs pairF padAF padBF kr s.1 s.2.1 s.2.2)
    _ (fun s => (a.length - s.1) + (b.length - s.2.1)) ?_ fuel (0, 0, [])
    ⟨⟨.nil, by simp, by simp⟩, by simp, by simp, [], [], .nil, by simp, by simp⟩ (by simp only; omega)
  rintro ⟨i, j, res⟩ hI
  simp only at hI
  simp only
  have hI0 := hI
  obtain ⟨_, b1, b2, _⟩ := hI0
  by_cases hc : i < a.length ∧ j < b.length
  · rw [if_pos hc]
    obtain ⟨⟨fA, iA, rA⟩, e1, p1, p2, p3, p4⟩ := skipA_spec (fuel := fuel) h ho hc.1 hc.2 hI (by omega)
    simp only at p1 p2 p3 p4
    simp only [e1, Outcome.bind]
    cases fA with
    | true =>
      simp only [if_true]
      exact .inr ⟨_, rfl, p1, .inl (p3 rfl)⟩
    | false =>
      simp only [Bool.false_eq_true, if_false]
      have hiA := p4 rfl
      obtain ⟨⟨fB, jB, rB⟩, e2, q1, q2, q3, q4⟩ := skipB_spec (fuel := fuel) h ho hiA hc.2 p1 (by omega)
      simp only at q1 q2 q3 q4
      simp only [e2]
      cases fB with
      | true =>
        simp only [if_true]
        exact .inr ⟨_, rfl, q1, .inr (q3 rfl)⟩
      | false =>
        simp only [Bool.false_eq_true, if_false]
        have hjB := q4 rfl
        obtain ⟨o, e3, c1, c2, c3⟩ := compareRows_spec hiA hjB jcs h.wa h.wb
        simp only [e3]
        left
        cases o with
        | lt =>
          simp only [Outcome.read_lt _ _ hiA, ho.hA _ (List.getElem_mem hiA)]
          exact ⟨_, rfl, stepA h ho hiA hjB (c1 rfl) q1, by simp only; omega⟩
        | gt =>
          simp only [Outcome.read_lt _ _ hjB, ho.hB _ (List.getElem_mem hjB)]
          exact ⟨_, rfl, stepB h ho hiA hjB (c2 rfl) q1, by simp only; omega⟩
        | eq =>
          obtain ⟨⟨iC, jC, rC⟩, e4, d1, d2, d3⟩ :=
            cross_spec (fuel := fuel) h ho hiA hjB (c3 rfl) q1 (by omega) (by omega)
          simp only at d1 d2 d3
          simp only [e4]
          have b3 := d1.2.1
          have b4 := d1.2.2.1
          exact ⟨_, rfl, d1, by simp only; omega⟩
  · rw [if_neg hc]
    exact .inr ⟨_, rfl, hI, by simp only; omega⟩

theorem forRows_ok {f : Row → Outcome Table} {g : Row → Table} {t : Table} (h : ∀ r ∈ t, f r = .ok (g r)) :
    forRows f t = .ok (t.flatMap g) := by
  induction t with
  | nil => rfl
  | cons r rs ih =>
    simp only [forRows, h r List.mem_cons_self, Outcome.bind, ih (fun r hr => h r (List.mem_cons_of_mem _ hr)),
      List.flatMap_cons]

/-- At `finish`, what is still missing are the paddings of the remaining rows. -/
theorem Inv.final {ia ib : Nat} {res : Table} (hI : Inv a b jcs pairF padAF padBF kr ia ib res)
    (he : ia = a.length ∨ ib = b.length) :
    Shuffle (L jcs pairF padAF a b) (R jcs padBF a b)
      (res ++ (b.drop ib).flatMap padBF ++ (a.drop ia).flatMap padAF) := by
  obtain ⟨_, h1, h2, ra, rb, hs, hL, hR⟩ := hI
  have eL : L jcs pairF padAF (a.drop ia) (b.drop ib) = (a.drop ia).flatMap padAF := by
    rcases he with rfl | rfl
    · simp [L, left_nil]
    · simp only [L, List.drop_length]; exact left_nil_right _
  have eR : R jcs padBF (a.drop ia) (b.drop ib) = (b.drop ib).flatMap padBF := by
    rcases he with rfl | rfl
    · simp only [R, List.drop_length]; exact right_nil_left _
    · simp [R, right_nil]
  rw [← hL, ← hR, eL, eR]
  exact (hs.appendR _).appendL _

theorem pairwise_flatMap_key {t : Table} {k : Row → List Nat} {pad : Row → Table} (hs : t.Pairwise fun x y => k x ≤ k y)
    (hk : ∀ x ∈ t, ∀ r ∈ pad x, kr r = k x) : (t.flatMap pad).Pairwise fun r s => kr r ≤ kr s := by
  rw [List.pairwise_flatMap]
  constructor
  · intro x hx
    have := pairwise_append_const (kr := kr) (res := []) (p := pad x) (k := k x) .nil (by simp) (hk x hx)
    simpa using this
  · refine (List.Pairwise.and_mem.mp hs).imp ?_
    rintro x y ⟨hx, hy, hxy⟩ p hp q hq
    rw [hk x hx p hp, hk y hy q hq]
    exact hxy

/-- The final result is sorted. -/
theorem Inv.sorted (h : Input a b jcs) (ho : Output a b pair padA padB jcs pairF padAF padBF kr) {ia ib : Nat}
    {res : Table} (hI : Inv a b jcs pairF padAF padBF kr ia ib res) (he : ia = a.length ∨ ib = b.length) :
    (res ++ (b.drop ib).flatMap padBF ++ (a.drop ia).flatMap padAF).Pairwise fun r s => kr r ≤ kr s := by
  obtain ⟨⟨o1, o2, o3⟩, _⟩ := hI
  have e1 : ((b.drop ib).flatMap padBF).Pairwise fun r s => kr r ≤ kr s :=
    pairwise_flatMap_key (h.sb.sublist (List.drop_sublist _ _)) (fun y hy => ho.kB y (List.mem_of_mem_drop hy))
  have e2 : ((a.drop ia).flatMap padAF).Pairwise fun r s => kr r ≤ kr s :=
    pairwise_flatMap_key (h.sa.sublist (List.drop_sublist _ _)) (fun x hx => ho.kA x (List.mem_of_mem_drop hx))
  rcases he with rfl | rfl
  · simp only [List.drop_length, List.flatMap_nil, List.append_nil]
    rw [List.pairwise_append]
    refine ⟨o1, e1, ?_⟩
    intro r hr s hs
    obtain ⟨y, hy, hs⟩ := List.mem_flatMap.mp hs
    rw [ho.kB y (List.mem_of_mem_drop hy) s hs]
    exact o3 r hr y hy
  · simp only [List.drop_length, List.flatMap_nil, List.append_nil]
    rw [List.pairwise_append]
    refine ⟨o1, e2, ?_⟩
    intro r hr s hs
    obtain ⟨x, hx, hs⟩ := List.mem_flatMap.mp hs
    rw [ho.kA x (List.mem_of_mem_drop hx) s hs]
    exact o2 r hr x hx
end

end Verif.MultiJoin
