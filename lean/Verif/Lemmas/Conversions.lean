import Mathlib.Data.List.TakeWhile
import Mathlib.Tactic.Ring
import Mathlib.Tactic.FieldSimp
import Mathlib.Tactic.Linarith
import Mathlib.Tactic.Positivity
import Verif.Model.Conversions
import Verif.Spec.Conversions
/-
Helper lemmas for C45: digits, their order, and what the conversion of a number gives.
-/
namespace Verif.Conversions
open Verif.ConversionsSpec
open Verif.ExternalVocabulary (Word)

/-! ### Order of lists -/

theorem lt_append_left (p : List Nat) {a b : List Nat} (h : a < b) : p ++ a < p ++ b := by
  induction p with
  | nil => exact h
  | cons x p ih => exact List.cons_lt_cons_iff.2 (Or.inr ⟨rfl, ih⟩)

theorem lt_append_of_lt : ∀ {a b : List Nat} (x y : List Nat), a.length = b.length → a < b → a ++ x < b ++ y
  | [], [], _, _, _, h => absurd h (by simp)
  | [], _ :: _, _, _, hl, _ => by simp at hl
  | _ :: _, [], _, _, hl, _ => by simp at hl
  | a :: as, b :: bs, x, y, hl, h => by
    rcases List.cons_lt_cons_iff.1 h with h | ⟨h, h'⟩
    · exact List.cons_lt_cons_iff.2 (Or.inl h)
    · exact List.cons_lt_cons_iff.2 (Or.inr ⟨h, lt_append_of_lt x y (by simpa using hl) h'⟩)

/-! ### Digits -/

/-- All digits are below ten. -/
abbrev Digits (ds : List Nat) : Prop := ∀ d ∈ ds, d < 10

theorem natOf_foldl (ds : List Nat) : ∀ n, ds.foldl (fun n d => 10 * n + d) n = n * 10 ^ ds.length + natOf ds := by
  induction ds with
  | nil => intro n; simp [natOf]
  | cons d ds ih =>
    intro n
    rw [natOf, List.foldl_cons, List.foldl_cons, ih, ih (10 * 0 + d), List.length_cons, pow_succ]
    ring

theorem natOf_cons (d : Nat) (ds : List Nat) : natOf (d :: ds) = d * 10 ^ ds.length + natOf ds := by
  rw [natOf, List.foldl_cons, natOf_foldl]
  ring

theorem natOf_append (a b : List Nat) : natOf (a ++ b) = natOf a * 10 ^ b.length + natOf b := by
  rw [natOf, List.foldl_append, natOf_foldl]
  rfl

theorem natOf_zeros (k : Nat) : natOf (List.replicate k 0) = 0 := by
  induction k with
  | zero => rfl
  | succ k ih => rw [List.replicate_succ, natOf_cons, ih]; ring

theorem natOf_lt {ds : List Nat} (h : Digits ds) : natOf ds < 10 ^ ds.length := by
  induction ds with
  | nil => simp [natOf]
  | cons d ds ih =>
    have h1 := ih fun x hx => h x (List.mem_cons_of_mem _ hx)
    have h2 : d ≤ 9 := Nat.le_of_lt_succ (h d List.mem_cons_self)
    rw [natOf_cons, List.length_cons, pow_succ]
    have h3 : d * 10 ^ ds.length ≤ 9 * 10 ^ ds.length := Nat.mul_le_mul_right _ h2
    omega

theorem natOf_eq_zero {ds : List Nat} (h : natOf ds = 0) : ∀ d ∈ ds, d = 0 := by
  induction ds with
  | nil => intro d hd; cases hd
  | cons d ds ih =>
    rw [natOf_cons] at h
    have h1 : natOf ds = 0 := by omega
    have h2 : d * 10 ^ ds.length = 0 := by omega
    have h3 : d = 0 := by
      rcases Nat.mul_eq_zero.1 h2 with h | h
      · exact h
      · exact absurd h (by positivity)
    intro x hx
    rcases List.mem_cons.1 hx with h | h
    · exact h.trans h3
    · exact ih h1 x h

theorem natOf_lex : ∀ {a b : List Nat}, a.length = b.length → Digits a → Digits b → (a < b ↔ natOf a < natOf b)
  | [], [], _, _, _ => by simp
  | [], _ :: _, hl, _, _ => by simp at hl
  | _ :: _, [], hl, _, _ => by simp at hl
  | a :: as, b :: bs, hl, ha, hb => by
    have hl' : as.length = bs.length := by simpa using hl
    have ha' : Digits as := fun x hx => ha x (List.mem_cons_of_mem _ hx)
    have hb' : Digits bs := fun x hx => hb x (List.mem_cons_of_mem _ hx)
    have ih := natOf_lex hl' ha' hb'
    have h1 := natOf_lt ha'
    have h2 := natOf_lt hb'
    rw [List.cons_lt_cons_iff, ih, natOf_cons, natOf_cons, hl']
    rw [hl'] at h1
    constructor
    · rintro (h | ⟨h, h'⟩)
      · have h3 : (a + 1) * 10 ^ bs.length ≤ b * 10 ^ bs.length := Nat.mul_le_mul_right _ h
        rw [Nat.add_mul] at h3
        omega
      · rw [h]; omega
    · intro h
      rcases Nat.lt_trichotomy a b with h3 | h3 | h3
      · exact Or.inl h3
      · refine Or.inr ⟨h3, ?_⟩
        rw [h3] at h
        omega
      · have h4 : (b + 1) * 10 ^ bs.length ≤ a * 10 ^ bs.length := Nat.mul_le_mul_right _ h3
        rw [Nat.add_mul] at h4
        omega

theorem natOf_inj {a b : List Nat} (hl : a.length = b.length) (ha : Digits a) (hb : Digits b) (h : natOf a = natOf b) : a = b := by
  induction a generalizing b with
  | nil => cases b with
    | nil => rfl
    | cons _ _ => simp at hl
  | cons x a ih => cases b with
    | nil => simp at hl
    | cons y b =>
      have hl' : a.length = b.length := by simpa using hl
      have ha' : Digits a := fun x hx => ha x (List.mem_cons_of_mem _ hx)
      have hb' : Digits b := fun x hx => hb x (List.mem_cons_of_mem _ hx)
      have h1 := natOf_lt ha'
      have h2 := natOf_lt hb'
      rw [natOf_cons, natOf_cons, hl'] at h
      rw [hl'] at h1
      have hxy : x = y := by
        rcases Nat.lt_trichotomy x y with h3 | h3 | h3
        · have h4 : (x + 1) * 10 ^ b.length ≤ y * 10 ^ b.length := Nat.mul_le_mul_right _ h3
          rw [Nat.add_mul] at h4
          omega
        · exact h3
        · have h4 : (y + 1) * 10 ^ b.length ≤ x * 10 ^ b.length := Nat.mul_le_mul_right _ h3
          rw [Nat.add_mul] at h4
          omega
      subst hxy
      rw [ih hl' ha' hb' (by omega)]

/-- The complement of digits. -/
def compl (ds : List Nat) : List Nat := ds.map fun d => 9 - d

theorem compl_length (ds : List Nat) : (compl ds).length = ds.length := List.length_map ..

theorem compl_digits (ds : List Nat) : Digits (compl ds) := by
  intro d hd
  obtain ⟨x, _, rfl⟩ := List.mem_map.1 hd
  omega

theorem compl_lt : ∀ {a b : List Nat}, a.length = b.length → Digits a → Digits b → a < b → compl b < compl a
  | [], [], _, _, _, h => absurd h (by simp)
  | [], _ :: _, hl, _, _, _ => by simp at hl
  | _ :: _, [], hl, _, _, _ => by simp at hl
  | a :: as, b :: bs, hl, ha, hb, h => by
    have h1 := ha a List.mem_cons_self
    have h2 := hb b List.mem_cons_self
    refine List.cons_lt_cons_iff.2 ?_
    rcases List.cons_lt_cons_iff.1 h with h | ⟨h, h'⟩
    · left
      show 9 - b < 9 - a
      omega
    · exact Or.inr ⟨by rw [h], compl_lt (by simpa using hl) (fun x hx => ha x (List.mem_cons_of_mem _ hx))
        (fun x hx => hb x (List.mem_cons_of_mem _ hx)) h'⟩

theorem compl_compl {ds : List Nat} (h : Digits ds) : compl (compl ds) = ds := by
  rw [compl, compl, List.map_map]
  conv => rhs; rw [← List.map_id ds]
  refine List.map_congr_left fun d hd => ?_
  have := h d hd
  show 9 - (9 - d) = d
  omega

/-- Digits as characters. -/
def chars (ds : List Nat) : Word := ds.map digitChar

theorem chars_append (a b : List Nat) : chars (a ++ b) = chars a ++ chars b := List.map_append ..

theorem chars_length (a : List Nat) : (chars a).length = a.length := List.length_map ..

theorem atoi1_digitChar : ∀ d, d < 10 → atoi1 (digitChar d) = d := by decide

theorem digitChar_digit : ∀ d, d < 10 → '0' ≤ digitChar d ∧ digitChar d ≤ '9' := by decide

theorem digitChar_other : ∀ d, d < 10 → digitChar d ≠ '.' ∧ digitChar d ≠ '-' ∧ digitChar d ≠ '+' ∧ digitChar d ≠ 'E' := by decide

theorem digitChar_zero : ∀ d, d < 10 → (digitChar d = '0' ↔ d = 0) := by decide

theorem complement_chars {ds : List Nat} (h : Digits ds) : complement (chars ds) = chars (compl ds) := by
  rw [complement, chars, chars, compl, List.map_map, List.map_map]
  refine List.map_congr_left fun d hd => ?_
  show digitChar (9 - atoi1 (digitChar d)) = digitChar (9 - d)
  rw [atoi1_digitChar d (h d hd)]

theorem chars_lt {w : Char → Nat} (hw : Weights w) : ∀ {a b : List Nat}, a.length = b.length → Digits a → Digits b → a < b →
    (chars a).map w < (chars b).map w
  | [], [], _, _, _, h => absurd h (by simp)
  | [], _ :: _, hl, _, _, _ => by simp at hl
  | _ :: _, [], hl, _, _, _ => by simp at hl
  | a :: as, b :: bs, hl, ha, hb, h => by
    refine List.cons_lt_cons_iff.2 ?_
    rcases List.cons_lt_cons_iff.1 h with h | ⟨h, h'⟩
    · exact Or.inl (hw.digits a b h (hb b List.mem_cons_self))
    · exact Or.inr ⟨by rw [h], chars_lt hw (by simpa using hl) (fun x hx => ha x (List.mem_cons_of_mem _ hx))
        (fun x hx => hb x (List.mem_cons_of_mem _ hx)) h'⟩

/-! ### Decimal numbers -/

/-- The digits of a natural number, with a bound on their number. -/
def digsAux : Nat → Nat → List Nat
  | 0, n => [n]
  | bound + 1, n => if n < 10 then [n] else digsAux bound (n / 10) ++ [n % 10]

/-- The digits of a natural number. -/
def digs (n : Nat) : List Nat := digsAux n n

theorem digsAux_bound : ∀ (a b n : Nat), n ≤ a → n ≤ b → digsAux a n = digsAux b n
  | 0, 0, _, _, _ => rfl
  | 0, b + 1, n, h, _ => by rw [digsAux, digsAux, if_pos (by omega)]
  | a + 1, 0, n, _, h => by rw [digsAux, digsAux, if_pos (by omega)]
  | a + 1, b + 1, n, h1, h2 => by
    rw [digsAux, digsAux]
    by_cases h : n < 10
    · rw [if_pos h, if_pos h]
    · rw [if_neg h, if_neg h, digsAux_bound a b (n / 10) (by omega) (by omega)]

theorem digs_eq (n : Nat) : digs n = if n < 10 then [n] else digs (n / 10) ++ [n % 10] := by
  rw [digs]
  cases n with
  | zero => rfl
  | succ n =>
    rw [digsAux]
    by_cases h : n + 1 < 10
    · rw [if_pos h, if_pos h]
    · rw [if_neg h, if_neg h, digs, digsAux_bound n _ _ (by omega) (Nat.le_refl _)]

theorem decimal_eq (n : Nat) : decimal n = chars (digs n) := by
  have h : ∀ b n, decimalAux b n = chars (digsAux b n) := by
    intro b
    induction b with
    | zero => intro n; rfl
    | succ b ih =>
      intro n
      rw [decimalAux, digsAux]
      by_cases h : n < 10
      · rw [if_pos h, if_pos h]; rfl
      · rw [if_neg h, if_neg h, ih, chars_append]; rfl
  exact h n n

theorem digs_digits (n : Nat) : Digits (digs n) := by
  induction n using Nat.strongRecOn with
  | ind n ih =>
    rw [digs_eq]
    by_cases h : n < 10
    · rw [if_pos h]
      intro d hd
      rw [List.mem_singleton.1 hd]; exact h
    · rw [if_neg h]
      intro d hd
      rcases List.mem_append.1 hd with h' | h'
      · exact ih (n / 10) (by omega) d h'
      · rw [List.mem_singleton.1 h']; omega

theorem natOf_digs (n : Nat) : natOf (digs n) = n := by
  induction n using Nat.strongRecOn with
  | ind n ih =>
    rw [digs_eq]
    by_cases h : n < 10
    · rw [if_pos h]; simp [natOf]
    · rw [if_neg h, natOf_append, ih (n / 10) (by omega)]
      simp only [List.length_singleton, natOf, List.foldl_cons, List.foldl_nil]
      omega

theorem digs_length (k : Nat) : ∀ n, n < 10 ^ (k + 1) → (digs n).length ≤ k + 1 := by
  induction k with
  | zero => intro n h; rw [digs_eq, if_pos (by simpa using h)]; simp
  | succ k ih =>
    intro n h
    rw [digs_eq]
    by_cases h' : n < 10
    · rw [if_pos h']; simp
    · rw [if_neg h', List.length_append, List.length_singleton]
      have := ih (n / 10) (by rw [pow_succ] at h; omega)
      omega

/-- The twenty digits of an exponent. -/
def expoDigits (n : Nat) : List Nat := List.replicate (20 - (digs n).length) 0 ++ digs n

theorem expoDigits_digits (n : Nat) : Digits (expoDigits n) := by
  intro d hd
  rcases List.mem_append.1 hd with h | h
  · rw [(List.mem_replicate.1 h).2]; omega
  · exact digs_digits n d h

theorem expoDigits_length {n : Nat} (h : (digs n).length < 20) : (expoDigits n).length = 20 := by
  rw [expoDigits, List.length_append, List.length_replicate]
  omega

theorem natOf_expoDigits (n : Nat) : natOf (expoDigits n) = n := by
  rw [expoDigits, natOf_append, natOf_zeros, natOf_digs]; omega

theorem expoDigits_lt {m n : Nat} (hm : (digs m).length < 20) (hn : (digs n).length < 20) (h : m < n) : expoDigits m < expoDigits n := by
  rw [natOf_lex ((expoDigits_length hm).trans (expoDigits_length hn).symm) (expoDigits_digits m) (expoDigits_digits n), natOf_expoDigits,
    natOf_expoDigits]
  exact h

/-- The thirty digits of a mantissa. -/
def mantDigits (ds : List Nat) : List Nat := ds.take 30 ++ List.replicate (30 - ds.length) 0

theorem mantDigits_length (ds : List Nat) : (mantDigits ds).length = 30 := by
  rw [mantDigits, List.length_append, List.length_take, List.length_replicate]
  omega

theorem mantDigits_digits {ds : List Nat} (h : Digits ds) : Digits (mantDigits ds) := by
  intro d hd
  rcases List.mem_append.1 hd with h' | h'
  · exact h d (List.mem_of_mem_take h')
  · rw [(List.mem_replicate.1 h').2]; omega

/-- Digits followed by zeros. -/
def padTo (n : Nat) (ds : List Nat) : List Nat := ds ++ List.replicate (n - ds.length) 0

theorem padTo_length {n : Nat} {ds : List Nat} (h : ds.length ≤ n) : (padTo n ds).length = n := by
  rw [padTo, List.length_append, List.length_replicate]; omega

theorem padTo_digits {n : Nat} {ds : List Nat} (h : Digits ds) : Digits (padTo n ds) := by
  intro d hd
  rcases List.mem_append.1 hd with h' | h'
  · exact h d h'
  · rw [(List.mem_replicate.1 h').2]; omega

theorem mantDigits_eq {n : Nat} {ds : List Nat} (hn : 30 ≤ n) : mantDigits ds = (padTo n ds).take 30 := by
  rw [mantDigits, padTo, List.take_append, List.take_replicate]
  congr 2
  omega

theorem natOf_padTo {n : Nat} {ds : List Nat} : natOf (padTo n ds) = natOf ds * 10 ^ (n - ds.length) := by
  rw [padTo, natOf_append, natOf_zeros, List.length_replicate, Nat.add_zero]

/-- Taking the first digits keeps the order, and cannot reverse it. -/
theorem take_le {a b : List Nat} (k : Nat) (hl : a.length = b.length) (h : ¬ b < a) : ¬ b.take k < a.take k := by
  intro h'
  refine h ?_
  rw [← List.take_append_drop k a, ← List.take_append_drop k b]
  exact lt_append_of_lt _ _ (by rw [List.length_take, List.length_take, hl]) h'

end Verif.Conversions
