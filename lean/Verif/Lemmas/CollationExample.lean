import Verif.Lemmas.Collation
/-
A collator for the examples: it ignores case at the level PRIMARY and ignores the soft hyphen (byte 173) up to the level
QUARTERNARY, as ICU does.
-/
namespace Verif.Collation
open Verif.CollationSpec
open Verif.ExternalVocabulary (Word)

/-- The primary weight of a character. -/
def weight (ch : Char) : Nat := 3 + (if 65 ≤ ch.toNat ∧ ch.toNat ≤ 90 then ch.toNat + 32 else ch.toNat) % 253

/-- Three digits. -/
def digits (ch : Char) : List Nat := [2 + ch.toNat / 62500 % 250, 2 + ch.toNat / 250 % 250, 2 + ch.toNat % 250]

/-- Characters that are not ignored. -/
def heard (s : Word) : Word := s.filter fun ch => ch.toNat ≠ 173

/-- The primary key. -/
def key1 (s : Word) : List Nat := (heard s).map weight

/-- The quarternary key: upper and lower case differ. -/
def key4 (s : Word) : List Nat := key1 s ++ 2 :: (heard s).map fun ch => if 65 ≤ ch.toNat ∧ ch.toNat ≤ 90 then 4 else 3

/-- The identical key. -/
def key5 (s : Word) : List Nat := key4 s ++ 1 :: s.flatMap digits

/-- The collator of the examples. -/
def ascii : Collator where
  key
    | .primary => key1
    | .secondary => key1
    | .tertiary => key4
    | .quarternary => key4
    | .identical => key5
    | .total => key5

theorem lex_sep {s : Nat} : ∀ {x x' : List Nat} (y y' : List Nat), (∀ a ∈ x, s < a) → (∀ a ∈ x', s < a) → x < x' →
    x ++ s :: y < x' ++ s :: y'
  | [], [], y, y', _, _, h => by simp at h
  | [], b :: x', y, y', _, h2, _ => by
    rw [List.nil_append, List.cons_append, cons_lt_cons']
    exact Or.inl (h2 b (by simp))
  | a :: x, [], y, y', _, _, h => by simp at h
  | a :: x, b :: x', y, y', h1, h2, h => by
    rw [cons_lt_cons'] at h
    rw [List.cons_append, List.cons_append, cons_lt_cons']
    rcases h with h | ⟨h, h3⟩
    · exact Or.inl h
    · exact Or.inr ⟨h, lex_sep y y' (fun a ha => h1 a (by simp [ha])) (fun a ha => h2 a (by simp [ha])) h3⟩

theorem sep_inj {s : Nat} : ∀ {x x' y y' : List Nat}, (∀ a ∈ x, s < a) → (∀ a ∈ x', s < a) → x ++ s :: y = x' ++ s :: y' →
    x = x' ∧ y = y'
  | [], [], y, y', _, _, h => by simpa using h
  | [], b :: x', y, y', _, h2, h => by
    simp only [List.nil_append, List.cons_append, List.cons.injEq] at h
    have := h2 b (by simp); omega
  | a :: x, [], y, y', h1, _, h => by
    simp only [List.nil_append, List.cons_append, List.cons.injEq] at h
    have := h1 a (by simp); omega
  | a :: x, b :: x', y, y', h1, h2, h => by
    simp only [List.cons_append, List.cons.injEq] at h
    have := sep_inj (fun a ha => h1 a (by simp [ha])) (fun a ha => h2 a (by simp [ha])) h.2
    rw [h.1, this.1]; exact ⟨rfl, this.2⟩

theorem key1_bytes (s : Word) : ∀ x ∈ key1 s, 2 < x ∧ x < 256 := by
  intro x hx
  obtain ⟨ch, _, rfl⟩ := List.mem_map.mp hx
  unfold weight; omega

theorem key4_bytes (s : Word) : ∀ x ∈ key4 s, 1 < x ∧ x < 256 := by
  intro x hx
  rcases List.mem_append.mp hx with h | h
  · have := key1_bytes s x h; omega
  · rcases List.mem_cons.mp h with h | h
    · omega
    · obtain ⟨ch, _, rfl⟩ := List.mem_map.mp h
      split <;> omega

theorem char_lt (ch : Char) : ch.toNat < 1114112 := by
  have := ch.valid
  unfold Char.toNat
  rcases this with h | h <;> omega

theorem digits_inj {a b : Char} (h : digits a = digits b) : a = b := by
  unfold digits at h
  simp only [List.cons.injEq, and_true] at h
  have h1 := char_lt a
  have h2 := char_lt b
  apply Char.toNat_inj.mp
  omega

theorem flatMap_digits_inj : ∀ {s t : Word}, s.flatMap digits = t.flatMap digits → s = t
  | [], [], _ => rfl
  | [], b :: t, h => by simp [digits] at h
  | a :: s, [], h => by simp [digits] at h
  | a :: s, b :: t, h => by
    rw [List.flatMap_cons, List.flatMap_cons] at h
    have := List.append_inj h (by simp [digits])
    rw [digits_inj this.1, flatMap_digits_inj this.2]

theorem ascii_laws (N : Word → Prop) : ascii.Laws N := by
  refine ⟨fun s => ⟨fun x hx => ?_, fun x hx => ?_, fun x hx => ?_⟩, fun a b h => ?_, fun a b h => ?_, fun a b _ _ h => ?_⟩
  · have := key1_bytes s x hx; omega
  · have := key4_bytes s x hx; omega
  · rcases List.mem_append.mp hx with h | h
    · have := key4_bytes s x h; omega
    · rcases List.mem_cons.mp h with h | h
      · omega
      · obtain ⟨ch, _, hd⟩ := List.mem_flatMap.mp h
        simp only [digits, List.mem_cons, List.not_mem_nil, or_false] at hd
        have := char_lt ch
        omega
  · exact lex_sep _ _ (fun x hx => (key1_bytes a x hx).1) (fun x hx => (key1_bytes b x hx).1) h
  · exact lex_sep _ _ (fun x hx => (key4_bytes a x hx).1) (fun x hx => (key4_bytes b x hx).1) h
  · exact flatMap_digits_inj (sep_inj (fun x hx => (key4_bytes a x hx).1) (fun x hx => (key4_bytes b x hx).1) h).2

theorem sep_lt {s : Nat} {x x' y y' : List Nat} (hx : ∀ a ∈ x, s < a) (hx' : ∀ a ∈ x', s < a) :
    x ++ s :: y < x' ++ s :: y' ↔ x < x' ∨ (x = x' ∧ y < y') := by
  constructor
  · intro h
    by_cases h1 : x < x'
    · exact Or.inl h1
    · by_cases h2 : x = x'
      · subst h2
        right
        refine ⟨rfl, ?_⟩
        have : ∀ (x : List Nat), x ++ s :: y < x ++ s :: y' → y < y' := by
          intro x
          induction x with
          | nil => intro h; simpa [cons_lt_cons'] using h
          | cons a x ih => intro h; rw [List.cons_append, List.cons_append, cons_lt_cons'] at h; exact ih (by simpa using h)
        exact this x h
      · have h3 : x' < x := by
          rcases List.le_iff_lt_or_eq.mp (List.not_lt.mp h1) with h | h
          · exact h
          · exact absurd h.symm h2
        exact absurd h (List.lt_asymm (lex_sep y' y hx' hx h3))
  · rintro (h | ⟨rfl, h⟩)
    · exact lex_sep _ _ hx hx' h
    · clear hx hx'
      induction x with
      | nil => simpa [cons_lt_cons'] using h
      | cons a x ih => rw [List.cons_append, List.cons_append, cons_lt_cons']; exact Or.inr ⟨rfl, ih⟩

/-- Replacing the first character by another one of the same case keeps the order. -/
theorem ascii_mark {x : Char} (h1 : x.toNat ≠ 173) (h2 : ¬ (65 ≤ x.toNat ∧ x.toNat ≤ 90)) (a b : Word) :
    ascii.key .identical (x :: a) < ascii.key .identical (x :: b) ↔ key5 a < key5 b := by
  have hk1 : ∀ s, key1 (x :: s) = weight x :: key1 s := by
    intro s; unfold key1 heard; rw [List.filter_cons, if_pos (by simpa using h1), List.map_cons]
  have hh : ∀ s, heard (x :: s) = x :: heard s := by
    intro s; unfold heard; rw [List.filter_cons, if_pos (by simpa using h1)]
  have key4_eq : ∀ s, key4 (x :: s) = (weight x :: key1 s) ++ 2 :: 3 :: (heard s).map fun ch => if 65 ≤ ch.toNat ∧ ch.toNat ≤ 90 then 4 else 3 := by
    intro s; unfold key4; rw [hk1, hh, List.map_cons, if_neg h2]
  have hw : 2 < weight x := by unfold weight; omega
  have b1 : ∀ s, ∀ y ∈ weight x :: key1 s, 2 < y := by
    intro s y hy
    rcases List.mem_cons.mp hy with rfl | hy
    · exact hw
    · exact (key1_bytes s y hy).1
  have cc : ∀ (z : Nat) (u v : List Nat), z :: u < z :: v ↔ u < v := by intro z u v; rw [cons_lt_cons']; simp
  have h4 : ∀ s t, (key4 (x :: s) < key4 (x :: t) ↔ key4 s < key4 t) ∧ (key4 (x :: s) = key4 (x :: t) ↔ key4 s = key4 t) := by
    intro s t
    rw [key4_eq, key4_eq]
    constructor
    · rw [sep_lt (b1 s) (b1 t), cc, cc, List.cons.injEq, key4, key4,
        sep_lt (fun a ha => (key1_bytes s a ha).1) (fun a ha => (key1_bytes t a ha).1)]
      simp only [true_and]
    · constructor
      · intro h
        have := sep_inj (b1 s) (b1 t) h
        simp only [List.cons.injEq, true_and] at this
        rw [key4, key4, this.1, this.2]
      · intro h
        have := sep_inj (fun a ha => (key1_bytes s a ha).1) (fun a ha => (key1_bytes t a ha).1) h
        rw [this.1, this.2]
  show key5 (x :: a) < key5 (x :: b) ↔ _
  unfold key5
  rw [sep_lt (fun z hz => (key4_bytes _ z hz).1) (fun z hz => (key4_bytes _ z hz).1),
    sep_lt (fun z hz => (key4_bytes _ z hz).1) (fun z hz => (key4_bytes _ z hz).1), (h4 a b).1, (h4 a b).2]
  have : ((x :: a).flatMap digits < (x :: b).flatMap digits) ↔ a.flatMap digits < b.flatMap digits := by
    rw [List.flatMap_cons, List.flatMap_cons]
    unfold digits
    simp only [List.cons_append, List.nil_append]
    rw [cc, cc, cc]
  rw [this]

end Verif.Collation
