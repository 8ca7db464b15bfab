import Verif.Model.Turtle
import Verif.Spec.Turtle
/-
The regular expressions of the Turtle tokens: which text is consumed.
-/
namespace Verif.Turtle

/-- what remains after the preferred match -/
def Re.first (r : Re) (s : Str) : Option Str := (r.run s).head?

theorem consume_first {r : Re} {w t : Str} (h : r.first (w ++ t) = some t) : consume r (w ++ t) = some (w, t) := by
  unfold consume
  unfold Re.first at h
  rw [h]
  simp

theorem consume_none {r : Re} {s : Str} (h : r.run s = []) : consume r s = none := by
  simp [consume, h]

theorem first_cls {p : Char → Bool} {c : Char} (s : Str) (h : p c = true) : (Re.cls p).first (c :: s) = some s := by
  simp [Re.first, Re.run, h]

theorem first_seq {a b : Re} {s t u : Str} (ha : a.first s = some t) (hb : b.first t = some u) :
    (Re.seq a b).first s = some u := by
  unfold Re.first at *
  simp only [Re.run]
  cases h : a.run s with
  | nil => simp [h] at ha
  | cons x xs =>
    simp [h] at ha; subst ha
    simp only [List.flatMap_cons]
    cases h2 : b.run x with
    | nil => simp [h2] at hb
    | cons y ys => simpa [h2] using hb

theorem first_alt_left {a b : Re} {s t : Str} (ha : a.first s = some t) : (Re.alt a b).first s = some t := by
  unfold Re.first at *
  simp only [Re.run]
  cases h : a.run s with
  | nil => simp [h] at ha
  | cons x xs => simpa [h] using ha

theorem first_alt_right {a b : Re} {s : Str} (ha : a.run s = []) : (Re.alt a b).first s = b.first s := by
  simp [Re.first, Re.run, ha]

theorem many_fuel (f : Str → List Str) : ∀ (n m : Nat) (s : Str), s.length ≤ n → s.length ≤ m →
    many f n s = many f m s
  | 0, 0, _, _, _ => rfl
  | 0, m + 1, s, hn, _ => by
    have : s = [] := List.eq_nil_of_length_eq_zero (by omega)
    subst this
    simp [many]
  | n + 1, 0, s, _, hm => by
    have : s = [] := List.eq_nil_of_length_eq_zero (by omega)
    subst this
    simp [many]
  | n + 1, m + 1, s, hn, hm => by
    simp only [many]
    congr 1
    have : ∀ l : List Str, (∀ t ∈ l, t.length < s.length) → l.flatMap (many f n) = l.flatMap (many f m) := by
      intro l hl
      induction l with
      | nil => rfl
      | cons x xs ih =>
        have hx := hl x (by simp)
        simp only [List.flatMap_cons]
        rw [many_fuel f n m x (by omega) (by omega), ih (fun t ht => hl t (by simp [ht]))]
    apply this
    intro t ht
    simpa using (List.mem_filter.mp ht).2

theorem many_ne_nil (f : Str → List Str) (n : Nat) (s : Str) : many f n s ≠ [] := by
  cases n <;> simp [many]

theorem first_star_step {r : Re} {s t : Str} (h : r.first s = some t) (hl : t.length < s.length) :
    (Re.star r).first s = (Re.star r).first t := by
  unfold Re.first at *
  simp only [Re.run]
  cases hr : r.run s with
  | nil => simp [hr] at h
  | cons x xs =>
    simp [hr] at h; subst h
    obtain ⟨n, hn⟩ : ∃ n, s.length = n + 1 := ⟨s.length - 1, by omega⟩
    rw [hn, many, hr]
    rw [List.filter_cons_of_pos (by simpa using hl)]
    simp only [List.flatMap_cons]
    rw [many_fuel r.run n x.length x (by omega) (Nat.le_refl _)]
    cases hm : many r.run x.length x with
    | nil => exact absurd hm (many_ne_nil _ _ _)
    | cons y ys => simp

theorem first_star_stop {r : Re} {s : Str} (h : r.run s = []) : (Re.star r).first s = some s := by
  unfold Re.first
  simp only [Re.run]
  cases s.length <;> simp [many, h]

/-- The expression matches the empty text. -/
def Re.nullable : Re → Bool
  | .cls _ => false
  | .eps => true
  | .seq a b => a.nullable && b.nullable
  | .alt a b => a.nullable || b.nullable
  | .star _ => true

/-- A non-empty match can start with this character. -/
def Re.can : Re → Char → Bool
  | .cls p, c => p c
  | .eps, _ => false
  | .seq a b, c => a.can c || (a.nullable && b.can c)
  | .alt a b, c => a.can c || b.can c
  | .star a, c => a.can c

theorem run_can_aux (c : Char) (s : Str) : ∀ r : Re, r.can c = false → ∀ t ∈ r.run (c :: s), t = c :: s ∧ r.nullable = true
  | .cls p, h, t, ht => by
    simp only [Re.can] at h
    simp [Re.run, h] at ht
  | .eps, _, t, ht => by
    simp [Re.run] at ht
    simp [ht, Re.nullable]
  | .seq a b, h, t, ht => by
    simp only [Re.can, Bool.or_eq_false_iff, Bool.and_eq_false_iff] at h
    simp only [Re.run, List.mem_flatMap] at ht
    obtain ⟨u, hu, ht⟩ := ht
    obtain ⟨rfl, ha⟩ := run_can_aux c s a h.1 u hu
    rcases h.2 with h2 | h2
    · rw [ha] at h2; simp at h2
    · obtain ⟨h3, h4⟩ := run_can_aux c s b h2 t ht
      exact ⟨h3, by simp [Re.nullable, ha, h4]⟩
  | .alt a b, h, t, ht => by
    simp only [Re.can, Bool.or_eq_false_iff] at h
    simp only [Re.run, List.mem_append] at ht
    rcases ht with ht | ht
    · obtain ⟨h3, h4⟩ := run_can_aux c s a h.1 t ht
      exact ⟨h3, by simp [Re.nullable, h4]⟩
    · obtain ⟨h3, h4⟩ := run_can_aux c s b h.2 t ht
      exact ⟨h3, by simp [Re.nullable, h4]⟩
  | .star a, h, t, ht => by
    refine ⟨?_, rfl⟩
    simp only [Re.can] at h
    simp only [Re.run, List.length_cons, many] at ht
    have : ((a.run (c :: s)).filter fun t => decide (t.length < s.length + 1)) = [] := by
      rw [List.filter_eq_nil_iff]
      intro u hu
      rw [(run_can_aux c s a h u hu).1]
      simp
    rw [this] at ht
    simpa using ht

theorem run_can {r : Re} {c : Char} {s : Str} (hn : r.nullable = false) (h : r.can c = false) : r.run (c :: s) = [] := by
  cases hr : r.run (c :: s) with
  | nil => rfl
  | cons t ts =>
    have := (run_can_aux c s r h t (by simp [hr])).2
    rw [hn] at this; simp at this

theorem run_nil_aux : ∀ (r : Re), ∀ t ∈ r.run [], t = [] ∧ r.nullable = true
  | .cls p, t, ht => by simp [Re.run] at ht
  | .eps, t, ht => by simp [Re.run] at ht; simp [ht, Re.nullable]
  | .seq a b, t, ht => by
    simp only [Re.run, List.mem_flatMap] at ht
    obtain ⟨u, hu, ht⟩ := ht
    obtain ⟨rfl, ha⟩ := run_nil_aux a u hu
    obtain ⟨h3, h4⟩ := run_nil_aux b t ht
    exact ⟨h3, by simp [Re.nullable, ha, h4]⟩
  | .alt a b, t, ht => by
    simp only [Re.run, List.mem_append] at ht
    rcases ht with ht | ht
    · obtain ⟨h3, h4⟩ := run_nil_aux a t ht
      exact ⟨h3, by simp [Re.nullable, h4]⟩
    · obtain ⟨h3, h4⟩ := run_nil_aux b t ht
      exact ⟨h3, by simp [Re.nullable, h4]⟩
  | .star a, t, ht => by
    simp [Re.run, many] at ht
    exact ⟨ht, rfl⟩

theorem run_nil {r : Re} (hn : r.nullable = false) : r.run [] = [] := by
  cases hr : r.run [] with
  | nil => rfl
  | cons t ts =>
    have := (run_nil_aux r t (by simp [hr])).2
    rw [hn] at this; simp at this

theorem run_lit : ∀ (w s : Str), (Re.lit w).run s = if w.isPrefixOf s then [s.drop w.length] else []
  | [], s => by simp [Re.lit, Re.run]
  | [c], [] => by simp [Re.lit, Re.chr, Re.run]
  | [c], d :: s => by
    simp only [Re.lit, Re.chr, Re.run, List.isPrefixOf, List.length_cons, List.length_nil, List.drop_succ_cons]
    by_cases h : d = c
    · subst h; simp
    · simp [h, Ne.symm h]
  | c :: e :: w, [] => by simp [Re.lit, Re.chr, Re.run]
  | c :: e :: w, d :: s => by
    simp only [Re.lit, Re.chr, Re.run]
    by_cases h : d = c
    · subst h
      simp [run_lit (e :: w) s]
    · simp [h, Ne.symm h]

theorem first_lit (w t : Str) : (Re.lit w).first (w ++ t) = some t := by
  have : w.isPrefixOf (w ++ t) = true := List.isPrefixOf_iff_prefix.mpr ⟨t, rfl⟩
  simp [Re.first, run_lit, this]

theorem first_chr (c : Char) (t : Str) : (Re.chr c).first (c :: t) = some t := by
  simp [Re.first, Re.chr, Re.run]

/-- a class repeated over a text all of whose characters belong to it, and stopping after it -/
theorem first_star_cls {p : Char → Bool} : ∀ {w t : Str}, (∀ c ∈ w, p c = true) → (∀ c, t.head? = some c → p c = false) →
    (Re.star (.cls p)).first (w ++ t) = some t
  | [], t, _, ht => by
    rw [List.nil_append]
    apply first_star_stop
    cases t with
    | nil => rfl
    | cons c t => simp [Re.run, ht c rfl]
  | c :: w, t, hw, ht => by
    have := first_star_step (r := .cls p) (s := c :: (w ++ t)) (first_cls (w ++ t) (hw c (by simp))) (by simp)
    rw [List.cons_append, this]
    exact first_star_cls (fun d hd => hw d (by simp [hd])) ht

theorem first_plus_cls {p : Char → Bool} {w t : Str} (hne : w ≠ []) (hw : ∀ c ∈ w, p c = true)
    (ht : ∀ c, t.head? = some c → p c = false) : (Re.plus (.cls p)).first (w ++ t) = some t := by
  cases w with
  | nil => exact absurd rfl hne
  | cons c w =>
    exact first_seq (first_cls (w ++ t) (hw c (by simp))) (first_star_cls (fun d hd => hw d (by simp [hd])) ht)

theorem first_times_cls {p : Char → Bool} : ∀ {w t : Str}, (∀ c ∈ w, p c = true) →
    (Re.times (.cls p) w.length).first (w ++ t) = some t
  | [], t, _ => by simp [Re.times, Re.first, Re.run]
  | c :: w, t, hw => by
    simp only [List.length_cons, Re.times, List.cons_append]
    exact first_seq (first_cls (w ++ t) (hw c (by simp))) (first_times_cls (fun d hd => hw d (by simp [hd])))

/-! ### The character classes of the specification are those of the tokenizer -/

open Verif.TurtleSpec

theorem letter_eq (c : Char) : letter c = isAlpha c := by simp [letter, inRanges, isAlpha, between]
theorem digit_eq (c : Char) : digit c = isDigit c := by simp [digit, inRanges, isDigit, between]
theorem hex_eq (c : Char) : hexDigit c = isHex c := by
  simp [hexDigit, inRanges, isHex, isDigit, between, Bool.or_assoc]
theorem hex_uchar (c : Char) (h : hexDigit c = true) : isUcharHex c = true := by
  rw [hex_eq] at h
  simp only [isHex, isUcharHex, isDigit, between, Bool.or_eq_true, Bool.and_eq_true, decide_eq_true_eq] at *
  omega
theorem nameStart_eq (c : Char) : nameStart c = isBase c := by
  simp [nameStart, inRanges, isBase, isAlpha, between, Bool.or_assoc]
theorem nameChar_eq (c : Char) : nameChar c = isPn c := by
  have h : ((decide (0xB7 ≤ c.toNat) && decide (c.toNat ≤ 0xB7)) : Bool) = (c.toNat == 0xB7) := by
    rw [Bool.eq_iff_iff]; simp; omega
  simp only [nameChar, isPn, isBaseU, nameStart_eq, digit_eq, inRanges, between, List.any_cons, List.any_nil, h,
    Bool.or_false, Bool.or_assoc]
theorem iriChar_eq (c : Char) : iriChar c = isIriChar c := by
  rw [Bool.eq_iff_iff]
  simp [iriChar, isIriChar]
theorem escapable_eq (c : Char) : escapable c = isLocalEsc c := by
  rw [Bool.eq_iff_iff]
  simp [escapable, isLocalEsc]
theorem blank_eq (c : Char) : blank c = isWs c := by
  rw [Bool.eq_iff_iff]
  simp [blank, isWs, or_assoc]

end Verif.Turtle
