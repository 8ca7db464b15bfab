import Verif.Lemmas.Conversions
/-
Helper lemmas for C45: the index word of a number, and how its value is related to exponent and mantissa.
-/
namespace Verif.Conversions
open Verif.ConversionsSpec
open Verif.ExternalVocabulary (Word)

/-- The digits of a number. -/
abbrev digitsOf (x : Number) : List Nat := x.int ++ x.frac

/-- The number is not zero. -/
abbrev NonZero (x : Number) : Prop := ∃ d ∈ digitsOf x, d ≠ 0

/-- The zeros after the dot. -/
def zerosOf (x : Number) : Nat := (x.frac.takeWhile (· = 0)).length

/-- What stands between the prefix and the type. -/
def body (x : Number) : Word :=
  if x.int = [0] then
    if x.neg then ['M', '-'] ++ chars (expoDigits (zerosOf x + 1)) ++ ['E'] ++ chars (compl (mantDigits (digitsOf x)))
    else ['P', 'M'] ++ chars (compl (expoDigits (zerosOf x + 1))) ++ ['E'] ++ chars (mantDigits (digitsOf x))
  else
    if x.neg then ['M', '+'] ++ chars (compl (expoDigits (x.int.length - 1))) ++ ['E'] ++ chars (compl (mantDigits (digitsOf x)))
    else ['P', 'P'] ++ chars (expoDigits (x.int.length - 1)) ++ ['E'] ++ chars (mantDigits (digitsOf x))

/-- The absolute value of the exponent. -/
def absExpo (x : Number) : Nat := if x.int = [0] then zerosOf x + 1 else x.int.length - 1

theorem compl_append (a b : List Nat) : compl (a ++ b) = compl a ++ compl b := List.map_append ..

theorem compl_zeros (k : Nat) : compl (List.replicate k 0) = List.replicate k 9 := by rw [compl, List.map_replicate]

theorem chars_replicate (k d : Nat) : chars (List.replicate k d) = List.replicate k (digitChar d) := by rw [chars, List.map_replicate]

theorem compl_take (k : Nat) (ds : List Nat) : compl (ds.take k) = (compl ds).take k := List.map_take ..

theorem chars_take (k : Nat) (ds : List Nat) : chars (ds.take k) = (chars ds).take k := List.map_take ..

/-- The text of the digits, without the sign. -/
theorem text_eq (x : Number) : x.text = (if x.neg then ['-'] else []) ++ (chars x.int ++ '.' :: chars x.frac) := by
  rw [Number.text, List.append_assoc]; rfl

theorem chars_no {ds : List Nat} (h : Digits ds) {c : Char} (hc : ∀ d, d < 10 → digitChar d ≠ c) : c ∉ chars ds := by
  intro hm
  obtain ⟨d, hd, he⟩ := List.mem_map.1 hm
  exact hc d (h d hd) he

theorem findIdx_append {c : Char} (a b : Word) (h : c ∉ a) : (a ++ c :: b).findIdx? (· = c) = some a.length := by
  induction a with
  | nil => rw [List.nil_append, List.findIdx?_cons, if_pos (by simp)]; rfl
  | cons x a ih =>
    simp only [List.mem_cons, not_or] at h
    rw [List.cons_append, List.findIdx?_cons, if_neg (by simpa using Ne.symm h.1), ih h.2]
    rfl

theorem filter_chars {ds : List Nat} (h : Digits ds) : (chars ds).filter (· ≠ '.') = chars ds := by
  rw [List.filter_eq_self]
  intro c hc
  obtain ⟨d, hd, rfl⟩ := List.mem_map.1 hc
  simpa using (digitChar_other d (h d hd)).1

theorem zeros_chars {ds : List Nat} (h : Digits ds) : ((chars ds).takeWhile (· = '0')).length = (ds.takeWhile (· = 0)).length := by
  induction ds with
  | nil => rfl
  | cons d ds ih =>
    have hd := digitChar_zero d (h d List.mem_cons_self)
    rw [chars, List.map_cons, List.takeWhile_cons, List.takeWhile_cons]
    by_cases h0 : d = 0
    · rw [if_pos (by simpa using hd.2 h0), if_pos (by simpa using h0), List.length_cons, List.length_cons, ← ih fun x hx => h x (List.mem_cons_of_mem _ hx)]
      rfl
    · rw [if_neg (by simpa using fun h' => h0 (hd.1 h')), if_neg (by simpa using h0)]; rfl

theorem takeWhile_length_lt {ds : List Nat} (h : ∃ d ∈ ds, d ≠ 0) : (ds.takeWhile (· = 0)).length < ds.length := by
  induction ds with
  | nil => obtain ⟨d, hd, _⟩ := h; cases hd
  | cons x ds ih =>
    rw [List.takeWhile_cons]
    by_cases h0 : x = 0
    · rw [if_pos (by simpa using h0), List.length_cons, List.length_cons]
      obtain ⟨d, hd, h1⟩ := h
      rcases List.mem_cons.1 hd with h2 | h2
      · exact absurd (h2.trans h0) h1
      · have := ih ⟨d, h2, h1⟩; omega
    · rw [if_neg (by simpa using h0)]; simp

variable {x : Number}

theorem int_digits (hc : x.Canonical) : Digits x.int := fun d hd => hc.digits d (List.mem_append_left _ hd)

theorem frac_digits (hc : x.Canonical) : Digits x.frac := fun d hd => hc.digits d (List.mem_append_right _ hd)

theorem int_ne_zero (hc : x.Canonical) (h : x.int ≠ [0]) : ∃ d ds, x.int = d :: ds ∧ d ≠ 0 := by
  cases hi : x.int with
  | nil => exact absurd hi hc.nonempty
  | cons d ds =>
    refine ⟨d, ds, rfl, fun h0 => h ?_⟩
    exact hc.leading (by rw [hi, h0]; rfl)

theorem frac_nonzero (hn : NonZero x) (h : x.int = [0]) : ∃ d ∈ x.frac, d ≠ 0 := by
  obtain ⟨d, hd, h0⟩ := hn
  rcases List.mem_append.1 hd with h1 | h1
  · rw [h] at h1
    exact absurd (List.mem_singleton.1 h1) h0
  · exact ⟨d, h1, h0⟩

theorem exponentOf_eq (hc : x.Canonical) (hn : NonZero x) : exponentOf (chars x.int ++ '.' :: chars x.frac) x.int.length
    = if x.int = [0] then -((zerosOf x + 1 : Nat) : Int) else ((x.int.length - 1 : Nat) : Int) := by
  by_cases h : x.int = [0]
  · rw [if_pos h, exponentOf, h, if_pos ⟨by decide, by rfl⟩]
    have h1 : (chars [0] ++ '.' :: chars x.frac).drop 2 = chars x.frac := rfl
    have h2 := takeWhile_length_lt (frac_nonzero hn h)
    dsimp only
    rw [h1, zeros_chars (frac_digits hc), if_neg, zerosOf]
    · omega
    · rw [List.length_append, List.length_cons, chars_length, chars_length, List.length_singleton]
      omega
  · obtain ⟨d, ds, hi, hd⟩ := int_ne_zero hc h
    rw [if_neg h, exponentOf, if_neg]
    · rw [hi, List.length_cons]; omega
    · rintro ⟨_, h1⟩
      rw [hi] at h1
      have h2 : digitChar d = '0' := by simpa [chars] using h1
      exact hd ((digitChar_zero d (int_digits hc d (by rw [hi]; exact List.mem_cons_self))).1 h2)

theorem mantissaOf_eq (hc : x.Canonical) (neg : Bool) : mantissaOf (chars x.int ++ '.' :: chars x.frac) neg
    = if neg then chars (compl (digitsOf x)) else chars (digitsOf x) := by
  have h1 : (chars x.int ++ '.' :: chars x.frac).filter (· ≠ '.') = chars (digitsOf x) := by
    rw [List.filter_append, List.filter_cons, if_neg (by simp), filter_chars (int_digits hc), filter_chars (frac_digits hc), ← chars_append]
  rw [mantissaOf, h1]
  cases neg with
  | false => rfl
  | true => rw [if_pos rfl, if_pos rfl, complement_chars hc.digits]

theorem text_head (hc : x.Canonical) : x.text.head? ≠ some '+' ∧ (x.text.head? = some '-' ↔ x.neg = true)
    ∧ (x.text.drop (if x.neg then 1 else 0) = chars x.int ++ '.' :: chars x.frac) := by
  rw [text_eq]
  cases hn : x.neg with
  | true => exact ⟨by simp, by simp, rfl⟩
  | false =>
    cases hi : x.int with
    | nil => exact absurd hi hc.nonempty
    | cons d ds =>
      have h := digitChar_other d (int_digits hc d (by rw [hi]; exact List.mem_cons_self))
      refine ⟨?_, ?_, rfl⟩
      · simpa [chars] using h.2.2.1
      · simpa [chars] using h.2.1

theorem text_not_zero (hn : NonZero x) (hc : x.Canonical) : ¬ (x.text = ['0', '.', '0'] ∨ x.text = ['-', '0', '.', '0']) := by
  intro h
  have h1 : chars x.int ++ '.' :: chars x.frac = ['0', '.', '0'] := by
    have h2 := (text_head hc).2.2
    have h3 := (text_head hc).2.1
    rcases h with h | h
    · rw [h] at h2 h3
      cases hx : x.neg with
      | true => rw [hx] at h3; exact absurd (h3.2 rfl) (by decide)
      | false => rw [hx] at h2; exact h2.symm
    · rw [h] at h2 h3
      cases hx : x.neg with
      | true => rw [hx] at h2; exact h2.symm
      | false => rw [hx] at h3; exact absurd (h3.1 rfl) (by decide)
  have h2 := congrArg (List.filter (· ≠ '.')) h1
  rw [List.filter_append, List.filter_cons, if_neg (by simp), filter_chars (int_digits hc), filter_chars (frac_digits hc), ← chars_append] at h2
  have h3 : chars (digitsOf x) = ['0', '0'] := h2.trans (by decide)
  obtain ⟨d, hd, h0⟩ := hn
  have h4 : digitChar d ∈ chars (digitsOf x) := List.mem_map.2 ⟨d, hd, rfl⟩
  rw [h3] at h4
  have h5 : digitChar d = '0' := by simpa using h4
  exact h0 ((digitChar_zero d (hc.digits d hd)).1 h5)

theorem findIdx_dot (hc : x.Canonical) : x.text.findIdx? (· = '.') = some ((if x.neg then 1 else 0) + x.int.length) := by
  have h1 : '.' ∉ (if x.neg then ['-'] else []) ++ chars x.int := by
    intro h
    rcases List.mem_append.1 h with h | h
    · cases hn : x.neg <;> rw [hn] at h <;> simp at h
    · exact chars_no (int_digits hc) (fun d hd => (digitChar_other d hd).1) h
  rw [text_eq, ← List.append_assoc, findIdx_append _ _ h1, List.length_append, chars_length]
  cases x.neg <;> rfl

theorem mant_chars (ds : List Nat) (b : Bool) : ((if b then chars (compl ds) else chars ds).take 30
      ++ List.replicate (30 - (if b then chars (compl ds) else chars ds).length) (if b then '9' else '0'))
      = if b then chars (compl (mantDigits ds)) else chars (mantDigits ds) := by
  cases b with
  | false =>
    simp only [Bool.false_eq_true, if_false]
    rw [mantDigits, chars_append, chars_take, chars_replicate, chars_length]
    rfl
  | true =>
    simp only [if_true]
    rw [mantDigits, compl_append, compl_zeros, compl_take, chars_append, chars_take, chars_replicate, chars_length, compl_length]
    rfl

theorem expo_chars (n : Nat) : chars (expoDigits n) = List.replicate (20 - (digs n).length) '0' ++ chars (digs n) := by
  rw [expoDigits, chars_append, chars_replicate]; rfl

theorem expo_compl (n : Nat) : chars (compl (expoDigits n)) = List.replicate (20 - (digs n).length) '9' ++ chars (compl (digs n)) := by
  rw [expoDigits, compl_append, compl_zeros, chars_append, chars_replicate]; rfl

/-- The index word of a number other than zero. -/
theorem floatWord_text (hc : x.Canonical) (hn : NonZero x) (type : NumericType) :
    floatWord x.text type = if (digs (absExpo x)).length < 20 then .ok (floatPrefix ++ body x ++ [type.char]) else .throw := by
  obtain ⟨hp, hm, ht⟩ := text_head hc
  have hs : stripPlus x.text = x.text := by rw [stripPlus, if_neg hp]
  have hz := text_not_zero hn hc
  have he := exponentOf_eq hc hn
  rw [floatWord]
  dsimp only
  rw [hs, findIdx_dot hc]
  dsimp only
  rw [floatWordDot, if_neg hz]
  dsimp only
  have hneg : decide (x.text.head? = some '-') = x.neg := by
    rw [Bool.eq_iff_iff, decide_eq_true_iff, hm]
  have hv : (if x.neg = true then x.text.drop 1 else x.text) = chars x.int ++ '.' :: chars x.frac := by
    rw [← ht]; cases x.neg <;> rfl
  have hpos : (if x.neg = true then (if x.neg = true then 1 else 0) + x.int.length - 1 else (if x.neg = true then 1 else 0) + x.int.length) = x.int.length := by
    cases x.neg
    · simp
    · simp
  rw [hneg, hv, hpos, he, mantissaOf_eq hc]
  have hm' := mant_chars (digitsOf x) x.neg
  by_cases hi : x.int = [0]
  · rw [if_pos hi, absExpo, if_pos hi, body, if_pos hi]
    have h0 : decide (-((zerosOf x + 1 : Nat) : Int) < 0) = true := by
      rw [decide_eq_true_iff]; omega
    have h1 : (-((zerosOf x + 1 : Nat) : Int)).natAbs = zerosOf x + 1 := by omega
    rw [h0, h1, decimal_eq]
    cases hb : x.neg with
    | true =>
      rw [hb] at hm'
      simp only [bne_self_eq_false, Bool.false_eq_true, if_false, if_true, chars_length, beq_self_eq_true] at hm' ⊢
      by_cases hl : (digs (zerosOf x + 1)).length < 20
      · rw [if_pos hl, if_pos hl, ← hm', expo_chars]
        simp only [List.append_assoc, List.cons_append, List.nil_append]
      · rw [if_neg hl, if_neg hl]
    | false =>
      rw [hb] at hm'
      have hx : (false != true) = true := rfl
      have hx' : (true == false) = false := rfl
      simp only [hx, hx', Bool.false_eq_true, if_false, if_true, complement_chars (digs_digits _), chars_length, compl_length] at hm' ⊢
      by_cases hl : (digs (zerosOf x + 1)).length < 20
      · rw [if_pos hl, if_pos hl, ← hm', expo_compl]
        simp only [List.append_assoc, List.cons_append, List.nil_append]
      · rw [if_neg hl, if_neg hl]
  · rw [if_neg hi, absExpo, if_neg hi, body, if_neg hi]
    have h0 : decide (((x.int.length - 1 : Nat) : Int) < 0) = false := by
      rw [decide_eq_false_iff_not]; omega
    rw [h0, Int.natAbs_natCast, decimal_eq]
    cases hb : x.neg with
    | true =>
      rw [hb] at hm'
      have hx : (true != false) = true := rfl
      have hx' : (false == true) = false := rfl
      simp only [hx, hx', Bool.false_eq_true, if_false, if_true, complement_chars (digs_digits _), chars_length, compl_length] at hm' ⊢
      by_cases hl : (digs (x.int.length - 1)).length < 20
      · rw [if_pos hl, if_pos hl, ← hm', expo_compl]
        simp only [List.append_assoc, List.cons_append, List.nil_append]
      · rw [if_neg hl, if_neg hl]
    | false =>
      rw [hb] at hm'
      simp only [bne_self_eq_false, Bool.false_eq_true, if_false, chars_length, beq_self_eq_true, if_true] at hm' ⊢
      by_cases hl : (digs (x.int.length - 1)).length < 20
      · rw [if_pos hl, if_pos hl, ← hm', expo_chars]
        simp only [List.append_assoc, List.cons_append, List.nil_append]
      · rw [if_neg hl, if_neg hl]

theorem floatWord_zero (hc : x.Canonical) (hn : ¬ NonZero x) (type : NumericType) :
    floatWord x.text type = .ok (floatPrefix ++ ['N', '0', type.char]) := by
  have hz : ∀ d ∈ x.int ++ x.frac, d = 0 := fun d hd => by
    by_contra h
    exact hn ⟨d, hd, h⟩
  have hf := hc.zero hz
  have hi : x.int = [0] := by
    cases hi : x.int with
    | nil => exact absurd hi hc.nonempty
    | cons d ds =>
      rw [← hi]
      exact hc.leading (by rw [hi, hz d (by rw [hi]; simp)]; rfl)
  obtain ⟨neg, int, frac⟩ := x
  simp only at hf hi
  subst hf hi
  cases neg <;> rfl

/-! ### Values -/

/-- The absolute value. -/
def mag (x : Number) : ℚ := (natOf x.int : ℚ) + (natOf x.frac : ℚ) / 10 ^ x.frac.length

theorem value_eq (x : Number) : x.value = if x.neg then -mag x else mag x := rfl

theorem mag_pad (n : Nat) (hn : (digitsOf x).length ≤ n) : mag x * 10 ^ (n - x.int.length) = natOf (padTo n (digitsOf x)) := by
  rw [List.length_append] at hn
  rw [natOf_padTo, mag, natOf_append, List.length_append]
  obtain ⟨k, hk⟩ : ∃ k, n = x.int.length + x.frac.length + k := ⟨n - (x.int.length + x.frac.length), by omega⟩
  have h1 : n - x.int.length = x.frac.length + k := by omega
  have h2 : n - (x.int.length + x.frac.length) = k := by omega
  rw [h1, h2]
  push_cast
  rw [pow_add]
  field_simp

theorem mag_nonneg (x : Number) : 0 ≤ mag x := by
  rw [mag]; positivity

theorem mag_lt (hc : x.Canonical) : mag x < 10 ^ x.int.length := by
  have h1 := natOf_lt (int_digits hc)
  have h2 := natOf_lt (frac_digits hc)
  rw [mag]
  have h3 : (natOf x.frac : ℚ) / 10 ^ x.frac.length < 1 := by
    rw [div_lt_one (by positivity)]
    exact_mod_cast h2
  have h4 : (natOf x.int : ℚ) + 1 ≤ 10 ^ x.int.length := by exact_mod_cast h1
  linarith

theorem le_mag (hc : x.Canonical) (hi : x.int ≠ [0]) : (10 : ℚ) ^ (x.int.length - 1) ≤ mag x := by
  obtain ⟨d, ds, h, hd⟩ := int_ne_zero hc hi
  have h1 : 10 ^ (x.int.length - 1) ≤ natOf x.int := by
    rw [h, natOf_cons, List.length_cons, Nat.add_sub_cancel]
    have : 1 * 10 ^ ds.length ≤ d * 10 ^ ds.length := Nat.mul_le_mul_right _ (by omega)
    omega
  have h2 : (10 : ℚ) ^ (x.int.length - 1) ≤ natOf x.int := by exact_mod_cast h1
  have h3 : (0 : ℚ) ≤ (natOf x.frac : ℚ) / 10 ^ x.frac.length := by positivity
  rw [mag]
  linarith

/-- Zeros at the beginning, then a digit other than zero. -/
theorem split_zeros {ds : List Nat} (h : ∃ d ∈ ds, d ≠ 0) : ∃ d rest, ds = List.replicate (ds.takeWhile (· = 0)).length 0 ++ d :: rest ∧ d ≠ 0 := by
  induction ds with
  | nil => obtain ⟨d, hd, _⟩ := h; cases hd
  | cons x ds ih =>
    by_cases h0 : x = 0
    · obtain ⟨d, hd, h1⟩ := h
      have h2 : ∃ d ∈ ds, d ≠ 0 := by
        rcases List.mem_cons.1 hd with h2 | h2
        · exact absurd (h2.trans h0) h1
        · exact ⟨d, h2, h1⟩
      obtain ⟨e, rest, h3, h4⟩ := ih h2
      refine ⟨e, rest, ?_, h4⟩
      rw [List.takeWhile_cons, if_pos (by simpa using h0), List.length_cons, List.replicate_succ, List.cons_append, ← h3, h0]
    · refine ⟨x, ds, ?_, h0⟩
      rw [List.takeWhile_cons, if_neg (by simpa using h0)]; rfl

theorem frac_bounds (hc : x.Canonical) (hn : NonZero x) (hi : x.int = [0]) :
    mag x * 10 ^ zerosOf x < 1 ∧ 1 ≤ mag x * 10 ^ (zerosOf x + 1) := by
  obtain ⟨d, rest, h, hd⟩ := split_zeros (frac_nonzero hn hi)
  have hz : (x.frac.takeWhile (· = 0)).length = zerosOf x := rfl
  rw [hz] at h
  have hr : Digits (d :: rest) := fun y hy => frac_digits hc y (by rw [h]; exact List.mem_append_right _ hy)
  have hl : x.frac.length = zerosOf x + (rest.length + 1) := by
    conv => lhs; rw [h]
    rw [List.length_append, List.length_replicate, List.length_cons]
  have hv : natOf x.frac = natOf (d :: rest) := by
    conv => lhs; rw [h]
    rw [natOf_append, natOf_zeros]; omega
  have h1 : natOf (d :: rest) < 10 ^ (rest.length + 1) := natOf_lt hr
  have h2 : 10 ^ rest.length ≤ natOf (d :: rest) := by
    rw [natOf_cons]
    have : 1 * 10 ^ rest.length ≤ d * 10 ^ rest.length := Nat.mul_le_mul_right _ (by omega)
    omega
  have hm : mag x = (natOf (d :: rest) : ℚ) / (10 ^ zerosOf x * 10 ^ (rest.length + 1)) := by
    rw [mag, hi, hv, hl, pow_add]
    simp [natOf]
  have h3 : ((natOf (d :: rest) : ℕ) : ℚ) < 10 ^ (rest.length + 1) := by exact_mod_cast h1
  have h4 : (10 : ℚ) ^ rest.length ≤ ((natOf (d :: rest) : ℕ) : ℚ) := by exact_mod_cast h2
  constructor
  · have : mag x * 10 ^ zerosOf x = (natOf (d :: rest) : ℚ) / 10 ^ (rest.length + 1) := by
      rw [hm]; field_simp
    rw [this, div_lt_one (by positivity)]
    exact h3
  · have : mag x * 10 ^ (zerosOf x + 1) = (natOf (d :: rest) : ℚ) / 10 ^ rest.length := by
      rw [hm, pow_succ, pow_succ]; field_simp
    rw [this, one_le_div (by positivity)]
    exact h4

theorem mag_pos (hc : x.Canonical) (hn : NonZero x) : 0 < mag x := by
  by_cases hi : x.int = [0]
  · have h := (frac_bounds hc hn hi).2
    by_contra h'
    have h0 : mag x = 0 := le_antisymm (not_lt.1 h') (mag_nonneg x)
    rw [h0, zero_mul] at h
    exact absurd h (by norm_num)
  · exact lt_of_lt_of_le (by positivity) (le_mag hc hi)

theorem mag_zero (hn : ¬ NonZero x) : mag x = 0 := by
  have h1 : ∀ ds : List Nat, (∀ d ∈ ds, d = 0) → natOf ds = 0 := fun ds h => by
    have : ds = List.replicate ds.length 0 := List.eq_replicate_iff.2 ⟨rfl, h⟩
    rw [this, natOf_zeros]
  have h2 : ∀ d ∈ digitsOf x, d = 0 := fun d hd => by
    by_contra h
    exact hn ⟨d, hd, h⟩
  rw [mag, h1 x.int fun d hd => h2 d (List.mem_append_left _ hd), h1 x.frac fun d hd => h2 d (List.mem_append_right _ hd)]
  simp

theorem value_zero_iff (hc : x.Canonical) : x.value = 0 ↔ ¬ NonZero x := by
  constructor
  · intro h hn
    have h1 := mag_pos hc hn
    rw [value_eq] at h
    cases hb : x.neg <;> rw [hb] at h <;> simp at h <;> linarith
  · intro hn
    rw [value_eq, mag_zero hn]
    simp

end Verif.Conversions
