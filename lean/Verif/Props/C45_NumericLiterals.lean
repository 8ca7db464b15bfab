import Verif.Lemmas.ConversionsFloat
import Verif.Props.C59_FilterConditions
/-
C45: numeric literals are ordered by value in their internal form, and are converted back to the same value.
-/
namespace Verif.C45
open Verif.Conversions Verif.ConversionsSpec
open Verif.ExternalVocabulary (Word)

/-! ### The order of the index words -/

/-- Comparing bytes puts the characters into the right order. -/
theorem bytes_weights : Weights Char.toNat := by
  refine ⟨?_, by decide, by decide⟩
  have h : ∀ b, b < 10 → ∀ a, a < b → (Char.ofNat (48 + a)).toNat < (Char.ofNat (48 + b)).toNat := by decide
  exact fun a b hab hb => h b hb a hab

/-- Every number has an index word, whatever its type. -/
theorem encodes (x : Number) (hc : x.Canonical) (hl : x.int.length + x.frac.length < 10 ^ 19) (type : NumericType) :
    ∃ a, floatWord x.text type = .ok a := by
  by_cases hn : NonZero x
  · refine ⟨_, (floatWord_text hc hn type).trans (if_pos ?_)⟩
    have h : absExpo x < 10 ^ (18 + 1) := by
      rw [absExpo]
      by_cases hi : x.int = [0]
      · rw [if_pos hi]
        have h1 := takeWhile_length_lt (frac_nonzero hn hi)
        have h2 : zerosOf x = (x.frac.takeWhile (· = 0)).length := rfl
        rw [hi, List.length_singleton] at hl
        omega
      · rw [if_neg hi]; omega
    have := digs_length 18 _ h
    omega
  · exact ⟨_, floatWord_zero hc hn type⟩

/-- C45: of two numbers with at most 30 digits, the smaller one has the smaller word.  Partial: without superfluous zeros at the beginning
(`leading_violated`, `zero_violated`, `point_violated`) and without exponents (`exponent_violated`). -/
theorem order_partial (w : Char → Nat) (hw : Weights w) (x y : Number) (hx : x.Canonical) (hy : y.Canonical) (tx ty : NumericType) (a b : Word)
    (ha : floatWord x.text tx = .ok a) (hb : floatWord y.text ty = .ok b) (lx : x.int.length + x.frac.length ≤ 30)
    (ly : y.int.length + y.frac.length ≤ 30) (h : x.value < y.value) : a.map w < b.map w := by
  obtain ⟨rfl, ex⟩ := floatWord_body hx ha
  obtain ⟨rfl, ey⟩ := floatWord_body hy hb
  rcases body_order hw hx hy ex ey (le_of_lt h) with h1 | ⟨_, h1⟩
  · simp only [List.map_append, List.append_assoc]
    refine lt_append_left _ ?_
    have key : ∀ {u v : List Nat} (p q : List Nat), u < v → ¬ u <+: v → u ++ p < v ++ q := by
      intro u
      induction u with
      | nil => intro v p q _ hp; exact absurd (List.nil_prefix) hp
      | cons e u ih =>
        intro v p q h hp
        cases v with
        | nil => exact absurd h (by simp)
        | cons f v =>
          refine List.cons_lt_cons_iff.2 ?_
          rcases List.cons_lt_cons_iff.1 h with h | ⟨h, h'⟩
          · exact Or.inl h
          · refine Or.inr ⟨h, ih p q h' fun h2 => hp ?_⟩
            rw [h]
            exact List.cons_prefix_cons.2 ⟨rfl, h2⟩
    refine key _ _ h1 fun hp => ?_
    -- neither word is the beginning of the other
    have len : ∀ {z : Number}, (z.value ≠ 0 → (digs (absExpo z)).length < 20) → z.value ≠ 0 → (bodyOf z).length = 53 := by
      intro z ez z0
      have l1 := expoDigits_length (ez z0)
      rw [absExpo] at l1
      rw [bodyOf, if_neg z0, body]
      by_cases hi : z.int = [0]
      · rw [if_pos hi] at l1
        rw [if_pos hi]
        cases z.neg <;> simp [chars_length, compl_length, mantDigits_length, l1]
      · rw [if_neg hi] at l1
        rw [if_neg hi]
        cases z.neg <;> simp [chars_length, compl_length, mantDigits_length, l1]
    by_cases x0 : x.value = 0
    · by_cases y0 : y.value = 0
      · rw [x0, y0] at h
        exact lt_irrefl _ h
      · obtain ⟨r, hr⟩ := body_head y
        rw [bodyOf, bodyOf, if_pos x0, if_neg y0, hr] at hp
        have hyp : y.neg = false := by
          cases hb : y.neg with
          | false => rfl
          | true =>
            rw [x0, value_eq, hb] at h
            have := mag_nonneg y
            simp only [if_true] at h
            linarith
        rw [hyp] at hp
        have := (List.cons_prefix_cons.1 hp).1
        have hs := hw.signs.2
        simp only [Bool.false_eq_true, if_false] at this
        omega
    · by_cases y0 : y.value = 0
      · have h2 := hp.length_le
        rw [List.length_map, List.length_map, len ex x0, bodyOf, if_pos y0] at h2
        simp at h2
      · have h2 := hp.eq_of_length (by rw [List.length_map, List.length_map, len ex x0, len ey y0])
        rw [h2] at h1
        exact absurd h1 (by simp)
  · exact absurd (h1 (by rw [List.length_append]; exact lx) (by rw [List.length_append]; exact ly)) (ne_of_lt h)

/-- C45: numbers with the same value have the same word up to the type at its end. -/
theorem equal_partial (x y : Number) (hx : x.Canonical) (hy : y.Canonical) (tx ty : NumericType) (a b : Word)
    (ha : floatWord x.text tx = .ok a) (hb : floatWord y.text ty = .ok b) (h : x.value = y.value) :
    a.dropLast = b.dropLast ∧ (tx = ty → a = b) := by
  obtain ⟨rfl, ex⟩ := floatWord_body hx ha
  obtain ⟨rfl, ey⟩ := floatWord_body hy hb
  have h1 : bodyOf x = bodyOf y := by
    rcases body_order bytes_weights hx hy ex ey (le_of_eq h) with h1 | ⟨h1, _⟩
    · rcases body_order bytes_weights hy hx ey ex (le_of_eq h.symm) with h2 | ⟨h2, _⟩
      · exact absurd h1 (List.lt_asymm h2)
      · exact h2.symm
    · exact h1
  rw [List.dropLast_concat, List.dropLast_concat, h1]
  exact ⟨rfl, fun h => by rw [h]⟩

/-- C45 for numbers with any number of digits: the word of the greater number is not smaller (up to the type at its end). -/
theorem order_long (w : Char → Nat) (hw : Weights w) (x y : Number) (hx : x.Canonical) (hy : y.Canonical) (tx ty : NumericType) (a b : Word)
    (ha : floatWord x.text tx = .ok a) (hb : floatWord y.text ty = .ok b) (h : x.value ≤ y.value) :
    a.dropLast.map w < b.dropLast.map w ∨ a.dropLast = b.dropLast := by
  obtain ⟨rfl, ex⟩ := floatWord_body hx ha
  obtain ⟨rfl, ey⟩ := floatWord_body hy hb
  rw [List.dropLast_concat, List.dropLast_concat]
  rcases body_order hw hx hy ex ey h with h1 | ⟨h1, _⟩
  · left
    rw [List.map_append, List.map_append]
    exact lt_append_left _ h1
  · exact Or.inr (by rw [h1])

/-- A number without digits after the dot, as integers are written. -/
theorem integer_text (x : Number) (hc : x.Canonical) (hf : x.frac = [0]) (type : NumericType) :
    floatWord ((if x.neg then ['-'] else []) ++ x.int.map digitChar) type = floatWord x.text type := by
  have ht : x.text = ((if x.neg then ['-'] else []) ++ x.int.map digitChar) ++ ['.', '0'] := by
    rw [text_eq, hf]; simp [chars, digitChar]
  have hp := (text_head hc).1
  obtain ⟨v, hv⟩ : ∃ v, v = (if x.neg then ['-'] else []) ++ x.int.map digitChar := ⟨_, rfl⟩
  rw [← hv] at ht ⊢
  have hne : v ≠ [] := by
    rw [hv]
    intro h
    have := (List.append_eq_nil_iff.1 h).2
    exact hc.nonempty (List.map_eq_nil_iff.1 this)
  obtain ⟨c, cs, hcs⟩ : ∃ c cs, v = c :: cs := by
    cases v with
    | nil => exact absurd rfl hne
    | cons c cs => exact ⟨c, cs, rfl⟩
  have hplus : v.head? ≠ some '+' := by
    rw [ht, hcs] at hp
    rw [hcs]
    exact hp
  have hdot : '.' ∉ v := by
    rw [hv]
    intro h
    rcases List.mem_append.1 h with h | h
    · cases hn : x.neg <;> rw [hn] at h <;> simp at h
    · exact chars_no (int_digits hc) (fun d hd => (digitChar_other d hd).1) h
  have hnone : v.findIdx? (· = '.') = none := by
    rw [List.findIdx?_eq_none_iff]
    intro c hc'
    have : c ≠ '.' := fun h => hdot (h ▸ hc')
    simpa using this
  have hsome : (v ++ ['.', '0']).findIdx? (· = '.') = some v.length := findIdx_append v ['0'] hdot
  have hidx : (v ++ ['.', '0']).findIdx (· = '.') = v.length := by
    have := List.findIdx?_eq_some_iff_findIdx_eq.1 hsome
    exact this.2
  rw [floatWord, floatWord, ht]
  have h1 : stripPlus v = v := by rw [stripPlus, if_neg hplus]
  have h2 : stripPlus (v ++ ['.', '0']) = v ++ ['.', '0'] := by rw [stripPlus, if_neg (by rw [← ht]; exact hp)]
  dsimp only
  rw [h1, h2, hnone, hsome]
  dsimp only
  rw [hidx]

/-- The sign `+` is ignored. -/
theorem plus_text (x : Number) (hc : x.Canonical) (type : NumericType) : floatWord ('+' :: x.text) type = floatWord x.text type := by
  have h1 : stripPlus ('+' :: x.text) = x.text := rfl
  have h2 : stripPlus x.text = x.text := by rw [stripPlus, if_neg (text_head hc).1]
  rw [floatWord, floatWord, h1, h2]

example : (⟨true, [1, 2], [3, 4]⟩ : Number).Canonical ∧ (⟨true, [1, 2], [3, 4]⟩ : Number).text = ['-', '1', '2', '.', '3', '4'] ∧
    (⟨false, [0], [0, 5]⟩ : Number).Canonical ∧ (⟨true, [1, 2], [3, 4]⟩ : Number).value < (⟨false, [0], [0, 5]⟩ : Number).value := by
  refine ⟨by decide, by decide, by decide, ?_⟩
  norm_num [Number.value, natOf]

/-- C45 fails with a collator that sorts `-` before `+`, as the root collation of Unicode does: -5 comes after -0.5. -/
theorem collation_violated (w : Char → Nat) (h : w '-' < w '+') : ∃ (x y : Number) (a b : Word), x.Canonical ∧ y.Canonical ∧ x.value < y.value ∧
    floatWord x.text .decimal = .ok a ∧ floatWord y.text .decimal = .ok b ∧ b.map w < a.map w := by
  refine ⟨⟨true, [5], [0]⟩, ⟨true, [0], [5]⟩, _, _, by decide, by decide, ?_, rfl, rfl, ?_⟩
  · norm_num [Number.value, natOf]
  · simp only [floatPrefix, List.map_append, List.map_cons, List.map_nil, List.append_assoc, List.cons_append, List.nil_append]
    iterate 10 refine List.cons_lt_cons_iff.2 (Or.inr ⟨rfl, ?_⟩)
    exact List.cons_lt_cons_iff.2 (Or.inl h)

/-- The bytes of a word. -/
abbrev bytes (w : Word) : List Nat := w.map Char.toNat

/-- C45 fails for numbers with more than 30 digits: two different numbers have the same word. -/
theorem digits_violated : ∃ (x y : Number) (a : Word), x.Canonical ∧ y.Canonical ∧ x.value < y.value ∧
    floatWord x.text .decimal = .ok a ∧ floatWord y.text .decimal = .ok a := by
  have hx : (⟨false, [1], List.replicate 30 3⟩ : Number).Canonical := by decide
  have hy : (⟨false, [1], List.replicate 29 3 ++ [4]⟩ : Number).Canonical := by decide
  have hb : body ⟨false, [1], List.replicate 29 3 ++ [4]⟩ = body ⟨false, [1], List.replicate 30 3⟩ := by decide +kernel
  refine ⟨_, _, _, hx, hy, ?_, (floatWord_text hx ⟨1, by simp, by decide⟩ _).trans (if_pos (by decide)),
    (floatWord_text hy ⟨1, by simp, by decide⟩ _).trans ((if_pos (by decide)).trans (by rw [hb]))⟩
  simp only [Number.value, List.replicate, List.cons_append, List.nil_append, natOf, List.foldl_cons, List.foldl_nil, List.length_cons, List.length_nil]
  norm_num

/-- C45 fails with zeros at the beginning: 05 is greater than 9, and is shown as 50.0. -/
theorem leading_violated : ∃ a b, floatWord ['0', '5'] .integer = .ok a ∧ floatWord ['9'] .integer = .ok b ∧ bytes b < bytes a ∧
    floatString a = .ok ['5', '0', '.', '0'] := ⟨_, _, rfl, rfl, by decide, by decide⟩

/-- C45 fails for zero with more than one digit: 0.00 is greater than 0.05 and is shown as `0.`; showing 00 is undefined behaviour. -/
theorem zero_violated : ∃ a b c, floatWord ['0', '.', '0', '0'] .decimal = .ok a ∧ floatWord ['0', '.', '0', '5'] .decimal = .ok b ∧
    bytes b < bytes a ∧ floatString a = .ok ['0', '.'] ∧ floatWord ['0', '0'] .integer = .ok c ∧ floatString c = .ub :=
  ⟨_, _, _, rfl, rfl, by decide, by decide, rfl, by decide⟩

/-- C45 fails for numbers that begin with the dot: .5 is greater than 0.6. -/
theorem point_violated : ∃ a b, floatWord ['.', '5'] .decimal = .ok a ∧ floatWord ['0', '.', '6'] .decimal = .ok b ∧ bytes b < bytes a :=
  ⟨_, _, rfl, rfl, by decide⟩

/-- C45 fails for numbers with an exponent: 2E3 is smaller than 300, 1.5E9 is smaller than 2.0. -/
theorem exponent_violated : (∃ a b, floatWord ['2', 'E', '3'] .double = .ok a ∧ floatWord ['3', '0', '0'] .double = .ok b ∧ bytes a < bytes b) ∧
    ∃ a b, floatWord ['1', '.', '5', 'E', '9'] .double = .ok a ∧ floatWord ['2', '.', '0'] .double = .ok b ∧ bytes a < bytes b :=
  ⟨⟨_, _, rfl, rfl, by decide⟩, ⟨_, _, rfl, rfl, by decide⟩⟩

/-- C45 fails across types: the words of the same number with different types differ, so that in a comparison of words the integer 5 is greater than the double 5
and smaller than the decimal 5. -/
theorem type_violated (x : Number) (hc : x.Canonical) (a b c : Word) (ha : floatWord x.text .integer = .ok a) (hb : floatWord x.text .decimal = .ok b)
    (hd : floatWord x.text .double = .ok c) : bytes c < bytes a ∧ bytes a < bytes b := by
  obtain ⟨rfl, _⟩ := floatWord_body hc ha
  obtain ⟨rfl, _⟩ := floatWord_body hc hb
  obtain ⟨rfl, _⟩ := floatWord_body hc hd
  simp only [bytes, List.map_append]
  exact ⟨lt_append_left _ (by decide : [NumericType.double.char].map Char.toNat < [NumericType.integer.char].map Char.toNat),
    lt_append_left _ (by decide : [NumericType.integer.char].map Char.toNat < [NumericType.decimal.char].map Char.toNat)⟩

/-! ### Showing numbers -/

/-- C45: a number with at most 30 digits is shown with the same digits, without zeros at the end. -/
theorem shown_partial (x : Number) (hc : x.Canonical) (type : NumericType) (a : Word) (ha : floatWord x.text type = .ok a)
    (hl : x.int.length + x.frac.length ≤ 30) : floatString a = .ok x.shown.text := by
  obtain ⟨rfl, _⟩ := floatWord_body hc ha
  by_cases hn : NonZero x
  · rw [bodyOf, if_neg fun h0 => (value_zero_iff hc).1 h0 hn]
    exact floatString_body hc hn (by rw [List.length_append]; exact hl) _
  · have h0 := (value_zero_iff hc).2 hn
    rw [bodyOf, if_pos h0]
    have hz : ∀ d ∈ x.int ++ x.frac, d = 0 := fun d hd => by
      by_contra h
      exact hn ⟨d, hd, h⟩
    have hf := hc.zero hz
    have hi : x.int = [0] := by
      cases hi : x.int with
      | nil => exact absurd hi hc.nonempty
      | cons d ds =>
        rw [← hi]
        exact hc.leading (by rw [hi, hz d (by rw [hi]; simp)]; rfl)
    have hs : x.shown = ⟨false, [0], [0]⟩ := by
      rw [Number.shown, h0, hf, hi]
      simp [stripEnd]
    rw [hs, floatString]
    show Outcome.bind (parts (floatPrefix ++ ['N', '0'] ++ [type.char])) _ = _
    rw [parts_zero]
    rfl

/-- Showing a number keeps its value. -/
theorem shown_value (x : Number) : x.shown.value = x.value := by
  have hfrac : (natOf x.shown.frac : ℚ) / 10 ^ x.shown.frac.length = (natOf x.frac : ℚ) / 10 ^ x.frac.length := by
    obtain ⟨j, hj⟩ := stripEnd_spec x.frac
    have h1 : natOf x.frac = natOf (stripEnd x.frac) * 10 ^ j := by
      conv => lhs; rw [hj]
      rw [natOf_append, natOf_zeros, List.length_replicate, Nat.add_zero]
    have h2 : x.frac.length = (stripEnd x.frac).length + j := by
      conv => lhs; rw [hj]
      rw [List.length_append, List.length_replicate]
    rw [h1, h2, Number.shown]
    dsimp only
    by_cases h : stripEnd x.frac = []
    · rw [if_pos h, h]; simp [natOf]
    · rw [if_neg h, pow_add]
      push_cast
      field_simp
  have hint : x.shown.int = x.int := rfl
  rw [Number.value, Number.value, hfrac, hint, Number.shown]
  dsimp only
  by_cases h0 : x.value = 0
  · rw [h0]
    rw [Number.value] at h0
    cases hb : x.neg with
    | false => simp
    | true => rw [hb] at h0; simp at h0 ⊢; linarith
  · cases x.neg <;> simp [h0]

example : floatString ((floatPrefix ++ body ⟨true, [1, 2], [3, 4, 0]⟩) ++ ['T']) = .ok ['-', '1', '2', '.', '3', '4'] := by decide +kernel

/-- C45 fails for every number with more than 30 digits before the dot: digits are missing where it is shown. -/
theorem large_violated (x : Number) (hc : x.Canonical) (hl : 30 < x.int.length) (hs : x.int.length < 2 ^ 31) (type : NumericType) (a : Word)
    (ha : floatWord x.text type = .ok a) : ∃ s, floatString a = .ok ((if x.neg then ['-'] else []) ++ s) ∧ '.' ∉ s ∧ s.length < x.int.length := by
  obtain ⟨rfl, _⟩ := floatWord_body hc ha
  have hi : x.int ≠ [0] := by
    intro h; rw [h] at hl; simp at hl
  have hn : NonZero x := by
    obtain ⟨d, ds, h, hd⟩ := int_ne_zero hc hi
    exact ⟨d, List.mem_append_left _ (by rw [h]; simp), hd⟩
  rw [bodyOf, if_neg fun h0 => (value_zero_iff hc).1 h0 hn, floatString_large hc hl (by rw [absExpo, if_neg hi]; omega), List.append_assoc]
  refine ⟨_, rfl, ?_, ?_⟩
  · intro h
    rcases List.mem_append.1 h with h | h
    · refine chars_no (stripEnd_digits fun y hy => ?_) (fun d hd => (digitChar_other d hd).1) h
      exact int_digits hc y (List.mem_of_mem_take hy)
    · exact absurd (List.mem_replicate.1 h).2 (by decide)
  · obtain ⟨j, hj⟩ := stripEnd_spec (x.int.take 30)
    have h1 := congrArg List.length hj
    rw [List.length_take, List.length_append, List.length_replicate] at h1
    rw [List.length_append, chars_length, List.length_replicate]
    omega

/-- 10^30 is shown as 1. -/
theorem power_violated : ∃ a, floatWord (⟨false, 1 :: List.replicate 30 0, [0]⟩ : Number).text .integer = .ok a ∧ floatString a = .ok ['1'] :=
  ⟨_, rfl, by decide +kernel⟩

/-! ### Computing with numbers -/

/-- C45: the number that is computed with is the value.  Partial: at most 30 digits, the significant digits are a number below 2^63, and its logarithm
is computed exactly (up to rounding to an integer). -/
theorem float_partial (x : Number) (hc : x.Canonical) (type : NumericType) (a : Word) (ha : floatWord x.text type = .ok a)
    (hl : x.int.length + x.frac.length ≤ 30) (log10 : Nat → Nat) (hs : x.significand < 2 ^ 63)
    (hlog : x.significand ≠ 0 → 10 ^ log10 x.significand ≤ x.significand ∧ x.significand < 10 ^ (log10 x.significand + 1)) :
    toFloat log10 a = .ok x.value := by
  obtain ⟨rfl, _⟩ := floatWord_body hc ha
  by_cases hn : NonZero x
  · rw [bodyOf, if_neg fun h0 => (value_zero_iff hc).1 h0 hn]
    obtain ⟨L, h1, h2, h3⟩ := toFloat_body hc hn (by rw [List.length_append]; exact hl) type.char log10
    have hpos : 0 < 10 ^ L := by positivity
    obtain ⟨h4, h5⟩ := hlog (by omega)
    rw [h3, if_pos hs, log_unique h1 h2 h4 h5, sub_self, zpow_zero, mul_one]
  · have h0 := (value_zero_iff hc).2 hn
    rw [bodyOf, if_pos h0, h0, toFloat]
    show Outcome.bind (parts (floatPrefix ++ ['N', '0'] ++ [type.char])) _ = _
    rw [parts_zero]
    rfl

/-- C45 fails if the logarithm is rounded up, which happens for a long row of nines: the result is a tenth of the value. -/
theorem float_log_violated (x : Number) (hc : x.Canonical) (type : NumericType) (a : Word) (ha : floatWord x.text type = .ok a)
    (hl : x.int.length + x.frac.length ≤ 30) (log10 : Nat → Nat) (hs : x.significand < 2 ^ 63) (L : Nat)
    (hL : 10 ^ L ≤ x.significand ∧ x.significand < 10 ^ (L + 1)) (hlog : log10 x.significand = L + 1) : toFloat log10 a = .ok (x.value / 10) := by
  obtain ⟨rfl, _⟩ := floatWord_body hc ha
  have hn : NonZero x := by
    by_contra hn
    have h0 : x.significand = 0 := by
      have hz : ∀ d ∈ x.int ++ x.frac, d = 0 := fun d hd => by
        by_contra h
        exact hn ⟨d, hd, h⟩
      rw [Number.significand, stripEnd_nil_iff.2 hz]; rfl
    have hpos : 0 < 10 ^ L := by positivity
    omega
  rw [bodyOf, if_neg fun h0 => (value_zero_iff hc).1 h0 hn]
  obtain ⟨L', h1, h2, h3⟩ := toFloat_body hc hn (by rw [List.length_append]; exact hl) type.char log10
  rw [h3, if_pos hs, log_unique h1 h2 hL.1 hL.2, hlog]
  congr 1
  have : ((L : Int) - ((L + 1 : Nat) : Int)) = -1 := by push_cast; ring
  rw [this]
  norm_num
  ring

/-- C45 fails for numbers with many digits: an aggregate over them throws. -/
theorem float_digits_violated (x : Number) (hc : x.Canonical) (type : NumericType) (a : Word) (ha : floatWord x.text type = .ok a)
    (hl : x.int.length + x.frac.length ≤ 30) (log10 : Nat → Nat) (hs : 2 ^ 63 ≤ x.significand) : toFloat log10 a = .throw := by
  obtain ⟨rfl, _⟩ := floatWord_body hc ha
  have hn : NonZero x := by
    by_contra hn
    have h0 : x.significand = 0 := by
      have hz : ∀ d ∈ x.int ++ x.frac, d = 0 := fun d hd => by
        by_contra h
        exact hn ⟨d, hd, h⟩
      rw [Number.significand, stripEnd_nil_iff.2 hz]; rfl
    omega
  rw [bodyOf, if_neg fun h0 => (value_zero_iff hc).1 h0 hn]
  obtain ⟨L', _, _, h3⟩ := toFloat_body hc hn (by rw [List.length_append]; exact hl) type.char log10
  rw [h3, if_neg (by omega)]

example : toFloat (fun _ => 3) ((floatPrefix ++ body ⟨true, [1, 2], [3, 4, 0]⟩) ++ ['T']) = .ok (-12.34) ∧
    (⟨true, [1, 2], [3, 4, 0]⟩ : Number).significand = 1234 := by
  refine ⟨?_, by decide⟩
  have h := float_partial ⟨true, [1, 2], [3, 4, 0]⟩ (by decide) .decimal _ (by rw [floatWord_text (by decide) (by decide), if_pos (by decide)]) (by decide)
    (fun _ => 3) (by decide) (by decide)
  refine h.trans ?_
  norm_num [Number.value, natOf]

/-! ### Literals -/

theorem rfind_last (c : Char) (a b : Word) (h : c ∉ b) : rfind c (a ++ c :: b) = some a.length := by
  have h1 : (a ++ c :: b).reverse = b.reverse ++ c :: a.reverse := by simp
  rw [rfind, h1, findIdx_append _ _ (by simpa using h)]
  simp only [Option.map_some, List.length_append, List.length_cons, List.length_reverse]
  congr 1
  omega

/-- A literal with one of the types of XML Schema is converted as its type says. -/
theorem literal_word (v type : Word) (ht : '"' ∉ type ∧ '#' ∉ type) :
    valueWord (['"'] ++ v ++ ['"'] ++ xsdSuffix type) = if isDateType type then dateWord v else match numericType type with
      | some (t, dot) => floatWord (v ++ dot) t
      | none => .ok (['"'] ++ v ++ ['"'] ++ xsdSuffix type) := by
  have h1 : rfind '"' (['"'] ++ v ++ ['"'] ++ xsdSuffix type) = some (v.length + 1) := by
    have : ['"'] ++ v ++ ['"'] ++ xsdSuffix type = (['"'] ++ v) ++ '"' :: xsdSuffix type := by simp
    rw [this, rfind_last]
    · simp
    · intro h
      simp only [xsdSuffix, List.mem_append, List.mem_cons, List.not_mem_nil, or_false] at h
      rcases h with (h | h) | h
      · revert h; decide
      · exact ht.1 h
      · exact absurd h (by decide)
  have h2 : ((['"'] ++ v ++ ['"'] ++ xsdSuffix type).drop 1).take (v.length + 1 - 1) = v := by
    simp
  have h3 : typeOf (['"'] ++ v ++ ['"'] ++ xsdSuffix type) = .ok type := by
    rw [typeOf]
    have hl : (['"'] ++ v ++ ['"'] ++ xsdSuffix type).getLast? = some '>' := by
      rw [xsdSuffix, ← List.append_assoc, List.getLast?_concat]
    rw [if_pos hl]
    obtain ⟨pre, hpre⟩ : ∃ pre, ['"'] ++ v ++ ['"'] ++ xsdSuffix type = pre ++ '#' :: (type ++ ['>']) :=
      ⟨['"'] ++ v ++ ['"'] ++ ['^', '^', '<', 'h', 't', 't', 'p', ':', '/', '/', 'w', 'w', 'w', '.', 'w', '3', '.', 'o', 'r', 'g', '/', '2', '0', '0', '1', '/',
        'X', 'M', 'L', 'S', 'c', 'h', 'e', 'm', 'a'], by simp [xsdSuffix]⟩
    rw [hpre, rfind_last]
    · dsimp only
      have h4 : pre ++ '#' :: (type ++ ['>']) = (pre ++ ['#']) ++ (type ++ ['>']) := by simp
      have h5 : pre.length + 1 = (pre ++ ['#']).length := by simp
      rw [h4, h5, List.drop_left]
      have h6 : ((pre ++ ['#']) ++ (type ++ ['>'])).length - (pre.length + 2) = type.length := by
        simp only [List.length_append, List.length_cons, List.length_nil]; omega
      rw [h6, List.take_left]
    · intro h
      rcases List.mem_append.1 h with h | h
      · exact ht.2 h
      · revert h; decide
  rw [valueWord, h1]
  dsimp only
  rw [h2, h3]
  rfl

/-- The names of the numeric types that keep their dot. -/
def typeName : NumericType → Word
  | .integer => ['i', 'n', 't']
  | .float => ['f', 'l', 'o', 'a', 't']
  | .double => ['d', 'o', 'u', 'b', 'l', 'e']
  | .decimal => ['d', 'e', 'c', 'i', 'm', 'a', 'l']

/-- A literal of a numeric type. -/
abbrev literal (v : Word) (type : NumericType) : Word := ['"'] ++ v ++ ['"'] ++ xsdSuffix (typeName type)

theorem wordValue_number (b : Word) (type : NumericType) : wordValue (floatPrefix ++ b ++ [type.char]) =
    (floatString (floatPrefix ++ b ++ [type.char])).map fun s => literal (if type = .integer then s.takeWhile (· ≠ '.') else s) type := by
  have h1 : datePrefix.isPrefixOf (floatPrefix ++ b ++ [type.char]) = false := rfl
  have h2 : floatPrefix.isPrefixOf (floatPrefix ++ b ++ [type.char]) = true := by
    rw [List.isPrefixOf_iff_prefix, List.append_assoc]
    exact List.prefix_append _ _
  rw [wordValue, h1, h2]
  simp only [Bool.false_eq_true, if_false, if_true, List.getLast?_concat]
  cases type <;> rfl

/-- C45 for literals: a number of type decimal, float or double is shown with its type, without zeros at the end. -/
theorem literal_partial (x : Number) (hc : x.Canonical) (hl : x.int.length + x.frac.length ≤ 30) (type : NumericType) (ht : type ≠ .integer) :
    ((valueWord (literal x.text type)).bind wordValue) = .ok (literal x.shown.text type) := by
  have h : valueWord (literal x.text type) = floatWord x.text type := by
    rw [literal, literal_word _ _ (by cases type <;> decide)]
    cases type with
    | integer => exact absurd rfl ht
    | float => show floatWord (x.text ++ []) _ = _; rw [List.append_nil]
    | double => show floatWord (x.text ++ []) _ = _; rw [List.append_nil]
    | decimal => show floatWord (x.text ++ []) _ = _; rw [List.append_nil]
  obtain ⟨a, ha⟩ := encodes x hc (by omega) type
  rw [h, ha]
  have hs := shown_partial x hc type a ha hl
  obtain ⟨rfl, _⟩ := floatWord_body hc ha
  dsimp only [Outcome.bind]
  rw [wordValue_number, hs]
  simp only [Outcome.map, if_neg ht]

example : ((valueWord (literal ['-', '1', '2', '.', '3', '4', '0'] .decimal)).bind wordValue) = .ok (literal ['-', '1', '2', '.', '3', '4'] .decimal) := by
  decide +kernel

/-- C45 for literals: an integer with at most 29 digits is shown as it was written, except for the sign of -0. -/
theorem integer_partial (x : Number) (hc : x.Canonical) (hf : x.frac = [0]) (hl : x.int.length ≤ 29) :
    ((valueWord (literal ((if x.neg then ['-'] else []) ++ x.int.map digitChar) .integer)).bind wordValue)
      = .ok (literal ((if x.shown.neg then ['-'] else []) ++ x.int.map digitChar) .integer) := by
  have h : valueWord (literal ((if x.neg then ['-'] else []) ++ x.int.map digitChar) .integer) = floatWord x.text .integer := by
    rw [literal, literal_word _ _ (by decide)]
    show floatWord (((if x.neg then ['-'] else []) ++ x.int.map digitChar) ++ ['.', '0']) .integer = _
    congr 1
    rw [text_eq, hf]; simp [chars, digitChar]
  have hl' : x.int.length + x.frac.length ≤ 30 := by rw [hf, List.length_singleton]; omega
  obtain ⟨a, ha⟩ := encodes x hc (by omega) .integer
  rw [h, ha]
  have hs := shown_partial x hc .integer a ha hl'
  obtain ⟨rfl, _⟩ := floatWord_body hc ha
  dsimp only [Outcome.bind]
  rw [wordValue_number, hs]
  simp only [Outcome.map, if_true]
  congr 2
  have h1 : x.shown.text = ((if x.shown.neg then ['-'] else []) ++ chars x.int) ++ '.' :: chars x.shown.frac := by
    rw [text_eq, List.append_assoc]; rfl
  have h2 : '.' ∉ (if x.shown.neg then ['-'] else []) ++ chars x.int := by
    intro h
    rcases List.mem_append.1 h with h | h
    · cases hn : x.shown.neg <;> rw [hn] at h <;> simp at h
    · exact chars_no (int_digits hc) (fun d hd => (digitChar_other d hd).1) h
  have h3 : ∀ (a b : Word), '.' ∉ a → (a ++ '.' :: b).takeWhile (· ≠ '.') = a := by
    intro a b
    induction a with
    | nil => intro _; simp
    | cons c a ih =>
      intro h
      simp only [List.mem_cons, not_or] at h
      rw [List.cons_append, List.takeWhile_cons, if_pos (by simpa using Ne.symm h.1), ih h.2]
  rw [h1, h3 _ _ h2]
  rfl

example : ((valueWord (literal ['-', '4', '2'] .integer)).bind wordValue) = .ok (literal ['-', '4', '2'] .integer) := by decide +kernel

/-- C45 fails for the type `xsd:integer`: the literal is shown with the type `xsd:int`. -/
theorem type_name_violated : ((valueWord (['"', '4', '2', '"'] ++ xsdSuffix ['i', 'n', 't', 'e', 'g', 'e', 'r'])).bind wordValue)
    = .ok (['"', '4', '2', '"'] ++ xsdSuffix ['i', 'n', 't']) := by decide +kernel

/-- C45 fails for the other numeric types of XML Schema: literals with types such as `xsd:long` stay as they are, and 10 is smaller than 9. -/
theorem other_types_violated (v type : Word) (ht : '"' ∉ type ∧ '#' ∉ type) (hd : isDateType type = false) (hn : numericType type = none) :
    valueWord (['"'] ++ v ++ ['"'] ++ xsdSuffix type) = .ok (['"'] ++ v ++ ['"'] ++ xsdSuffix type) := by
  rw [literal_word v type ht, hd, hn]
  rfl

example : valueWord (['"'] ++ ['1', '0'] ++ ['"'] ++ xsdSuffix ['l', 'o', 'n', 'g']) = .ok (['"'] ++ ['1', '0'] ++ ['"'] ++ xsdSuffix ['l', 'o', 'n', 'g'])
    ∧ bytes (['"'] ++ ['1', '0'] ++ ['"'] ++ xsdSuffix ['l', 'o', 'n', 'g']) < bytes (['"'] ++ ['9'] ++ ['"'] ++ xsdSuffix ['l', 'o', 'n', 'g']) :=
  ⟨other_types_violated _ _ (by decide) rfl rfl, by decide⟩

/-! ### Filters -/

open Verif.Collation Verif.CollationSpec Verif.Filter Verif.FilterSpec in
/-- C45 for filters: `?x < n` and `?x >= n` keep the rows whose number is smaller (not smaller) than n.  Partial: all numbers have the type of the constant
(`type_violated`), and the collator sorts `+` before `-` (`collation_violated`). -/
theorem filter_partial (c : Collator) (N : Word → Prop) (hc : c.Laws N) (w : Char → Nat) (hw : Weights w)
    (hk : ∀ (x y : Number) type a b, x.Canonical → y.Canonical → floatWord x.text type = .ok a → floatWord y.text type = .ok b → a.map w < b.map w →
      c.key .quarternary a < c.key .quarternary b)
    (words : List Word) (t : Table) (width lhs : Nat) (sorted : Bool) (hwf : t.WF width) (hwords : words.Pairwise fun a b => tripleCompare c a b .total < 0)
    (hcol : lhs < width) (hs : sorted = true → Ascending lhs id t) (type : NumericType) (num : Nat → Number)
    (ht : ∀ r ∈ t, ∃ a, words[r.getD lhs 0]? = some a ∧ floatWord (num (r.getD lhs 0)).text type = .ok a ∧ (num (r.getD lhs 0)).Canonical ∧
      (num (r.getD lhs 0)).int.length + (num (r.getD lhs 0)).frac.length ≤ 30)
    (y : Number) (hy : y.Canonical) (ly : y.int.length + y.frac.length ≤ 30) (v : Word) (hv : floatWord y.text type = .ok v)
    (cmp : Cmp) (hcmp : cmp = .lt ∨ cmp = .ge) :
    filterKB ((triple c).less .quarternary) words cmp sorted lhs v t = .ok (keep cmp lhs (fun i => (num i).value) y.value t) := by
  rw [Verif.C59.less_partial c N hc words t width lhs sorted v hwf hwords hcol hs
    (fun r hr => by
      obtain ⟨a, ha, _⟩ := ht r hr
      exact (List.getElem?_eq_some_iff.1 ha).1) cmp hcmp, keep]
  congr 1
  refine List.filter_congr fun r hr => ?_
  obtain ⟨a, ha, hx, hxc, hxl⟩ := ht r hr
  rw [ha, Option.any_some]
  -- the words of numbers have the same kind, and are their own content
  have hrank : ∀ (z : Number) (b : Word), z.Canonical → floatWord z.text type = .ok b → Verif.C59.rank c b = 58 :: c.key .quarternary b := by
    intro z b hz hb
    obtain ⟨rfl, _⟩ := floatWord_body hz hb
    rfl
  have hlt : ∀ (z z' : Number) (b b' : Word), z.Canonical → z'.Canonical → z.int.length + z.frac.length ≤ 30 → z'.int.length + z'.frac.length ≤ 30 →
      floatWord z.text type = .ok b → floatWord z'.text type = .ok b' → z.value < z'.value → Verif.C59.rank c b < Verif.C59.rank c b' := by
    intro z z' b b' h1 h2 h3 h4 h5 h6 h7
    rw [hrank z b h1 h5, hrank z' b' h2 h6]
    exact List.cons_lt_cons_iff.2 (Or.inr ⟨rfl, hk z z' type b b' h1 h2 h5 h6 (order_partial w hw z z' h1 h2 type type b b' h5 h6 h3 h4 h7)⟩)
  have key : Verif.C59.rank c a < Verif.C59.rank c v ↔ (num (r.getD lhs 0)).value < y.value := by
    rcases lt_trichotomy (num (r.getD lhs 0)).value y.value with h | h | h
    · exact ⟨fun _ => h, fun _ => hlt _ _ _ _ hxc hy hxl ly hx hv h⟩
    · have := (equal_partial _ _ hxc hy type type a v hx hv h).2 rfl
      rw [this, h]
      exact ⟨fun h => absurd h (by simp), fun h => absurd h (lt_irrefl _)⟩
    · have h1 := hlt _ _ _ _ hy hxc ly hxl hv hx h
      exact ⟨fun h2 => absurd h1 (List.lt_asymm h2), fun h2 => absurd h (not_lt_of_gt h2)⟩
  rw [Bool.eq_iff_iff, decide_eq_true_eq, decide_eq_true_eq]
  rcases hcmp with rfl | rfl
  · exact key
  · show Verif.C59.rank c v ≤ Verif.C59.rank c a ↔ y.value ≤ (num (r.getD lhs 0)).value
    rw [← not_lt, ← not_lt]
    exact not_congr key

/-- The characters of an index word are all ASCII. -/
theorem body_chars (x : Number) (hc : x.Canonical) : ∀ ch ∈ bodyOf x, ch.toNat < 128 := by
  have hd : ∀ (ds : List Nat), Digits ds → ∀ ch ∈ chars ds, ch.toNat < 128 := by
    intro ds h ch hch
    obtain ⟨d, hd, rfl⟩ := List.mem_map.1 hch
    have := h d hd
    revert this
    exact (by decide : ∀ d, d < 10 → (digitChar d).toNat < 128) d
  have h1 := fun n => hd _ (expoDigits_digits n)
  have h2 := fun ds => hd _ (compl_digits ds)
  have h3 := hd (mantDigits (digitsOf x)) (mantDigits_digits hc.digits)
  intro ch h
  have hM : 'M'.toNat < 128 := by decide
  have hP : 'P'.toNat < 128 := by decide
  have hE : 'E'.toNat < 128 := by decide
  have hp : '+'.toNat < 128 := by decide
  have hm : '-'.toNat < 128 := by decide
  have hN : 'N'.toNat < 128 := by decide
  have h0 : '0'.toNat < 128 := by decide
  rw [bodyOf] at h
  by_cases hv : x.value = 0
  · rw [if_pos hv] at h
    simp only [List.mem_cons, List.not_mem_nil, or_false] at h
    rcases h with rfl | rfl <;> assumption
  rw [if_neg hv, body] at h
  by_cases hi : x.int = [0]
  · rw [if_pos hi] at h
    cases hn : x.neg <;> rw [hn] at h <;> simp only [if_true, Bool.false_eq_true, if_false, List.mem_append, List.mem_cons, List.not_mem_nil, or_false] at h
    · rcases h with (((rfl | rfl) | h) | rfl) | h
      exacts [hP, hM, h2 _ _ h, hE, h3 _ h]
    · rcases h with (((rfl | rfl) | h) | rfl) | h
      exacts [hM, hm, h1 _ _ h, hE, h2 _ _ h]
  · rw [if_neg hi] at h
    cases hn : x.neg <;> rw [hn] at h <;> simp only [if_true, Bool.false_eq_true, if_false, List.mem_append, List.mem_cons, List.not_mem_nil, or_false] at h
    · rcases h with (((rfl | rfl) | h) | rfl) | h
      exacts [hP, hP, h1 _ _ h, hE, h3 _ h]
    · rcases h with (((rfl | rfl) | h) | rfl) | h
      exacts [hM, hp, h2 _ _ h, hE, h2 _ _ h]

open Verif.Collation Verif.CollationSpec in
/-- The collator of the examples keeps the order of numbers, as `filter_partial` asks for. -/
theorem ascii_numbers : Weights weight ∧ ∀ (x y : Number) type a b, x.Canonical → y.Canonical → floatWord x.text type = .ok a →
    floatWord y.text type = .ok b → a.map weight < b.map weight → ascii.key .quarternary a < ascii.key .quarternary b := by
  refine ⟨⟨?_, by decide, by decide⟩, fun x y type a b hx hy ha hb h => ?_⟩
  · have h : ∀ b, b < 10 → ∀ a, a < b → weight (Char.ofNat (48 + a)) < weight (Char.ofNat (48 + b)) := by decide
    exact fun a b hab hb => h b hb a hab
  · have key : ∀ (z : Number) w, z.Canonical → floatWord z.text type = .ok w → heard w = w := by
      intro z w hz hw
      obtain ⟨rfl, _⟩ := floatWord_body hz hw
      refine List.filter_eq_self.2 fun ch hch => ?_
      have : ch.toNat < 128 := by
        rcases List.mem_append.1 hch with h | h
        · rcases List.mem_append.1 h with h | h
          · exact (by decide : ∀ c ∈ floatPrefix, c.toNat < 128) ch h
          · exact body_chars z hz ch h
        · rw [List.mem_singleton.1 h]; cases type <;> decide
      simp only [decide_eq_true_eq]
      omega
    have hw : ∀ s : Word, ∀ n ∈ s.map weight, 2 < n := by
      intro s n hn
      obtain ⟨ch, _, rfl⟩ := List.mem_map.1 hn
      rw [weight]; omega
    show key4 a < key4 b
    rw [key4, key4, key1, key1, key x a hx ha, key y b hy hb]
    exact lex_sep _ _ (hw a) (hw b) h

open Verif.Collation Verif.CollationSpec Verif.Filter Verif.FilterSpec in
/-- -12.5 < 3.0 < 40.25: the numbers smaller than 3.5. -/
example : ∃ a b d v, floatWord ['-', '1', '2', '.', '5'] .decimal = .ok a ∧ floatWord ['3', '.', '0'] .decimal = .ok b ∧
    floatWord ['4', '0', '.', '2', '5'] .decimal = .ok d ∧ floatWord ['3', '.', '5'] .decimal = .ok v ∧
    [a, b, d].Pairwise (fun a b => tripleCompare ascii a b .total < 0) ∧
    filterKB ((triple ascii).less .quarternary) [a, b, d] .lt false 0 v [[2], [0], [1]] = .ok [[0], [1]] :=
  ⟨_, _, _, _, rfl, rfl, rfl, rfl, by decide +kernel, by decide +kernel⟩

/-- C45 fails for constants in queries: a number with a dot becomes a float, so that it never equals a decimal number or a double. -/
theorem constant_violated (x : Number) (hc : x.Canonical) (type : NumericType) (ht : type ≠ .float) (v a : Word) (hv : numericWord x.text = .ok v)
    (ha : floatWord x.text type = .ok a) : v ≠ a := by
  have h : '.' ∈ x.text := by rw [text_eq]; simp
  rw [numericWord, if_pos h] at hv
  obtain ⟨rfl, _⟩ := floatWord_body hc hv
  obtain ⟨rfl, _⟩ := floatWord_body hc ha
  intro he
  have := (List.append_inj' he rfl).2
  revert this ht
  cases type <;> decide

example : ∃ v a, numericWord ['5', '.', '5'] = .ok v ∧ floatWord ['5', '.', '5'] .decimal = .ok a ∧ v ≠ a := ⟨_, _, rfl, rfl, by decide⟩

/-- A number in a query is recognised as a number. -/
theorem constant_recognised (x : Number) (hc : x.Canonical) (hf : x.frac ≠ []) : isNumeric x.text = true := by
  have hd : ∀ ds : List Nat, Digits ds → ∀ ch ∈ chars ds, '0' ≤ ch ∧ ch ≤ '9' := by
    intro ds h ch hch
    obtain ⟨d, hd, rfl⟩ := List.mem_map.1 hch
    exact digitChar_digit d (h d hd)
  have hdrop : ∀ (a b : Word), (∀ ch ∈ a, '0' ≤ ch ∧ ch ≤ '9') → (a ++ '.' :: b).dropWhile (fun c => decide ('0' ≤ c ∧ c ≤ '9')) = '.' :: b := by
    intro a b
    induction a with
    | nil => intro _; rw [List.nil_append, List.dropWhile_cons, if_neg (by decide)]
    | cons c a ih =>
      intro h
      rw [List.cons_append, List.dropWhile_cons, if_pos (by simpa using h c List.mem_cons_self), ih fun ch hch => h ch (List.mem_cons_of_mem _ hch)]
  have htail : (match ('.' :: chars x.frac : Word) with
      | [] => true
      | d :: ds => d = '.' && !ds.isEmpty && ds.all fun c => '0' ≤ c ∧ c ≤ '9') = true := by
    have h1 : (chars x.frac).isEmpty = false := by
      cases h : x.frac with
      | nil => exact absurd h hf
      | cons _ _ => rfl
    have h2 : ((chars x.frac).all fun c => '0' ≤ c ∧ c ≤ '9') = true := by
      rw [List.all_eq_true]
      intro ch hch
      simpa using hd _ (frac_digits hc) ch hch
    dsimp only
    rw [h1, h2]
    rfl
  rw [text_eq]
  cases hn : x.neg
  · obtain ⟨d, ds, hi⟩ : ∃ d ds, x.int = d :: ds := by
      cases hi : x.int with
      | nil => exact absurd hi hc.nonempty
      | cons d ds => exact ⟨d, ds, rfl⟩
    have hdd := int_digits hc d (by rw [hi]; exact List.mem_cons_self)
    have e : (if false = true then ['-'] else []) ++ (chars x.int ++ '.' :: chars x.frac) = digitChar d :: (chars ds ++ '.' :: chars x.frac) := by rw [hi]; rfl
    have := digitChar_other d hdd
    rw [e, isNumeric, if_neg (by rintro (h | h); exacts [this.2.1 h, this.2.2.1 h])]
    have e2 : digitChar d :: (chars ds ++ '.' :: chars x.frac) = chars x.int ++ '.' :: chars x.frac := by rw [hi]; rfl
    rw [e2, hdrop _ _ (hd _ (int_digits hc))]
    exact htail
  · have e : (if true = true then ['-'] else []) ++ (chars x.int ++ '.' :: chars x.frac) = '-' :: (chars x.int ++ '.' :: chars x.frac) := rfl
    rw [e, isNumeric, if_pos (Or.inl rfl), hdrop _ _ (hd _ (int_digits hc))]
    exact htail

example : isNumeric ['-', '1', '2', '.', '5'] = true ∧ isNumeric ['+', '5'] = true ∧ isNumeric ['a', '5'] = false := by decide

/-- An integer in a query has the word of the literal of type `xsd:int`. -/
theorem constant_integer (x : Number) (hi : x.Canonical) :
    numericWord ((if x.neg then ['-'] else []) ++ x.int.map digitChar) = valueWord (literal ((if x.neg then ['-'] else []) ++ x.int.map digitChar) .integer) := by
  have hdot : '.' ∉ (if x.neg then ['-'] else []) ++ x.int.map digitChar := by
    intro h
    rcases List.mem_append.1 h with h | h
    · cases hn : x.neg <;> rw [hn] at h <;> simp at h
    · exact chars_no (int_digits hi) (fun d hd => (digitChar_other d hd).1) h
  rw [numericWord, if_neg hdot, literal, literal_word _ _ (by decide)]
  rfl

example : numericWord ['-', '4', '2'] = valueWord (literal ['-', '4', '2'] .integer) := by decide +kernel

/-- C45 fails for constants with an exponent: they are not recognised as numbers, and are compared as strings. -/
theorem constant_exponent_violated (x : Number) (hc : x.Canonical) (e : Word) : isNumeric (x.text ++ 'e' :: e) = false := by
  have hd : ∀ ds : List Nat, Digits ds → ∀ ch ∈ chars ds, '0' ≤ ch ∧ ch ≤ '9' := by
    intro ds h ch hch
    obtain ⟨d, hd, rfl⟩ := List.mem_map.1 hch
    exact digitChar_digit d (h d hd)
  have hdrop : ∀ (a b : Word), (∀ ch ∈ a, '0' ≤ ch ∧ ch ≤ '9') → (a ++ '.' :: b).dropWhile (fun c => decide ('0' ≤ c ∧ c ≤ '9')) = '.' :: b := by
    intro a b
    induction a with
    | nil => intro _; rw [List.nil_append, List.dropWhile_cons, if_neg (by decide)]
    | cons c a ih =>
      intro h
      rw [List.cons_append, List.dropWhile_cons, if_pos (by simpa using h c List.mem_cons_self), ih fun ch hch => h ch (List.mem_cons_of_mem _ hch)]
  have htail : (match ('.' :: (chars x.frac ++ 'e' :: e) : Word) with
      | [] => true
      | d :: ds => d = '.' && !ds.isEmpty && ds.all fun c => '0' ≤ c ∧ c ≤ '9') = false := by
    have h2 : ((chars x.frac ++ 'e' :: e).all fun c => '0' ≤ c ∧ c ≤ '9') = false := by
      rw [List.all_eq_false]
      exact ⟨'e', by simp, by decide⟩
    dsimp only
    rw [h2, Bool.and_false]
  rw [text_eq]
  cases hn : x.neg
  · obtain ⟨d, ds, hi⟩ : ∃ d ds, x.int = d :: ds := by
      cases hi : x.int with
      | nil => exact absurd hi hc.nonempty
      | cons d ds => exact ⟨d, ds, rfl⟩
    have hdd := int_digits hc d (by rw [hi]; exact List.mem_cons_self)
    have e1 : (if false = true then ['-'] else []) ++ (chars x.int ++ '.' :: chars x.frac) ++ 'e' :: e = digitChar d :: (chars ds ++ '.' :: (chars x.frac ++ 'e' :: e)) := by
      rw [hi]; simp [chars]
    have := digitChar_other d hdd
    rw [e1, isNumeric, if_neg (by rintro (h | h); exacts [this.2.1 h, this.2.2.1 h])]
    have e2 : digitChar d :: (chars ds ++ '.' :: (chars x.frac ++ 'e' :: e)) = chars x.int ++ '.' :: (chars x.frac ++ 'e' :: e) := by rw [hi]; rfl
    rw [e2, hdrop _ _ (hd _ (int_digits hc))]
    exact htail
  · have e1 : (if true = true then ['-'] else []) ++ (chars x.int ++ '.' :: chars x.frac) ++ 'e' :: e = '-' :: (chars x.int ++ '.' :: (chars x.frac ++ 'e' :: e)) := by simp
    rw [e1, isNumeric, if_pos (Or.inl rfl), hdrop _ _ (hd _ (int_digits hc))]
    exact htail

example : isNumeric ['1', '.', '0', 'e', '5'] = false := by decide

end Verif.C45
