import Verif.Lemmas.ConversionsEncode
/-
Helper lemmas for C45: the order of the index words.
-/
namespace Verif.Conversions
open Verif.ConversionsSpec
open Verif.ExternalVocabulary (Word)

variable {x y : Number}

theorem not_lt_lists {a b : List Nat} (hl : a.length = b.length) (ha : Digits a) (hb : Digits b) (h : ¬ b < a) : a < b ∨ a = b := by
  rw [natOf_lex hl.symm hb ha] at h
  rcases Nat.lt_or_ge (natOf a) (natOf b) with h1 | h1
  · exact Or.inl ((natOf_lex hl ha hb).2 h1)
  · exact Or.inr (natOf_inj hl ha hb (by omega))

theorem compare_mant (hx : x.Canonical) (hy : y.Canonical) (hi : x.int.length = y.int.length) (h : mag x ≤ mag y) :
    mantDigits (digitsOf x) < mantDigits (digitsOf y) ∨ (mantDigits (digitsOf x) = mantDigits (digitsOf y) ∧
      ((digitsOf x).length ≤ 30 → (digitsOf y).length ≤ 30 → mag x = mag y)) := by
  obtain ⟨n, hn⟩ : ∃ n, n = 30 + (digitsOf x).length + (digitsOf y).length := ⟨_, rfl⟩
  have h1 := mag_pad (x := x) n (by omega)
  have h2 := mag_pad (x := y) n (by omega)
  have hp : (0 : ℚ) < 10 ^ (n - x.int.length) := by positivity
  have h3 : (natOf (padTo n (digitsOf x)) : ℚ) ≤ natOf (padTo n (digitsOf y)) := by
    rw [← h1, ← h2, ← hi]
    exact mul_le_mul_of_nonneg_right h (le_of_lt hp)
  have h4 : natOf (padTo n (digitsOf x)) ≤ natOf (padTo n (digitsOf y)) := by exact_mod_cast h3
  have hlx := padTo_length (n := n) (ds := digitsOf x) (by omega)
  have hly := padTo_length (n := n) (ds := digitsOf y) (by omega)
  have h5 : ¬ padTo n (digitsOf y) < padTo n (digitsOf x) := by
    rw [natOf_lex (hly.trans hlx.symm) (padTo_digits hy.digits) (padTo_digits hx.digits)]
    omega
  have h6 := take_le 30 (hlx.trans hly.symm) h5
  rw [← mantDigits_eq (by omega), ← mantDigits_eq (by omega)] at h6
  rcases not_lt_lists ((mantDigits_length _).trans (mantDigits_length _).symm) (mantDigits_digits hx.digits) (mantDigits_digits hy.digits) h6 with h7 | h7
  · exact Or.inl h7
  · refine Or.inr ⟨h7, fun lx ly => ?_⟩
    have e1 := mag_pad (x := x) 30 lx
    have e2 := mag_pad (x := y) 30 ly
    have e3 : padTo 30 (digitsOf x) = padTo 30 (digitsOf y) := by
      have k1 := mantDigits_eq (ds := digitsOf x) (Nat.le_refl 30)
      have k2 := mantDigits_eq (ds := digitsOf y) (Nat.le_refl 30)
      rw [List.take_of_length_le (by rw [padTo_length lx])] at k1
      rw [List.take_of_length_le (by rw [padTo_length ly])] at k2
      rw [← k1, ← k2, h7]
    rw [e3, ← e2, ← hi] at e1
    exact mul_right_cancel₀ (by positivity) e1

/-- The smaller of two numbers has a smaller exponent, or the same exponent and a smaller mantissa. -/
theorem compare_mag (hx : x.Canonical) (hy : y.Canonical) (nx : NonZero x) (ny : NonZero y) (h : mag x ≤ mag y) :
    (x.int = [0] ∧ y.int ≠ [0]) ∨ (x.int ≠ [0] ∧ y.int ≠ [0] ∧ absExpo x < absExpo y) ∨ (x.int = [0] ∧ y.int = [0] ∧ absExpo y < absExpo x) ∨
    ((x.int = [0] ↔ y.int = [0]) ∧ absExpo x = absExpo y ∧ (mantDigits (digitsOf x) < mantDigits (digitsOf y) ∨
      (mantDigits (digitsOf x) = mantDigits (digitsOf y) ∧ ((digitsOf x).length ≤ 30 → (digitsOf y).length ≤ 30 → mag x = mag y)))) := by
  have lx : 0 < x.int.length := List.length_pos_iff.2 hx.nonempty
  have ly : 0 < y.int.length := List.length_pos_iff.2 hy.nonempty
  by_cases ix : x.int = [0]
  · by_cases iy : y.int = [0]
    · obtain ⟨a1, a2⟩ := frac_bounds hx nx ix
      obtain ⟨b1, b2⟩ := frac_bounds hy ny iy
      have hle : zerosOf y ≤ zerosOf x := by
        by_contra hlt
        have h1 : (10 : ℚ) ^ (zerosOf x + 1) ≤ 10 ^ zerosOf y := pow_le_pow_right₀ (by norm_num) (by omega)
        have h2 : mag x * 10 ^ (zerosOf x + 1) ≤ mag y * 10 ^ zerosOf y := mul_le_mul h h1 (by positivity) (mag_nonneg y)
        linarith
      rcases Nat.lt_or_ge (zerosOf y) (zerosOf x) with h1 | h1
      · refine Or.inr (Or.inr (Or.inl ⟨ix, iy, ?_⟩))
        rw [absExpo, absExpo, if_pos ix, if_pos iy]; omega
      · refine Or.inr (Or.inr (Or.inr ⟨⟨fun _ => iy, fun _ => ix⟩, ?_, ?_⟩))
        · rw [absExpo, absExpo, if_pos ix, if_pos iy]; omega
        · exact compare_mant hx hy (by rw [ix, iy]) h
    · exact Or.inl ⟨ix, iy⟩
  · by_cases iy : y.int = [0]
    · have h1 := le_mag hx ix
      have h2 := (frac_bounds hy ny iy).1
      have h3 : (1 : ℚ) ≤ 10 ^ (x.int.length - 1) := one_le_pow₀ (by norm_num)
      have h4 : (1 : ℚ) ≤ 10 ^ zerosOf y := one_le_pow₀ (by norm_num)
      have h5 : mag y * 1 ≤ mag y * 10 ^ zerosOf y := mul_le_mul_of_nonneg_left h4 (mag_nonneg y)
      linarith
    · have hle : x.int.length ≤ y.int.length := by
        by_contra hlt
        have h1 := le_mag hx ix
        have h2 := mag_lt hy
        have h3 : (10 : ℚ) ^ y.int.length ≤ 10 ^ (x.int.length - 1) := pow_le_pow_right₀ (by norm_num) (by omega)
        linarith
      rcases Nat.lt_or_ge x.int.length y.int.length with h1 | h1
      · refine Or.inr (Or.inl ⟨ix, iy, ?_⟩)
        rw [absExpo, absExpo, if_neg ix, if_neg iy]; omega
      · refine Or.inr (Or.inr (Or.inr ⟨⟨fun e => absurd e ix, fun e => absurd e iy⟩, ?_, ?_⟩))
        · rw [absExpo, absExpo, if_neg ix, if_neg iy]; omega
        · exact compare_mant hx hy (by omega) h

theorem body_eq (h1 : x.int = [0] ↔ y.int = [0]) (h2 : absExpo x = absExpo y) (h3 : mantDigits (digitsOf x) = mantDigits (digitsOf y))
    (h4 : x.neg = y.neg) : body x = body y := by
  rw [body, body, h4, h3]
  by_cases ix : x.int = [0]
  · have iy := h1.1 ix
    rw [absExpo, absExpo, if_pos ix, if_pos iy] at h2
    rw [if_pos ix, if_pos iy, h2]
  · have iy : y.int ≠ [0] := fun e => ix (h1.2 e)
    rw [absExpo, absExpo, if_neg ix, if_neg iy] at h2
    rw [if_neg ix, if_neg iy, h2]

/-- Two words with the same two signs are in the order of their exponents. -/
theorem expo_lt {w : Char → Nat} (hw : Weights w) (s : Word) (a b c d : List Nat) (hl : a.length = b.length) (ha : Digits a) (hb : Digits b)
    (h : a < b) : (s ++ chars a ++ ['E'] ++ chars c).map w < (s ++ chars b ++ ['E'] ++ chars d).map w := by
  simp only [List.map_append, List.append_assoc]
  refine lt_append_left _ (lt_append_of_lt _ _ ?_ (chars_lt hw hl ha hb h))
  rw [List.length_map, List.length_map, chars_length, chars_length, hl]

/-- Two words with the same signs and exponents are in the order of their mantissas. -/
theorem mant_lt {w : Char → Nat} (hw : Weights w) (s : Word) (c d : List Nat) (hl : c.length = d.length) (hc : Digits c) (hd : Digits d)
    (h : c < d) : (s ++ chars c).map w < (s ++ chars d).map w := by
  simp only [List.map_append]
  exact lt_append_left _ (chars_lt hw hl hc hd h)

/-- Positive numbers. -/
theorem pos_order {w : Char → Nat} (hw : Weights w) (hx : x.Canonical) (hy : y.Canonical) (nx : NonZero x) (ny : NonZero y)
    (lx : (digs (absExpo x)).length < 20) (ly : (digs (absExpo y)).length < 20) (px : x.neg = false) (py : y.neg = false) (h : mag x ≤ mag y) :
    (body x).map w < (body y).map w ∨ (body x = body y ∧ ((digitsOf x).length ≤ 30 → (digitsOf y).length ≤ 30 → mag x = mag y)) := by
  have el := (expoDigits_length lx).trans (expoDigits_length ly).symm
  rcases compare_mag hx hy nx ny h with ⟨ix, iy⟩ | ⟨ix, iy, hlt⟩ | ⟨ix, iy, hlt⟩ | ⟨hi, he, hm⟩
  · left
    rw [body, body, if_pos ix, if_neg iy, px, py]
    simp only [Bool.false_eq_true, if_false, List.append_assoc, List.cons_append, List.nil_append, List.map_cons]
    exact List.cons_lt_cons_iff.2 (Or.inr ⟨rfl, List.cons_lt_cons_iff.2 (Or.inl (Nat.lt_trans hw.signs.1 hw.signs.2))⟩)
  · left
    rw [absExpo, absExpo, if_neg ix, if_neg iy] at *
    rw [body, body, if_neg ix, if_neg iy, px, py]
    simp only [Bool.false_eq_true, if_false]
    exact expo_lt hw _ _ _ _ _ el (expoDigits_digits _) (expoDigits_digits _) (expoDigits_lt lx ly hlt)
  · left
    rw [absExpo, absExpo, if_pos ix, if_pos iy] at *
    rw [body, body, if_pos ix, if_pos iy, px, py]
    simp only [Bool.false_eq_true, if_false]
    exact expo_lt hw _ _ _ _ _ (by rw [compl_length, compl_length, el]) (compl_digits _) (compl_digits _)
      (compl_lt el.symm (expoDigits_digits _) (expoDigits_digits _) (expoDigits_lt ly lx hlt))
  · rcases hm with hm | ⟨hm, hq⟩
    · left
      by_cases ix : x.int = [0]
      · have iy := hi.1 ix
        rw [absExpo, absExpo, if_pos ix, if_pos iy] at he
        rw [body, body, if_pos ix, if_pos iy, px, py, he]
        simp only [Bool.false_eq_true, if_false]
        exact mant_lt hw _ _ _ (by rw [mantDigits_length, mantDigits_length]) (mantDigits_digits hx.digits) (mantDigits_digits hy.digits) hm
      · have iy : y.int ≠ [0] := fun e => ix (hi.2 e)
        rw [absExpo, absExpo, if_neg ix, if_neg iy] at he
        rw [body, body, if_neg ix, if_neg iy, px, py, he]
        simp only [Bool.false_eq_true, if_false]
        exact mant_lt hw _ _ _ (by rw [mantDigits_length, mantDigits_length]) (mantDigits_digits hx.digits) (mantDigits_digits hy.digits) hm
    · exact Or.inr ⟨body_eq hi he hm (px.trans py.symm), hq⟩

/-- Negative numbers. -/
theorem neg_order {w : Char → Nat} (hw : Weights w) (hx : x.Canonical) (hy : y.Canonical) (nx : NonZero x) (ny : NonZero y)
    (lx : (digs (absExpo x)).length < 20) (ly : (digs (absExpo y)).length < 20) (px : x.neg = true) (py : y.neg = true) (h : mag x ≤ mag y) :
    (body y).map w < (body x).map w ∨ (body x = body y ∧ ((digitsOf x).length ≤ 30 → (digitsOf y).length ≤ 30 → mag x = mag y)) := by
  have el := (expoDigits_length lx).trans (expoDigits_length ly).symm
  have ml : (compl (mantDigits (digitsOf y))).length = (compl (mantDigits (digitsOf x))).length := by
    rw [compl_length, compl_length, mantDigits_length, mantDigits_length]
  rcases compare_mag hx hy nx ny h with ⟨ix, iy⟩ | ⟨ix, iy, hlt⟩ | ⟨ix, iy, hlt⟩ | ⟨hi, he, hm⟩
  · left
    rw [body, body, if_pos ix, if_neg iy, px, py]
    simp only [if_true, List.append_assoc, List.cons_append, List.nil_append, List.map_cons]
    exact List.cons_lt_cons_iff.2 (Or.inr ⟨rfl, List.cons_lt_cons_iff.2 (Or.inl hw.expo)⟩)
  · left
    rw [absExpo, absExpo, if_neg ix, if_neg iy] at *
    rw [body, body, if_neg ix, if_neg iy, px, py]
    simp only [if_true]
    exact expo_lt hw _ _ _ _ _ (by rw [compl_length, compl_length, el]) (compl_digits _) (compl_digits _)
      (compl_lt el (expoDigits_digits _) (expoDigits_digits _) (expoDigits_lt lx ly hlt))
  · left
    rw [absExpo, absExpo, if_pos ix, if_pos iy] at *
    rw [body, body, if_pos ix, if_pos iy, px, py]
    simp only [if_true]
    exact expo_lt hw _ _ _ _ _ el.symm (expoDigits_digits _) (expoDigits_digits _) (expoDigits_lt ly lx hlt)
  · rcases hm with hm | ⟨hm, hq⟩
    · left
      have hc := compl_lt ((mantDigits_length _).trans (mantDigits_length _).symm) (mantDigits_digits hx.digits) (mantDigits_digits hy.digits) hm
      by_cases ix : x.int = [0]
      · have iy := hi.1 ix
        rw [absExpo, absExpo, if_pos ix, if_pos iy] at he
        rw [body, body, if_pos ix, if_pos iy, px, py, he]
        simp only [if_true]
        exact mant_lt hw _ _ _ ml (compl_digits _) (compl_digits _) hc
      · have iy : y.int ≠ [0] := fun e => ix (hi.2 e)
        rw [absExpo, absExpo, if_neg ix, if_neg iy] at he
        rw [body, body, if_neg ix, if_neg iy, px, py, he]
        simp only [if_true]
        exact mant_lt hw _ _ _ ml (compl_digits _) (compl_digits _) hc
    · exact Or.inr ⟨body_eq hi he hm (px.trans py.symm), hq⟩

/-- What stands between prefix and type, also for zero. -/
def bodyOf (x : Number) : Word := if x.value = 0 then ['N', '0'] else body x

theorem floatWord_body (hc : x.Canonical) {type : NumericType} {a : Word} (h : floatWord x.text type = .ok a) :
    a = floatPrefix ++ bodyOf x ++ [type.char] ∧ (x.value ≠ 0 → (digs (absExpo x)).length < 20) := by
  by_cases hn : NonZero x
  · have h0 : x.value ≠ 0 := fun h0 => (value_zero_iff hc).1 h0 hn
    rw [floatWord_text hc hn] at h
    by_cases hl : (digs (absExpo x)).length < 20
    · rw [if_pos hl] at h
      refine ⟨?_, fun _ => hl⟩
      rw [bodyOf, if_neg h0]
      exact (Outcome.ok.inj h).symm
    · rw [if_neg hl] at h; cases h
  · have h0 := (value_zero_iff hc).2 hn
    rw [floatWord_zero hc hn] at h
    refine ⟨?_, fun h' => absurd h0 h'⟩
    rw [bodyOf, if_pos h0, ← Outcome.ok.inj h]
    simp

theorem body_head (x : Number) : ∃ rest, body x = (if x.neg then 'M' else 'P') :: rest := by
  rw [body]
  by_cases hi : x.int = [0] <;> cases hb : x.neg <;> simp [hi]

/-- The order of the words for all numbers. -/
theorem body_order {w : Char → Nat} (hw : Weights w) (hx : x.Canonical) (hy : y.Canonical)
    (lx : x.value ≠ 0 → (digs (absExpo x)).length < 20) (ly : y.value ≠ 0 → (digs (absExpo y)).length < 20) (h : x.value ≤ y.value) :
    (bodyOf x).map w < (bodyOf y).map w ∨ (bodyOf x = bodyOf y ∧ ((digitsOf x).length ≤ 30 → (digitsOf y).length ≤ 30 → x.value = y.value)) := by
  have head : ∀ {c d : Char} {r s : Word}, w c < w d → (c :: r).map w < (d :: s).map w := fun h => List.cons_lt_cons_iff.2 (Or.inl h)
  rw [bodyOf, bodyOf]
  by_cases x0 : x.value = 0
  · by_cases y0 : y.value = 0
    · rw [if_pos x0, if_pos y0]
      exact Or.inr ⟨rfl, fun _ _ => x0.trans y0.symm⟩
    · rw [if_pos x0, if_neg y0]
      have hn : y.neg = false := by
        cases hb : y.neg with
        | false => rfl
        | true =>
          rw [value_eq y, hb] at h y0
          have := mag_nonneg y
          simp only [if_true] at h y0
          exact absurd (by linarith) y0
      obtain ⟨r, hr⟩ := body_head y
      rw [hr, hn]
      exact Or.inl (head hw.signs.2)
  · have nx : NonZero x := by
      by_contra hn; exact x0 ((value_zero_iff hx).2 hn)
    have mx := mag_pos hx nx
    by_cases y0 : y.value = 0
    · rw [if_neg x0, if_pos y0]
      have hn : x.neg = true := by
        cases hb : x.neg with
        | true => rfl
        | false =>
          rw [value_eq x, hb] at h
          simp only [Bool.false_eq_true, if_false] at h
          linarith
      obtain ⟨r, hr⟩ := body_head x
      rw [hr, hn]
      exact Or.inl (head hw.signs.1)
    · have ny : NonZero y := by
        by_contra hn; exact y0 ((value_zero_iff hy).2 hn)
      have my := mag_pos hy ny
      rw [if_neg x0, if_neg y0]
      rw [value_eq x, value_eq y] at h
      cases hbx : x.neg with
      | true => cases hby : y.neg with
        | true =>
          rw [hbx, hby] at h
          simp only [if_true] at h
          rcases neg_order hw hy hx ny nx (ly y0) (lx x0) hby hbx (by linarith) with h1 | ⟨h1, h2⟩
          · exact Or.inl h1
          · refine Or.inr ⟨h1.symm, fun a b => ?_⟩
            rw [value_eq, value_eq, hbx, hby, h2 b a]
        | false =>
          obtain ⟨r, hr⟩ := body_head x
          obtain ⟨s, hs⟩ := body_head y
          rw [hr, hs, hbx, hby]
          exact Or.inl (head (Nat.lt_trans hw.signs.1 hw.signs.2))
      | false => cases hby : y.neg with
        | true =>
          rw [hbx, hby] at h
          simp only [if_true, Bool.false_eq_true, if_false] at h
          linarith
        | false =>
          rw [hbx, hby] at h
          simp only [Bool.false_eq_true, if_false] at h
          rcases pos_order hw hx hy nx ny (lx x0) (ly y0) hbx hby h with h1 | ⟨h1, h2⟩
          · exact Or.inl h1
          · refine Or.inr ⟨h1, fun a b => ?_⟩
            rw [value_eq, value_eq, hbx, hby, h2 a b]

end Verif.Conversions
