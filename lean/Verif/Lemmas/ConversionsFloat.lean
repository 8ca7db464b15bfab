import Verif.Lemmas.ConversionsShow
/-
Helper lemmas for C45: the numbers that are computed with.
-/
namespace Verif.Conversions
open Verif.ConversionsSpec
open Verif.ExternalVocabulary (Word)

variable {x : Number}

theorem stripEnd_spec (a : List Nat) : ∃ j, a = stripEnd a ++ List.replicate j 0 := by
  refine ⟨(a.reverse.takeWhile (· = 0)).length, ?_⟩
  have h1 : a.reverse.takeWhile (· = 0) = List.replicate (a.reverse.takeWhile (· = 0)).length 0 :=
    List.eq_replicate_iff.2 ⟨rfl, fun b hb => by simpa using List.mem_takeWhile_imp hb⟩
  have h2 := congrArg List.reverse (List.takeWhile_append_dropWhile (p := fun d : Nat => decide (d = 0)) (l := a.reverse))
  rw [List.reverse_reverse, List.reverse_append, h1, List.reverse_replicate] at h2
  exact h2.symm

theorem log_unique {n a b : Nat} (h1 : 10 ^ a ≤ n) (h2 : n < 10 ^ (a + 1)) (h3 : 10 ^ b ≤ n) (h4 : n < 10 ^ (b + 1)) : a = b := by
  have h5 : 10 ^ a < 10 ^ (b + 1) := by omega
  have h6 : 10 ^ b < 10 ^ (a + 1) := by omega
  rw [Nat.pow_lt_pow_iff_right (by omega)] at h5 h6
  omega

theorem stol_chars {ds : List Nat} (h : Digits ds) (hne : ds ≠ []) : stol (chars ds) = if natOf ds < 2 ^ 63 then .ok (natOf ds) else .throw := by
  have hne' : chars ds ≠ [] := fun h => hne (List.map_eq_nil_iff.1 h)
  rw [stol]
  rw [takeWhile_chars h, if_neg hne', foldl_chars h]
  rfl

/-- The number that is computed from a word; `L` is the exact logarithm. -/
theorem toFloat_body (hc : x.Canonical) (hn : NonZero x) (hl : (digitsOf x).length ≤ 30) (t : Char) (log10 : Nat → Nat) :
    ∃ L : Nat, 10 ^ L ≤ x.significand ∧ x.significand < 10 ^ (L + 1) ∧
      toFloat log10 (floatPrefix ++ body x ++ [t]) =
        if x.significand < 2 ^ 63 then .ok (x.value * (10 : ℚ) ^ ((L : Int) - log10 x.significand)) else .throw := by
  have ha := absExpo_lt hc hn hl
  obtain ⟨d, rest, hd, hdr, hsplit⟩ := split_digits hc hn
  obtain ⟨k, hk⟩ : ∃ k, k = (if x.int = [0] then zerosOf x + 1 else 0) := ⟨_, rfl⟩
  rw [← hk] at hsplit
  obtain ⟨S, hS⟩ : ∃ S, S = stripEnd (d :: rest) := ⟨_, rfl⟩
  obtain ⟨j, hj⟩ := stripEnd_spec (d :: rest)
  rw [← hS] at hj
  have hSne : S ≠ [] := by
    intro h
    rw [hS] at h
    exact hd (stripEnd_nil_iff.1 h d List.mem_cons_self)
  obtain ⟨s, ss, hs⟩ : ∃ s ss, S = s :: ss := by
    cases S with
    | nil => exact absurd rfl hSne
    | cons s ss => exact ⟨s, ss, rfl⟩
  have hsd : s = d := by
    rw [hs] at hj
    exact (List.cons.inj hj).1.symm
  have hSd : Digits S := by rw [hS]; exact stripEnd_digits hdr
  have hsig : x.significand = natOf S := by
    rw [Number.significand]
    show natOf (stripEnd (digitsOf x)) = _
    rw [hsplit, stripEnd_append ⟨d, List.mem_cons_self, hd⟩, natOf_append, natOf_zeros, ← hS]
    omega
  have hpad : Digits (digitsOf x ++ List.replicate (30 - (digitsOf x).length) 0) := padTo_digits (n := 30) hc.digits
  have hlen : (digitsOf x).length = k + S.length + j := by
    rw [hsplit, hj, List.length_append, List.length_append, List.length_replicate, List.length_replicate]
    omega
  have hlow : 10 ^ ss.length ≤ natOf S := by
    rw [hs, natOf_cons, hsd]
    have : 1 * 10 ^ ss.length ≤ d * 10 ^ ss.length := Nat.mul_le_mul_right _ (by omega)
    omega
  have hhigh : natOf S < 10 ^ (ss.length + 1) := by
    have := natOf_lt hSd
    rwa [hs, List.length_cons, ← hs] at this
  refine ⟨ss.length, by rw [hsig]; exact hlow, by rw [hsig]; exact hhigh, ?_⟩
  rw [toFloat, parts_body hc (by omega)]
  dsimp only [Outcome.bind]
  rw [mantDigits_short hl, dropWhile_chars hpad]
  have hdw : (digitsOf x ++ List.replicate (30 - (digitsOf x).length) 0).dropWhile (· = 0) = d :: rest ++ List.replicate (30 - (digitsOf x).length) 0 := by
    conv => lhs; rw [hsplit]
    rw [List.append_assoc, dropWhile_zeros, List.cons_append, dropWhile_nonzero _ hd, hsplit]
    rfl
  have hd2 : Digits (d :: rest ++ List.replicate (30 - (digitsOf x).length) 0) := fun y hy => by
    rcases List.mem_append.1 hy with h | h
    · exact hdr y h
    · rw [(List.mem_replicate.1 h).2]; omega
  rw [hdw, if_neg (by simp [chars]), rstrip_chars hd2, stripEnd_zeros, ← hS, stol_chars hSd hSne, hsig]
  by_cases hb : natOf S < 2 ^ 63
  · rw [if_pos hb, if_pos hb]
    dsimp only [Outcome.map]
    have hm := mag_pad (x := x) 30 hl
    rw [natOf_padTo, hsplit, natOf_append, natOf_zeros] at hm
    have h1 : natOf (d :: rest) = natOf S * 10 ^ j := by
      conv => lhs; rw [hj]
      rw [natOf_append, natOf_zeros, List.length_replicate, Nat.add_zero]
    rw [← hsplit, Nat.zero_mul, Nat.zero_add, h1] at hm
    push_cast at hm
    have hint : 0 < x.int.length := List.length_pos_iff.2 hc.nonempty
    have hle : x.int.length ≤ 30 := by rw [List.length_append] at hl; omega
    have hSl : S.length = ss.length + 1 := by rw [hs]; rfl
    have hmag : mag x = (natOf S : ℚ) * (10 : ℚ) ^ ((x.int.length : Int) - k - S.length) := by
      have h2 : (10 : ℚ) ^ (30 - x.int.length) ≠ 0 := by positivity
      refine mul_right_cancel₀ h2 ?_
      rw [hm, mul_assoc, mul_assoc]
      congr 1
      rw [← pow_add, ← zpow_natCast, ← zpow_natCast, ← zpow_add₀ (by norm_num : (10 : ℚ) ≠ 0)]
      congr 1
      omega
    have hexp : (if decide (x.int = [0]) = true then -((absExpo x : Nat) : Int) - (log10 (natOf S) : Int) else ((absExpo x : Nat) : Int) - (log10 (natOf S) : Int))
        = ((x.int.length : Int) - k - S.length) + ((ss.length : Int) - log10 (natOf S)) := by
      rw [absExpo, hk]
      by_cases hi : x.int = [0]
      · rw [if_pos (by simp [hi]), if_pos hi, if_pos hi, hi, hSl]
        push_cast
        simp only [List.length_singleton]
        push_cast
        ring
      · rw [if_neg (by simp [hi]), if_neg hi, if_neg hi, hSl]
        have : ((x.int.length - 1 : Nat) : Int) = (x.int.length : Int) - 1 := by omega
        rw [this]
        push_cast
        ring
    rw [hexp, zpow_add₀ (by norm_num : (10 : ℚ) ≠ 0), value_eq, hmag]
    cases x.neg with
    | true => simp only [if_true]; congr 1; ring
    | false => simp only [Bool.false_eq_true, if_false]; congr 1; ring
  · rw [if_neg hb, if_neg hb]
    rfl

end Verif.Conversions
