import Verif.Lemmas.ConversionsDecode
/-
Helper lemmas for C45: showing numbers and computing with them.
-/
namespace Verif.Conversions
open Verif.ConversionsSpec
open Verif.ExternalVocabulary (Word)

variable {x : Number}

theorem mantDigits_short {ds : List Nat} (h : ds.length ≤ 30) : mantDigits ds = ds ++ List.replicate (30 - ds.length) 0 := by
  rw [mantDigits, List.take_of_length_le h]

theorem dropWhile_zeros (k : Nat) (ds : List Nat) : (List.replicate k 0 ++ ds).dropWhile (· = 0) = ds.dropWhile (· = 0) := by
  induction k with
  | zero => rfl
  | succ k ih => rw [List.replicate_succ, List.cons_append, List.dropWhile_cons, if_pos (by simp)]; exact ih

theorem dropWhile_nonzero {d : Nat} (ds : List Nat) (h : d ≠ 0) : (d :: ds).dropWhile (· = 0) = d :: ds := by
  rw [List.dropWhile_cons, if_neg (by simpa using h)]

/-- The digits from the first one that is not zero. -/
theorem split_digits (hc : x.Canonical) (hn : NonZero x) : ∃ d rest, d ≠ 0 ∧ Digits (d :: rest) ∧
    digitsOf x = List.replicate (if x.int = [0] then zerosOf x + 1 else 0) 0 ++ d :: rest := by
  by_cases hi : x.int = [0]
  · obtain ⟨d, rest, h, hd⟩ := split_zeros (frac_nonzero hn hi)
    have hz : (x.frac.takeWhile (· = 0)).length = zerosOf x := rfl
    rw [hz] at h
    refine ⟨d, rest, hd, fun y hy => frac_digits hc y (by rw [h]; exact List.mem_append_right _ hy), ?_⟩
    show x.int ++ x.frac = _
    rw [if_pos hi, List.replicate_succ, List.cons_append, ← h, hi]; rfl
  · obtain ⟨d, ds, h, hd⟩ := int_ne_zero hc hi
    refine ⟨d, ds ++ x.frac, hd, fun y hy => hc.digits y (by rw [h]; exact hy), ?_⟩
    rw [if_neg hi]
    show x.int ++ x.frac = _
    rw [h]; rfl

theorem absExpo_lt (hc : x.Canonical) (hn : NonZero x) (hl : (digitsOf x).length ≤ 30) : absExpo x < 30 := by
  rw [List.length_append] at hl
  rw [absExpo]
  by_cases hi : x.int = [0]
  · rw [if_pos hi]
    have h1 := takeWhile_length_lt (frac_nonzero hn hi)
    have h2 : 0 < x.int.length := List.length_pos_iff.2 hc.nonempty
    have h3 : zerosOf x = (x.frac.takeWhile (· = 0)).length := rfl
    omega
  · rw [if_neg hi]; omega

theorem sign_eq (b : Bool) : (if b = true then ['-'] else ([] : Word)) = if b then ['-'] else [] := rfl

theorem shown_text (x : Number) (hv : x.value ≠ 0) : x.shown.text = (if x.neg then ['-'] else []) ++ chars x.int ++ '.' ::
    chars (if stripEnd x.frac = [] then [0] else stripEnd x.frac) := by
  rw [Number.text, Number.shown]
  dsimp only
  rw [show (x.neg && decide (x.value ≠ 0)) = x.neg by simp [hv]]
  rfl

theorem getLast_append_cons (a b : Word) (c : Char) : (a ++ c :: b).getLast? = some ((c :: b).getLast (List.cons_ne_nil _ _)) := by
  rw [List.getLast?_append, List.getLast?_eq_some_getLast (List.cons_ne_nil _ _)]; rfl

theorem chars_last {ds : List Nat} (h : Digits ds) (hne : chars ds ≠ []) : (chars ds).getLast hne ≠ '.' := by
  intro h'
  have := List.getLast_mem hne
  rw [h'] at this
  exact chars_no h (fun d hd => (digitChar_other d hd).1) this

/-- A word is shown as the number that it was made from. -/
theorem floatString_body (hc : x.Canonical) (hn : NonZero x) (hl : (digitsOf x).length ≤ 30) (t : Char) :
    floatString (floatPrefix ++ body x ++ [t]) = .ok x.shown.text := by
  have hv : x.value ≠ 0 := fun h0 => (value_zero_iff hc).1 h0 hn
  have ha := absExpo_lt hc hn hl
  rw [floatString, parts_body hc (by omega)]
  dsimp only [Outcome.bind]
  rw [shown_text x hv, mantDigits_short hl]
  have hpad : Digits (digitsOf x ++ List.replicate (30 - (digitsOf x).length) 0) := padTo_digits (n := 30) hc.digits
  obtain ⟨d, rest, hd, hdr, hsplit⟩ := split_digits hc hn
  rw [dropWhile_chars hpad]
  have hdw : (digitsOf x ++ List.replicate (30 - (digitsOf x).length) 0).dropWhile (· = 0) = d :: rest ++ List.replicate (30 - (digitsOf x).length) 0 := by
    conv => lhs; rw [hsplit]
    rw [List.append_assoc, dropWhile_zeros, List.cons_append, dropWhile_nonzero _ hd, hsplit]
    rfl
  rw [hdw]
  by_cases hi : x.int = [0]
  · rw [if_pos (by simp [hi])]
    rw [absExpo, if_pos hi] at ha ⊢
    rw [if_neg (by omega), rstrip_chars (padTo_digits (n := (d :: rest).length + (30 - (digitsOf x).length)) hdr |> fun h => by
      rw [padTo, Nat.add_sub_cancel_left] at h; exact h), stripEnd_zeros]
    have hf : x.frac = List.replicate (zerosOf x) 0 ++ d :: rest := by
      rw [if_pos hi] at hsplit
      have : x.int ++ x.frac = List.replicate (zerosOf x + 1) 0 ++ d :: rest := hsplit
      rw [hi, List.replicate_succ] at this
      simpa using this
    have hs : stripEnd x.frac = List.replicate (zerosOf x) 0 ++ stripEnd (d :: rest) := by
      conv => lhs; rw [hf]
      exact stripEnd_append ⟨d, List.mem_cons_self, hd⟩
    have hne : stripEnd x.frac ≠ [] := by
      intro h
      exact hd (stripEnd_nil_iff.1 h d (by rw [hf]; simp))
    rw [if_neg hne, hs, hi, Nat.add_sub_cancel]
    simp only [List.append_assoc, chars, List.map_append, List.map_replicate, List.map_cons, List.map_nil, List.cons_append, List.nil_append]
    rfl
  · rw [if_neg (by simp [hi])]
    rw [absExpo, if_neg hi] at ha ⊢
    rw [if_neg hi] at hsplit
    have hword : d :: rest ++ List.replicate (30 - (digitsOf x).length) 0 = x.int ++ (x.frac ++ List.replicate (30 - (digitsOf x).length) 0) := by
      rw [← List.append_assoc, show x.int ++ x.frac = d :: rest from hsplit]
    obtain ⟨i, e, hie⟩ : ∃ i e, x.int = i ++ [e] := ⟨x.int.dropLast, x.int.getLast hc.nonempty, (List.dropLast_append_getLast hc.nonempty).symm⟩
    have hil : x.int.length - 1 = i.length := by rw [hie, List.length_append]; simp
    have hint : x.int.length ≤ 30 := by rw [List.length_append] at hl; omega
    have hfd : Digits (x.frac ++ List.replicate (30 - (digitsOf x).length) 0) := fun y hy => by
      rcases List.mem_append.1 hy with h | h
      · exact frac_digits hc y h
      · rw [(List.mem_replicate.1 h).2]; omega
    rw [hword, chars_append]
    have hw : ∀ os, writeDigits (x.int.length - 1) (chars x.int ++ chars (x.frac ++ List.replicate (30 - (digitsOf x).length) 0)) 0 os []
        = os ++ chars x.int ++ '.' :: chars (stripEnd x.frac) := by
      intro os
      have h1 : chars x.int ++ chars (x.frac ++ List.replicate (30 - (digitsOf x).length) 0)
          = chars i ++ digitChar e :: chars (x.frac ++ List.replicate (30 - (digitsOf x).length) 0) := by
        conv => lhs; rw [hie]
        rw [chars_append]
        simp [chars]
      rw [h1, writeDigits_dot _ _ _ _ _ _ _ (by rw [chars_length, hil, Nat.zero_add]), writeDigits_rest _ _ _ _ _ (Or.inl (by omega)),
        rstrip_chars hfd, stripEnd_zeros]
      have h2 : chars x.int = chars i ++ [digitChar e] := by rw [hie, chars_append]; rfl
      rw [h2]
      by_cases h3 : chars (stripEnd x.frac) = []
      · rw [if_pos h3, h3]; simp
      · rw [if_neg h3]; simp
    rw [hw, getLast_append_cons]
    have h30 : (chars (digitsOf x ++ List.replicate (30 - (digitsOf x).length) 0)).length = 30 := by
      rw [chars_length, List.length_append, List.length_replicate]; omega
    rw [h30, show x.int.length - 1 - 30 = 0 by omega]
    dsimp only
    by_cases h3 : stripEnd x.frac = []
    · rw [h3]
      simp [chars, digitChar]
    · have h4 : chars (stripEnd x.frac) ≠ [] := by
        intro h
        exact h3 (List.map_eq_nil_iff.1 h)
      rw [List.getLast_cons h4, if_neg (chars_last (stripEnd_digits (frac_digits hc)) h4), if_neg h3]
      simp

/-- Numbers with more than thirty digits before the dot. -/
theorem floatString_large (hc : x.Canonical) (hl : 30 < x.int.length) (hs : absExpo x < 2 ^ 31) (t : Char) :
    floatString (floatPrefix ++ body x ++ [t])
      = .ok ((if x.neg then ['-'] else []) ++ chars (stripEnd (x.int.take 30)) ++ List.replicate (x.int.length - 31) '0') := by
  have hi : x.int ≠ [0] := by
    intro h
    rw [h] at hl
    simp at hl
  have hmant : mantDigits (digitsOf x) = x.int.take 30 := by
    rw [mantDigits, List.take_append, List.length_append, show 30 - x.int.length = 0 by omega, show 30 - (x.int.length + x.frac.length) = 0 by omega]
    simp
  obtain ⟨d, ds, hds, hd⟩ := int_ne_zero hc hi
  have hid : Digits (x.int.take 30) := fun y hy => int_digits hc y (List.mem_of_mem_take hy)
  rw [floatString, parts_body hc hs]
  dsimp only [Outcome.bind]
  rw [if_neg (by simp [hi]), hmant, dropWhile_chars hid]
  have hdw : (x.int.take 30).dropWhile (· = 0) = x.int.take 30 := by
    rw [hds]
    show (d :: ds.take 29).dropWhile (· = 0) = _
    rw [dropWhile_nonzero _ hd]; rfl
  have hlen : (x.int.take 30).length = 30 := by rw [List.length_take]; omega
  have hexp : absExpo x = x.int.length - 1 := by rw [absExpo, if_neg hi]
  rw [hdw, hexp, writeDigits_rest _ _ _ _ _ (Or.inr (by rw [chars_length, hlen]; omega)), rstrip_chars hid]
  have hne : stripEnd (x.int.take 30) ≠ [] := by
    intro h
    refine hd (stripEnd_nil_iff.1 h d ?_)
    rw [hds]
    show d ∈ d :: ds.take 29
    exact List.mem_cons_self
  have hne' : chars (stripEnd (x.int.take 30)) ≠ [] := fun h => hne (List.map_eq_nil_iff.1 h)
  rw [if_neg hne', List.nil_append]
  have hlast : ((if x.neg = true then ['-'] else []) ++ chars (stripEnd (x.int.take 30))).getLast? = some ((chars (stripEnd (x.int.take 30))).getLast hne') := by
    rw [List.getLast?_append, List.getLast?_eq_some_getLast hne']; rfl
  rw [hlast]
  dsimp only
  rw [if_neg (chars_last (stripEnd_digits hid) hne'), chars_length, hlen, List.append_nil, show x.int.length - 1 - 30 = x.int.length - 31 by omega]

end Verif.Conversions
