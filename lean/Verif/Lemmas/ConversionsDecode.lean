import Verif.Lemmas.ConversionsOrder
/-
Helper lemmas for C45: taking index words apart.
-/
namespace Verif.Conversions
open Verif.ConversionsSpec
open Verif.ExternalVocabulary (Word)

variable {x : Number}

theorem takeWhile_chars {ds : List Nat} (h : Digits ds) : (chars ds).takeWhile (fun c => '0' ≤ c ∧ c ≤ '9') = chars ds := by
  rw [List.takeWhile_eq_self_iff]
  intro c hc
  obtain ⟨d, hd, rfl⟩ := List.mem_map.1 hc
  simpa using digitChar_digit d (h d hd)

theorem foldl_chars {ds : List Nat} (h : Digits ds) : ∀ n, (chars ds).foldl (fun n c => 10 * n + atoi1 c) n = ds.foldl (fun n d => 10 * n + d) n := by
  induction ds with
  | nil => intro n; rfl
  | cons d ds ih =>
    intro n
    have := ih (fun x hx => h x (List.mem_cons_of_mem _ hx)) (10 * n + d)
    rw [chars, List.map_cons, List.foldl_cons, List.foldl_cons, atoi1_digitChar d (h d List.mem_cons_self)]
    exact this

theorem atoi_chars {ds : List Nat} (h : Digits ds) (hb : natOf ds < 2 ^ 31) : atoi (chars ds) = .ok (natOf ds) := by
  rw [atoi]
  rw [takeWhile_chars h, foldl_chars h]
  exact if_pos hb

/-- Taking apart a word that is put together from its fields. -/
theorem parts_fields (a b : Char) (e m : List Nat) (t : Char) (he : Digits e) (hm : Digits m) (ha : a ≠ 'E') (hb : b ≠ 'E')
    (abs : Nat) (habs : natOf (if decide (a = 'M') == (decide (b = 'M') || decide (b = '-')) then e else compl e) = abs) (hlt : abs < 2 ^ 31) :
    parts (floatPrefix ++ ([a, b] ++ chars e ++ ['E'] ++ chars m) ++ [t])
      = .ok (some ⟨a = 'M', b = 'M' || b = '-', abs, if a = 'M' then chars (compl m) else chars m⟩) := by
  have hnum : ((floatPrefix ++ ([a, b] ++ chars e ++ ['E'] ++ chars m) ++ [t]).drop floatPrefix.length).take
      ((floatPrefix ++ ([a, b] ++ chars e ++ ['E'] ++ chars m) ++ [t]).length - floatPrefix.length - 1) = [a, b] ++ chars e ++ 'E' :: chars m := by
    generalize hg : [a, b] ++ chars e ++ ['E'] ++ chars m = g
    rw [List.append_assoc floatPrefix, List.drop_left, List.length_append, List.length_append, List.length_singleton]
    rw [Nat.add_sub_cancel_left, Nat.add_sub_cancel, List.take_left, ← hg]
    simp
  have hfind : ([a, b] ++ chars e ++ 'E' :: chars m).findIdx? (· = 'E') = some (2 + e.length) := by
    rw [findIdx_append]
    · rw [List.length_append, chars_length]; rfl
    · intro h
      rcases List.mem_append.1 h with h | h
      · simp only [List.mem_cons, List.not_mem_nil, or_false] at h
        rcases h with h | h
        · exact ha h.symm
        · exact hb h.symm
      · exact chars_no he (fun d hd => (digitChar_other d hd).2.2.2) h
  have hne : [a, b] ++ chars e ++ 'E' :: chars m ≠ ['N', '0'] := by
    intro h
    have := congrArg List.length h
    simp at this
  rw [parts]
  rw [if_pos (by simp only [List.length_append, List.length_cons]; omega)]
  dsimp only
  rw [hnum, if_neg hne, hfind]
  dsimp only
  rw [if_neg (by omega)]
  have h1 : (([a, b] ++ chars e ++ 'E' :: chars m).drop 2).take (2 + e.length - 2) = chars e := by
    have : ([a, b] ++ chars e ++ 'E' :: chars m).drop 2 = chars e ++ 'E' :: chars m := rfl
    rw [this, Nat.add_sub_cancel_left, ← chars_length e, List.take_left]
  have h2 : ([a, b] ++ chars e ++ 'E' :: chars m).drop (2 + e.length + 1) = chars m := by
    have h3 : 2 + e.length + 1 = ([a, b] ++ chars e ++ ['E']).length := by
      simp only [List.length_append, chars_length, List.length_cons, List.length_nil]
    have h4 : [a, b] ++ chars e ++ 'E' :: chars m = ([a, b] ++ chars e ++ ['E']) ++ chars m := by simp
    rw [h3, h4, List.drop_left]
  have h3 : decide (([a, b] ++ chars e ++ 'E' :: chars m).head? = some 'M') = decide (a = 'M') := by simp
  have h4 : (decide (([a, b] ++ chars e ++ 'E' :: chars m)[1]? = some 'M') || decide (([a, b] ++ chars e ++ 'E' :: chars m)[1]? = some '-'))
      = (decide (b = 'M') || decide (b = '-')) := by simp
  rw [h1, h2, h3, h4, complement_chars he, complement_chars hm]
  have h5 : atoi (if (decide (a = 'M') == (decide (b = 'M') || decide (b = '-'))) = true then chars e else chars (compl e)) = .ok abs := by
    by_cases hc : (decide (a = 'M') == (decide (b = 'M') || decide (b = '-'))) = true
    · rw [if_pos hc] at habs ⊢
      rw [atoi_chars he (by omega), habs]
    · rw [if_neg hc] at habs ⊢
      rw [atoi_chars (compl_digits e) (by omega), habs]
  rw [h5]
  simp only [Outcome.map, decide_eq_true_eq]

/-- The fields of a number. -/
theorem parts_body (hc : x.Canonical) (hl : absExpo x < 2 ^ 31) (t : Char) :
    parts (floatPrefix ++ body x ++ [t]) = .ok (some ⟨x.neg, x.int = [0], absExpo x, chars (mantDigits (digitsOf x))⟩) := by
  have hm : Digits (mantDigits (digitsOf x)) := mantDigits_digits hc.digits
  have hcm := compl_compl hm
  have he : ∀ n, natOf (compl (compl (expoDigits n))) = n := fun n => by rw [compl_compl (expoDigits_digits n), natOf_expoDigits]
  rw [body]
  rw [absExpo] at hl ⊢
  by_cases hi : x.int = [0]
  · rw [if_pos hi] at hl
    rw [if_pos hi, if_pos hi]
    cases hb : x.neg with
    | true =>
      simp only [if_true]
      rw [parts_fields 'M' '-' _ _ t (expoDigits_digits _) (compl_digits _) (by decide) (by decide) _
        (by rw [if_pos (by rfl)]; exact natOf_expoDigits _) hl, hcm]
      rw [show decide (x.int = [0]) = true by simp [hi]]; rfl
    | false =>
      simp only [Bool.false_eq_true, if_false]
      rw [parts_fields 'P' 'M' _ _ t (compl_digits _) hm (by decide) (by decide) _
        (by rw [if_neg (by decide)]; exact he _) hl]
      rw [show decide (x.int = [0]) = true by simp [hi]]; rfl
  · rw [if_neg hi] at hl
    rw [if_neg hi, if_neg hi]
    cases hb : x.neg with
    | true =>
      simp only [if_true]
      rw [parts_fields 'M' '+' _ _ t (compl_digits _) (compl_digits _) (by decide) (by decide) _
        (by rw [if_neg (by decide)]; exact he _) hl, hcm]
      simp [hi]
    | false =>
      simp only [Bool.false_eq_true, if_false]
      rw [parts_fields 'P' 'P' _ _ t (expoDigits_digits _) hm (by decide) (by decide) _
        (by rw [if_pos (by rfl)]; exact natOf_expoDigits _) hl]
      simp [hi]

theorem parts_zero (t : Char) : parts (floatPrefix ++ ['N', '0'] ++ [t]) = .ok none := rfl

/-! ### Zeros at the beginning and at the end -/

theorem dropWhile_chars {ds : List Nat} (h : Digits ds) : (chars ds).dropWhile (· = '0') = chars (ds.dropWhile (· = 0)) := by
  induction ds with
  | nil => rfl
  | cons d ds ih =>
    have hd := digitChar_zero d (h d List.mem_cons_self)
    have ih' := ih fun x hx => h x (List.mem_cons_of_mem _ hx)
    rw [chars, List.map_cons, List.dropWhile_cons, List.dropWhile_cons]
    by_cases h0 : d = 0
    · rw [if_pos (by simpa using hd.2 h0), if_pos (by simpa using h0)]
      exact ih'
    · rw [if_neg (by simpa using fun h' => h0 (hd.1 h')), if_neg (by simpa using h0)]
      rfl

theorem rstrip_chars {ds : List Nat} (h : Digits ds) : rstripZeros (chars ds) = chars (stripEnd ds) := by
  have h1 : (chars ds).reverse = chars ds.reverse := by rw [chars, chars, List.map_reverse]
  rw [rstripZeros, h1, dropWhile_chars fun d hd => h d (List.mem_reverse.1 hd), stripEnd, chars, chars, List.map_reverse]

theorem stripEnd_zeros (a : List Nat) (k : Nat) : stripEnd (a ++ List.replicate k 0) = stripEnd a := by
  rw [stripEnd, stripEnd, List.reverse_append, List.reverse_replicate]
  congr 1
  induction k with
  | zero => rfl
  | succ k ih => rw [List.replicate_succ, List.cons_append, List.dropWhile_cons, if_pos (by simp)]; exact ih

theorem stripEnd_nil_iff {a : List Nat} : stripEnd a = [] ↔ ∀ d ∈ a, d = 0 := by
  rw [stripEnd, List.reverse_eq_nil_iff, List.dropWhile_eq_nil_iff]
  simp

theorem stripEnd_append {a b : List Nat} (h : ∃ d ∈ b, d ≠ 0) : stripEnd (a ++ b) = a ++ stripEnd b := by
  have h1 : b.reverse.dropWhile (· = 0) ≠ [] := by
    intro h'
    rw [List.dropWhile_eq_nil_iff] at h'
    obtain ⟨d, hd, h0⟩ := h
    exact h0 (by simpa using h' d (List.mem_reverse.2 hd))
  rw [stripEnd, stripEnd, List.reverse_append, List.dropWhile_append, if_neg (by simpa using h1), List.reverse_append, List.reverse_reverse]

theorem stripEnd_digits {a : List Nat} (h : Digits a) : Digits (stripEnd a) := fun d hd =>
  h d (List.mem_reverse.1 (List.IsSuffix.mem (List.mem_reverse.1 hd) (List.dropWhile_suffix _)))

/-! ### Writing the digits -/

/-- Up to the dot. -/
theorem writeDigits_dot (abs : Nat) (c : Char) (b : Word) : ∀ (a : Word) (t : Nat) (os zeros : Word), t + a.length = abs →
    writeDigits abs (a ++ c :: b) t os zeros = writeDigits abs b (abs + 1) (os ++ zeros ++ a ++ [c, '.']) [] := by
  intro a
  induction a with
  | nil =>
    intro t os zeros ht
    rw [List.nil_append, writeDigits]
    have ht' : t = abs := by simpa using ht
    rw [if_pos ht', ht']
    by_cases hc : c = '0'
    · rw [if_pos hc, if_pos hc, hc]; simp
    · rw [if_neg hc, if_neg hc]; simp
  | cons h a ih =>
    intro t os zeros ht
    rw [List.length_cons] at ht
    rw [List.cons_append, writeDigits]
    rw [if_neg (by omega), ih (t + 1) _ _ (by omega)]
    by_cases hc : h = '0'
    · rw [if_pos hc, if_pos hc, hc]; simp
    · rw [if_neg hc, if_neg hc]; simp

theorem rstripZeros_cons (c : Char) (b : Word) : rstripZeros (c :: b) = if rstripZeros b = [] then (if c = '0' then [] else [c]) else c :: rstripZeros b := by
  rw [rstripZeros, rstripZeros, List.reverse_cons, List.dropWhile_append]
  by_cases h : b.reverse.dropWhile (· = '0') = []
  · rw [if_pos (by simpa using h), if_pos (by rw [h]; rfl), List.dropWhile_cons]
    by_cases hc : c = '0'
    · rw [if_pos (by simpa using hc), if_pos hc]; rfl
    · rw [if_neg (by simpa using hc), if_neg hc]; rfl
  · rw [if_neg (by simpa using h), if_neg (by rwa [List.reverse_eq_nil_iff]), List.reverse_append]; rfl

/-- Without a dot. -/
theorem writeDigits_rest (abs : Nat) : ∀ (b : Word) (t : Nat) (os zeros : Word), (abs < t ∨ t + b.length ≤ abs) →
    writeDigits abs b t os zeros = os ++ if rstripZeros b = [] then [] else zeros ++ rstripZeros b := by
  intro b
  induction b with
  | nil => intro t os zeros _; rw [writeDigits, if_pos (by rfl), List.append_nil]
  | cons c b ih =>
    intro t os zeros ht
    rw [List.length_cons] at ht
    rw [writeDigits]
    have ht' : ¬ t = abs := by omega
    rw [if_neg ht', ih (t + 1) _ _ (by omega), rstripZeros_cons]
    by_cases h : rstripZeros b = [] <;> by_cases hc : c = '0' <;> simp [h, hc]

end Verif.Conversions
