import Verif.Lemmas.StringUtils
/-
C48: splitting and joining strings are inverse; words are the maximal runs without separators; stripping removes exactly the given
characters at the ends; the end of a literal is the first quote that is not escaped; closing brackets match.

`fuel` bounds the iterations of a loop; the theorems hold for every sufficiently large number.
-/
namespace Verif.StringUtils
open StringSpec

/-- `split` returns parts without the separator that give the string when joined; for a nonempty string there is at least one. -/
theorem C48_split (s : List Char) (sep : Char) (fuel : Nat) (hf : s.length + 1 < fuel) :
    ∃ parts, split fuel s sep = .ok parts ∧ join [sep] parts = s ∧ (∀ p ∈ parts, sep ∉ p) ∧ (parts = [] ↔ s = []) := by
  obtain ⟨parts, h1, h2, h3, h4⟩ := split_ok s sep fuel hf
  exact ⟨parts, h1, by rw [join_eq, h2], h3, h4⟩

example : split 20 ",a,,b,".toList ',' = .ok [[], ['a'], [], ['b'], []] := by decide

/-- `join` puts the joiner between the parts. -/
theorem C48_join (joiner : List Char) (parts : List (List Char)) : join joiner parts = List.intercalate joiner parts :=
  join_eq joiner parts

/-- The other direction: splitting the joined parts returns the parts, except that the list with one empty part gives the empty
string, which is split into no parts. -/
theorem C48_split_join (parts : List (List Char)) (sep : Char) (hsep : ∀ p ∈ parts, sep ∉ p) (hone : parts ≠ [[]]) (fuel : Nat)
    (hf : (join [sep] parts).length + 1 < fuel) : split fuel (join [sep] parts) sep = .ok parts := by
  obtain ⟨r, h1, h2, h3, h4⟩ := split_ok (join [sep] parts) sep fuel hf
  rw [h1]
  congr 1
  cases parts with
  | nil => exact h4.mpr rfl
  | cons x xs =>
    have hj : join [sep] (x :: xs) ≠ [] := by
      rw [join_eq]
      cases xs with
      | nil =>
        simp only [List.intercalate, List.intersperse_singleton, List.flatten_cons, List.flatten_nil, List.append_nil]
        intro h
        exact hone (by rw [h])
      | cons y ys => rw [intercalate_cons₂]; simp
    refine intercalate_inj (fun h => hj (h4.mp h)) (by simp) h3 hsep ?_
    rw [h2, join_eq]

example : (∀ p ∈ [['a'], [], ['b', 'c']], ';' ∉ p) ∧ [['a'], [], ['b', 'c']] ≠ [[]] ∧
    split 20 (join [';'] [['a'], [], ['b', 'c']]) ';' = .ok [['a'], [], ['b', 'c']] := by decide
/-- Why one empty part is excluded. -/
example : split 20 (join [';'] [[]]) ';' = .ok [] := by decide

/-- `splitWs` returns the maximal runs of characters other than white space, in order. -/
theorem C48_splitWs (s : List Char) (fuel : Nat) (hf : s.length + 2 < fuel) :
    ∃ ws, splitWs fuel s = .ok ws ∧ Words (fun c => c ∈ [' ', '\t', '\n', '\x0b', '\x0c', '\r']) s ws := by
  obtain ⟨ws, h1, h2⟩ := splitWs_ok s fuel hf
  refine ⟨ws, h1, ?_⟩
  have : isSpace = fun c => decide (c ∈ [' ', '\t', '\n', '\x0b', '\x0c', '\r']) := by
    funext c
    rw [Bool.eq_iff_iff]
    simp only [isSpace, Bool.or_eq_true, decide_eq_true_eq, Bool.and_eq_true, List.mem_cons, List.not_mem_nil, or_false,
      ← Char.toNat_inj]
    simp only [Char.reduceToNat]
    omega
  rw [← this]; exact h2

example : splitWs 20 "  ab\t c ".toList = .ok [['a', 'b'], ['c']] := by decide

/-- `splitAny` returns the maximal runs of characters that are not separators, for separators in the ASCII range. -/
theorem C48_splitAny (s seps : List Char) (fuel : Nat) (hf : s.length < fuel) (ha : ∀ c ∈ seps, c.toNat < 128) :
    ∃ ws, splitAny fuel s seps = .ok ws ∧ Words (fun c => c ∈ seps) s ws := by
  obtain ⟨ws, h1, h2⟩ := splitAny_ok s seps fuel hf ha
  refine ⟨ws, h1, ?_⟩
  have : seps.contains = fun c => decide (c ∈ seps) := by funext c; simp
  rw [← this]; exact h2

example : (∀ c ∈ [',', ';'], c.toNat < 128) ∧ splitAny 20 ",ab;,c".toList [',', ';'] = .ok [['a', 'b'], ['c']] := by decide

/-- The words of a string are unique, so the two theorems above determine the results. -/
theorem C48_words_unique {p : Char → Bool} {s : List Char} {a b : List (List Char)} (ha : Words p s a) (hb : Words p s b) : a = b :=
  words_unique ha hb

/-- Other separators write outside of an array. -/
theorem C48_splitAny_violated (s : List Char) (fuel : Nat) : splitAny fuel s ['\xe4'] = .ub := by
  simp [splitAny]

/-- `lstrip`, `rstrip` and `strip` remove exactly the given characters at the beginning, at the end, and on both sides. -/
theorem C48_lstrip (text set : List Char) : ∃ r a, lstrip text set = .ok r ∧ text = a ++ r ∧ (∀ c ∈ a, c ∈ set) ∧
    ∀ c, r.head? = some c → c ∉ set := lstrip_ok text set

theorem C48_rstrip (text set : List Char) : ∃ r b, rstrip text set = .ok r ∧ text = r ++ b ∧ (∀ c ∈ b, c ∈ set) ∧
    ∀ c, r.getLast? = some c → c ∉ set := rstrip_ok text set

theorem C48_strip (text set : List Char) : ∃ r a b, strip text set = .ok r ∧ text = a ++ r ++ b ∧ (∀ c ∈ a, c ∈ set) ∧
    (∀ c ∈ b, c ∈ set) ∧ (∀ c, r.head? = some c → c ∉ set) ∧ ∀ c, r.getLast? = some c → c ∉ set := strip_ok text set

example : strip " \ta b\t".toList [' ', '\t'] = .ok "a b".toList := by decide

/-- `findLiteralEnd` returns the position of the first quote that is not escaped. -/
theorem C48_literalEnd (q : Char) (s : List Char) (fuel : Nat) (hf : s.length + 1 < fuel) :
    findLiteralEnd fuel s [q] = .ok (scanEnd q s) := literalEnd_scan s fuel hf

example : findLiteralEnd 20 "a\\\"b\\\\\"c\"".toList ['"'] = .ok (some 6) := by decide

/-- `findClosingBracket` returns the first position at which more brackets are closed than opened, or throws if there is none or if
the search does not start at an opening bracket. -/
theorem C48_closingBracket (s : List Char) (start : Nat) (o c : Char) (hne : o ≠ c) (hs : s[start]? = some o) :
    (∃ i, findClosingBracket s start o c = .ok i ∧ start < i ∧ i < s.length ∧
        ((s.drop start).take (i - start + 1)).count c = ((s.drop start).take (i - start + 1)).count o ∧
        ∀ j, 0 < j → j ≤ i - start → ((s.drop start).take j).count c < ((s.drop start).take j).count o) ∨
    (findClosingBracket s start o c = .throw ∧
        ∀ j, 0 < j → ((s.drop start).take j).count c < ((s.drop start).take j).count o) := by
  obtain ⟨hlt, hso⟩ := List.getElem?_eq_some_iff.mp hs
  have hd : s.drop start = o :: s.drop (start + 1) := by rw [List.drop_eq_getElem_cons hlt, hso]
  have hrun : findClosingBracket s start o c = closingLoop o c (start + 1) 0 (s.drop (start + 1)) := by
    rw [findClosingBracket, if_neg (by omega), hs]
    simp
  have hco : ∀ l : List Char, (o :: l).count c = l.count c := fun l => List.count_cons_of_ne hne
  have hoo : ∀ l : List Char, (o :: l).count o = l.count o + 1 := fun l => List.count_cons_self
  rw [hrun, hd]
  rcases closingLoop_ok hne (s.drop (start + 1)) (start + 1) 0 with ⟨k, h1, h2, h3, h4⟩ | ⟨h1, h2⟩
  · rw [List.length_drop] at h2
    refine .inl ⟨start + 1 + k, h1, by omega, by omega, ?_, ?_⟩
    · rw [show start + 1 + k - start + 1 = (k + 1) + 1 by omega, List.take_succ_cons, hco, hoo]
      exact h3
    · intro j hj hk
      cases j with
      | zero => omega
      | succ j =>
        rw [List.take_succ_cons, hco, hoo]
        have := h4 j (by omega)
        omega
  · refine .inr ⟨h1, ?_⟩
    intro j hj
    cases j with
    | zero => omega
    | succ j =>
      rw [List.take_succ_cons, hco, hoo]
      have := h2 j
      omega

theorem C48_closingBracket_throws (s : List Char) (start : Nat) (o c : Char) (hl : start < s.length) (hs : s[start]? ≠ some o) :
    findClosingBracket s start o c = .throw := by
  rw [findClosingBracket, if_neg (by omega), if_pos]
  rw [List.getElem?_eq_getElem hl] at hs ⊢
  intro h
  exact hs (by rw [← h]; rfl)

example : ("a{b{c}d}e".toList)[1]? = some '{' ∧ findClosingBracket "a{b{c}d}e".toList 1 '{' '}' = .ok 7 := by decide
example : findClosingBracket "a{b{c}d".toList 1 '{' '}' = .throw := by decide

end Verif.StringUtils
