import Verif.Lemmas.RdfEscaping
/-
C03: newline/backslash escaping is reversible and line-safe.
C52: escapes in literals and IRIs are replaced by what they denote.
-/
namespace Verif.RdfEscaping
open Verif.Spec

/-- C03.  For every byte string: the escaped form has no newline, unescaping returns the original. -/
theorem C03_roundtrip (s : List Char) : unescapeNB (escapeNB s) = .ok s ∧ '\n' ∉ escapeNB s :=
  ⟨unescapeNB_escapeNB s, newline_not_mem s⟩

example : escapeNB ['a', '\n', '\\', 'n'] = ['a', '\\', 'n', '\\', '\\', 'n'] := by decide

/-- C03: different words have different escaped forms. -/
theorem C03_injective (s t : List Char) (h : escapeNB s = escapeNB t) : s = t := by
  have := unescapeNB_escapeNB s
  rw [h, unescapeNB_escapeNB] at this
  exact (Outcome.ok.inj this).symm

/-- C03: a whole file of escaped words, one per line, determines the words: the lines of the concatenation of
`escape(word) ++ newline` are exactly the escaped words. -/
theorem C03_line_safe (ws vs : List (List Char))
    (h : (ws.map fun w => escapeNB w ++ ['\n']).flatten = (vs.map fun w => escapeNB w ++ ['\n']).flatten) :
    ws = vs := by
  induction ws generalizing vs with
  | nil => cases vs <;> simp at h ⊢
  | cons w ws ih =>
    cases vs with
    | nil => simp at h
    | cons v vs =>
      simp only [List.map_cons, List.flatten_cons, List.append_assoc, List.singleton_append] at h
      have key : ∀ (a b x y : List Char), '\n' ∉ a → '\n' ∉ b → a ++ '\n' :: x = b ++ '\n' :: y → a = b ∧ x = y := by
        intro a
        induction a with
        | nil =>
          intro b x y _ hb h
          cases b with
          | nil => simpa using h
          | cons c b => simp at h; simp [← h.1] at hb
        | cons c a ih =>
          intro b x y ha hb h
          cases b with
          | nil => simp at h; simp [h.1] at ha
          | cons d b =>
            simp at h ha hb
            obtain ⟨h1, h2⟩ := ih b x y ha.2 hb.2 h.2
            simp [h.1, h1, h2]
      obtain ⟨h1, h2⟩ := key _ _ _ _ (newline_not_mem w) (newline_not_mem v) h
      rw [C03_injective w v h1, ih vs h2]

/-- C52 (soundness).  Whatever the normalisation of a literal's or IRI's content returns is what the text denotes
according to the grammar. -/
theorem C52_sound (hex : List Char → List Char) (s v : List Char) :
    (unescapeGen ⟨false, false⟩ hex s = .ok v → Denotes true hex s v) ∧
    (unescapeGen ⟨true, false⟩ hex s = .ok v → Denotes false hex s v) :=
  ⟨fun h => toDenotes (unescapeGen_sound ⟨false, false⟩ hex rfl s v h),
   fun h => toDenotes (unescapeGen_sound ⟨true, false⟩ hex rfl s v h)⟩

/-- C52, completeness, partial: proved for literals in one pair of quotes (double or single) whose content does not
*end* with a numeric escape.  (Missing: a content ending with a numeric escape, which the code rejects, see
`C52_trailing_numeric_escape_rejected`.) -/
theorem C52_literal_partial (hex : List Char → List Char) (q : Char) (hqq : q = '"' ∨ q = '\'') (s v : List Char)
    (h : DenotesNoTail true hex s v) (hq : s.head? ≠ some q) :
    normalizeRDFLiteral hex ([q] ++ s ++ [q]) = .ok (['"'] ++ v ++ ['"']) := by
  have hu := unescapeGen_complete ⟨false, false⟩ hex rfl s v h
  have h3 : startsWith ([q] ++ s ++ [q]) ['"', '"', '"'] = false := by
    rcases hqq with rfl | rfl
    · cases s with
      | nil => rfl
      | cons c s => simp at hq; simp [startsWith, List.isPrefixOf]; intro hc; exact absurd hc.symm hq
    · simp [startsWith, List.isPrefixOf]
  have h4 : startsWith ([q] ++ s ++ [q]) ['\'', '\'', '\''] = false := by
    rcases hqq with rfl | rfl
    · simp [startsWith, List.isPrefixOf]
    · cases s with
      | nil => rfl
      | cons c s => simp at hq; simp [startsWith, List.isPrefixOf]; intro hc; exact absurd hc.symm hq
  have h5 : (startsWith ([q] ++ s ++ [q]) ['"'] || startsWith ([q] ++ s ++ [q]) ['\'']) = true := by
    rcases hqq with rfl | rfl <;> simp [startsWith, List.isPrefixOf]
  have h6 : endsWith ([q] ++ s ++ [q]) (([q] ++ s ++ [q]).take 1) = true := by
    simp only [endsWith, List.isSuffixOf_iff_suffix]
    exact ⟨[q] ++ s, by simp⟩
  have h7 : removeBoth 1 ([q] ++ s ++ [q]) = .ok s := by
    simp [removeBoth]
  simp only [normalizeRDFLiteral, h3, h4, h5, h6, h7, Bool.or_false, if_true, if_false,
    Outcome.bind, hu, Outcome.map, Bool.false_eq_true]

/-- C52, completeness for literals in triple quotes, partial in the same way. -/
theorem C52_long_literal_partial (hex : List Char → List Char) (q : Char) (hqq : q = '"' ∨ q = '\'') (s v : List Char)
    (h : DenotesNoTail true hex s v) :
    normalizeRDFLiteral hex ([q, q, q] ++ s ++ [q, q, q]) = .ok (['"'] ++ v ++ ['"']) := by
  have hu := unescapeGen_complete ⟨false, false⟩ hex rfl s v h
  have h3 : (startsWith ([q, q, q] ++ s ++ [q, q, q]) ['"', '"', '"'] ||
      startsWith ([q, q, q] ++ s ++ [q, q, q]) ['\'', '\'', '\'']) = true := by
    rcases hqq with rfl | rfl <;> simp [startsWith, List.isPrefixOf]
  have h6 : endsWith ([q, q, q] ++ s ++ [q, q, q]) (([q, q, q] ++ s ++ [q, q, q]).take 3) = true := by
    simp only [endsWith, List.isSuffixOf_iff_suffix]
    exact ⟨[q, q, q] ++ s, by simp⟩
  have h7 : removeBoth 3 ([q, q, q] ++ s ++ [q, q, q]) = .ok s := by
    simp [removeBoth]
  simp only [normalizeRDFLiteral, h3, h6, h7, if_true, Outcome.bind, hu, Outcome.map]

/-- C52, completeness for IRIs, partial in the same way. -/
theorem C52_iri_partial (hex : List Char → List Char) (s v : List Char) (h : DenotesNoTail false hex s v) :
    unescapeIriref hex (['<'] ++ s ++ ['>']) = .ok (['<'] ++ v ++ ['>']) := by
  have hu := unescapeGen_complete ⟨true, false⟩ hex rfl s v h
  have h5 : startsWith (['<'] ++ s ++ ['>']) ['<'] = true := by simp [startsWith, List.isPrefixOf]
  have h6 : endsWith (['<'] ++ s ++ ['>']) ['>'] = true := by
    simp only [endsWith, List.isSuffixOf_iff_suffix]
    exact ⟨['<'] ++ s, by simp⟩
  have h7 : removeBoth 1 (['<'] ++ s ++ ['>']) = .ok s := by
    simp [removeBoth]
  simp only [unescapeIriref, h5, h6, h7, if_true, Outcome.bind, hu, Outcome.map]

example (hex : List Char → List Char) :
    DenotesNoTail true hex ['x', '\\', 'n', '\\', 'u', '0', '0', 'e', '4', 'y']
      (['x', '\n'] ++ (hex ['0', '0', 'e', '4'] ++ ['y'])) :=
  .plain (by decide) (.echar rfl .n (.u4 (d := ['0', '0', 'e', '4']) rfl (by simp) (.plain (by decide) .nil)))

/-- C52 fails in full: a literal (or IRI) whose content ends with a numeric escape denotes a value, but is rejected
with an exception (`AD_CHECK(iterator + length < endIterator)`, RdfEscaping.cpp:80, should be `<=`). -/
theorem C52_trailing_numeric_escape_rejected (hex : List Char → List Char) :
    Denotes true hex ['\\', 'u', '0', '0', 'e', '4'] (hex ['0', '0', 'e', '4'] ++ []) ∧
    normalizeRDFLiteral hex ['"', '\\', 'u', '0', '0', 'e', '4', '"'] = .throw ∧
    unescapeIriref hex ['<', '\\', 'u', '0', '0', 'e', '4', '>'] = .throw := by
  refine ⟨.u4 (d := ['0', '0', 'e', '4']) rfl .nil, ?_, ?_⟩
  · simp [normalizeRDFLiteral, startsWith, endsWith, List.isPrefixOf, List.isSuffixOf, removeBoth, unescapeGen,
      Mode.numericOk]
  · simp [unescapeIriref, startsWith, endsWith, List.isPrefixOf, List.isSuffixOf, removeBoth, unescapeGen,
      Mode.numericOk]

/-- C52: a single quote character passes all checks and then more characters are removed than there are, which is
undefined behaviour. -/
theorem C52_single_quote_ub (hex : List Char → List Char) : normalizeRDFLiteral hex ['"'] = .ub := by
  simp [normalizeRDFLiteral, startsWith, endsWith, List.isPrefixOf, List.isSuffixOf, removeBoth]

/-- C52 for prefixed names: escaping any of the reserved characters and unescaping returns the name. -/
theorem C52_prefixed_name (s : List Char) (esc : List Char)
    (h : esc = s.flatMap fun c => if c ∈ reserved then ['\\', c] else [c]) (hb : '\\' ∉ s) :
    unescapePrefixedIri esc = .ok s := by
  subst h
  induction s with
  | nil => simp [unescapePrefixedIri]
  | cons c cs ih =>
    simp at hb
    have ih' := ih hb.2
    by_cases hc : c ∈ reserved
    · simp only [List.flatMap_cons, hc, if_true, List.cons_append, List.nil_append]
      rw [unescapePrefixedIri]; simp [hc, ih']
    · simp only [List.flatMap_cons, hc, if_false, List.cons_append, List.nil_append]
      rw [unescapePrefixedIri.eq_def]
      have : c ≠ '\\' := fun h => hb.1 h.symm
      simp [this, ih']

example : '\\' ∉ ['a', '.', 'b'] := by decide

end Verif.RdfEscaping
