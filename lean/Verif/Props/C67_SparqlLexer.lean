import Verif.Lemmas.SparqlLexer
import Verif.Props.C03_Escaping
/-
C67: the tokens of a query.
-/
namespace Verif.SparqlLexer
open Verif.SparqlSpec
open Verif.RdfEscaping (normalizeRDFLiteral)

theorem stringText_denotes (hex : Str → Str) {t v : Str} (h : StringText t v) : Spec.DenotesNoTail true hex t v ∧ t.head? ≠ some '"' := by
  induction h with
  | nil => exact ⟨.nil, by simp⟩
  | plain hc _ ih =>
    simp only [List.mem_cons, List.not_mem_nil, or_false, not_or] at hc
    exact ⟨.plain hc.2.1 ih.1, by simpa using hc.1⟩
  | echar he _ ih => exact ⟨.echar rfl he ih.1, by simp⟩

/-- C67, partial.  A query text is cut into the tokens that it consists of: keywords in any spelling, variables, IRIs, prefixed names,
strings (by their value), numbers and symbols, with any white space and any comments between them.
(Missing: tokens of the grammar of SPARQL that the lexer does not know, names that begin with a keyword; see below.) -/
theorem C67_tokens_partial (hex : Str → Str) {ls : List Lexeme} {s : Str} (h : Text ls s) {n : Nat} (hn : ls.length < n) :
    tokens (normalizeRDFLiteral hex) n s = .ok (ls.map Lexeme.token) := by
  refine tokens_text _ (fun t v ht => ?_) h n hn
  obtain ⟨h1, h2⟩ := stringText_denotes hex ht
  have := RdfEscaping.C52_literal_partial hex '"' (.inl rfl) t v h1 h2
  simpa using this

/-- The same query, written in two ways, gives the same tokens. -/
theorem C67_layout (hex : Str → Str) {ls : List Lexeme} {s t : Str} (hs : Text ls s) (ht : Text ls t) {n : Nat} (hn : ls.length < n) :
    tokens (normalizeRDFLiteral hex) n s = tokens (normalizeRDFLiteral hex) n t := by
  rw [C67_tokens_partial hex hs hn, C67_tokens_partial hex ht hn]

/-- A text that begins with a keyword is always read as that keyword or a shorter one, whatever follows. -/
theorem C67_keyword_first (norm : Str → Outcome Str) {w : String} {t u : Str} (hw : w ∈ SparqlSpec.keywords) (ht : Spells w t) :
    ∃ k r, step norm (t ++ u) = .ok (⟨.keyword, k⟩, r) := by
  have hmf := map_fold (words_ok w (by simp [hw])) ht
  have hin : ∀ w ∈ SparqlSpec.keywords, w.toList ∈ SparqlLexer.keywords := by decide
  cases h : consumeWord SparqlLexer.keywords (t ++ u) with
  | some r => exact ⟨r.1.map lower, r.2, by simp only [step, h]⟩
  | none =>
    exfalso
    unfold consumeWord at h
    rw [Option.map_eq_none_iff, List.find?_eq_none] at h
    apply h w.toList (hin w hw)
    rw [List.isPrefixOf_iff_prefix, List.map_append, hmf]
    exact ⟨_, rfl⟩

/-- The tokens of a text; the escapes in literals do not matter here. -/
def demo (s : String) : Outcome (List Token) := tokens (normalizeRDFLiteral fun d => d) 10 s.toList

/-- C67 fails for names that begin with a keyword. -/
theorem C67_names_cut :
    demo "asset:1" = .ok [⟨.keyword, "as".toList⟩, ⟨.iri, "set:1".toList⟩] ∧
    demo "str:foo" = .ok [⟨.keyword, "str".toList⟩, ⟨.iri, ":foo".toList⟩] ∧
    demo "Minus1:x" = .ok [⟨.keyword, "minus".toList⟩, ⟨.integer, "1".toList⟩, ⟨.iri, ":x".toList⟩] ∧
    demo "maxim:x" = .ok [⟨.aggregate, "max".toList⟩, ⟨.iri, "im:x".toList⟩] := by
  refine ⟨?_, ?_, ?_, ?_⟩ <;> decide +kernel

/-- Tokens of SPARQL that are not read: strings in single quotes, numeric escapes, IRIs with brackets, `a`, `true`, `$x`, `&&`, `_:b`,
`[]`, and the exponent of a number. -/
theorem C67_refused :
    demo "'x'" = .throw ∧ demo "\"\\u0041\"" = .throw ∧ demo "<http://[::1]/>" = .throw ∧ demo "a" = .throw ∧ demo "true" = .throw ∧
    demo "$x" = .throw ∧ demo "&&" = .throw ∧ demo "_:b" = .throw ∧ demo "[]" = .throw ∧ demo "1e5" = .throw := by
  refine ⟨?_, ?_, ?_, ?_, ?_, ?_, ?_, ?_, ?_, ?_⟩ <;> decide +kernel

/-- A string in three quotation marks is read as three strings. -/
theorem C67_long_string : demo "\"\"\"x\"\"\"" = .ok [⟨.literal, "\"\"".toList⟩, ⟨.literal, "\"x\"".toList⟩, ⟨.literal, "\"\"".toList⟩] := by
  decide +kernel

/-- The hypotheses can be met: `SeLECT ?x # y⏎ WHERE{?x ex:p.1 "a\"b"@en-US.}`. -/
example : Text
    [.keyword "select" "SeLECT".toList, .var ['x'], .keyword "where" "WHERE".toList, .symbol '{', .var ['x'],
      .pname "ex".toList "p.1".toList, .literal ['a', '\\', '"', 'b'] ['a', '"', 'b'] (.lang ['e', 'n'] [['U', 'S']]), .symbol '.',
      .symbol '}']
    "SeLECT ?x # y\n WHERE{?x ex:p.1 \"a\\\"b\"@en-US.}".toList := by
  have hv : VarName ['x'] := ⟨'x', [], rfl, by decide, by simp⟩
  refine .cons (g := []) (s := " ?x # y\n WHERE{?x ex:p.1 \"a\\\"b\"@en-US.}".toList) .nil ⟨by decide, by unfold Spells; decide⟩
    (by intro c hc; simp at hc; subst hc; decide) ?_
  refine .cons (g := [' ']) (s := " # y\n WHERE{?x ex:p.1 \"a\\\"b\"@en-US.}".toList) (.blank (by decide) .nil) hv
    (by intro c hc; simp at hc; subst hc; decide) ?_
  refine .cons (g := [' ', '#', ' ', 'y', '\n', ' ']) (s := "{?x ex:p.1 \"a\\\"b\"@en-US.}".toList)
    (.blank (by decide) (.comment (c := [' ', 'y']) (by decide) (.blank (by decide) .nil))) ⟨by decide, by unfold Spells; decide⟩
    (by intro c hc; simp at hc; subst hc; decide) ?_
  refine .cons (g := []) (s := "?x ex:p.1 \"a\\\"b\"@en-US.}".toList) .nil (by show _ ∈ _; decide) (by simp [Lexeme.Ends]) ?_
  refine .cons (g := []) (s := " ex:p.1 \"a\\\"b\"@en-US.}".toList) .nil hv (by intro c hc; simp at hc; subst hc; decide) ?_
  refine .cons (g := [' ']) (s := " \"a\\\"b\"@en-US.}".toList) (.blank (by decide) .nil) ⟨?_, ?_, ?_, by decide⟩ ?_ ?_
  · exact .inr ⟨'e', ['x'], rfl, by decide, by decide, by decide⟩
  · exact .inr ⟨'p', ['.', '1'], rfl, by decide, by decide, by decide⟩
  · intro w hw t u he ht
    have hl : ∀ w ∈ SparqlSpec.keywords ++ SparqlSpec.aggregates ++ ["groupby", "orderby"], ∀ n < 3,
        (['e', 'x'].take n).map small ≠ w.toList := by decide
    apply hl w hw t.length
    · have := congrArg List.length he
      simp at this
      omega
    · rw [show ['e', 'x'].take t.length = t from by rw [show ['e', 'x'] = t ++ u from he]; simp]
      exact ht
  · exact ⟨0, _, rfl, by intro c hc; simp at hc; subst hc; decide⟩
  refine .cons (g := [' ']) (s := ".}".toList) (.blank (by decide) .nil) ⟨?_, ?_, ?_, ?_⟩ ?_ ?_
  · exact .plain (by decide) (.echar .dquote (.plain (by decide) .nil))
  · simp
  · decide
  · decide
  · intro c hc; simp at hc; subst hc; decide
  refine .cons (g := []) (s := "}".toList) .nil (by show _ ∈ _; decide) (by simp [Lexeme.Ends]) ?_
  exact .cons (g := []) (s := []) .nil (by show _ ∈ _; decide) (by simp [Lexeme.Ends]) (.nil (.gap .nil))

end Verif.SparqlLexer
