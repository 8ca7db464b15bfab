import Verif.Lemmas.SparqlGroups
import Verif.Props.C67_SparqlLexer
import Verif.Props.C47_PropertyPaths
/-
C68: parsing a query.
-/
namespace Verif.SparqlParser
open Verif.SparqlSpec
open Verif.SparqlLexer (Ty Token Lexer)
open Verif.RdfEscaping (normalizeRDFLiteral)

/-- The parser with a function that makes letters small, and the parser for property paths. -/
def env (low : Char → Char) : Env := ⟨low, fun s => PropertyPath.parse (6 * s.length) s⟩

theorem lawful (low : Char → Char) (h : ∀ c : Char, c.toNat < 128 → low c = SparqlLexer.lower c) : Lawful (env low) where
  low := h
  path p hp := by
    cases p with
    | var n => exact C47.variable_kept n hp _ (by simp only [Pred.text, List.length_cons]; omega)
    | path s l m =>
      exact PropertyPath.parse_text s hp.1 hp.2.1 _ (Nat.le_refl _)

/-- C68, partial.  Parsing the text of a query gives the query: its prefixes, what it selects, its groups with their triples, filters,
optional and other parts in their order, and its solution modifiers, whatever the layout of the text.  `low` makes letters small.
(Missing: queries of SPARQL that are not in the language of `QueryE`; see below.) -/
theorem C68_parse_partial (low : Char → Char) (hl : ∀ c : Char, c.toNat < 128 → low c = SparqlLexer.lower c) (hex : Str → Str)
    (q : Whole) (hq : q.query.Ok) {tr : Bool} {s : Str} (hs : QueryText q.words tr s) {n : Nat} (hn : q.words.length ≤ n) :
    parse (env low) (normalizeRDFLiteral hex) n s = .ok (q.parsed low) := by
  have := lawful low hl
  have hnorm : ∀ t v, StringText t v → normalizeRDFLiteral hex ('"' :: t ++ ['"']) = .ok ('"' :: v ++ ['"']) := by
    intro t v ht
    obtain ⟨h1, h2⟩ := SparqlLexer.stringText_denotes hex ht
    simpa using RdfEscaping.C52_literal_partial hex '"' (.inl rfl) t v h1 h2
  obtain ⟨r, h1, h2⟩ := read_words (cur := ⟨.iri, []⟩) hnorm hs
  obtain ⟨l', h3, _⟩ := run_of_runW hnorm (parseProg (env low) n) _ _ _ _ h2 (whole_eq tr q hq n hn)
  simp only [parse, Lexer.init, Lexer.readNext, h1, Outcome.map, Outcome.bind, h3]
  rfl

/-- A query written in two ways is parsed in the same way. -/
theorem C68_layout (low : Char → Char) (hl : ∀ c : Char, c.toNat < 128 → low c = SparqlLexer.lower c) (hex : Str → Str)
    (q : Whole) (hq : q.query.Ok) {tr tr' : Bool} {s s' : Str} (hs : QueryText q.words tr s) (hs' : QueryText q.words tr' s') {n : Nat}
    (hn : q.words.length ≤ n) : parse (env low) (normalizeRDFLiteral hex) n s = parse (env low) (normalizeRDFLiteral hex) n s' := by
  rw [C68_parse_partial low hl hex q hq hs hn, C68_parse_partial low hl hex q hq hs' hn]

theorem run_bind {norm : Str → Outcome Str} {f : α → Prog β} {r : β × Lexer} : ∀ (p : Prog α) (l : Lexer), (p >>= f).run norm l = .ok r →
    ∃ a l', p.run norm l = .ok (a, l') ∧ (f a).run norm l' = .ok r := by
  intro p
  show ∀ l, (p.bind f).run norm l = .ok r → _
  induction p with
  | lift o =>
    intro l h
    cases o with
    | ok a => exact ⟨a, l, rfl, h⟩
    | throw => cases h
    | ub => cases h
    | diverge => cases h
  | peek k ih => intro l h; exact ih _ _ l h
  | advance p ih =>
    intro l h
    rw [Prog.bind, Prog.run] at h
    cases hl : l.readNext norm with
    | ok l' =>
      rw [hl] at h
      obtain ⟨a, l2, h1, h2⟩ := ih l' h
      exact ⟨a, l2, by rw [Prog.run, hl]; exact h1, h2⟩
    | throw => rw [hl] at h; cases h
    | ub => rw [hl] at h; cases h
    | diverge => rw [hl] at h; cases h
  | expand p ih => intro l h; exact ih _ h

/-- Whatever the text is: a query that is accepted selects, if it groups, only variables that it groups by or that are the result of an
alias, and selects no alias twice. -/
theorem C68_selected (E : Env) (norm : Str → Outcome Str) (n : Nat) (s : Str) (q : Info) (root : Pattern) (h : parse E norm n s = .ok (.mk q root)) :
    (q.groupBy ≠ [] → ∀ v ∈ q.selected, v.head? = some '?' → v ∈ q.groupBy ∨ ∃ a ∈ q.aliases, a.outVar = v) ∧
    ∀ a ∈ q.aliases, q.selected.count a.outVar ≤ 1 := by
  have hc : checkSelected q = true := by
    unfold parse at h
    cases hi : Lexer.init norm s with
    | ok l =>
      rw [hi] at h
      cases hr : (parseProg E n).run norm l with
      | ok r =>
        simp only [Outcome.bind, hr, Outcome.map, Outcome.ok.injEq] at h
        unfold parseProg at hr
        obtain ⟨_, _, _, hr⟩ := run_bind _ _ hr
        obtain ⟨_, _, _, hr⟩ := run_bind _ _ hr
        obtain ⟨q', l', hq, hr⟩ := run_bind _ _ hr
        obtain ⟨e, l2, _, hr⟩ := run_bind _ _ hr
        have hq' : q' = .mk q root := by
          cases e with
          | true =>
            obtain ⟨r1, r2⟩ := r
            simp only at h
            subst h
            simp only [if_true] at hr
            cases hr
            rfl
          | false => cases hr
        subst hq'
        cases n with
        | zero => cases hq
        | succ n =>
          rw [parseQuery] at hq
          obtain ⟨_, _, _, hq⟩ := run_bind _ _ hq
          obtain ⟨_, _, _, hq⟩ := run_bind _ _ hq
          obtain ⟨g, _, _, hq⟩ := run_bind _ _ hq
          cases g with
          | mk fs cs =>
            obtain ⟨p, _, _, hq⟩ := run_bind _ _ hq
            obtain ⟨q2, root2⟩ := p
            simp only at hq
            cases hcs : checkSelected q2 with
            | true =>
              rw [hcs] at hq
              simp only [if_true] at hq
              cases hq
              exact hcs
            | false => rw [hcs] at hq; cases hq
      | throw => simp only [Outcome.bind, hr, Outcome.map] at h; cases h
      | ub => simp only [Outcome.bind, hr, Outcome.map] at h; cases h
      | diverge => simp only [Outcome.bind, hr, Outcome.map] at h; cases h
    | throw => rw [hi] at h; cases h
    | ub => rw [hi] at h; cases h
    | diverge => rw [hi] at h; cases h
  simp only [checkSelected, Bool.and_eq_true, Bool.or_eq_true, List.isEmpty_iff, List.all_eq_true, bne_iff_ne, List.any_eq_true,
    beq_iff_eq, decide_eq_true_eq, List.contains_iff_mem] at hc
  refine ⟨?_, hc.2⟩
  intro hg v hv hq
  rcases hc.1 with h | h
  · exact absurd h hg
  · rcases h v hv with (h | h) | h
    · exact absurd hq h
    · exact .inr h
    · exact .inl h

/-- The parser, and what it says about a text. -/
def demo (s : String) : Outcome Query := parse (env SparqlLexer.lower) (normalizeRDFLiteral fun d => d) 20 s.toList

def accepted (s : String) : Bool := match demo s with | .ok _ => true | _ => false
def refused (s : String) : Bool := match demo s with | .throw => true | _ => false

def Query.filters : Query → List Filter
  | .mk _ (.mk fs _) => fs

def Query.info : Query → Info
  | .mk i _ => i

def Query.objects : Query → List Str
  | .mk _ (.mk _ [.basic ts]) => ts.map Triple.o
  | _ => []

/-- The end of a query is not checked: one more token, and the bracket behind a subquery, make no difference. -/
theorem C68_end_unchecked :
    accepted "SELECT ?x WHERE { ?x <p> ?y } LIMIT" ∧ accepted "SELECT ?x WHERE { ?x <p> ?y } foo:bar" ∧
    accepted "SELECT ?x WHERE { ?x <p> ?y } }" ∧ accepted "SELECT ?x WHERE { { SELECT ?x WHERE { ?x <p> ?y } }" := by
  refine ⟨?_, ?_, ?_, ?_⟩ <;> decide +kernel

/-- A limit without a number is noticed there, and a selected variable that is neither grouped by nor the result of an alias. -/
example : accepted "SELECT ?x WHERE { ?x <p> ?y } } }" ∧ refused "SELECT ?x WHERE { ?x <p> ?y } foo:bar LIMIT" ∧
    refused "SELECT ?x WHERE { ?x <p> ?y } GROUP BY ?y" ∧ accepted "SELECT ?y WHERE { ?x <p> ?y } GROUP BY ?y" := by
  refine ⟨?_, ?_, ?_, ?_⟩ <;> decide +kernel

/-- `langMatches` is only understood if a parenthesis is missing. -/
theorem C68_langMatches :
    refused "SELECT ?x WHERE { ?x <p> ?y . FILTER langMatches(lang(?y), \"en\") }" ∧
    refused "SELECT ?x WHERE { ?x <p> ?y . FILTER (langMatches(lang(?y), \"en\")) }" ∧
    accepted "SELECT ?x WHERE { ?x <p> ?y . FILTER (langMatches(lang(?y), \"en\") }" ∧
    accepted "SELECT ?x WHERE { ?x <p> ?y . FILTER langMatches(lang(?y), \"en\" }" := by
  refine ⟨?_, ?_, ?_, ?_⟩ <;> decide +kernel

/-- The second bound of a filter with `PREFIX` is made from the name of the variable instead of the string: all values that begin with
`ab` are compared with `c`. -/
theorem C68_prefix_filter :
    (demo "SELECT ?x WHERE { ?x <p> ?long . FILTER PREFIX(?long, \"ab\") }").map (fun q => q.filters.map fun f => (f.type, f.lhs, f.rhs)) =
      .ok [(.ge, "?long".toList, "\"ab ".toList), (.lt, "?long".toList, "?loc ".toList)] := by
  decide +kernel

/-- Literals with quotation marks or two-part language tags are refused in triples, and a `\` at the end of a literal becomes a
quotation mark. -/
theorem C68_literals :
    refused "SELECT ?x WHERE { ?x <p> \"a\\\"b\" }" ∧ refused "SELECT ?x WHERE { ?x <p> \"a\"@en-US }" ∧
    (demo "SELECT ?x WHERE { ?x <p> \"a\\\\\" }").map Query.objects = .ok ["\"a\"\"".toList] := by
  refine ⟨?_, ?_, ?_⟩ <;> decide +kernel

def Query.predicates : Query → List Str
  | .mk _ (.mk _ [.basic ts]) => ts.map fun t => t.p.iri
  | _ => []

/-- A filter for a language restricts the predicate of a triple; the same filter once more gives a predicate that no triple has. -/
theorem C68_language_twice :
    (demo "SELECT ?x WHERE { ?x <p> ?y . FILTER (lang(?y) = \"en\") }").map Query.predicates = .ok ["@en@<p>".toList] ∧
    (demo "SELECT ?x WHERE { ?x <p> ?y . FILTER (lang(?y) = \"en\") FILTER (lang(?y) = \"en\") }").map Query.predicates =
      .ok ["@en@@en@<p>".toList] := by
  refine ⟨?_, ?_⟩ <;> decide +kernel

/-- SPARQL that is refused: paths with spaces or without a space behind them, `a`, `SELECT *`, no `WHERE`, `COUNT(*)`, numbers as
objects, three alternatives, nested groups, no dot in front of `OPTIONAL` and `FILTER`, a `;` in front of a dot, regular expressions that
begin with a class of characters, conjunctions, functions. -/
theorem C68_refused :
    refused "SELECT ?x WHERE { ?x <p>?y }" ∧ refused "SELECT ?x WHERE { ?x <p> / <q> ?y }" ∧ refused "SELECT ?x WHERE { ?x a ?y }" ∧
    refused "SELECT * WHERE { ?x <p> ?y }" ∧ refused "SELECT ?x { ?x <p> ?y }" ∧ refused "SELECT (COUNT(*) AS ?c) WHERE { ?x <p> ?y }" ∧
    refused "SELECT ?x WHERE { ?x <p> 3 }" ∧ refused "SELECT ?x WHERE { {?x <p> ?y} UNION {?x <q> ?y} UNION {?x <r> ?y} }" ∧
    refused "SELECT ?x WHERE { {?x <p> ?y} }" ∧ refused "SELECT ?x WHERE { ?x <p> ?y OPTIONAL {?y <q> ?z} }" ∧
    refused "SELECT ?x WHERE { ?x <p> ?y FILTER(?x != ?y) }" ∧ refused "SELECT ?x WHERE { ?x <p> ?y ; . }" ∧
    refused "SELECT ?x WHERE { ?x <p> ?y . FILTER regex(?y, \"^\\\\d\") }" ∧
    refused "SELECT ?x WHERE { ?x <p> ?y . FILTER (?x = ?y && ?x = ?y) }" ∧ refused "SELECT ?x WHERE { ?x <p> ?y . FILTER (bound(?x)) }" := by
  refine ⟨?_, ?_, ?_, ?_, ?_, ?_, ?_, ?_, ?_, ?_, ?_, ?_, ?_, ?_, ?_⟩ <;> decide +kernel

/-- Of several limits, the last one counts. -/
theorem C68_limits : (demo "SELECT ?x WHERE { ?x <p> ?y } LIMIT 3 ORDER BY ?x LIMIT 4").map (fun q => q.info.limit) = .ok ['4'] := by
  decide +kernel

/-! ### An example for the hypotheses -/

section Example

/-- A word behind a space. -/
theorem word_cons {i : Item} {ws : List Word} {b : Bool} {s : Str} (hi : i.Ok) (he : i.Ends s) (h : QueryText ws b s) :
    QueryText (i.word :: ws) b (' ' :: (i.text ++ s)) := .cons (g := [' ']) (.blank (by decide) .nil) hi he h

theorem keyword_cons {w : String} {t s : Str} {ws : List Word} {b : Bool} (hw : w ∈ keywords ∧ Spells w t) (h : QueryText ws b (' ' :: s)) :
    QueryText (kw w :: ws) b (' ' :: (t ++ (' ' :: s))) :=
  word_cons (i := .lex (.keyword w t)) hw (by intro c hc; simp at hc; subst hc; decide) h

theorem var_cons {n s : Str} {ws : List Word} {b : Bool} (hn : VarName n) (h : QueryText ws b (' ' :: s)) :
    QueryText (varWord n :: ws) b (' ' :: ('?' :: n ++ (' ' :: s))) :=
  word_cons (i := .lex (.var n)) hn (by intro c hc; simp at hc; subst hc; decide) h

theorem symbol_cons {c : Char} {s : Str} {ws : List Word} {b : Bool} (hc : c ∈ ['.', '{', '}', '(', ')', '=', ',', ';', '>'])
    (h : QueryText ws b (' ' :: s)) : QueryText (sym c :: ws) b (' ' :: ([c] ++ (' ' :: s))) := by
  refine word_cons (i := .lex (.symbol c)) ?_ ?_ h
  · simp [Item.Ok, Lexeme.Ok] at hc ⊢; tauto
  · have : c ≠ '<' ∧ c ≠ '|' ∧ c ≠ '?' ∧ c ≠ '-' := by
      refine ⟨?_, ?_, ?_, ?_⟩ <;> rintro rfl <;> revert hc <;> decide
    simp [Item.Ends, Lexeme.Ends, this]

theorem path_cons {t s m : Str} {ws : List Word} {b : Bool} (ht : IriText t) (hm : ∀ c ∈ m, ¬ Item.space c) (h : QueryText ws b (' ' :: s)) :
    QueryText (.path ⟨.iri, '<' :: t ++ ['>']⟩ m :: ws) b (' ' :: (('<' :: t ++ ['>'] ++ m) ++ (' ' :: s))) :=
  word_cons (i := .path (.iri t) m) ⟨ht, hm⟩ ⟨trivial, ' ', rfl, by decide⟩ h

theorem iri_cons {t s : Str} {ws : List Word} {b : Bool} (ht : IriText t) (h : QueryText ws b (' ' :: s)) :
    QueryText (.tok ⟨.iri, '<' :: t ++ ['>']⟩ :: ws) b (' ' :: (('<' :: t ++ ['>']) ++ (' ' :: s))) :=
  word_cons (i := .lex (.iri t)) ht trivial h

/-- `SELECT DISTINCT ?x WHERE { ?x <p>/<q>* ?y ; <r> "a" . OPTIONAL { ?y <p> <z> } FILTER (?x < 3) } ORDER BY DESC(?x) LIMIT 5` -/
def exampleQuery : Whole where
  prefixes := []
  query := .mk true false [.var ['x']]
    (.triples ⟨.var ['x'],
        ⟨.path (.seq (.iri "<p>".toList) (.mod (.iri "<q>".toList) .star)) (.iri ['p']) "/<q>*".toList, .var ['y'], []⟩,
        [⟨.path (.iri "<r>".toList) (.iri ['r']) [], .literal ['a'] .none, []⟩]⟩
      (.optional (.last (some ⟨.var ['y'], ⟨.path (.iri "<p>".toList) (.iri ['p']) [], .iri ['z'], []⟩, []⟩)) false
        (.filter (.compare 0 false (.term (.var ['x'])) .gt (.integer false ['3'])) false (.last none))))
    [.orderBy [' '] (.key true ['x']) [], .limit ['5']]

theorem example_ok : exampleQuery.query.Ok := by
  refine ⟨?_, ?_, ?_, ?_, ?_, ?_⟩
  · intro s hs
    simp only [List.mem_cons, List.not_mem_nil, or_false] at hs
    subst hs
    trivial
  · refine ⟨⟨trivial, ?_⟩, ⟨trivial, ?_⟩, ⟨trivial, '3', [], rfl, by decide⟩, trivial⟩
    · intro p hp
      simp only [List.mem_cons, List.not_mem_nil, or_false] at hp
      rcases hp with rfl | rfl
      · refine ⟨⟨by decide, by decide, rfl, trivial⟩, ?_⟩
        intro o ho
        simp only [List.mem_cons, List.not_mem_nil, or_false] at ho
        subst ho
        trivial
      · refine ⟨⟨by decide, by decide, rfl, trivial⟩, ?_⟩
        intro o ho
        simp only [List.mem_cons, List.not_mem_nil, or_false] at ho
        subst ho
        exact ⟨by decide, by decide, trivial, by intro t parts h; cases h⟩
    · intro p hp
      simp only [List.mem_cons, List.not_mem_nil, or_false] at hp
      subst hp
      refine ⟨⟨by decide, by decide, rfl, trivial⟩, ?_⟩
      intro o ho
      simp only [List.mem_cons, List.not_mem_nil, or_false] at ho
      subst ho
      trivial
  · intro k hk
    simp only [Mod.orders, List.flatMap_cons, List.flatMap_nil, List.append_nil, List.mem_cons, List.not_mem_nil, or_false] at hk
    subst hk
    intro c hc
    simp only [List.mem_cons, List.not_mem_nil, or_false] at hc
    subst hc
    decide
  · intro f hf
    simp [Mod.havings] at hf
  · intro h
    exact absurd rfl h
  · intro a ha
    simp at ha

set_option maxRecDepth 4000 in
example : QueryText exampleQuery.words false
    " SELECT distinct ?x WHERE { ?x <p>/<q>* ?y ; <r> \"a\" . OPTIONAL { ?y <p> <z> } FILTER ( ?x > 3 ) } Order By DESC ( ?x ) LIMIT 5".toList := by
  have hx : VarName ['x'] := ⟨'x', [], rfl, by decide, by simp⟩
  have hy : VarName ['y'] := ⟨'y', [], rfl, by decide, by simp⟩
  have hi : ∀ c ∈ ['p', 'q', 'r', 'z'], IriText [c] := by
    intro c hc d hd
    simp only [List.mem_cons, List.not_mem_nil, or_false] at hd
    subst hd
    revert hc
    revert d
    decide
  have h := keyword_cons (w := "select") (t := "SELECT".toList) ⟨by decide, by unfold Spells; decide⟩ <|
    keyword_cons (w := "distinct") (t := "distinct".toList) ⟨by decide, by unfold Spells; decide⟩ <|
    var_cons hx <| keyword_cons (w := "where") (t := "WHERE".toList) ⟨by decide, by unfold Spells; decide⟩ <| symbol_cons (c := '{') (by decide) <|
    var_cons hx <| path_cons (m := "/<q>*".toList) (hi 'p' (by decide)) (by decide) <| var_cons hy <| symbol_cons (c := ';') (by decide) <|
    path_cons (m := []) (hi 'r' (by decide)) (by decide) <|
    word_cons (i := .lex (.literal ['a'] ['a'] .none)) ⟨.plain (by decide) .nil, trivial⟩ (by intro c hc; simp at hc; subst hc; decide) <|
    symbol_cons (c := '.') (by decide) <| keyword_cons (w := "optional") (t := "OPTIONAL".toList) ⟨by decide, by unfold Spells; decide⟩ <|
    symbol_cons (c := '{') (by decide) <| var_cons hy <| path_cons (m := []) (hi 'p' (by decide)) (by decide) <| iri_cons (hi 'z' (by decide)) <|
    symbol_cons (c := '}') (by decide) <| keyword_cons (w := "filter") (t := "FILTER".toList) ⟨by decide, by unfold Spells; decide⟩ <|
    symbol_cons (c := '(') (by decide) <| var_cons hx <| symbol_cons (c := '>') (by decide) <|
    word_cons (i := .lex (.integer false ['3'])) ⟨by decide, by decide⟩ ⟨by intro c hc; simp at hc; subst hc; decide, by intro c t h; simp at h⟩ <|
    symbol_cons (c := ')') (by decide) <| symbol_cons (c := '}') (by decide) <|
    word_cons (i := .lex (.orderBy "Order".toList [' '] "By".toList)) ⟨by unfold Spells; decide, by decide, by unfold Spells; decide⟩ trivial <|
    keyword_cons (w := "desc") (t := "DESC".toList) ⟨by decide, by unfold Spells; decide⟩ <| symbol_cons (c := '(') (by decide) <| var_cons hx <|
    symbol_cons (c := ')') (by decide) <| keyword_cons (w := "limit") (t := "LIMIT".toList) ⟨by decide, by unfold Spells; decide⟩ <|
    word_cons (i := .lex (.integer false ['5'])) ⟨by decide, by decide⟩ ⟨by intro c hc; simp at hc, by intro c t h; simp at h⟩ <|
    QueryText.nil (s := []) (.gap .nil)
  exact h

end Example

end Verif.SparqlParser
