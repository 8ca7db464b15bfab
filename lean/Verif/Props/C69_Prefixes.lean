import Verif.Lemmas.Prefixes
import Verif.Props.C68_SparqlParser
/-
C69: the prefixed names of a query.
-/
namespace Verif.Prefixes
open Verif.SparqlParser (Triple FilterType Filter BindExpr Info Op Pattern Query env Query.info Query.filters Query.objects)
open Verif.PropertyPath (Path)
open Verif.SparqlSpec (Str Prefix IriText Suffix Whole QueryText)
open Verif.TurtleSpec (Local)
open Verif.RdfEscaping (normalizeRDFLiteral)
open Verif.PrefixSpec

/-- C69, partial.  Expanding the prefixes of a query replaces each prefixed name in it, in triples, paths, filters, `BIND`, `VALUES` and
subqueries, by the IRI that it stands for, and leaves everything else as it is.
(Missing: what `easy` excludes; see below.) -/
theorem C69_expand_partial {Q Q' : Query} (hp : PrefixesOk Q.info.prefixes) (h : QueryNames true Q.info.prefixes Q Q') :
    expandPrefixes Q = .ok Q' := by
  cases Q with
  | mk info root => exact query_eq hp h

/-- C69, partial: single terms. -/
theorem C69_term_partial {ps : List (Str × Str)} (hp : PrefixesOk ps) {s t : Str} (h : Names true ps s t) :
    expandItem (prefixMap ps) s = .ok t := names_eq hp h

/-- From the text of a query to the query without prefixes (with C68). -/
theorem C69_text (low : Char → Char) (hl : ∀ c : Char, c.toNat < 128 → low c = SparqlLexer.lower c) (hex : Str → Str)
    (q : Whole) (hq : q.query.Ok) {tr : Bool} {s : Str} (hs : QueryText q.words tr s) {n : Nat} (hn : q.words.length ≤ n)
    {Q' : Query} (hp : ∀ p ∈ q.prefixes, Prefix p.1 ∧ IriText p.2)
    (h : QueryNames true (q.prefixes.map fun p => (p.1, '<' :: p.2 ++ ['>'])) (q.parsed low) Q') :
    (SparqlParser.parse (env low) (normalizeRDFLiteral hex) n s).bind expandPrefixes = .ok Q' := by
  have hps : PrefixesOk (q.prefixes.map fun p => (p.1, '<' :: p.2 ++ ['>'])) := by
    intro p hm
    obtain ⟨x, hx, rfl⟩ := List.mem_map.1 hm
    exact ⟨(hp x hx).1, x.2, rfl, (hp x hx).2⟩
  rw [SparqlParser.C68_parse_partial low hl hex q hq hs hn]
  have he : (q.parsed low).info.prefixes = q.prefixes.map fun p => (p.1, '<' :: p.2 ++ ['>']) := by
    obtain ⟨ps, q⟩ := q
    cases q
    rfl
  rw [← he] at hps h
  exact C69_expand_partial hps h

/-! ### What is wrong -/

/-- Two declarations for the cases below. -/
def decls : List (Str × Str) := [("".toList, "<http://a/>".toList), ("xsd".toList, "<http://x#>".toList)]

theorem decls_ok : PrefixesOk decls := by
  intro p hp
  simp only [decls, List.mem_cons, List.not_mem_nil, or_false] at hp
  rcases hp with rfl | rfl
  · exact ⟨.inl rfl, "http://a/".toList, by decide, by unfold IriText; decide⟩
  · exact ⟨.inr ⟨'x', ['s', 'd'], rfl, by decide, by decide, by decide⟩, "http://x#".toList, by decide, by unfold IriText; decide⟩

def expand (s : String) : Outcome Str := expandItem (prefixMap decls) s.toList

theorem local_chars {c : Char} {l : Str} (hc : TurtleSpec.nameStart c = true) (hl : ∀ d ∈ l, TurtleSpec.nameChar d = true) : Local (c :: l) (c :: l) := by
  refine .chr (.inl hc) ?_
  clear hc
  induction l with
  | nil => exact .nil
  | cons d l ih => exact .chr (n := 0) (.inl (hl d (by simp))) (ih fun x hx => hl x (by simp [hx]))

theorem xsd : Declared decls "xsd".toList "http://x#".toList := .inl ⟨[("".toList, "<http://a/>".toList)], [], rfl, by simp⟩

/-- The type of a literal that contains a colon is not expanded. -/
theorem C69_colon_wrong :
    Names false decls "\"12:30\"^^xsd:time".toList "\"12:30\"^^<http://x#time>".toList ∧
    expand "\"12:30\"^^xsd:time" = .ok "\"12:30\"^^xsd:time".toList := by
  refine ⟨?_, by decide +kernel⟩
  exact .typed (v := "12:30".toList) (p := "xsd".toList) (l := "time".toList) (.inr ⟨'x', ['s', 'd'], rfl, by decide, by decide, by decide⟩)
    (local_chars (by decide) (by decide)) xsd (by intro h; cases h)

/-- In a literal with a type, `\-` becomes `-`; other backslashes make the query fail. -/
theorem C69_backslash_wrong :
    Names false decls "\"a\\-b\"^^xsd:s".toList "\"a\\-b\"^^<http://x#s>".toList ∧
    expand "\"a\\-b\"^^xsd:s" = .ok "\"a-b\"^^<http://x#s>".toList ∧
    Names false decls "\"a\\b\"^^xsd:s".toList "\"a\\b\"^^<http://x#s>".toList ∧
    expand "\"a\\b\"^^xsd:s" = .throw := by
  refine ⟨?_, by decide +kernel, ?_, by decide +kernel⟩
  · exact .typed (v := "a\\-b".toList) (p := "xsd".toList) (l := "s".toList) (.inr ⟨'x', ['s', 'd'], rfl, by decide, by decide, by decide⟩)
      (local_chars (by decide) (by decide)) xsd (by intro h; cases h)
  · exact .typed (v := "a\\b".toList) (p := "xsd".toList) (l := "s".toList) (.inr ⟨'x', ['s', 'd'], rfl, by decide, by decide, by decide⟩)
      (local_chars (by decide) (by decide)) xsd (by intro h; cases h)

/-- A literal in which `^^` occurs is changed, even if it has no type. -/
theorem C69_carets_wrong :
    Names false decls "\"a^^xsd:b\"".toList "\"a^^xsd:b\"".toList ∧ expand "\"a^^xsd:b\"" = .ok "\"a^^<http://x#b\">".toList := by
  refine ⟨?_, by decide +kernel⟩
  exact .literal (v := "a^^xsd:b".toList) (x := .none) trivial (by intro p l h; cases h) (by intro h; cases h)

/-- A query from its text. -/
def demo (s : String) : Outcome Query := (SparqlParser.demo s).bind expandPrefixes

def nestedFilters : Query → List Str
  | .mk _ (.mk _ cs) => cs.flatMap fun
    | .optional (.mk fs _) => fs.map (·.rhs)
    | .minus (.mk fs _) => fs.map (·.rhs)
    | .union (.mk fs _) (.mk fs' _) => fs.map (·.rhs) ++ fs'.map (·.rhs)
    | _ => []

/-- Filters inside of `OPTIONAL`, `MINUS` and `UNION`, and in `HAVING`, keep their prefixes, so they compare with the name and not with
the IRI; a filter of the query itself does not. -/
theorem C69_hidden_wrong :
    (demo "PREFIX a: <b> SELECT ?x WHERE { ?x <p> ?y . FILTER (?y != a:c) }").map (fun q => q.filters.map (·.rhs)) = .ok ["<bc>".toList] ∧
    (demo "PREFIX a: <b> SELECT ?x WHERE { ?x <p> ?y . OPTIONAL { ?x <q> ?z . FILTER (?z != a:c) } }").map nestedFilters = .ok ["a:c".toList] ∧
    (demo "PREFIX a: <b> SELECT ?x WHERE { ?x <p> ?y . MINUS { ?x <q> ?z . FILTER (?z != a:c) } }").map nestedFilters = .ok ["a:c".toList] ∧
    (demo "PREFIX a: <b> SELECT ?x WHERE { {?x <p> ?z . FILTER (?z != a:c)} UNION {?x <q> ?z} }").map nestedFilters = .ok ["a:c".toList] ∧
    (demo "PREFIX a: <b> SELECT ?x WHERE { ?x <p> ?y } GROUP BY ?x HAVING (?x != a:c)").map (fun q => q.info.having.map (·.rhs)) =
      .ok ["a:c".toList] := by
  refine ⟨?_, ?_, ?_, ?_, ?_⟩ <;> decide +kernel

/-- Words to search for are treated as names: with a declared prefix they are changed, and with `@` in front the query fails. -/
theorem C69_words_wrong :
    (demo "PREFIX a: <b> SELECT ?x WHERE { ?t ql:contains-word \"a:c\" }").map Query.objects = .ok ["<bc>".toList] ∧
    (demo "SELECT ?x WHERE { ?t ql:contains-word \"@c\" }") matches .throw := by
  refine ⟨?_, ?_⟩ <;> decide +kernel

/-- The strings of a prefix search are changed as well. -/
theorem C69_start_wrong :
    (demo "SELECT ?x WHERE { ?x <p> ?y . FILTER regex(?y, \"^\\\\^ql:c\") }").map (fun q => q.filters.map fun f => (f.type, f.rhs)) =
      .ok [(.pre, "^^<QLever-internal-function/c>".toList)] := by
  decide +kernel

/-- A prefix that has not been declared is not an error: the name is kept, and matches nothing. -/
theorem C69_undeclared_wrong : (demo "SELECT ?x WHERE { ?x <p> nope:c }").map Query.objects = .ok ["nope:c".toList] := by
  decide +kernel

/-- Spaces in the literals of a predicate whose name contains `in-context` separate names. -/
theorem C69_context_wrong :
    (demo "SELECT ?x WHERE { ?x <in-context> \"a ql:b\" }").map Query.objects = .ok ["\"a <QLever-internal-function/b\">".toList] := by
  decide +kernel

/-! ### An example for the hypotheses -/

section Example

/-- `PREFIX : <http://a/> PREFIX xsd: <http://x#> SELECT ?x WHERE { ?x :p*\/<q> "3"^^xsd:int . OPTIONAL { :s @en@:p ?z } FILTER (?x != :a\-b) VALUES ?y {:c "d:e"@en} }` -/
def exampleQuery : Query :=
  .mk { prefixes := decls, selected := ["?x".toList] }
    (.mk [{ type := .ne, lhs := "?x".toList, rhs := ":a\\-b".toList }]
      [.basic [⟨"?x".toList, .node .sequence 0 [] [.node .transitive 0 [] [.node .iri 0 ":p".toList [] false] false, .node .iri 0 "<q>".toList [] false] false,
          "\"3\"^^xsd:int".toList⟩],
        .optional (.mk [] [.basic [⟨":s".toList, .node .iri 0 "@en@:p".toList [] false, "?z".toList⟩]]),
        .values ["?y".toList] [[":c".toList], ["\"d:e\"@en".toList]]])

def exampleResult : Query :=
  .mk { prefixes := decls, selected := ["?x".toList] }
    (.mk [{ type := .ne, lhs := "?x".toList, rhs := "<http://a/a-b>".toList }]
      [.basic [⟨"?x".toList, .node .sequence 0 []
          [.node .transitive 0 [] [.node .iri 0 "<http://a/p>".toList [] false] false, .node .iri 0 "<q>".toList [] false] false,
          "\"3\"^^<http://x#int>".toList⟩],
        .optional (.mk [] [.basic [⟨"<http://a/s>".toList, .node .iri 0 "@en@<http://a/p>".toList [] false, "?z".toList⟩]]),
        .values ["?y".toList] [["<http://a/c>".toList], ["\"d:e\"@en".toList]]])

theorem empty_decl : Declared decls [] "http://a/".toList := .inl ⟨[], [("xsd".toList, "<http://x#>".toList)], rfl, by decide⟩

theorem empty_name {c : Char} {l : Str} (hc : TurtleSpec.nameStart c = true) (hl : ∀ d ∈ l, TurtleSpec.nameChar d = true) :
    Names true decls (':' :: c :: l) ('<' :: "http://a/".toList ++ c :: l ++ ['>']) :=
  .name (p := []) (.inl rfl) (local_chars hc hl) empty_decl

theorem example_names : QueryNames true decls exampleQuery exampleResult := by
  refine .mk ⟨.nil, fun _ => rfl⟩ ?_ (.cons (.basic ?_) (.cons (.optional (.mk ⟨.nil, fun _ => rfl⟩ (.cons (.basic ?_) .nil))) (.cons (.values ?_) .nil)))
  · refine .cons (.compare (by decide) (by decide) (.var ['x']) ?_) .nil
    exact .name (p := []) (l := "a\\-b".toList) (v := "a-b".toList) (.inl rfl)
      (.chr (.inl (by decide)) (.plx (n := 0) (.escaped (c := '-') (by decide)) (.chr (n := 0) (.inl (by decide)) .nil))) empty_decl
  · refine .cons (.mk (.var ['x']) (.node (by decide) (.cons (.node (by decide) (.cons (.iri (empty_name (by decide) (by decide))) .nil))
      (.cons (.iri (.iri "q>".toList)) .nil))) ?_ (fun _ => .inl (by decide))) .nil
    refine .typed (v := ['3']) (p := "xsd".toList) (l := "int".toList) (.inr ⟨'x', ['s', 'd'], rfl, by decide, by decide, by decide⟩)
      (local_chars (by decide) (by decide)) xsd (fun _ => ⟨carets_none (by decide), by decide, by decide⟩)
  · refine .cons (.mk (empty_name (by decide) (by decide)) (.iri ?_) (.var ['z']) (fun _ => .inl (by decide))) .nil
    exact .taggedName (tag := ['e', 'n']) (p := []) (by decide) (.inl rfl) (local_chars (by decide) (by decide)) empty_decl
  · refine .cons (.cons (empty_name (by decide) (by decide)) .nil) (.cons (.cons ?_ .nil) .nil)
    exact .literal (v := "d:e".toList) (x := .lang ['e', 'n'] []) ⟨by decide, by decide, by simp⟩ (by intro p l h; cases h) (fun _ => carets_none (by decide))

example : expandPrefixes exampleQuery = .ok exampleResult := C69_expand_partial decls_ok example_names

/-- `PREFIX a: <b> SELECT ?x WHERE { ?x a:p a:c }` -/
def exampleText : Whole where
  prefixes := [(['a'], ['b'])]
  query := .mk false false [.var ['x']]
    (.last (some ⟨.var ['x'], ⟨.path (.iri "a:p".toList) (.pname ['a'] ['p']) [], .pname ['a'] ['c'], []⟩, []⟩)) []

theorem exampleText_ok : exampleText.query.Ok := by
  refine ⟨?_, ⟨trivial, ?_⟩, by simp, by simp, by simp, ?_⟩
  · intro s hs
    simp only [List.mem_cons, List.not_mem_nil, or_false] at hs
    subst hs
    trivial
  · intro p hp
    simp only [List.mem_cons, List.not_mem_nil, or_false] at hp
    subst hp
    refine ⟨⟨by decide, by decide, rfl, trivial⟩, ?_⟩
    intro o ho
    simp only [List.mem_cons, List.not_mem_nil, or_false] at ho
    subst ho
    show (['a'] : Str).head? ≠ some '"'
    decide
  · intro a ha
    simp at ha

theorem letter_prefix : Prefix ['a'] := .inr ⟨'a', [], rfl, by decide, by simp, by decide⟩

theorem letter_iri : IriText ['b'] := by unfold IriText; decide

theorem no_keyword : SparqlSpec.Lexeme.NoKeyword ['a'] := by
  intro w hw t u h hs
  have h1 : ∀ w ∈ SparqlSpec.keywords ++ SparqlSpec.aggregates ++ ["groupby", "orderby"], 2 ≤ w.toList.length := by decide
  have h2 := h1 w hw
  have h3 := congrArg List.length hs
  have h4 := congrArg List.length h
  simp only [List.length_map, List.length_append, List.length_cons, List.length_nil] at h3 h4
  omega

theorem letter_pname {l : Str} (hl : SparqlSpec.Local l) : SparqlSpec.Lexeme.Ok (.pname ['a'] l) :=
  ⟨letter_prefix, hl, no_keyword, by decide⟩

theorem name_end (s : Str) : SparqlSpec.EndsName (' ' :: s) := by
  refine ⟨0, ' ' :: s, rfl, ?_⟩
  intro c hc
  simp at hc
  subst hc
  decide

theorem pname_cons {l s : Str} {ws : List SparqlSpec.Word} {b : Bool} (hl : SparqlSpec.Local l)
    (h : QueryText ws b (' ' :: s)) : QueryText (.tok ⟨.iri, 'a' :: ':' :: l⟩ :: ws) b (' ' :: (('a' :: ':' :: l) ++ (' ' :: s))) := by
  refine SparqlParser.word_cons (i := .lex (.pname ['a'] l)) (letter_pname hl) ?_ h
  exact name_end s

set_option maxRecDepth 4000 in
theorem exampleText_text : QueryText exampleText.words false " PREFIX a: <b> select ?x WHERE { ?x a:p a:c }".toList := by
  have hx : SparqlSpec.VarName ['x'] := ⟨'x', [], rfl, by decide, by simp⟩
  have hl : ∀ c ∈ ['p', 'c'], SparqlSpec.Local [c] := by
    intro c hc
    refine .inr ⟨c, [], rfl, ?_, by simp, ?_⟩
    · revert c; decide
    · revert c; decide
  have h := SparqlParser.keyword_cons (w := "prefix") (t := "PREFIX".toList) ⟨by decide, by unfold SparqlSpec.Spells; decide⟩ <|
    pname_cons (l := []) (.inl rfl) <|
    SparqlParser.iri_cons letter_iri <|
    SparqlParser.keyword_cons (w := "select") (t := "select".toList) ⟨by decide, by unfold SparqlSpec.Spells; decide⟩ <|
    SparqlParser.var_cons hx <| SparqlParser.keyword_cons (w := "where") (t := "WHERE".toList) ⟨by decide, by unfold SparqlSpec.Spells; decide⟩ <|
    SparqlParser.symbol_cons (c := '{') (by decide) <| SparqlParser.var_cons hx <|
    SparqlParser.word_cons (i := .path (.pname ['a'] ['p']) []) ⟨letter_pname (hl 'p' (by decide)), by simp⟩ ⟨name_end _, ' ', rfl, by decide⟩ <|
    pname_cons (l := ['c']) (hl 'c' (by decide)) <|
    SparqlParser.word_cons (i := .lex (.symbol '}')) (by simp [SparqlSpec.Item.Ok, SparqlSpec.Lexeme.Ok]) (by simp [SparqlSpec.Item.Ends, SparqlSpec.Lexeme.Ends]) <|
    QueryText.nil (s := []) (.gap .nil)
  exact h

def exampleTextResult : Query :=
  .mk { prefixes := [(['a'], "<b>".toList)], selected := ["?x".toList] }
    (.mk [] [.basic [⟨"?x".toList, .node .iri 0 "<bp>".toList [] false, "<bc>".toList⟩]])

theorem exampleText_names (low : Char → Char) :
    QueryNames true (exampleText.prefixes.map fun p => (p.1, '<' :: p.2 ++ ['>'])) (exampleText.parsed low) exampleTextResult := by
  have hd : Declared [(['a'], "<b>".toList)] ['a'] ['b'] := .inl ⟨[], [], rfl, by simp⟩
  have hn : ∀ c ∈ ['p', 'c'], Names true [(['a'], "<b>".toList)] ['a', ':', c] ['<', 'b', c, '>'] := by
    intro c hc
    refine .name (p := ['a']) (l := [c]) (v := [c]) letter_prefix (local_chars ?_ (by simp)) hd
    revert c
    decide
  exact .mk ⟨.nil, fun _ => rfl⟩ .nil (.cons (.basic (.cons (.mk (.var ['x']) (.iri (hn 'p' (by decide))) (hn 'c' (by decide))
    (fun _ => .inl (by show ' ' ∉ ['a', ':', 'c']; decide))) .nil)) .nil)

example (low : Char → Char) (hl : ∀ c : Char, c.toNat < 128 → low c = SparqlLexer.lower c) (hex : Str → Str) :
    (SparqlParser.parse (env low) (normalizeRDFLiteral hex) 20 " PREFIX a: <b> select ?x WHERE { ?x a:p a:c }".toList).bind expandPrefixes =
      .ok exampleTextResult :=
  C69_text low hl hex exampleText exampleText_ok exampleText_text (by decide) (by
    intro p hp
    simp only [exampleText, List.mem_cons, List.not_mem_nil, or_false] at hp
    subst hp
    exact ⟨letter_prefix, letter_iri⟩) (exampleText_names low)

end Example

end Verif.Prefixes
