import Verif.Lemmas.TurtleEval
import Verif.Lemmas.TurtleFuel
import Std.Data.String.ToNat
/-
C62: which triples are read from a Turtle document.
-/
namespace Verif.Turtle
open Verif.TurtleSpec
open Verif.Spec

/-- C62, partial: a document is read to its end, and exactly its triples are produced, in order, however its tokens are laid
out.  What is missing: documents with more than one comment between two tokens, with `PREFIX`, `@base`, `[ ... ]` as a
subject, collections, decimals, doubles, empty prefixes, or prefixes that are taken for something else (`Place.ok`), and words
that end directly before another word.  The theorems below show what happens to these. -/
theorem C62_documents_partial (hex : Str → Str) (d : List Stmt) (text : Str) (ts : List Triple)
    (hok : ∀ st ∈ d, st.Ok hex) (hl : Layout Sep (d.flatMap Stmt.toks) text) (hd : den anonName d = some ts)
    (fuel n : Nat) (hf : 3 * text.length < fuel) (hn : d.length < n) :
    ∃ s, turtleDoc (escapes hex) fuel n { input := text } = .ok () s ∧ s.triples = ts ∧ s.input = [] := by
  obtain ⟨s, h1, h2, h3⟩ := doc_fuel (hex := hex) d (fun _ => none) { input := text } ts fuel n hok (fun _ => rfl) hl hd hf hn
  exact ⟨s, h1, by simpa using h3, h2⟩

/-- C62: for every text the parser ends, after at most as many statements as the text has characters and with calls nested
at most 3 times as deep, and it has no undefined behaviour. -/
theorem C62_terminates (hex : Str → Str) (s : State) (fuel n : Nat) (hf : 3 * s.input.length < fuel)
    (hn : s.input.length < n) :
    turtleDoc (escapes hex) fuel n s ≠ .ub ∧ turtleDoc (escapes hex) fuel n s ≠ .diverge :=
  turtleDoc_safe n fuel s hf hn

theorem anonName_head (k : Nat) : (anonName k).head? = some 'Q' := by
  have h : "QLever-Anon-Node".toList = 'Q' :: "Lever-Anon-Node".toList := by decide
  unfold anonName
  generalize ':' :: (toString k).toList = x
  rw [h, List.cons_append, List.head?_cons]

/-- C62: different anonymous nodes have different names, and no IRI, blank node with a label, or literal has such a name. -/
theorem C62_anonymous_names (k : Nat) :
    (∀ l, anonName k = anonName l → k = l) ∧ (∀ (env : Env) (i : Iri), i.den env ≠ some (anonName k)) ∧
    (∀ l : Str, '_' :: ':' :: l ≠ anonName k) ∧
    (∀ (hex : Str → Str) (env : Env) (l : Lit), l.Ok hex → l.den env ≠ some (anonName k)) := by
  have hQ : (anonName k).head? = some 'Q' := anonName_head k
  refine ⟨?_, ?_, ?_, ?_⟩
  · intro l h
    unfold anonName at h
    have h := List.append_cancel_left h
    exact Nat.repr_injective (String.toList_injective (List.cons.inj h).2)
  · intro env i h
    cases i with
    | ref t v =>
      rw [← Option.some.inj h] at hQ
      simp at hQ
    | pname p t v =>
      obtain ⟨n, _, h⟩ := Option.map_eq_some_iff.mp h
      rw [← h] at hQ
      simp at hQ
  · intro l h
    rw [← h] at hQ
    simp at hQ
  · intro hex env l hok h
    cases l with
    | string q t v x =>
      obtain ⟨w, _, h⟩ := Option.map_eq_some_iff.mp h
      rw [← h] at hQ
      simp at hQ
    | number t =>
      obtain ⟨c, u, rfl, hc⟩ := number_head hok
      rw [← Option.some.inj h] at hQ
      simp at hQ
      exact number_ne hc (d := 'Q') (by decide) (by decide) hQ
    | bool b =>
      rw [← Option.some.inj h] at hQ
      cases b <;> simp at hQ

/-! ### A document -/

def ex (l : Str) : Iri := .pname ['e', 'x'] l l
def declaration : Stmt := .pre false ['e', 'x'] ['n', '/'] ['n', '/']

/-- `@prefix ex: <n/> . ex:a a ex:T ; ex:p "x\n"@en , 5 , [ ex:q _:b ] , [] ; .` -/
def sample : List Stmt :=
  [declaration,
   .triples (.iri (ex ['a'])) (.more .a (.one (.node (.iri (ex ['T'])))) 0
     (.one (.iri (ex ['p'])) (.more (.lit (.string ['"'] ['x', '\\', 'n'] ['x', '\n'] (.lang ['@', 'e', 'n'])))
       (.more (.lit (.number ['5'])) (.more (.props (.one (.iri (ex ['q'])) (.one (.node (.label ['b']))) 0))
         (.one (.node (.anon [])))))) 1))]

theorem ex_ok {hex : Str → Str} {w : Place} {c : Char} (hw : w.ok ['e', 'x']) (hc : nameStart c) : (ex [c]).Ok hex w :=
  ⟨⟨'e', ['x'], rfl, by decide, .chr (by decide) .nil⟩, .chr (.inl hc) .nil, hw⟩

theorem declaration_ok (hex : Str → Str) : declaration.Ok hex :=
  ⟨rfl, ⟨'e', ['x'], rfl, by decide, .chr (by decide) .nil⟩, .chr (by decide) (.chr (by decide) .nil),
    .plain (by decide) (.plain (by decide) .nil)⟩

theorem sample_ok (hex : Str → Str) : ∀ st ∈ sample, st.Ok hex := by
  have hp : Place.ok ['e', 'x'] .predicate := by simp [Place.ok]
  have ho : Place.ok ['e', 'x'] .object := by simp [Place.ok, Exponential]; decide
  intro st hst
  simp only [sample, List.mem_cons, List.not_mem_nil, or_false] at hst
  rcases hst with rfl | rfl
  · exact declaration_ok hex
  · refine ⟨ex_ok (hex := hex) (by simp [Place.ok]) (by decide), trivial, ex_ok (hex := hex) ho (by decide), ex_ok (hex := hex) hp (by decide), ?_, ?_,
      ⟨ex_ok (hex := hex) hp (by decide), ?_⟩, by simp [Obj.Ok, Objs.Ok, Node.Ok, blanks]⟩
    · refine ⟨⟨'"', .inl rfl, .inl ⟨rfl, ?_⟩⟩, ?_, ?_⟩
      · exact .chr (n := 0) (by decide) (by decide) (by decide) (.esc (n := 0) (by decide) .nil)
      · exact .plain (by decide) (.echar rfl (by constructor) .nil)
      · exact ⟨['e', 'n'], [], by decide, by decide, by simp, rfl⟩
    · exact ⟨[], ['5'], by decide, by decide, by decide, rfl⟩
    · exact ⟨'b', [], rfl, .inl (by decide), .nil⟩

/-- The hypotheses are met, for a document with six triples. -/
example (hex : Str → Str) : ∃ text ts, (∀ st ∈ sample, st.Ok hex) ∧ Layout Sep (sample.flatMap Stmt.toks) text ∧
    den anonName sample = some ts ∧ ts.length = 6 :=
  ⟨_, _, sample_ok hex, plain_layout sep_nil ⟨[' '], [], [], rfl, by simp [blanks, blank], .inl rfl, by simp [blanks]⟩ _,
    rfl, rfl⟩

/-- A layout with a comment and with symbols directly after words: `ex:a ex:p 5,[]. # c` and a line feed. -/
example : Layout Sep (Stmt.triples (.iri (ex ['a'])) (.one (.iri (ex ['p']))
      (.more (.lit (.number ['5'])) (.one (.node (.anon [])))) 0)).toks
    ['e', 'x', ':', 'a', ' ', 'e', 'x', ':', 'p', ' ', '5', ',', '[', ']', '.', ' ', '#', ' ', 'c', '\n'] := by
  have b : ∀ s, blanks s → Sep s := fun s h => ⟨s, [], [], by simp, h, .inl rfl, by simp [blanks]⟩
  have n : Sep [] := b [] (by simp [blanks])
  have h1 : Sep [' ', '#', ' ', 'c', '\n'] := ⟨[' '], ['#', ' ', 'c', '\n'], [], rfl, by simp [blanks, blank],
    .inr ⟨[' ', 'c'], by decide, rfl⟩, by simp [blanks]⟩
  exact .cons (s := []) n (fun _ => by simp [Ends, blank]) (.cons (s := [' ']) (b _ (by simp [blanks, blank]))
    (fun _ => by simp [Ends, blank]) (.cons (s := [' ']) (b _ (by simp [blanks, blank])) (fun _ => by simp [Ends])
    (.cons (s := []) n (by simp [Tok.sym]) (.cons (s := []) n (by simp [Tok.sym]) (.cons (s := []) n (by simp [Tok.sym])
    (.nil h1))))))

/-! ### Documents that are not read as they should be -/

/-- The triples that are produced, and the text that is left; `none` if an exception is thrown. -/
def outcome (text : Str) : Option (List Triple × Str) :=
  match turtleDoc (escapes fun _ => []) 40 10 { input := text } with
  | .ok _ s => some (s.triples, s.input)
  | _ => none

/-- The same, to be evaluated. -/
def outcomeF (text : Str) : Option (List Triple × Str) :=
  match turtleDoc (escapesF fun _ => []) 40 10 { input := text } with
  | .ok _ s => some (s.triples, s.input)
  | _ => none

theorem outcomeF_eq (text : Str) : outcomeF text = outcome text := by rw [outcomeF, outcome, escapesF_eq]

/-- The text of a document, with a blank after every token. -/
def text (d : List Stmt) : Str := plain (d.flatMap Stmt.toks)

theorem text_layout (d : List Stmt) : Layout Seps (d.flatMap Stmt.toks) (text d) :=
  plain_layout (.nil (by simp [blanks])) (.nil (by simp [blanks, blank])) _

def ref (c : Char) : Iri := .ref [c] [c]
/-- `<s> <p> o .` -/
def about (o : Obj) : Stmt := .triples (.iri (ref 's')) (.one (.iri (ref 'p')) (.one o) 0)
/-- `<s> <p> <o> .` -/
def simple : Stmt := about (.node (.iri (ref 'o')))
def spo : Triple := (['<', 's', '>'], ['<', 'p', '>'], ['<', 'o', '>'])

/-- C62 fails for three lines of comments before a directive: the document is given up at once, without an error. -/
theorem C62_comments_end_the_document :
    Layout Seps ([declaration, simple].flatMap Stmt.toks) (['#', '\n', '#', '\n', '#', '\n'] ++ text [declaration, simple]) ∧
    den anonName [declaration, simple] = some [spo] ∧
    outcome (['#', '\n', '#', '\n', '#', '\n'] ++ text [declaration, simple]) = some ([], text [declaration, simple]) := by
  refine ⟨?_, by decide, by rw [← outcomeF_eq]; decide +kernel⟩
  have h := text_layout [declaration, simple]
  generalize text [declaration, simple] = x at h
  generalize [declaration, simple].flatMap Stmt.toks = ts at h
  have hc : Comment ['#', '\n'] := ⟨[], by simp, rfl⟩
  have h3 : ∀ s, Seps s → Seps (['#', '\n'] ++ s) := fun s hs => .comment (s := []) (by simp [blanks]) hc hs
  cases h with
  | nil h => exact .nil (h3 _ (h3 _ (h3 _ h)))
  | @cons s t ts r h1 h2 h3' =>
    have := Layout.cons (h3 _ (h3 _ (h3 _ h1))) h2 h3'
    simpa using this

/-- C62 fails for `@base`: its dot is not read, and the rest of the document is not read either. -/
theorem C62_base_ends_the_document :
    den anonName [.base false ['n'] ['n'], simple] = some [spo] ∧
    outcome (text [.base false ['n'] ['n'], simple]) = some ([], ['.', ' '] ++ text [simple]) :=
  ⟨by decide, by rw [← outcomeF_eq]; decide +kernel⟩

/-- C62 fails for `PREFIX`: the angle brackets become part of the IRIs. -/
theorem C62_sparql_prefix :
    den anonName [.pre true ['e', 'x'] ['n', '/'] ['n', '/'], about (.node (.iri (ex ['o'])))] =
      some [(['<', 's', '>'], ['<', 'p', '>'], ['<', 'n', '/', 'o', '>'])] ∧
    outcome (text [.pre true ['e', 'x'] ['n', '/'] ['n', '/'], about (.node (.iri (ex ['o'])))]) =
      some ([(['<', 's', '>'], ['<', 'p', '>'], ['<', '<', 'n', '/', '>', 'o', '>'])], []) :=
  ⟨by decide, by rw [← outcomeF_eq]; decide +kernel⟩

/-- `<s> ab:p <o> .`, with declarations of `ab` and `b` -/
def typed : List Stmt :=
  [.pre false ['a', 'b'] ['n', '/'] ['n', '/'], .pre false ['b'] ['m', '/'] ['m', '/'],
   .triples (.iri (ref 's')) (.one (.iri (.pname ['a', 'b'] ['p'] ['p'])) (.one (.node (.iri (ref 'o')))) 0), simple]

/-- C62 fails for predicates whose prefix starts with `a`: the letter is read as `rdf:type`, the rest as an object, and the
document ends there. -/
theorem C62_predicate_prefix_a :
    den anonName typed = some [(['<', 's', '>'], ['<', 'n', '/', 'p', '>'], ['<', 'o', '>']), spo] ∧
    outcome (text typed) = some ([(['<', 's', '>'], rdfType, ['<', 'm', '/', 'p', '>'])], ['<', 'o', '>', ' ', '.', ' '] ++ text [simple]) :=
  ⟨by decide, by rw [← outcomeF_eq]; decide +kernel⟩

/-- `<s> <p> truex:o .` -/
def truex : List Stmt :=
  [.pre false ['t', 'r', 'u', 'e', 'x'] ['n', '/'] ['n', '/'], about (.node (.iri (.pname ['t', 'r', 'u', 'e', 'x'] ['o'] ['o']))), simple]

/-- C62 fails for objects whose prefix starts with `true`: they are read as `true`, and the document ends there. -/
theorem C62_object_prefix_true :
    den anonName truex = some [(['<', 's', '>'], ['<', 'p', '>'], ['<', 'n', '/', 'o', '>']), spo] ∧
    outcome (text truex) = some ([(['<', 's', '>'], ['<', 'p', '>'], ['t', 'r', 'u', 'e'])], ['x', ':', 'o', ' ', '.', ' '] ++ text [simple]) :=
  ⟨by decide, by rw [← outcomeF_eq]; decide +kernel⟩

/-- `<s> <p> e5:o .` -/
def e5 : List Stmt :=
  [.pre false ['e', '5'] ['n', '/'] ['n', '/'], about (.node (.iri (.pname ['e', '5'] ['o'] ['o']))), simple]

/-- C62 fails for objects with prefixes like `e5`: they are read as numbers, and the document ends there. -/
theorem C62_object_prefix_exponent :
    den anonName e5 = some [(['<', 's', '>'], ['<', 'p', '>'], ['<', 'n', '/', 'o', '>']), spo] ∧
    outcome (text e5) = some ([(['<', 's', '>'], ['<', 'p', '>'], ['e', '5'])], [':', 'o', ' ', '.', ' '] ++ text [simple]) :=
  ⟨by decide, by rw [← outcomeF_eq]; decide +kernel⟩

/-- C62 fails for decimals: only the integer part is read; the decimal point ends the statement, and the document ends there. -/
theorem C62_decimal :
    den anonName [about (.lit (.number ['5', '.', '7'])), simple] = some [(['<', 's', '>'], ['<', 'p', '>'], ['5', '.', '7']), spo] ∧
    outcome (text [about (.lit (.number ['5', '.', '7'])), simple]) =
      some ([(['<', 's', '>'], ['<', 'p', '>'], ['5'])], ['7', ' ', '.', ' '] ++ text [simple]) :=
  ⟨by decide, by rw [← outcomeF_eq]; decide +kernel⟩

/-- C62 fails for doubles without a decimal point. -/
theorem C62_double :
    den anonName [about (.lit (.number ['1', 'e', '5'])), simple] = some [(['<', 's', '>'], ['<', 'p', '>'], ['1', 'e', '5']), spo] ∧
    outcome (text [about (.lit (.number ['1', 'e', '5'])), simple]) =
      some ([(['<', 's', '>'], ['<', 'p', '>'], ['1'])], ['e', '5', ' ', '.', ' '] ++ text [simple]) :=
  ⟨by decide, by rw [← outcomeF_eq]; decide +kernel⟩

/-- `[ <q> <r> ] <x> <y> .` -/
def bracketed : Stmt :=
  .props (.one (.iri (ref 'q')) (.one (.node (.iri (ref 'r')))) 0)
    (some (.one (.iri (ref 'x')) (.one (.node (.iri (ref 'y')))) 0))

/-- C62 fails for subjects in square brackets: there is an additional triple with the previous subject and predicate, and what
follows the brackets is said about the previous subject. -/
theorem C62_bracketed_subject :
    den anonName [simple, bracketed] = some
      [spo, (anonName 0, ['<', 'q', '>'], ['<', 'r', '>']), (anonName 0, ['<', 'x', '>'], ['<', 'y', '>'])] ∧
    outcome (text [simple, bracketed]) = some
      ([spo, (['<', 's', '>'], ['<', 'p', '>'], anonName 0), (anonName 0, ['<', 'q', '>'], ['<', 'r', '>']),
        (['<', 's', '>'], ['<', 'x', '>'], ['<', 'y', '>'])], []) :=
  ⟨by decide, by rw [← outcomeF_eq]; decide +kernel⟩

/-- C62 fails for the empty prefix: it is refused. -/
theorem C62_empty_prefix :
    den anonName [.pre false [] ['n', '/'] ['n', '/'], about (.node (.iri (.pname [] ['o'] ['o'])))] =
      some [(['<', 's', '>'], ['<', 'p', '>'], ['<', 'n', '/', 'o', '>'])] ∧
    outcome (text [.pre false [] ['n', '/'] ['n', '/'], about (.node (.iri (.pname [] ['o'] ['o'])))]) = none :=
  ⟨by decide, by rw [← outcomeF_eq]; decide +kernel⟩

end Verif.Turtle
