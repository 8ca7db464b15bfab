import Verif.Spec.Vocabulary
/-
What a group of triple patterns matches in a set of triples of terms (SPARQL 1.1, section 18.3).
-/
namespace Verif.TermSpec
open VocabularySpec (Words stored shown)

/-- A solution: terms for some variables. -/
abbrev TermSol := String → Option (List Char)

/-- With the values of the solution, the term in the query is the term `w`. -/
def Means (isVar : String → Bool) (sol : TermSol) (term : String) (w : List Char) : Prop :=
  if isVar term = true then sol term = some w else term.toList = w

/-- With the values of the solution every pattern is one of the triples, and only variables of the patterns have values. -/
def TermBgp (isVar : String → Bool) (ps : List (String × String × String)) (D : List Words) (sol : TermSol) : Prop :=
  (∀ q ∈ ps, ∃ t ∈ D, Means isVar sol q.1 t.1 ∧ Means isVar sol q.2.1 t.2.1 ∧ Means isVar sol q.2.2 t.2.2) ∧
    ∀ v, ¬ (isVar v = true ∧ ∃ q ∈ ps, v = q.1 ∨ v = q.2.1 ∨ v = q.2.2) → sol v = none

/-- A triple as it is shown. -/
def shownTriple (t : Words) : Words := (shown t.1, shown t.2.1, shown t.2.2)

/-- The terms of an input: IRIs, literals and literals with a language tag; with the language tag. -/
inductive TermForm : List Char → List Char → Prop
  | iri (cs) : TermForm ('<' :: cs) []
  | plain (cs) : TermForm ('"' :: cs ++ ['"']) []
  | tagged (cs lang) : lang ≠ [] → '@' ∉ lang → '"' ∉ lang → '^' ∉ lang → TermForm ('"' :: cs ++ '"' :: '@' :: lang) lang

/-- The triples stored for the triples of an input, each given with the language tag of its object. -/
def docStored (doc : List (Words × List Char)) : List Words := doc.flatMap fun x => stored x.2 x.1.1 x.1.2.1 x.1.2.2

/-- What begins the IRIs that are used internally. -/
def internalStart : List Char := "<QLever-internal-function/".toList

/-- The order of terms: those kept in memory come first, otherwise `cmp` decides. -/
def TermLess (ext : List Char → Bool) (cmp : List Char → List Char → Int) (u v : List Char) : Prop :=
  if ext u = ext v then cmp u v < 0 else ext u = false

end Verif.TermSpec
