import Verif.Spec.SparqlText
import Verif.Model.SparqlParser
/-
What the prefixed names in a query stand for.  From the model of the parser only the types of parsed queries are used.

The relations have a flag `easy`: with `easy = false` they say what SPARQL demands; with `easy = true` they are restricted to what QLever does correctly.
-/
namespace Verif.PrefixSpec
open Verif.SparqlParser (Triple FilterType Filter BindExpr Info Op Pattern Query)
open Verif.PropertyPath (Path)
open Verif.SparqlSpec (Str Prefix IriText Suffix)
open Verif.TurtleSpec (Local digit)

/-- The prefix `p` stands for `u`: the last declaration counts; `ql` is declared implicitly. -/
def Declared (ps : List (Str × Str)) (p u : Str) : Prop :=
  (∃ a b, ps = a ++ (p, '<' :: u ++ ['>']) :: b ∧ p ∉ b.map Prod.fst) ∨
  (p ∉ ps.map Prod.fst ∧ p = "ql".toList ∧ u = "QLever-internal-function/".toList)

/-- Declarations are well-formed. -/
def PrefixesOk (ps : List (Str × Str)) : Prop := ∀ p ∈ ps, Prefix p.1 ∧ ∃ u, p.2 = '<' :: u ++ ['>'] ∧ IriText u

/-- `^^` occurs. -/
def Carets (s : Str) : Prop := ∃ a b, s = a ++ '^' :: '^' :: b

/-- Two lists correspond to each other, element by element. -/
inductive Each {α : Type} (R : α → α → Prop) : List α → List α → Prop
  | nil : Each R [] []
  | cons {a b as bs} : R a b → Each R as bs → Each R (a :: as) (b :: bs)

section
variable (easy : Bool) (ps : List (Str × Str))

/-- A term in a query, and the same term without prefixes. -/
inductive Names : Str → Str → Prop
  | var (n : Str) : Names ('?' :: n) ('?' :: n)
  | iri (t : Str) : Names ('<' :: t) ('<' :: t)
  | name {p l v u : Str} : Prefix p → Local l v → Declared ps p u → Names (p ++ ':' :: l) ('<' :: u ++ v ++ ['>'])
  | literal {v : Str} {x : Suffix} : x.Ok → (∀ p l, x ≠ .pname p l) → (easy = true → ¬ Carets v) →
      Names ('"' :: v ++ '"' :: x.text) ('"' :: v ++ '"' :: x.text)
  | typed {v p l w u : Str} : Prefix p → Local l w → Declared ps p u → (easy = true → ¬ Carets v ∧ ':' ∉ v ∧ '\\' ∉ v) →
      Names ('"' :: v ++ '"' :: '^' :: '^' :: (p ++ ':' :: l)) ('"' :: v ++ '"' :: '^' :: '^' :: ('<' :: u ++ w ++ ['>']))
  | number {s : Str} : (∀ c ∈ s, digit c ∨ c = '-' ∨ c = '.') → Names s s
  /-- predicates for a language -/
  | tagged {tag t : Str} : '@' ∉ tag → IriText t → Names ('@' :: tag ++ '@' :: ('<' :: t ++ ['>'])) ('@' :: tag ++ '@' :: ('<' :: t ++ ['>']))
  | taggedName {tag p l v u : Str} : '@' ∉ tag → Prefix p → Local l v → Declared ps p u →
      Names ('@' :: tag ++ '@' :: (p ++ ':' :: l)) ('@' :: tag ++ '@' :: ('<' :: u ++ v ++ ['>']))

mutual
/-- Property paths. -/
inductive PathNames : Path → Path → Prop
  | iri {l i i' cs n} : Names easy ps i i' → PathNames (.node .iri l i cs n) (.node .iri l i' cs n)
  | node {op l i cs cs' n} : op ≠ .iri → PathsNames cs cs' → PathNames (.node op l i cs n) (.node op l i cs' n)
inductive PathsNames : List Path → List Path → Prop
  | nil : PathsNames [] []
  | cons {p p' cs cs'} : PathNames p p' → PathsNames cs cs' → PathsNames (p :: cs) (p' :: cs')
end

/-- The predicate for words in texts. -/
def wordPredicate : Str := "<QLever-internal-function/contains-word>".toList

/-- The text `w` occurs in `s`. -/
def Occurs (w s : Str) : Prop := ∃ a b, s = a ++ w ++ b

/-- Triples.  The object of `ql:contains-word` is a list of words. -/
inductive TripleNames : Triple → Triple → Prop
  | mk {s s' p p' o o'} : Names easy ps s s' → PathNames easy ps p p' → Names easy ps o o' →
      (easy = true → ' ' ∉ o ∨ ¬ Occurs "in-context".toList p'.iri) → TripleNames ⟨s, p, o⟩ ⟨s', p', o'⟩
  | words {s s' p p' w} : Names easy ps s s' → PathNames easy ps p p' → p'.op = .iri → p'.iri = wordPredicate →
      (easy = true → ':' ∉ w ∧ w.head? ≠ some '@') → TripleNames ⟨s, p, w⟩ ⟨s', p', w⟩

/-- Filters.  Regular expressions and beginnings of strings contain no terms. -/
inductive FilterNames : Filter → Filter → Prop
  | compare {f : Filter} {l r : Str} : f.type ≠ .regex → f.type ≠ .pre → Names easy ps f.lhs l → Names easy ps f.rhs r →
      FilterNames f { f with lhs := l, rhs := r }
  | regex {f : Filter} {l : Str} : f.type = .regex → Names easy ps f.lhs l → FilterNames f { f with lhs := l }
  | start {f : Filter} {l : Str} : f.type = .pre → f.rhs.head? = some '^' → Names easy ps f.lhs l → (easy = true → ¬ Carets f.rhs) →
      FilterNames f { f with lhs := l }

/-- Filters that QLever does not look at. -/
def HiddenFilters (fs fs' : List Filter) : Prop := Each (FilterNames easy ps) fs fs' ∧ (easy = true → fs' = fs)

inductive BindNames : BindExpr → BindExpr → Prop
  | rename {v v'} : Names easy ps v v' → BindNames (.rename v) (.rename v')
  | binary {v v' w w' op} : Names easy ps v v' → Names easy ps w w' → BindNames (.binary v w op) (.binary v' w' op)
  | word {w w'} : Names easy ps w w' → BindNames (.word w) (.word w')
  | int (n) : BindNames (.int n) (.int n)

mutual
/-- The parts of a group. -/
inductive OpNames : Op → Op → Prop
  | basic {ts ts'} : Each (TripleNames easy ps) ts ts' → OpNames (.basic ts) (.basic ts')
  | optional {g g'} : GroupNames g g' → OpNames (.optional g) (.optional g')
  | minus {g g'} : GroupNames g g' → OpNames (.minus g) (.minus g')
  | union {a a' b b'} : GroupNames a a' → GroupNames b b' → OpNames (.union a b) (.union a' b')
  | subquery {q q'} : QueryNames q q' → OpNames (.subquery q) (.subquery q')
  | bind {e e' v} : BindNames easy ps e e' → OpNames (.bind e v) (.bind e' v)
  | values {vs rows rows'} : Each (Each (Names easy ps)) rows rows' → OpNames (.values vs rows) (.values vs rows')
inductive OpsNames : List Op → List Op → Prop
  | nil : OpsNames [] []
  | cons {o o' os os'} : OpNames o o' → OpsNames os os' → OpsNames (o :: os) (o' :: os')
/-- A group inside of a query. -/
inductive GroupNames : Pattern → Pattern → Prop
  | mk {fs fs' cs cs'} : HiddenFilters easy ps fs fs' → OpsNames cs cs' → GroupNames (.mk fs cs) (.mk fs' cs')
/-- A query; subqueries use the prefixes of the whole query. -/
inductive QueryNames : Query → Query → Prop
  | mk {info : Info} {having fs fs' cs cs'} : HiddenFilters easy ps info.having having → Each (FilterNames easy ps) fs fs' → OpsNames cs cs' →
      QueryNames (.mk info (.mk fs cs)) (.mk { info with prefixes := ps, having := having } (.mk fs' cs'))
end

end

end Verif.PrefixSpec
