import Verif.Spec.SparqlQuery
import Verif.Spec.Prefixes
import Verif.Spec.TermAnswers
import Verif.Spec.Json
/-
Queries that select variables from triples, and the rows that the client of such a query should get.  From the model of the parser only
the types of parsed queries are used.
-/
namespace Verif.ResponseSpec
open SparqlSpec (Str Block Group Mod Whole OrderE FilterE Cmp firsts)
open PrefixSpec (Each TripleNames)
open SparqlParser (Triple)
open TermSpec (TermSol)
open JsonSpec (Json)

/-- A key of ORDER BY: `?n`, `ASC(?n)` or `DESC(?n)`. -/
inductive Key where
  | plain (n : Str)
  | asc (n : Str)
  | desc (n : Str)

def Key.name : Key → Str
  | plain n => n
  | asc n => n
  | desc n => n

def Key.descends : Key → Bool
  | desc _ => true
  | _ => false

def Key.written : Key → OrderE
  | plain n => .var n
  | asc n => .key false n
  | desc n => .key true n

/-- `FILTER(?left op ?right)`, with further parentheses. -/
structure Comparison where
  parentheses : Nat
  left : Str
  op : Cmp
  right : Str

def Comparison.written (f : Comparison) : FilterE := .compare f.parentheses false (.term (.var f.left)) f.op (.term (.var f.right))

/-- The parts of a group: triples, and filters with or without a dot behind them. -/
inductive Part where
  | triples (b : Block)
  | filter (f : Comparison) (dot : Bool)

def Part.blocks : Part → List Block
  | triples b => [b]
  | filter _ _ => []

def Part.comparisons : Part → List Comparison
  | triples _ => []
  | filter f _ => [f]

/-- A query: prefixes with their IRIs, the names of the selected variables, triples and filters (with or without a dot at the end, if triples
are the end), the keys of ORDER BY, LIMIT and OFFSET in one or the other order; `space` is the white space between ORDER and BY. -/
structure Ask where
  prefixes : List (Str × Str)
  distinct : Bool
  reduced : Bool
  vars : List Str
  parts : List Part
  dot : Bool
  space : Str
  keys : List Key
  limit : Option Nat
  offset : Option Nat
  offsetFirst : Bool

/-- The group of triples and filters. -/
def group (dot : Bool) : List Part → Group
  | [] => .last none
  | [.triples b] => if dot then .triples b (.last none) else .last (some b)
  | .triples b :: p :: ps => .triples b (group dot (p :: ps))
  | .filter f d :: ps => .filter f.written d (group dot ps)

def Ask.blocks (a : Ask) : List Block := a.parts.flatMap Part.blocks

def Ask.comparisons (a : Ask) : List Comparison := a.parts.flatMap Part.comparisons

/-- ORDER BY -/
def Ask.orders (a : Ask) : List Mod :=
  match a.keys with
  | [] => []
  | k :: ks => [Mod.orderBy a.space k.written (ks.map Key.written)]

/-- ORDER BY, LIMIT and OFFSET. -/
def Ask.mods (a : Ask) : List Mod :=
  let l := a.limit.toList.map fun n => Mod.limit (Nat.toDigits 10 n)
  let o := a.offset.toList.map fun n => Mod.offset (Nat.toDigits 10 n)
  a.orders ++ if a.offsetFirst then o ++ l else l ++ o

/-- The query; how it is written is said in Spec/SparqlQuery. -/
def Ask.whole (a : Ask) : Whole := ⟨a.prefixes, .mk a.distinct a.reduced (a.vars.map .var) (group a.dot a.parts) a.mods⟩

/-- The triples of the query without repetitions and prefixes; their predicates are IRIs or variables. -/
def Asks (low : Char → Char) (a : Ask) (ts : List Triple) : Prop :=
  Each (TripleNames true (a.prefixes.map fun p => (p.1, '<' :: p.2 ++ ['>']))) (firsts (a.blocks.flatMap (Block.triples low))) ts ∧
    ∀ t ∈ ts, t.p.op = .iri

/-- The terms of triples. -/
def termsOf (ts : List Triple) : List (String × String × String) :=
  ts.map fun t => (String.ofList t.s, String.ofList t.p.iri, String.ofList t.o)

/-- The value of a variable in a solution. -/
def valueOf (sol : TermSol) (name : Str) : Option Str := sol (String.ofList ('?' :: name))

/-- The value of a variable in a response. -/
def value (sol : TermSol) (name : Str) : Json := (valueOf sol name).elim .null .str

/-- The filter holds; `less` is the order of terms. -/
def Comparison.Holds (less : Str → Str → Prop) (f : Comparison) (sol : TermSol) : Prop :=
  ∃ u v, valueOf sol f.left = some u ∧ valueOf sol f.right = some v ∧
    match f.op with
    | .eq => u = v
    | .ne => u ≠ v
    | .lt => less u v
    | .le => ¬ less v u
    | .gt => less v u
    | .ge => ¬ less u v

/-- A solution of the query with the triples `ps` over the data `D`. -/
def Solution (isVariable : String → Bool) (less : Str → Str → Prop) (a : Ask) (ps : List (String × String × String))
    (D : List VocabularySpec.Words) (sol : TermSol) : Prop :=
  TermSpec.TermBgp isVariable ps D sol ∧ ∀ f ∈ a.comparisons, f.Holds less sol

/-- `s` has to come before `s'`: at the first key in which they differ, the value of `s` is smaller if the key is ascending and larger if it
is descending. -/
def Earlier (less : Str → Str → Prop) (keys : List Key) (s s' : TermSol) : Prop :=
  ∃ (i : Nat) (k : Key) (u u' : Str), keys[i]? = some k ∧
    (∀ (j : Nat) (k' : Key), j < i → keys[j]? = some k' → valueOf s k'.name = valueOf s' k'.name) ∧
    valueOf s k.name = some u ∧ valueOf s' k.name = some u' ∧ if k.descends then less u' u else less u u'

/-- `sols` is the answer to the query with the triples `ps` over the data `D`: all solutions, each once, in the order of the keys.  With
DISTINCT, for every combination of values of the selected variables one of the solutions with these values. -/
structure Solves (isVariable : String → Bool) (less : Str → Str → Prop) (a : Ask) (ps : List (String × String × String))
    (D : List VocabularySpec.Words) (sols : List TermSol) : Prop where
  sound : ∀ sol ∈ sols, Solution isVariable less a ps D sol
  complete : ∀ sol, Solution isVariable less a ps D sol →
    if a.distinct then ∃ sol' ∈ sols, ∀ n ∈ a.vars, valueOf sol' n = valueOf sol n else sol ∈ sols
  once : if a.distinct then sols.Pairwise fun s s' => ∃ n ∈ a.vars, valueOf s n ≠ valueOf s' n else sols.Nodup
  sorted : sols.Pairwise fun s s' => ¬ Earlier less a.keys s' s

/-- The rows of a response for solutions in some order: at most 100000 without LIMIT, and at most as many as the client wants. -/
def rowsOf (a : Ask) (maxSend : Nat) (sols : List TermSol) : Json :=
  .arr (((sols.drop (a.offset.getD 0)).take (min (a.limit.getD 100000) maxSend)).map fun sol => .arr (a.vars.map (value sol)))

/-- The rows of a text with separators for solutions in some order: all of them, cut by OFFSET and LIMIT. -/
def linesOf (a : Ask) (sols : List TermSol) : List (List Str) :=
  let rest := sols.drop (a.offset.getD 0)
  ((a.limit.map fun k => rest.take k).getD rest).map fun sol => a.vars.map fun n => (valueOf sol n).getD []

end Verif.ResponseSpec
