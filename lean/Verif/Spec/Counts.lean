import Verif.Spec.Response
/-
Queries that count solutions in groups or ask for the smallest or largest values, and the rows that the client of such a query should get.
-/
namespace Verif.CountSpec
open SparqlSpec (Str Sel Mod Whole FilterE Cmp)
open TermSpec (TermSol)
open JsonSpec (Json)
open ResponseSpec

/-- The aggregates. -/
inductive Fn where
  | count
  | min
  | max
  deriving DecidableEq

def Fn.written : Fn → SparqlParser.Agg
  | count => .count
  | min => .min
  | max => .max

/-- What is selected: a variable, or `(COUNT(?v) AS ?out)`, `(MIN(?v) AS ?out)`, `(MAX(?v) AS ?out)`, with or without DISTINCT. -/
inductive Item where
  | var (n : Str)
  | agg (fn : Fn) (distinct : Bool) (v out : Str)

def Item.name : Item → Str
  | var n => n
  | agg _ _ _ out => out

def Item.written : Item → Sel
  | var n => .var n
  | agg fn d v out => .aliased ⟨fn.written, d, v, none, out⟩

/-- `HAVING (?name op number)`, with further parentheses. -/
structure Having where
  parentheses : Nat
  name : Str
  op : Cmp
  number : Nat

def Having.written (h : Having) : FilterE := .compare h.parentheses false (.term (.var h.name)) h.op (.integer false (Nat.toDigits 10 h.number))

/-- The comparison holds for the number `n`. -/
def Having.Holds (h : Having) (n : Nat) : Prop :=
  match h.op with
  | .eq => n = h.number
  | .ne => n ≠ h.number
  | .lt => n < h.number
  | .le => n ≤ h.number
  | .gt => h.number < n
  | .ge => h.number ≤ n

/-- A query: prefixes, what is selected, triples and filters, the variables of GROUP BY, a condition for groups, the keys of ORDER BY, LIMIT and OFFSET; the spaces are
the white space between GROUP and BY and between ORDER and BY. -/
structure CountAsk where
  prefixes : List (Str × Str)
  items : List Item
  parts : List Part
  dot : Bool
  groupSpace : Str
  firstVar : Str
  moreVars : List Str
  having : Option Having
  space : Str
  keys : List Key
  limit : Option Nat
  offset : Option Nat
  offsetFirst : Bool

/-- The variables of GROUP BY. -/
def CountAsk.groupVars (q : CountAsk) : List Str := q.firstVar :: q.moreVars

/-- The query without aggregates and groups: its solutions are aggregated. -/
def CountAsk.base (q : CountAsk) : Ask :=
  ⟨q.prefixes, false, false, q.items.map Item.name, q.parts, q.dot, q.space, q.keys, q.limit, q.offset, q.offsetFirst⟩

/-- The query; how it is written is said in Spec/SparqlQuery. -/
def CountAsk.whole (q : CountAsk) : Whole :=
  ⟨q.prefixes, .mk false false (q.items.map Item.written) (group q.dot q.parts)
    (Mod.groupBy q.groupSpace q.firstVar q.moreVars :: (q.having.toList.map (fun h => Mod.having h.written []) ++ q.base.mods))⟩

/-- The values of the variables of GROUP BY. -/
def CountAsk.key (q : CountAsk) (sol : TermSol) : List (Option Str) := q.groupVars.map (valueOf sol)

/-- The number of values of a variable in solutions. -/
def countOf (distinct : Bool) (v : Str) (sols : List TermSol) : Nat :=
  let values := sols.filterMap fun sol => valueOf sol v
  (if distinct then values.eraseDups else values).length

/-- A value in an answer: a term or a number. -/
inductive Val where
  | term (w : Str)
  | number (n : Nat)
  deriving DecidableEq

def Val.json : Val → Json
  | term w => .str w
  | number n => .str (Nat.toDigits 10 n)

/-- The order of values in a column. -/
def Val.Less (less : Str → Str → Prop) : Val → Val → Prop
  | term u, term v => less u v
  | number i, number j => i < j
  | _, _ => False

/-- A value that none comes before, in the order `less`. -/
noncomputable def smallest (less : Str → Str → Prop) (values : List Str) : Option Str :=
  open Classical in values.find? fun u => decide (∀ w ∈ values, ¬ less w u)

/-- A value that comes before none. -/
noncomputable def largest (less : Str → Str → Prop) (values : List Str) : Option Str :=
  open Classical in values.find? fun u => decide (∀ w ∈ values, ¬ less u w)

/-- The aggregate of the values of a variable in solutions. -/
noncomputable def Fn.value (less : Str → Str → Prop) (fn : Fn) (distinct : Bool) (v : Str) (sols : List TermSol) : Option Val :=
  match fn with
  | count => some (.number (countOf distinct v sols))
  | min => (smallest less (sols.filterMap fun sol => valueOf sol v)).map .term
  | max => (largest less (sols.filterMap fun sol => valueOf sol v)).map .term

/-- What a name stands for in the group of `rep` among the solutions `sols`. -/
noncomputable def CountAsk.value (q : CountAsk) (less : Str → Str → Prop) (sols : List TermSol) (rep : TermSol) (name : Str) : Option Val :=
  match q.items.find? fun i => match i with
    | .agg _ _ _ out => out = name
    | .var _ => false with
  | some (.agg fn d v _) => fn.value less d v (sols.filter fun sol => q.key sol = q.key rep)
  | _ => (valueOf rep name).map .term

/-- The group of `rep` has to come before the one of `rep'`. -/
def CountAsk.Earlier (q : CountAsk) (less : Str → Str → Prop) (sols : List TermSol) (rep rep' : TermSol) : Prop :=
  ∃ (i : Nat) (k : Key) (u u' : Val), q.keys[i]? = some k ∧
    (∀ (j : Nat) (k' : Key), j < i → q.keys[j]? = some k' → q.value less sols rep k'.name = q.value less sols rep' k'.name) ∧
    q.value less sols rep k.name = some u ∧ q.value less sols rep' k.name = some u' ∧ if k.descends then u'.Less less u else u.Less less u'

/-- The condition of HAVING holds for the group of `rep`. -/
def CountAsk.Keeps (q : CountAsk) (less : Str → Str → Prop) (sols : List TermSol) (rep : TermSol) : Prop :=
  ∀ h ∈ q.having, ∃ n, q.value less sols rep h.name = some (.number n) ∧ h.Holds n

/-- `reps` represents the groups of the solutions: one solution of every group for which the condition of HAVING holds, in the order of the
keys. -/
structure CountAsk.Groups (q : CountAsk) (less : Str → Str → Prop) (sols reps : List TermSol) : Prop where
  sound : ∀ rep ∈ reps, rep ∈ sols ∧ q.Keeps less sols rep
  complete : ∀ sol ∈ sols, q.Keeps less sols sol → ∃ rep ∈ reps, q.key rep = q.key sol
  once : reps.Pairwise fun r r' => q.key r ≠ q.key r'
  sorted : reps.Pairwise fun r r' => ¬ q.Earlier less sols r' r

/-- The rows of a response: at most 100000 without LIMIT, and at most as many as the client wants. -/
noncomputable def CountAsk.rowsOf (q : CountAsk) (less : Str → Str → Prop) (maxSend : Nat) (sols reps : List TermSol) : Json :=
  .arr (((reps.drop (q.offset.getD 0)).take (min (q.limit.getD 100000) maxSend)).map fun rep =>
    .arr (q.items.map fun i => (q.value less sols rep i.name).elim .null Val.json))

end Verif.CountSpec
