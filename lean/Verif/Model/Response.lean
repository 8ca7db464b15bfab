import Verif.Model.SparqlParser
import Verif.Model.Prefixes
import Verif.Model.TriplePlan
import Verif.Model.Export
import Verif.Model.Answers
import Verif.Model.Modifiers
import Verif.Model.Filter
/-
From the text of a query to the text of the response: how the parser, the planner, the execution and the export work together for
queries that consist of triples and filters (`Server::process`, /repo/src/engine/Server.cpp:201-238).

Simplifications: other queries are not modelled here, see `plainTriples`; of the possible runs only those are described in which every
step succeeds (for exceptions see C71).  The result comes from the execution of the plan, not from the cache (C44, C73).
-/
namespace Verif.Response
open SparqlParser (Query Filter Op)
open Server (Str Run)
open TriplePlan (Pattern)

/-- The predicates of text nodes (`isTextNode`, /repo/src/engine/QueryPlanner.cpp:2281-2291, /repo/src/global/Constants.h:39-45) -/
def textPredicates : List Str :=
  ["<QLever-internal-function/contains-entity>".toList, "<QLever-internal-function/contains-word>".toList,
    "<QLever-internal-function/text>".toList]

/-- The comparisons among the types of filters (/repo/src/parser/ParsedQuery.h:181-191). -/
def cmpOf : SparqlParser.FilterType → Option FilterSpec.Cmp
  | .eq => some .eq
  | .ne => some .ne
  | .lt => some .lt
  | .le => some .le
  | .gt => some .gt
  | .ge => some .ge
  | .regex | .pre => none

/-- The filter compares two variables. -/
def comparesVariables (f : Filter) : Bool :=
  (cmpOf f.type).isSome && f.lhs.head? == some '?' && f.rhs.head? == some '?' && f.additionalLhs.isEmpty

/-- The variables of a filter that have to be covered before it is applied (QueryPlanner.cpp:2193-2201). -/
def filterVars (f : Filter) : List Planner.Var := [String.ofList f.lhs, String.ofList f.rhs]

/-- The comparison of two ids in `computeFilter` for columns of type `KB` (/repo/src/engine/Filter.cpp:134-201, 210-214). -/
def compareIds : FilterSpec.Cmp → Nat → Nat → Bool
  | .eq, x, y => decide (x = y)
  | .ne, x, y => decide (x ≠ y)
  | .lt, x, y => decide (x < y)
  | .le, x, y => decide (x ≤ y)
  | .gt, x, y => decide (y < x)
  | .ge, x, y => decide (y ≤ x)

/-- Whether filter `i` keeps a row with the bindings `s`.  That this is what `Filter::computeResult` (Filter.cpp:241-265) does on a table is
`filter_run` (Props/C79_Responses). -/
def keepIds (fs : List Filter) (i : Nat) (s : Planner.Var → Option Nat) : Bool :=
  match fs[i]? with
  | none => true
  | some f =>
    match cmpOf f.type with
    | none => true
    | some c => compareIds c ((s (String.ofList f.lhs)).getD ID_NO_VALUE) ((s (String.ofList f.rhs)).getD ID_NO_VALUE)

/-- The triples of a query that has nothing else but filters that compare variables, a selection of variables, DISTINCT, ORDER BY, LIMIT and
OFFSET.  For such a query `createExecutionTree` (QueryPlanner.cpp:37-104) puts DISTINCT and ORDER BY on the plans in the last row of the table
for its triples: `checkUsePatternTrick` requires GROUP BY (443), and `optimize` (106-436) fills the table for the triples and the filters
(407-419) and then tries to apply the filters once more (421-425). -/
def plainTriples : Query → Option (List Pattern)
  | .mk info (.mk fs [.basic ts]) =>
    if info.groupBy = [] ∧ info.aliases = [] ∧ info.having = [] ∧ info.selected.all (fun v => v.head? == some '?') ∧
      fs.all comparesVariables ∧ ts.all (fun t => t.p.op == .iri && !textPredicates.contains t.p.iri)
    then some (ts.map fun t => ⟨String.ofList t.s, String.ofList t.p.iri, String.ofList t.o⟩) else none
  | _ => none

/-- What the server uses of the index: the ids of words, the number of words, the permutations, and the words of ids. -/
structure Store where
  ids : String → Option Nat
  nofWords : Nat
  idx : Permutation.Name → Permutation.Perm
  word : Nat → Option Str

/-- What is needed to write the cells: all columns have the type `KB` (IndexScan.cpp:264-380, Join.cpp:115-123, 249-267). -/
def Store.names (S : Store) : Export.Names := ⟨S.word, fun _ => [], fun _ => [], []⟩

/-- The index `idx` with the vocabulary that has been loaded, see Model/Answers. -/
def storeOf (c : Collation.Collator) (fuel : Nat) (l : VocabularyMerger.Loaded) (prefixes langs : List Str) (nofWords : Nat)
    (idx : Permutation.Name → Permutation.Perm) : Store :=
  ⟨Answers.lookup c fuel (Answers.vocabOf l prefixes langs), nofWords, idx, Answers.showId l⟩

/-- The result of a plan, as it is given to `composeResponseJson`. -/
def resultOf (P : Planner.Params) (t : Planner.Tree) (x : Table) : Export.Result :=
  ⟨x, (t.cols P).map fun q => (q.1.toList, q.2), List.replicate t.width .kb⟩

/-- `keepIndices` of `getDistinctRow` (QueryPlanner.cpp:812-838) for variables; the columns in `done` are those found so far. -/
def keepIndices (m : MultiJoin.VarMap) : List Nat → List Str → List Nat
  | done, [] => done
  | done, v :: vs =>
    match m.lookup (String.ofList v) with
    | some c => keepIndices m (if done.contains c then done else done ++ [c]) vs
    | none => keepIndices m done vs

/-- `sortIndices` of `getOrderByRow` (QueryPlanner.cpp:1051, 1066-1069); `getVariableColumn` throws if there is no column
(/repo/src/engine/QueryExecutionTree.cpp:73-79). -/
def keyColumns (m : MultiJoin.VarMap) : List SparqlParser.OrderKey → Option (List (Nat × Bool))
  | [] => some []
  | k :: ks =>
    match m.lookup (String.ofList k.key) with
    | some c => (keyColumns m ks).map ((c, k.desc) :: ·)
    | none => none

/-- DISTINCT and then ORDER BY (QueryPlanner.cpp:76-88) on a plan with the columns `m`, the width `w` and the order `sortedOn`, whose result is
`x`; the result is `z`.  All operations keep the columns (`Distinct::getVariableColumns`, /repo/src/engine/Distinct.cpp; QueryPlanner.cpp:856,
869, 1059, 1083). -/
def Modified (m : MultiJoin.VarMap) (w : Nat) (sortedOn : List Nat) (info : SparqlParser.Info) (x z : Table) : Prop :=
  ∃ (y : Table) (s : List Nat),
    (if info.distinct then
      Modifiers.DistinctRow w sortedOn (keepIndices m [] info.selected) x (.ok y) ∧
        s = Modifiers.distinctSortedOn sortedOn (keepIndices m [] info.selected)
    else y = x ∧ s = sortedOn) ∧
    if info.orderBy = [] then z = y else ∃ keys, keyColumns m info.orderBy = some keys ∧ Modifiers.OrderByRow s keys y (.ok z)

/-- A run of Server.cpp:206-220 for the text of a query, and the execution of the plan: parse and expand prefixes, plan, execute.  The result
of the plan `t` is `z`.  Which plan is the cheapest after DISTINCT and ORDER BY have been added is left open.  `env`, `norm` and `rounds` are
for the parser (C68), `fresh` and `P` for the planner (C65, C76). -/
inductive Executes (env : SparqlParser.Env) (norm : Str → Outcome Str) (rounds : Nat) (S : Store) (fresh : Nat → Planner.Var) (P : Planner.Params)
    (text : Str) : SparqlParser.Info → Planner.Tree → Table → Prop
  | run {info : SparqlParser.Info} {fs : List Filter} {ops : List Op} {ps : List Pattern} {seeded : List (Planner.Node × List TriplePlan.Leaf)}
      {rows : List (List Planner.Plan)} {row : List Planner.Plan} {p : Planner.Plan} {x z : Table} :
      (SparqlParser.parse env norm rounds text).bind Prefixes.expandPrefixes = .ok (.mk info (.mk fs ops)) →
      plainTriples (.mk info (.mk fs ops)) = some ps →
      TriplePlan.triplesNodes true fresh ps 0 = .ok seeded →
      Planner.fillDpTab P (seeded.map (·.1)) (fs.map filterVars) [] = .ok rows →
      rows.getLast? = some row →
      p ∈ Planner.applyFilters P (fs.map filterVars) true row →
      (info.distinct = false → info.orderBy = [] → Planner.cheapest P (Planner.applyFilters P (fs.map filterVars) true row) = some p) →
      Planner.Eval P (TriplePlan.groupData S.ids S.nofWords S.idx seeded) (keepIds fs) p.tree x →
      Modified (p.tree.cols P) p.tree.width p.tree.sortedOn info x z →
      Executes env norm rounds S fresh P text info p.tree z

/-- The response in the JSON format (Server.cpp:235-237); `X` is for the parts of the response that depend on times. -/
inductive Responds (env : SparqlParser.Env) (norm : Str → Outcome Str) (rounds : Nat) (S : Store) (fresh : Nat → Planner.Var) (P : Planner.Params)
    (X : Export.Extra) (maxSend : Nat) (text : Str) : Run Str → Prop
  | answer {info : SparqlParser.Info} {t : Planner.Tree} {z : Table} : Executes env norm rounds S fresh P text info t z →
      Responds env norm rounds S fresh P X maxSend text
        (Export.composeJson S.names X text info.selected info.limit info.offset maxSend (resultOf P t z))

/-- The response in the formats with separators (Server.cpp:222-233). -/
inductive Exports (env : SparqlParser.Env) (norm : Str → Outcome Str) (rounds : Nat) (S : Store) (fresh : Nat → Planner.Var) (P : Planner.Params)
    (sep : Char) (text : Str) : Run Str → Prop
  | answer {info : SparqlParser.Info} {t : Planner.Tree} {z : Table} : Executes env norm rounds S fresh P text info t z →
      Exports env norm rounds S fresh P sep text (Export.composeSepValues S.names sep info.selected info.limit info.offset (resultOf P t z))

end Verif.Response
