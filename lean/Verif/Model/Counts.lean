import Verif.Model.Response
import Verif.Model.GroupBy
import Verif.Model.Filter
/-
From the text of a query with GROUP BY and COUNT, MIN or MAX to the text of the response (`Server::process`, /repo/src/engine/Server.cpp:201-238), for
queries that consist of triples and filters as in Model/Response.

Simplifications: as in Model/Response; other aggregates are not modelled here (see Model/GroupBy for them), and of the possible runs only
those are described in which every step succeeds and every aggregated variable has a column.
-/
namespace Verif.Counts
open SparqlParser (Query Filter Op)
open Server (Str Run)
open TriplePlan (Pattern)
open Response (Store cmpOf comparesVariables textPredicates filterVars keepIds Modified)
open GroupBy (Aggregate)

/-- The filter compares a variable with a constant. -/
def comparesConstant (f : Filter) : Bool := (cmpOf f.type).isSome && f.rhs.head? != some '?' && !f.lhsAsString && f.additionalLhs.isEmpty

/-- The triples of a query that has nothing else but filters that compare variables, a selection of variables and aggregates, GROUP BY, HAVING with
comparisons with constants, ORDER BY, LIMIT and OFFSET.  For such a query `createExecutionTree` (/repo/src/engine/QueryPlanner.cpp:37-104) puts a
GroupBy on the plans of `optimize`, and then HAVING and ORDER BY; `checkUsePatternTrick` (437-784) does not apply, since all predicates are constants other than `ql:has-predicate`. -/
def groupedTriples : Query → Option (List Pattern)
  | .mk info (.mk fs [.basic ts]) =>
    if info.groupBy ≠ [] ∧ info.aliases.all (fun a => a.type == .count || a.type == .min || a.type == .max) ∧ info.having.all comparesConstant ∧ info.distinct = false ∧
      info.selected.all (fun v => v.head? == some '?') ∧ fs.all comparesVariables ∧
      ts.all (fun t => t.p.op == .iri && !textPredicates.contains t.p.iri && t.p.iri.head? != some '?' &&
        t.p.iri != TriplePlan.hasPredicateIri.toList)
    then some (ts.map fun t => ⟨String.ofList t.s, String.ofList t.p.iri, String.ofList t.o⟩) else none
  | _ => none

/-- An alias as the GroupBy gets it (/repo/src/parser/ParsedQuery.h:293-302). -/
def aliasOf (a : SparqlParser.Alias) : GroupBy.Alias where
  type := match a.type with
    | .count => .count
    | .sample => .sample
    | .min => .min
    | .max => .max
    | .sum => .sum
    | .avg => .avg
    | .groupConcat => .groupConcat
  inVar := String.ofList a.inVar
  outVar := String.ofList a.outVar
  distinct := a.distinct
  delim := a.delimiter

/-- The types of columns are given to the export as they are (/repo/src/engine/ResultTable.h:29-43). -/
def kindOf : ResultTable.RT → Export.Kind
  | .kb => .kb
  | .verbatim => .verbatim
  | .text => .text
  | .float => .float
  | .localVocab => .localVocab

/-- `m` lists the entries of the hash map `f`, in some order. -/
def Lists (m : MultiJoin.VarMap) (f : String → Option Nat) : Prop := (m.map (·.1)).Nodup ∧ ∀ v c, (v, c) ∈ m ↔ f v = some c

/-- HAVING on a plan with the columns `m`, their types `tys` and the order `sortedOn`, whose result is `y`: `getHavingRow`
(QueryPlanner.cpp:970-990) builds the filter for every clause on the plan without filters and keeps the last one (see C56).  The filter is
described for columns of numbers, as COUNT yields them (`computeResultFixedValue`, /repo/src/engine/Filter.cpp:619-780, for columns of type
VERBATIM). -/
def Restricted (m : MultiJoin.VarMap) (tys : List ResultTable.RT) (sortedOn : List Nat) (info : SparqlParser.Info) (y y' : Table) : Prop :=
  match info.having.getLast? with
  | none => y' = y
  | some f => ∃ c lhs, cmpOf f.type = some c ∧ m.lookup (String.ofList f.lhs) = some lhs ∧ tys[lhs]? = some .verbatim ∧
      Verif.Filter.filterVerbatim c (sortedOn.head? == some lhs) lhs f.rhs y = .ok y'

/-- A run of Server.cpp:206-220: parse and expand prefixes, plan, execute the plan `p` for the triples and filters, group its result `x`
(`getGroupByRow`, QueryPlanner.cpp:993-1035, `GroupBy::computeResult`, /repo/src/engine/GroupBy.cpp:686-824) into `y`, keep the groups
for which the condition of HAVING holds in `y'`, and order them into `z`.  The constructor of GroupBy sorts the variables and the aliases by name (GroupBy.cpp:16-30); `fresh'` is what new rows hold before the
cells are written.  Which plan is the cheapest is left open. -/
inductive Executes {F : Type} (genv : GroupBy.Env F) (env : SparqlParser.Env) (norm : Str → Outcome Str) (rounds : Nat) (S : Store)
    (fresh : Nat → Planner.Var) (P : Planner.Params) (text : Str) : SparqlParser.Info → Export.Result → Prop
  | run {info : SparqlParser.Info} {fs : List Filter} {ops : List Op} {ps : List Pattern} {seeded : List (Planner.Node × List TriplePlan.Leaf)}
      {rows : List (List Planner.Plan)} {row : List Planner.Plan} {p : Planner.Plan} {x y y' z : Table} {groupVars : List String}
      {aliases : List GroupBy.Alias} {cols : List Nat} {aggs : List Aggregate} {fresh' : Row} {tys : List ResultTable.RT}
      {vocab : List (List Char)} {m : MultiJoin.VarMap} :
      (SparqlParser.parse env norm rounds text).bind Prefixes.expandPrefixes = .ok (.mk info (.mk fs ops)) →
      groupedTriples (.mk info (.mk fs ops)) = some ps →
      TriplePlan.triplesNodes true fresh ps 0 = .ok seeded →
      Planner.fillDpTab P (seeded.map (·.1)) (fs.map filterVars) [] = .ok rows →
      rows.getLast? = some row →
      p ∈ Planner.applyFilters P (fs.map filterVars) true row →
      Planner.Eval P (TriplePlan.groupData S.ids S.nofWords S.idx seeded) (keepIds fs) p.tree x →
      groupVars.Perm (info.groupBy.map String.ofList) → groupVars.Pairwise (· ≤ ·) →
      aliases.Perm (info.aliases.map aliasOf) → (aliases.map (·.outVar)).Pairwise (· ≤ ·) →
      groupVars.mapM (fun v => (p.tree.cols P).lookup v) = some cols →
      GroupBy.aggregates groupVars aliases (fun v => (p.tree.cols P).lookup v) = some aggs →
      fresh'.length = GroupBy.resultWidth groupVars aliases →
      GroupBy.resultTypes (List.replicate p.tree.width .kb) (GroupBy.resultWidth groupVars aliases) aggs = .ok tys →
      GroupBy.GroupByRow genv fresh' p.tree.sortedOn x (List.replicate p.tree.width .kb) cols (aggs.drop groupVars.length) aggs (.ok (y, vocab)) →
      Lists m (GroupBy.varColMap groupVars aliases) →
      Restricted m tys (groupVars.filterMap (GroupBy.varColMap groupVars aliases)) info y y' →
      Modified m (GroupBy.resultWidth groupVars aliases) (groupVars.filterMap (GroupBy.varColMap groupVars aliases)) info y' z →
      Executes genv env norm rounds S fresh P text info ⟨z, m.map fun q => (q.1.toList, q.2), tys.map kindOf⟩

/-- The response in the JSON format (Server.cpp:235-237). -/
inductive Responds {F : Type} (genv : GroupBy.Env F) (env : SparqlParser.Env) (norm : Str → Outcome Str) (rounds : Nat) (S : Store)
    (fresh : Nat → Planner.Var) (P : Planner.Params) (X : Export.Extra) (maxSend : Nat) (text : Str) : Run Str → Prop
  | answer {info : SparqlParser.Info} {res : Export.Result} : Executes genv env norm rounds S fresh P text info res →
      Responds genv env norm rounds S fresh P X maxSend text
        (Export.composeJson S.names X text info.selected info.limit info.offset maxSend res)

end Verif.Counts
