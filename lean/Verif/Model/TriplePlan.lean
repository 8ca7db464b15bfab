import Verif.Model.Planner
import Verif.Model.Permutation
import Verif.Model.Filter
import Mathlib.Data.List.Dedup
/-
Model of the plans for a triple of a query (`QueryPlanner::seedWithScansAndText`, /repo/src/engine/QueryPlanner.cpp:1154-1476,
the part for triples whose predicate is an IRI or a variable) and of index scans (/repo/src/engine/IndexScan.cpp).

Simplifications: the vocabulary is a function from words to ids.  Timeouts, result types, descriptors and estimates are left out.
Scans for `ql:has-predicate` are only named here, see Model/Patterns.
-/
namespace Verif.TriplePlan
open Permutation (Name Perm)
open Planner (Alt Node Var)
open MultiJoin (VarMap)

/-- `isVariable` (/repo/src/parser/ParsedQuery.h:83-85) -/
def isVariable (s : String) : Bool := s.toList.head? == some '?'

/-- `SparqlTriple` with a simple predicate. -/
structure Pattern where
  s : String
  p : String
  o : String
  deriving DecidableEq

/-- `_variables` of a node (/repo/src/engine/QueryPlanner.h:30-41). -/
def Pattern.vars (t : Pattern) : List Var := ([t.s, t.p, t.o].filter isVariable).dedup

/-- `IndexScan::ScanType` (/repo/src/engine/IndexScan.h:14-30) -/
inductive ScanType where
  | psoBoundS | posBoundO | sopBoundO
  | psoFreeS | posFreeO | spoFreeP | sopFreeO | opsFreeP | ospFreeS
  | full (n : Name)
  deriving DecidableEq

/-- `IndexScan`: the type and the terms that have been set. -/
structure Scan where
  type : ScanType
  s : String := ""
  p : String := ""
  o : String := ""
  deriving DecidableEq

/-- `IndexScan::getResultWidth` (IndexScan.cpp:76-99) -/
def Scan.width (x : Scan) : Nat :=
  match x.type with
  | .psoBoundS | .posBoundO | .sopBoundO => 1
  | .psoFreeS | .posFreeO | .spoFreeP | .sopFreeO | .ospFreeS | .opsFreeP => 2
  | .full _ => 3

/-- `IndexScan::resultSortedOn` (IndexScan.cpp:102-125) -/
def Scan.sortedOn (x : Scan) : List Nat :=
  match x.type with
  | .psoBoundS | .posBoundO | .sopBoundO => [0]
  | .psoFreeS | .posFreeO | .spoFreeP | .sopFreeO | .ospFreeS | .opsFreeP => [0, 1]
  | .full _ => [0, 1, 2]

/-- `res[v] = col` -/
def assign (m : VarMap) (v : Var) (col : Nat) : VarMap := m.filter (·.1 ≠ v) ++ [(v, col)]

/-- A number of `if (term[0] == '?') { res[term] = col++; }`, starting with column `col`. -/
def columnsFrom (m : VarMap) (col : Nat) : List String → VarMap
  | [] => m
  | t :: ts => if isVariable t then columnsFrom (assign m t col) (col + 1) ts else columnsFrom m col ts

/-- `IndexScan::getVariableColumns` (IndexScan.cpp:128-225) -/
def Scan.variableColumns (x : Scan) : VarMap :=
  columnsFrom [] 0 <| match x.type with
    | .spoFreeP | .full .spo => [x.s, x.p, x.o]
    | .sopFreeO | .sopBoundO | .full .sop => [x.s, x.o, x.p]
    | .psoBoundS | .psoFreeS | .full .pso => [x.p, x.s, x.o]
    | .posBoundO | .posFreeO | .full .pos => [x.p, x.o, x.s]
    | .opsFreeP | .full .ops => [x.o, x.p, x.s]
    | .ospFreeS | .full .osp => [x.o, x.s, x.p]

/-- `Index::scan` for one word (/repo/src/index/Index.h:397-408), as a table. -/
def scanWord (p : Perm) (key : Option Nat) : Outcome Table :=
  match key with
  | some k => (Permutation.scan p k).map fun res => res.map fun q => [q.1, q.2]
  | none => .ok []

/-- `Index::scan` for two words (Index.h:425-467), as a table. -/
def scanWords (p : Perm) (key1 key2 : Option Nat) : Outcome Table :=
  (Permutation.scanKeys p key1 key2).map fun res => res.map fun z => [z]

/-- `IndexScan::computeResult` (IndexScan.cpp:227-311, 339-393); `ids` is the vocabulary and `idx` are the permutations. -/
def Scan.result (ids : String → Option Nat) (idx : Name → Perm) (x : Scan) : Outcome Table :=
  match x.type with
  | .psoBoundS => scanWords (idx .pso) (ids x.p) (ids x.s)
  | .posBoundO => scanWords (idx .pos) (ids x.p) (ids x.o)
  | .sopBoundO => scanWords (idx .sop) (ids x.s) (ids x.o)
  | .psoFreeS => scanWord (idx .pso) (ids x.p)
  | .posFreeO => scanWord (idx .pos) (ids x.p)
  | .spoFreeP => scanWord (idx .spo) (ids x.s)
  | .sopFreeO => scanWord (idx .sop) (ids x.s)
  | .ospFreeS => scanWord (idx .osp) (ids x.o)
  | .opsFreeP => scanWord (idx .ops) (ids x.o)
  | .full _ => .throw

/-- The scans of a join with a full index scan (`Join::getScanMethod`, /repo/src/engine/Join.cpp:276-314). -/
def Scan.joinScan (idx : Name → Perm) (x : Scan) (id : Nat) : Outcome Table :=
  match x.type with
  | .full n => scanWord (idx n) (some id)
  | _ => .throw

/-- A plan for a triple. -/
inductive Leaf where
  /-- an index scan, with the columns set for the tree -/
  | scan (x : Scan) (cols : VarMap)
  /-- a filter that keeps the rows of an index scan with equal values in the columns of two variables -/
  | equal (x : Scan) (cols : VarMap) (v w : Var)
  /-- a scan for `ql:has-predicate` -/
  | hasPredicate (s o : String)
  deriving DecidableEq

/-- `HAS_PREDICATE_PREDICATE` (/repo/src/global/Constants.h:46-47) -/
def hasPredicateIri : String := "<QLever-internal-function/has-predicate>"

/-- `tree.setVariableColumn` for several variables (/repo/src/engine/QueryExecutionTree.cpp). -/
def setColumns (l : List (Var × Nat)) : VarMap := l.foldl (fun m p => assign m p.1 p.2) []

/-- The plans for a triple (QueryPlanner.cpp:1172-1464).  `all`: all permutations are loaded.  `fresh` is the name that
`generateUniqueVarName` returns. -/
def leafPlans (all : Bool) (fresh : Var) (t : Pattern) : Outcome (List Leaf) :=
  let scan (type : ScanType) (l : List (Var × Nat)) : Leaf := .scan ⟨type, t.s, t.p, t.o⟩ (setColumns l)
  if t.vars.length = 0 then .throw
  else if t.vars.length = 1 then
    if t.p = hasPredicateIri then .ok [.hasPredicate t.s t.o]
    else if isVariable t.s && isVariable t.o && t.s == t.o then
      if isVariable t.p then .throw
      else .ok [.equal ⟨.psoFreeS, t.s, t.p, fresh⟩ (setColumns [(t.s, 0), (fresh, 1)]) t.s fresh]
    else if isVariable t.s then .ok [scan .posBoundO [(t.s, 0)]]
    else if isVariable t.o then .ok [scan .psoBoundS [(t.o, 0)]]
    else .ok [scan .sopBoundO [(t.p, 0)]]
  else if t.vars.length = 2 then
    if t.p = hasPredicateIri then .ok [.hasPredicate t.s t.o]
    else if !isVariable t.p then .ok [scan .psoFreeS [(t.s, 0), (t.o, 1)], scan .posFreeO [(t.o, 0), (t.s, 1)]]
    else if !isVariable t.s then .ok [scan .spoFreeP [(t.p, 0), (t.o, 1)], scan .sopFreeO [(t.o, 0), (t.p, 1)]]
    else if !isVariable t.o then .ok [scan .ospFreeS [(t.s, 0), (t.p, 1)], scan .opsFreeP [(t.p, 0), (t.s, 1)]]
    else .ok []
  else if all then
    let full (n : Name) (l : List (Var × Nat)) : Leaf := .scan { type := .full n } (setColumns l)
    .ok [full .spo [(t.s, 0), (t.p, 1), (t.o, 2)], full .sop [(t.s, 0), (t.o, 1), (t.p, 2)],
      full .pso [(t.p, 0), (t.s, 1), (t.o, 2)], full .pos [(t.p, 0), (t.o, 1), (t.s, 2)],
      full .osp [(t.o, 0), (t.s, 1), (t.p, 2)], full .ops [(t.o, 0), (t.p, 1), (t.s, 2)]]
  else .throw

/-- What the dynamic programming sees of a plan; a filter has the width, order and columns of its subtree. -/
def Leaf.alt : Leaf → Alt
  | .scan x cols => ⟨true, x.width, x.sortedOn, cols⟩
  | .equal x cols _ _ => ⟨false, x.width, x.sortedOn, cols⟩
  | .hasPredicate _ _ => ⟨false, 0, [], []⟩

/-- What a plan returns.  The filter (/repo/src/engine/Filter.cpp:204-) compares the columns of its variables. -/
def Leaf.result (ids : String → Option Nat) (idx : Name → Perm) : Leaf → Outcome Table
  | .scan x _ => x.result ids idx
  | .equal x cols v w => (x.result ids idx).bind fun t =>
    match cols.lookup v, cols.lookup w with
    | some a, some b => Filter.computeFilter Filter.idReader .eq a b t
    | _, _ => .throw
  | .hasPredicate _ _ => .throw

/-- What a join with the plan reads for an id, see `Scan.joinScan`. -/
def Leaf.joinScan (idx : Name → Perm) : Leaf → Nat → Outcome Table
  | .scan x _, id => x.joinScan idx id
  | _, _ => .throw

/-- The nodes of the triple graph, with the plans for each of them; the names of additional variables are taken from `fresh`. -/
def triplesNodes (all : Bool) (fresh : Nat → Var) : List Pattern → Nat → Outcome (List (Node × List Leaf))
  | [], _ => .ok []
  | t :: ts, i => (leafPlans all (fresh i) t).bind fun ls =>
    (triplesNodes all fresh ts (i + 1)).map (((⟨t.vars, ls.map Leaf.alt⟩ : Node), ls) :: ·)

/-! ### What the plans return -/

/-- The rows that joins can read of a scan of all triples: for each id those that the index returns for the id. -/
def fullTable (N : Nat) (D : Nat → Table) : Table := (List.range N).flatMap fun id => (D id).map (id :: ·)

/-- What a plan returns (IndexScan.cpp:240-262).  A scan of all triples cannot be executed by itself, but joins read from the index
(Join.cpp:276-314). -/
def LeafData (ids : String → Option Nat) (N : Nat) (idx : Name → Perm) (l : Leaf) (x : Table) : Prop :=
  if l.alt.scan = true ∧ l.alt.width = 3 then ∃ D, (∀ id, id < N → l.joinScan idx id = .ok (D id)) ∧ x = fullTable N D
  else l.result ids idx = .ok x

/-- The tables of the alternatives for the triples of a group: alternative `k` for triple `j` returns `x`. -/
def groupData (ids : String → Option Nat) (N : Nat) (idx : Name → Perm) (seeded : List (Node × List Leaf)) (j k : Nat) (x : Table) : Prop :=
  ∃ nd l, seeded[j]? = some nd ∧ nd.2[k]? = some l ∧ LeafData ids N idx l x

end Verif.TriplePlan
