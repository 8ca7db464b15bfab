import Verif.Model.Planner
import Verif.Model.Union
/-
Model of `QueryPlanner::optimize` (/repo/src/engine/QueryPlanner.cpp:106-436), which plans a group graph pattern: its triples,
OPTIONAL, MINUS, UNION and BIND clauses, its nested groups and its filters, and of how the resulting execution trees are executed.

Simplifications: as in Model/Planner; VALUES, subqueries and transitive paths are operations that are not looked into.  The
expressions of BIND and FILTER are identified by numbers.
-/
namespace Verif.GroupPlanner
open MultiJoin (VarMap JoinCols)
open Planner (Var Params Tree Plan Alt Node)

/-- `SparqlFilter`: what it tests, and the variables that `applyFiltersIfPossible` asks for. -/
structure Flt where
  id : Nat
  vars : List Var
  deriving DecidableEq

/-- `SparqlTriple` and the scans for it. -/
structure Triple where
  id : Nat
  node : Node
  deriving DecidableEq

/-- `ParsedQuery::GraphPattern` (/repo/src/parser/ParsedQuery.h): the `_children` one after the other.  A nested group comes with
its `_filters`. -/
inductive Children where
  | nil
  /-- `BasicGraphPattern` -/
  | triples (ts : List Triple) (rest : Children)
  /-- `Values`, `Subquery`, `TransPath` -/
  | op (id : Nat) (a : Alt) (rest : Children)
  | optional (child : Children) (fs : List Flt) (rest : Children)
  | minus (child : Children) (fs : List Flt) (rest : Children)
  | bind (target : Var) (e : Nat) (rest : Children)
  /-- `GroupGraphPattern` -/
  | group (child : Children) (fs : List Flt) (rest : Children)
  | union (child1 : Children) (fs1 : List Flt) (child2 : Children) (fs2 : List Flt) (rest : Children)

/-- Execution trees for groups.  `joined` is a tree that `fillDpTab` built: for the filters `fs`, the triples `ts` and the plans
`kids` for other patterns; its leaves refer to them. -/
inductive GTree where
  | op (id : Nat) (a : Alt)
  | joined (t : Tree) (fs : List Flt) (ts : List Triple) (kids : List (List GTree))
  | orderBy (t : GTree) (cols : List Nat)
  | filter (t : GTree) (f : Flt)
  | optional (l r : GTree) (lOpt rOpt : Bool) (jcs : JoinCols)
  | minus (l r : GTree) (jcs : JoinCols)
  | bind (t : GTree) (v : Var) (e : Nat)
  /-- `origins` is `_columnOrigins`, which the constructor computes -/
  | union (l r : GTree) (origins : List (Option Nat × Option Nat))

/-- What the planner does not determine itself. -/
structure GParams where
  /-- for `fillDpTab` -/
  table : List Flt → List Triple → List (List GTree) → Params
  /-- `t1->asString() < t2->asString()` -/
  less : GTree → GTree → Bool
  /-- the iteration order of a hash map from variables to columns -/
  shuffle : VarMap → VarMap
  /-- `getCostEstimate` -/
  cost : GTree → Nat

/-- `SubtreePlan`: the tree and `_idsOfIncludedFilters`. -/
structure GPlan where
  tree : GTree
  filters : Nat

namespace GTree

/-- `getType() == SCAN` -/
def isScan : GTree → Bool
  | op _ a => a.scan
  | joined t _ _ _ => t.isScan
  | _ => false

/-- `getResultWidth` (OptionalJoin.cpp:152-157, Minus.cpp:83, Bind.cpp:12, Union.cpp:53-58) -/
def width : GTree → Nat
  | op _ a => a.width
  | joined t _ _ _ => t.width
  | orderBy t _ => t.width
  | filter t _ => t.width
  | optional l r _ _ jcs => l.width + r.width - jcs.length
  | minus l _ _ => l.width
  | bind t _ _ => t.width + 1
  | union _ _ origins => origins.length

/-- `resultSortedOn` (OptionalJoin.cpp:160-167, Minus.cpp:86, Bind.cpp:57-62, Union.cpp:60) -/
def sortedOn : GTree → List Nat
  | op _ a => a.sortedOn
  | joined t _ _ _ => t.sortedOn
  | orderBy _ cs => Modifiers.orderBySortedOn (cs.map fun c => (c, false))
  | filter t _ => t.sortedOn
  | optional _ _ _ _ jcs => jcs.map (·.1)
  | minus l _ _ => l.sortedOn
  | bind t _ _ => t.sortedOn
  | union _ _ _ => []

/-- `getVariableColumns` (OptionalJoin.cpp:127-149, Minus.cpp:78-80, Bind.cpp:102-107: the target is not bound yet; Union.cpp:62-75) -/
def cols (G : GParams) : GTree → VarMap
  | op _ a => G.shuffle a.cols
  | joined t fs ts kids => t.cols (G.table fs ts kids)
  | orderBy t _ => t.cols G
  | filter t _ => t.cols G
  | optional l r _ _ jcs => G.shuffle (MultiJoin.optionalVariableColumns (l.cols G) (r.cols G) l.width jcs)
  | minus l _ _ => l.cols G
  | bind t v _ => G.shuffle (t.cols G ++ [(v, t.width)])
  | union l r _ => G.shuffle (Union.variableColumns (l.cols G) (r.cols G))

/-- An index scan of all triples. -/
def isDummy (t : GTree) : Bool := t.isScan && t.width == 3

end GTree

section
variable (G : GParams)

/-- A plan as a seed for `fillDpTab`. -/
def asAlt (t : GTree) : Alt := ⟨t.isScan, t.width, t.sortedOn, t.cols G⟩

/-- `optimizeCommutativ` (QueryPlanner.cpp:126-142): the last row of the table. -/
def optimizeCommutative (fs : List Flt) (ts : List Triple) (plans : List (List GPlan)) : Outcome (List GPlan) :=
  let kids := plans.map fun ps => ps.map (·.tree)
  (Planner.fillDpTab (G.table fs ts kids) (ts.map (·.node)) (fs.map (·.vars)) (kids.map fun ps => ps.map (asAlt G))).map fun rows =>
    (rows.getLast?.getD []).map fun p => ⟨.joined p.tree fs ts kids, p.filters⟩

/-- `QueryPlanner::getJoinColumns` (QueryPlanner.cpp:2120-2133). -/
def getJoinColumns (a b : GTree) : JoinCols :=
  (a.cols G).filterMap fun p => ((b.cols G).lookup p.1).map fun c => (p.2, c)

/-- A side of an OPTIONAL or MINUS: sorted on all join columns (QueryPlanner.cpp:1889-1925, 1945-1981). -/
def ordered (t : GTree) (cs : List Nat) : GTree := if cs.isPrefixOf t.sortedOn then t else .orderBy t cs

/-- The constructor of `OptionalJoin` (/repo/src/engine/OptionalJoin.cpp:12-34). -/
def mkOptional (a b : GTree) (aOpt bOpt : Bool) (jcs : JoinCols) : GTree :=
  if G.less a b then .optional a b aOpt bOpt jcs else .optional b a bOpt aOpt (jcs.map Prod.swap)

/-- `createJoinCandidates` (QueryPlanner.cpp:2757-2801) for an OPTIONAL on the right, with `optionalJoin` (1883-1934). -/
def optionalJoin (a b : GTree) : List GPlan :=
  let jcs := getJoinColumns G a b
  if jcs = [] then []
  else [⟨mkOptional G (ordered a (jcs.map (·.1))) (ordered b (jcs.map (·.2))) false true jcs, 0⟩]

/-- `createJoinCandidates` for a MINUS on the right, with `minus` (QueryPlanner.cpp:1937-1993).  The constructor of `Minus` checks
that the sides are sorted (Minus.cpp:15-30), and they are. -/
def minusJoin (a b : GTree) : List GPlan :=
  let jcs := getJoinColumns G a b
  if jcs = [] then [] else [⟨.minus (ordered a (jcs.map (·.1))) (ordered b (jcs.map (·.2))) jcs, 0⟩]

/-- `findCheapestExecutionTree`: the first of the cheapest plans. -/
def cheapest : List GPlan → Option GPlan
  | [] => none
  | p :: ps => some (ps.foldl (fun m q => if G.cost q.tree < G.cost m.tree then q else m) p)

/-- `applyFiltersIfPossible` with `replace` (QueryPlanner.cpp:2159-2219) for one plan. -/
def applyFilters (fs : List Flt) (p : GPlan) : GPlan :=
  if p.tree.isDummy then p
  else fs.zipIdx.foldl (fun p f =>
    if (p.filters >>> f.2) &&& 1 = 0 && f.1.vars.all (fun v => ((p.tree.cols G).lookup v).isSome) then
      ⟨.filter p.tree f.1, p.filters ||| 1 <<< f.2⟩
    else p) p

/-- The local variables of `optimize`: `candidateTriples`, `candidatePlans`, `boundVariables`. -/
structure State where
  ts : List Triple
  plans : List (List GPlan)
  bound : List Var

def State.init : State := ⟨[], [], []⟩

/-- The variables that plans bind. -/
def planVars (ps : List GPlan) : List Var := ((ps.head?.map fun p => (p.tree.cols G).map (·.1)).getD [])

/-- `joinCandidates` for plans of type BASIC (QueryPlanner.cpp:211-245). -/
def addPlans (v : List GPlan) (s : State) : Outcome State :=
  if v.isEmpty then .throw else .ok { s with plans := s.plans ++ [v], bound := s.bound ++ planVars G v }

/-- `joinCandidates` for an OPTIONAL or MINUS that stays one (QueryPlanner.cpp:249-282): `join` makes the candidates. -/
def addJoined (fs : List Flt) (join : GTree → GTree → List GPlan) (v : List GPlan) (s : State) : Outcome State :=
  (optimizeCommutative G fs s.ts s.plans).bind fun lastRow =>
    match cheapest G (lastRow.flatMap fun a => v.flatMap fun b => join a.tree b.tree) with
    | none => .throw
    | some p => .ok ⟨[], [[p]], s.bound ++ planVars G v⟩

/-- `joinCandidates` for the plans of an OPTIONAL (QueryPlanner.cpp:211-282): if none of its variables is bound yet, it is
planned like an ordinary pattern. -/
def addOptional (fs : List Flt) (v : List GPlan) (s : State) : Outcome State :=
  if v.isEmpty then .throw
  else if (planVars G v).all (fun x => x ∉ s.bound) then addPlans G v s
  else addJoined G fs (optionalJoin G) v s

/-- `joinCandidates` for the plans of a MINUS. -/
def addMinus (fs : List Flt) (v : List GPlan) (s : State) : Outcome State :=
  if v.isEmpty then .throw else addJoined G fs (minusJoin G) v s

/-- `joinCandidates` for a BIND (QueryPlanner.cpp:184-208). -/
def addBind (fs : List Flt) (target : Var) (e : Nat) (s : State) : Outcome State :=
  if target ∈ s.bound then .throw
  else (optimizeCommutative G fs s.ts s.plans).map fun lastRow =>
    ⟨[], [lastRow.map fun a => ⟨.bind a.tree target e, a.filters⟩], s.bound ++ [target]⟩

/-- `optimizeSingle` (QueryPlanner.cpp:144-153) -/
def single (v : List GPlan) : Outcome GPlan :=
  match cheapest G v with
  | none => .throw
  | some p => .ok p

/-- The constructor of `Union` (/repo/src/engine/Union.cpp:9-39). -/
def mkUnion (l r : GTree) : Outcome GTree := (Union.columnOrigins (l.cols G) (r.cols G)).map fun origins => .union l r origins

/-- The plan for a UNION (QueryPlanner.cpp:304-318). -/
def addUnion (v1 v2 : List GPlan) (s : State) : Outcome State :=
  (single G v1).bind fun l => (single G v2).bind fun r => (mkUnion G l.tree r.tree).bind fun t => addPlans G [⟨t, 0⟩] s

/-- The end of `optimize` (QueryPlanner.cpp:402-435). -/
def finish (fs : List Flt) (s : State) : Outcome (List GPlan) :=
  (if 1 < s.plans.length ∨ s.ts ≠ [] then (optimizeCommutative G fs s.ts s.plans).map fun row => [row] else .ok s.plans).map
    fun plans => ((plans.head?).getD []).map (applyFilters G fs)

/-- `optimize` (QueryPlanner.cpp:106-436), the loop over the children. -/
def run : Children → List Flt → State → Outcome State
  | .nil, _, s => .ok s
  | .triples ts rest, fs, s =>
    run rest fs { s with ts := s.ts ++ ts, bound := s.bound ++ ts.flatMap (·.node.vars) }
  | .op id a rest, fs, s => (addPlans G [⟨.op id a, 0⟩] s).bind (run rest fs)
  | .optional child cfs rest, fs, s =>
    (run child cfs .init).bind fun c => (finish G cfs c).bind fun v => (addOptional G fs v s).bind (run rest fs)
  | .minus child cfs rest, fs, s =>
    (run child cfs .init).bind fun c => (finish G cfs c).bind fun v => (addMinus G fs v s).bind (run rest fs)
  | .bind target e rest, fs, s => (addBind G fs target e s).bind (run rest fs)
  | .group child cfs rest, fs, s =>
    (run child cfs .init).bind fun c => (finish G cfs c).bind fun v => (addPlans G v s).bind (run rest fs)
  | .union child1 fs1 child2 fs2 rest, fs, s =>
    (run child1 fs1 .init).bind fun c1 => (finish G fs1 c1).bind fun v1 =>
    (run child2 fs2 .init).bind fun c2 => (finish G fs2 c2).bind fun v2 => (addUnion G v1 v2 s).bind (run rest fs)

/-- `optimize` -/
def optimize (g : Children) (fs : List Flt) : Outcome (List GPlan) := (run G g fs .init).bind (finish G fs)

end

/-! ### Executing plans -/

/-- What the operations outside of this model return and test. -/
structure World where
  /-- the tables that scan `k` for a triple may return -/
  scan : Nat → Nat → Table → Prop
  /-- the tables that other operations may return -/
  op : Nat → Table → Prop
  /-- filters -/
  keep : Nat → (Var → Option Nat) → Bool
  /-- the cell that a BIND appends (Model/Bind) -/
  value : Nat → (Var → Option Nat) → Nat

/-- Filter `i` of a list. -/
def keepAt (W : World) (fs : List Flt) (i : Nat) (s : Var → Option Nat) : Bool :=
  match fs[i]? with
  | some f => W.keep f.id s
  | none => true

/-- The tables that the execution of a tree may return. -/
inductive GEval (G : GParams) (W : World) : GTree → Table → Prop
  | op {id a x} : W.op id x → GEval G W (.op id a) x
  | joined {t fs ts kids data x} :
    (∀ j k y tr, data j k y → ts[j]? = some tr → W.scan tr.id k y) →
    (∀ j k y ps g, data j k y → ts.length ≤ j → kids[j - ts.length]? = some ps → ps[k]? = some g → GEval G W g y) →
    Planner.Eval (G.table fs ts kids) data (keepAt W fs) t x → GEval G W (.joined t fs ts kids) x
  | orderBy {t cs x y} : GEval G W t x → Modifiers.OrderByOp (cs.map fun c => (c, false)) x (.ok y) → GEval G W (.orderBy t cs) y
  | filter {t f x} : GEval G W t x → GEval G W (.filter t f) (x.filter fun r => W.keep f.id (Planner.solution (t.cols G) r))
  | optional {l r lOpt rOpt jcs x y z fuel} : GEval G W l x → GEval G W r y → x.length + y.length < fuel →
    MultiJoin.optionalJoin fuel x y l.width lOpt rOpt jcs (GTree.optional l r lOpt rOpt jcs).width = .ok z →
    GEval G W (.optional l r lOpt rOpt jcs) z
  | minus {l r jcs x y z fuel} : GEval G W l x → GEval G W r y → x.length + y.length < fuel →
    Minus.computeMinus fuel x y jcs = .ok z → GEval G W (.minus l r jcs) z
  | bind {t v e x} : GEval G W t x → GEval G W (.bind t v e) (x.map fun r => r ++ [W.value e (Planner.solution (t.cols G) r)])
  | union {l r origins x y z} : GEval G W l x → GEval G W r y → Union.computeUnion l.width r.width x y origins = .ok z →
    GEval G W (.union l r origins) z

end Verif.GroupPlanner
