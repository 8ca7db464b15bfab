import Verif.Model.Modifiers
import Verif.Model.Join
import Verif.Model.MultiJoin
import Verif.Model.Minus
/-
Model of the dynamic programming in the query planner: `QueryPlanner::fillDpTab` and what it calls
(/repo/src/engine/QueryPlanner.cpp), and of how the resulting execution trees are executed.

Simplifications: text operations, has-predicate scans and transitive paths are not special here: a seed is an index scan or some
other operation that is not looked into.  What the planner asks hash maps and estimates is a parameter: the order in which
strings of trees compare, the iteration order of hash maps, and the cost of a tree.  Timeouts, run time information, result types
and context variables are left out.
-/
namespace Verif.Planner
open MultiJoin (VarMap)

abbrev Var := String

/-- `QueryExecutionTree` (/repo/src/engine/QueryExecutionTree.h) with the operations that the planner builds here.  A leaf is
alternative `alt` for seed `seed`; `scan` says whether it is an index scan. -/
inductive Tree where
  | leaf (seed alt : Nat) (scan : Bool) (width : Nat) (sortedOn : List Nat) (cols : VarMap)
  | sort (t : Tree) (col : Nat)
  | orderBy (t : Tree) (cols : List Nat)
  | filter (t : Tree) (i : Nat)
  | join (l r : Tree) (lc rc : Nat)
  /-- two pairs of join columns, each with the left column first -/
  | twoCol (l r : Tree) (jc1 jc2 : Nat × Nat)
  | multi (l r : Tree) (jcs : List (Nat × Nat))
  deriving DecidableEq

/-- `QueryPlanner::SubtreePlan` (/repo/src/engine/QueryPlanner.h:195-231): the tree, `_idsOfIncludedNodes`,
`_idsOfIncludedFilters`. -/
structure Plan where
  tree : Tree
  nodes : Nat
  filters : Nat
  deriving DecidableEq

/-- What the planner does not determine itself. -/
structure Params where
  /-- `t1->asString() < t2->asString()` -/
  less : Tree → Tree → Bool
  /-- the iteration order of a hash map from variables to columns -/
  shuffle : VarMap → VarMap
  /-- `getCostEstimate` -/
  cost : Tree → Nat
  /-- the iteration order of the hash map of candidates -/
  order : List (List Plan) → List (List Plan)

namespace Tree

/-- `getType() == SCAN` -/
def isScan : Tree → Bool
  | leaf _ _ scan _ _ _ => scan
  | _ => false

/-- `getResultWidth` (Sort, OrderBy, Filter: the width of the subtree; Join.cpp:180-185, TwoColumnJoin.cpp:172-176,
MultiColumnJoin.cpp:145-150) -/
def width : Tree → Nat
  | leaf _ _ _ w _ _ => w
  | sort t _ => t.width
  | orderBy t _ => t.width
  | filter t _ => t.width
  | join l r _ _ => l.width + r.width - 1
  | twoCol l r _ _ => l.width + r.width - 2
  | multi l r jcs => l.width + r.width - jcs.length

/-- `Join::isFullScanDummy` (/repo/src/engine/Join.h): an index scan of all triples. -/
def isDummy (t : Tree) : Bool := t.isScan && t.width == 3

end Tree

/-- `TwoColumnJoin`: the right side has width two and its join columns are 0 and 1. -/
def rightFilters (wr : Nat) (jc1 jc2 : Nat × Nat) : Bool := wr == 2 && jc1.2 == 0 && jc2.2 == 1
/-- the same for the left side -/
def leftFilters (wl : Nat) (jc1 jc2 : Nat × Nat) : Bool := wl == 2 && jc1.1 == 0 && jc2.1 == 1

/-- `Join::getVariableColumns` without full scans (/repo/src/engine/Join.cpp:137-150).  A variable that is in both maps is joined
by construction of the join columns, hence appending models `retVal[it->first] = ...`; the same below. -/
def joinCols (left right : VarMap) (leftSize rc : Nat) : VarMap :=
  left ++ right.filterMap fun p =>
    if p.2 < rc then some (p.1, leftSize + p.2) else if rc < p.2 then some (p.1, leftSize + p.2 - 1) else none

/-- `Join::getVariableColumns`, full scan on the right (Join.cpp:152-162). -/
def dummyRightCols (left right : VarMap) (leftSize : Nat) : VarMap :=
  left ++ right.filterMap fun p => if p.2 ≠ 0 then some (p.1, leftSize + p.2 - 1) else none

/-- `Join::getVariableColumns`, full scan on the left (Join.cpp:163-175). -/
def dummyLeftCols (left right : VarMap) : VarMap :=
  (left.filterMap fun p => if p.2 ≠ 0 then some (p.1, p.2 - 1) else none) ++ right.map fun p => (p.1, 2 + p.2)

/-- `TwoColumnJoin::getVariableColumns` (/repo/src/engine/TwoColumnJoin.cpp:131-169). -/
def twoColCols (left right : VarMap) (wl wr : Nat) (jc1 jc2 : Nat × Nat) : VarMap :=
  if leftFilters wl jc1 jc2 || rightFilters wr jc1 jc2 then if rightFilters wr jc1 jc2 then left else right
  else left ++ right.filterMap fun p =>
    if p.2 < jc1.2 then
      if p.2 < jc2.2 then some (p.1, wl + p.2) else if jc2.2 < p.2 then some (p.1, wl + p.2 - 1) else none
    else if jc1.2 < p.2 then
      if p.2 < jc2.2 then some (p.1, wl + p.2 - 1) else if jc2.2 < p.2 then some (p.1, wl + p.2 - 2) else none
    else none

namespace Tree

/-- `getVariableColumns` of a tree, in iteration order. -/
def cols (P : Params) : Tree → VarMap
  | leaf _ _ _ _ _ m => P.shuffle m
  | sort t _ => t.cols P
  | orderBy t _ => t.cols P
  | filter t _ => t.cols P
  | join l r _ rc => P.shuffle <|
    if !l.isDummy && !r.isDummy then joinCols (l.cols P) (r.cols P) l.width rc
    else if r.isDummy then dummyRightCols (l.cols P) (r.cols P) l.width
    else dummyLeftCols (l.cols P) (r.cols P)
  | twoCol l r jc1 jc2 => P.shuffle (twoColCols (l.cols P) (r.cols P) l.width r.width jc1 jc2)
  | multi l r jcs => P.shuffle (MultiJoin.multiVariableColumns (l.cols P) (r.cols P) jcs)

/-- `resultSortedOn` (Sort, OrderBy: Model/Modifiers; Filter: the order of the subtree; Join.cpp:188-194,
TwoColumnJoin.cpp:179-191, MultiColumnJoin.cpp:153-160) -/
def sortedOn : Tree → List Nat
  | leaf _ _ _ _ s _ => s
  | sort _ c => Modifiers.sortSortedOn c
  | orderBy _ cs => Modifiers.orderBySortedOn (cs.map fun c => (c, false))
  | filter t _ => t.sortedOn
  | join l _ lc rc => if l.isDummy then [2 + rc] else [lc]
  | twoCol _ r jc1 jc2 => if rightFilters r.width jc1 jc2 then [jc1.1, jc2.1] else [jc1.2, jc2.2]
  | multi _ _ jcs => jcs.map (·.1)

/-- `varCovered` (/repo/src/engine/QueryExecutionTree.cpp:183-185). -/
def covers (P : Params) (t : Tree) (v : Var) : Bool := ((t.cols P).lookup v).isSome

end Tree

/-! ### Building joins -/

section
variable (P : Params)

/-- The constructor of `Join` (Join.cpp:17-34). -/
def mkJoin (t1 t2 : Tree) (c1 c2 : Nat) : Tree :=
  if P.less t2 t1 then .join t2 t1 c2 c1 else .join t1 t2 c1 c2

/-- The constructor of `TwoColumnJoin` (TwoColumnJoin.cpp:10-48). -/
def mkTwoCol (t1 t2 : Tree) (j0 j1 : Nat × Nat) : Tree :=
  let (l, r, jc1, jc2) := if P.less t1 t2 then (t1, t2, j0, j1) else (t2, t1, j0.swap, j1.swap)
  if l.isScan && l.width == 2 then
    if jc1.1 > jc2.1 then .twoCol l r jc2 jc1 else .twoCol l r jc1 jc2
  else if r.isScan && r.width == 2 then
    if jc1.2 > jc2.2 then .twoCol l r jc2 jc1 else .twoCol l r jc1 jc2
  else .twoCol l r jc1 jc2

/-- The constructor of `MultiColumnJoin` (/repo/src/engine/MultiColumnJoin.cpp:11-31). -/
def mkMulti (t1 t2 : Tree) (jcs : List (Nat × Nat)) : Tree :=
  if P.less t1 t2 then .multi t1 t2 jcs else .multi t2 t1 (jcs.map Prod.swap)

/-- `QueryPlanner::getJoinColumns` (QueryPlanner.cpp:2120-2133). -/
def getJoinColumns (a b : Tree) : List (Nat × Nat) :=
  (a.cols P).filterMap fun p => ((b.cols P).lookup p.1).map fun c => (p.2, c)

/-- A seed of the dynamic programming: an index scan or another plan. -/
structure Alt where
  scan : Bool
  width : Nat
  sortedOn : List Nat
  cols : VarMap
  deriving DecidableEq

/-- A node of the triple graph: the variables of the triple and the plans for it (QueryPlanner.h:118-150, and the part of
`seedWithScansAndText` for the triple). -/
structure Node where
  vars : List Var
  alts : List Alt
  deriving DecidableEq

/-- The adjacency lists (`createTripleGraph`, QueryPlanner.cpp:1123-1151): nodes that share a variable. -/
def adjacent (nodes : List Node) (i : Nat) : List Nat :=
  (List.range nodes.length).filter fun j =>
    i ≠ j ∧ ((nodes[i]?.map (·.vars)).getD []).any fun v => v ∈ (nodes[j]?.map (·.vars)).getD []

/-- `QueryPlanner::connected` (QueryPlanner.cpp:2090-2117).  See `fillDpTab` for the shift. -/
def connected (nodes : List Node) (a b : Plan) : Bool :=
  if a.nodes &&& b.nodes ≠ 0 then false
  else if a.nodes ≥ 1 <<< nodes.length ∨ b.nodes ≥ 1 <<< nodes.length then (getJoinColumns P a.tree b.tree).length > 0
  else (List.range nodes.length).any fun i =>
    (a.nodes >>> i) &&& 1 ≠ 0 && (adjacent nodes i).any fun j =>
      (a.nodes >>> j) &&& 1 = 0 && (b.nodes >>> j) &&& 1 ≠ 0

/-- `jcs[c][k % 2]` -/
def pick (jc : Nat × Nat) (k : Nat) : Nat := if k % 2 = 0 then jc.1 else jc.2

/-- The join on two columns, round `n` of the loop (QueryPlanner.cpp:2814-2862). -/
def twoColTree (a b : Tree) (jcs : List (Nat × Nat)) (n : Nat) : Tree :=
  let c := n / 2
  let swap := n % 2
  let j := jcs.getD c (0, 0)
  let j' := jcs.getD ((c + 1) % 2) (0, 0)
  let left :=
    if a.sortedOn.head? = some (pick j (0 + swap)) ∧ (a.width = 2 ∨ a.isScan) then a
    else .orderBy a [pick j (0 + swap), pick j' (0 + swap)]
  let right :=
    if b.sortedOn.head? = some (pick j (1 + swap)) ∧ b.width = 2 then b
    else .orderBy b [pick j (1 + swap), pick j' (1 + swap)]
  mkTwoCol P left right (jcs.getD 0 (0, 0)) (jcs.getD 1 (0, 0))

/-- `QueryPlanner::multiColumnJoin` (QueryPlanner.cpp:1996-2048). -/
def multiTree (a b : Tree) : Tree :=
  let jcs := getJoinColumns P a b
  let left := if (jcs.map (·.1)).isPrefixOf a.sortedOn then a else .orderBy a (jcs.map (·.1))
  let right := if (jcs.map (·.2)).isPrefixOf b.sortedOn then b else .orderBy b (jcs.map (·.2))
  mkMulti P left right jcs

/-- One side of a join on one column: sorted if necessary, but scans are never sorted (QueryPlanner.cpp:3103-3136). -/
def sorted (t : Tree) (c : Nat) : Option Tree :=
  if t.sortedOn.head? = some c then some t else if t.isScan then none else some (.sort t c)

/-- `QueryPlanner::createJoinCandidates` (QueryPlanner.cpp:2757-3155) for plans from the table, i.e. not OPTIONAL or MINUS. -/
def createJoinCandidates (nodes : List Node) (a b : Plan) : List Plan :=
  let jcs := if connected P nodes a b then getJoinColumns P a.tree b.tree else []
  match jcs with
  | [] => []
  | [jc] =>
    if a.tree.isDummy && b.tree.isDummy then []
    else match sorted a.tree jc.1, sorted b.tree jc.2 with
      | some l, some r => [⟨mkJoin P l r jc.1 jc.2, a.nodes ||| b.nodes, a.filters ||| b.filters⟩]
      | _, _ => []
  | [_, _] =>
    if a.tree.isDummy && b.tree.isDummy then []
    else (List.range 4).map fun n => ⟨twoColTree P a.tree b.tree jcs n, a.nodes ||| b.nodes, a.filters⟩
  | _ => [⟨multiTree P a.tree b.tree, a.nodes ||| b.nodes, a.filters ||| b.filters⟩]

/-! ### The table -/

/-- `QueryPlanner::getPruningKey` (QueryPlanner.cpp:2136-2156), as a triple instead of a string. -/
def pruningKey (p : Plan) : List Var × Nat × Nat :=
  (p.tree.sortedOn.filterMap fun c => ((p.tree.cols P).find? fun q => q.2 = c).map (·.1), p.nodes, p.filters)

/-- `findCheapestExecutionTree` (QueryPlanner.cpp:2725-2753) outside of tests: the first of the cheapest plans. -/
def cheapest : List Plan → Option Plan
  | [] => none
  | p :: ps => some (ps.foldl (fun m q => if P.cost q.tree < P.cost m.tree then q else m) p)

/-- The groups of plans with equal keys. -/
def groups (ps : List Plan) : List (List Plan) :=
  ((ps.map (pruningKey P)).eraseDups).map fun k => ps.filter fun p => pruningKey P p = k

/-- `QueryPlanner::merge` (QueryPlanner.cpp:1842-1880). -/
def merge (nodes : List Node) (a b : List Plan) : List Plan :=
  (P.order (groups P (a.flatMap fun ai => b.flatMap fun bj => createJoinCandidates P nodes ai bj))).filterMap (cheapest P)

/-- The plan with filter `i` on top (QueryPlanner.cpp:2198-2207). -/
def addFilter (p : Plan) (i : Nat) : Plan := ⟨.filter p.tree i, p.nodes, p.filters ||| 1 <<< i⟩

/-- Whether filter `i` with the variables `vars` can and has to be applied (QueryPlanner.cpp:2181-2196); `vars` are the left
hand side, the additional left hand sides, and the right hand side if it is a variable. -/
def applicable (p : Plan) (i : Nat) (vars : List Var) : Bool :=
  (p.filters >>> i) &&& 1 = 0 && vars.all (p.tree.covers P)

/-- The plans that are appended to the row because of plan `p` (the inner loop of `applyFiltersIfPossible`, without `replace`). -/
def filtered (filters : List (List Var)) (p : Plan) : List Plan :=
  if p.tree.isDummy then []
  else filters.zipIdx.filterMap fun f => if applicable P p f.2 f.1 then some (addFilter p f.2) else none

/-- The plans that are appended to a row: the outer loop reaches them too, and what is appended because of them, and so on.  A
plan is appended with one more filter each time, so `n` rounds suffice for `n` filters. -/
def filteredAll (filters : List (List Var)) : Nat → List Plan → List Plan
  | 0, _ => []
  | n + 1, row => row.flatMap (filtered P filters) ++ filteredAll filters n (row.flatMap (filtered P filters))

/-- The inner loop of `applyFiltersIfPossible` with `replace`. -/
def replaced (filters : List (List Var)) (p : Plan) : Plan :=
  if p.tree.isDummy then p
  else filters.zipIdx.foldl (fun p f => if applicable P p f.2 f.1 then addFilter p f.2 else p) p

/-- `QueryPlanner::applyFiltersIfPossible` (QueryPlanner.cpp:2159-2219). -/
def applyFilters (filters : List (List Var)) (replace : Bool) (row : List Plan) : List Plan :=
  if replace then row.map (replaced P filters) else row ++ filteredAll P filters filters.length row

/-- The plans for one seed, which has the number `seed`. -/
def leaves (seed : Nat) (alts : List Alt) : List Plan :=
  alts.zipIdx.map fun a => ⟨.leaf seed a.2 a.1.scan a.1.width a.1.sortedOn a.1.cols, 1 <<< seed, 0⟩

/-- `seedWithScansAndText` (QueryPlanner.cpp:1154-1476), given the plans for each triple. -/
def seeds (nodes : List Node) (children : List (List Alt)) : List Plan :=
  (children.zipIdx nodes.length).flatMap (fun c => leaves c.2 c.1) ++ nodes.zipIdx.flatMap fun n => leaves n.2 n.1.alts

/-- The inner loop of `fillDpTab` (QueryPlanner.cpp:2255-2262) for row `k`, from `i` on. -/
def fillRow (nodes : List Node) (filters : List (List Var)) (dpTab : List (List Plan)) (k : Nat) (last : Bool) :
    List Nat → List Plan → List Plan
  | [], row => row
  | i :: is, row =>
    let newPlans := merge P nodes (dpTab.getD (i - 1) []) (dpTab.getD (k - i - 1) [])
    if newPlans.length = 0 then fillRow nodes filters dpTab k last is row
    else fillRow nodes filters dpTab k last is (applyFilters P filters last (row ++ newPlans))

/-- The outer loop of `fillDpTab` (QueryPlanner.cpp:2251-2269): `todo` rows are missing. -/
def fillRows (nodes : List Node) (filters : List (List Var)) (numSeeds : Nat) :
    Nat → List (List Plan) → Outcome (List (List Plan))
  | 0, dpTab => .ok dpTab
  | todo + 1, dpTab =>
    let k := dpTab.length + 1
    let row := fillRow P nodes filters dpTab k (numSeeds == k) (List.range' 1 (k / 2)) []
    if row.length = 0 then .throw else fillRows nodes filters numSeeds todo (dpTab ++ [row])

/-- `QueryPlanner::fillDpTab` (QueryPlanner.cpp:2235-2272).  `1 << idShift` in `seedWithScansAndText` is undefined with more than
64 seeds, and `1 << tg._nodeMap.size()` in `connected` is undefined with 64 triples (more are refused by `createTripleGraph`);
both are checked here once. -/
def fillDpTab (nodes : List Node) (filters : List (List Var)) (children : List (List Alt)) : Outcome (List (List Plan)) :=
  let numSeeds := nodes.length + children.length
  if 64 < nodes.length then .throw
  else if 64 < filters.length then .throw
  else if 64 < numSeeds ∨ nodes.length = 64 then .ub
  else fillRows P nodes filters numSeeds (numSeeds - 1) [applyFilters P filters (numSeeds == 1) (seeds nodes children)]

end

/-! ### Executing plans -/

/-- The bindings of the variables in a row.  `ID_NO_VALUE` stands for an unbound variable. -/
def solution (m : VarMap) (r : Row) : Var → Option Nat := fun v =>
  (m.lookup v).bind fun c => let x := r.getD c ID_NO_VALUE; if x = ID_NO_VALUE then none else some x

/-- The loops of `Join::doComputeJoinWithFullScanDummyLeft/Right` (Join.cpp:317-401) over the rows of the other side: `cur` is
`currentJoinId`, `run` the rows between `joinItemFrom` and `joinItemEnd`, `emit` the scan with the cross product. -/
def dummyLoop (emit : Nat → Table → Table) (c : Nat) (cur : Nat) (run : Table) : Table → Outcome Table
  | [] => .ok (emit cur run)
  | r :: rs => (Outcome.read r c).bind fun v =>
    if v = cur then dummyLoop emit c cur (run ++ [r]) rs else (dummyLoop emit c v [r] rs).map (emit cur run ++ ·)

/-- The scan for the triples with a given first id: the other two columns (`getScanMethod`, Join.cpp:276-314). -/
def scanFor (full : Table) (v : Nat) : Table := (full.filter fun r => r.head? = some v).map List.tail

/-- `appendCrossProduct` (/repo/src/engine/Join.cpp:479-498). -/
def crossProduct (a b : Table) : Table := a.flatMap fun x => b.map fun y => x ++ y

/-- `Join::computeResultForJoinWithFullScanDummy` (Join.cpp:242-273): `full` is the content of the scanned permutation. -/
def dummyJoin (full : Table) (dummyLeft : Bool) (other : Table) (c : Nat) : Outcome Table :=
  match other with
  | [] => .ok []
  | r :: _ => (Outcome.read r c).bind fun v =>
    dummyLoop (fun cur run => if dummyLeft then crossProduct (scanFor full cur) run else crossProduct run (scanFor full cur)) c v []
      other

/-- The table that a full scan stands for. -/
def Tree.full (data : Nat → Nat → Table → Prop) : Tree → Table → Prop
  | .leaf seed alt _ _ _ _ => data seed alt
  | _ => fun _ => False

/-- The tables that the execution of a tree may return.  `data` are the tables that the leaves may return and `keep` are the
filters. -/
inductive Eval (P : Params) (data : Nat → Nat → Table → Prop) (keep : Nat → (Var → Option Nat) → Bool) : Tree → Table → Prop
  /-- a full scan cannot be executed by itself (/repo/src/engine/IndexScan.cpp:254-262) -/
  | leaf {seed alt scan w s m x} : (Tree.leaf seed alt scan w s m).isDummy = false → data seed alt x →
    Eval P data keep (.leaf seed alt scan w s m) x
  | sort {t c x y} : Eval P data keep t x → Modifiers.SortOp c x (.ok y) → Eval P data keep (.sort t c) y
  | orderBy {t cs x y} : Eval P data keep t x → Modifiers.OrderByOp (cs.map fun c => (c, false)) x (.ok y) →
    Eval P data keep (.orderBy t cs) y
  | filter {t i x} : Eval P data keep t x → Eval P data keep (.filter t i) (x.filter fun r => keep i (solution (t.cols P) r))
  | join {l r lc rc x y z fuel} : l.isDummy = false → r.isDummy = false → Eval P data keep l x → Eval P data keep r y →
    x.length + y.length < fuel → Join.join fuel x lc y rc = .ok z → Eval P data keep (.join l r lc rc) z
  | dummyLeft {l r lc rc x y z} : l.isDummy = true → r.isDummy = false → l.full data x → Eval P data keep r y →
    dummyJoin x true y rc = .ok z → Eval P data keep (.join l r lc rc) z
  | dummyRight {l r lc rc x y z} : l.isDummy = false → r.isDummy = true → Eval P data keep l x → r.full data y →
    dummyJoin y false x lc = .ok z → Eval P data keep (.join l r lc rc) z
  | twoCol {l r jc1 jc2 x y z fuel} : Eval P data keep l x → Eval P data keep r y → x.length + y.length < fuel →
    Minus.Filter.twoColumnJoin fuel x l.width jc1.1 jc2.1 y r.width jc1.2 jc2.2 = .ok z →
    Eval P data keep (.twoCol l r jc1 jc2) z
  | multi {l r jcs x y z fuel} : Eval P data keep l x → Eval P data keep r y → x.length + y.length < fuel →
    MultiJoin.multiColumnJoin fuel x y jcs (Tree.multi l r jcs).width = .ok z → Eval P data keep (.multi l r jcs) z

end Verif.Planner
