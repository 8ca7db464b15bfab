import Verif.Model.Table
/-
Model of `TransitivePath` (/repo/src/engine/TransitivePath.cpp:250-664).

Simplifications: the timeout checks are left out.  A hash map is an association list, a hash set the list of its elements in insertion order;
the order in which a hash set is iterated is a parameter `iter`, about which the theorems only assume that it permutes the elements.
-/
namespace Verif.TransitivePath

/-- `Map edges` -/
abbrev Edges := List (Nat × List Nat)

/-- `edges.find(n)` -/
def find (edges : Edges) (n : Nat) : Option (List Nat) := (edges.find? fun p => p.1 = n).map (·.2)

/-- The body of the loops at 283-300, 304-319, 413-427 and 551-564: insert the edge `l → r`. -/
def addEdge (edges : Edges) (l r : Nat) : Edges :=
  match find edges l with
  | none => edges ++ [(l, [r])]
  | some _ => edges.map fun p => if p.1 = l then (p.1, if p.2.contains r then p.2 else p.2 ++ [r]) else p

/-- These loops; the second component is `nodes`, to which 290 adds each new left value. -/
def buildEdges (sub : Table) (leftCol rightCol : Nat) (edges : Edges) (nodes : List Nat) : Outcome (Edges × List Nat) :=
  match sub with
  | [] => .ok (edges, nodes)
  | row :: sub =>
    (Outcome.read row leftCol).bind fun l => (Outcome.read row rightCol).bind fun r =>
      buildEdges sub leftCol rightCol (addEdge edges l r) (if (find edges l).isNone then nodes ++ [l] else nodes)

/-- The state of the depth-first search: for each node on the stack (top first) the children that `positions` has not passed yet; the
marked nodes, last first; the result. -/
structure State where
  stack : List (List Nat)
  marks : List Nat
  res : Table

/-- The body of the loop at 349-382 (474-515, 612-653); `emit child` are the rows pushed for a marked child (one or none). -/
def dfsStep (iter : Nat → List Nat → List Nat) (edges : Edges) (minDist maxDist : Nat) (emit : Nat → Outcome Table) (s : State) :
    Outcome (State ⊕ State) :=
  match s.stack with
  | [] => .ok (.inr s)
  | [] :: rest => .ok (.inl { s with stack := rest })
  | (child :: more) :: rest =>
    let childDepth := rest.length + 1
    if childDepth ≤ maxDist ∧ child ∉ s.marks then
      (if childDepth ≥ minDist then (emit child).map fun rows => (child :: s.marks, s.res ++ rows) else .ok (s.marks, s.res)).bind fun mr =>
        match find edges child with
        | some cs => .ok (.inl ⟨iter child cs :: more :: rest, mr.1, mr.2⟩)
        | none => .ok (.inl ⟨more :: rest, mr.1, mr.2⟩)
    else .ok (.inl { s with stack := more :: rest })

/-- 336-340: the stack starts with the children of `root`, if it has any. -/
def startStack (iter : Nat → List Nat → List Nat) (edges : Edges) (root : Nat) : List (List Nat) :=
  match find edges root with
  | some cs => [iter root cs]
  | none => []

/-- The search from `root` (336-382): `positions` and `edgeCache` are empty before. -/
def dfs (fuel : Nat) (iter : Nat → List Nat → List Nat) (edges : Edges) (minDist maxDist : Nat) (emit : Nat → Outcome Table) (root : Nat)
    (marks : List Nat) (res : Table) : Outcome State :=
  if minDist = 0 then .throw
  else loop fuel (dfsStep iter edges minDist maxDist emit)
    ⟨startStack iter edges root, marks, res⟩

/-- The loop over the nodes (335-388); `marks` is cleared unless the node is the last one. -/
def overNodes (fuel : Nat) (iter : Nat → List Nat → List Nat) (edges : Edges) (minDist maxDist : Nat) (row : Nat → Nat → Row) :
    List Nat → List Nat → Table → Outcome Table
  | [], _, res => .ok res
  | n :: nodes, marks, res =>
    (dfs fuel iter edges minDist maxDist (fun child => .ok [row n child]) n marks res).bind fun s =>
      overNodes fuel iter edges minDist maxDist row nodes (if nodes ≠ [] then [] else s.marks) s.res

/-- `computeTransitivePath` (250-391). -/
def computeTransitivePath (fuel : Nat) (iter : Nat → List Nat → List Nat) (sub : Table) (leftIsVar rightIsVar : Bool)
    (leftCol rightCol leftValue rightValue minDist maxDist : Nat) : Outcome Table :=
  if !leftIsVar && !rightIsVar then .ok []
  else if rightIsVar then
    (buildEdges sub leftCol rightCol [] []).bind fun en =>
      overNodes fuel iter en.1 minDist maxDist (fun n child => [n, child]) (if leftIsVar then en.2 else [leftValue]) [] []
  else
    (buildEdges sub rightCol leftCol [] []).bind fun en =>
      overNodes fuel iter en.1 minDist maxDist (fun n child => [child, n]) [rightValue] [] []

/-- `res(row, k) = v` -/
def writeCell (row : Row) (k v : Nat) : Outcome Row := if k < row.length then .ok (row.set k v) else .ub

/-- The loop at 499-505 (637-643), from `k` on for `n` iterations. -/
def copyOthers (other : Row) (col : Nat) (row : Row) (k : Nat) : Nat → Outcome Row
  | 0 => .ok row
  | n + 1 =>
    (if k - 2 < col then (Outcome.read other (k - 2)).bind fun v => writeCell row k v
     else if k - 2 > col then (Outcome.read other (k - 2)).bind fun v => writeCell row (k - 1) v
     else .ok row).bind fun row => copyOthers other col row (k + 1) n

/-- 495-505 (633-643): a new row (`emplace_back`, with any contents), its first two cells, and the other columns of the bound side. -/
def boundRow (junk resWidth : Nat) (c0 c1 : Nat) (other : Row) (col : Nat) : Outcome Row :=
  (writeCell (List.replicate resWidth junk) 0 c0).bind fun row => (writeCell row 1 c1).bind fun row =>
    copyOthers other col row 2 (resWidth + 1 - 2)

/-- The loop over the rows of the bound side (444-523, 582-661). `row x child` orders the first two columns; `lastBegin`, `lastEnd` delimit
the result of the last search. -/
def overSide (fuel : Nat) (iter : Nat → List Nat → List Nat) (edges : Edges) (minDist maxDist junk resWidth : Nat)
    (firstTwo : Nat → Nat → Nat × Nat) (keep : Nat → Bool) (col : Nat) :
    Table → (lastElem lastBegin lastEnd : Nat) → (marks : List Nat) → Table → Outcome Table
  | [], _, _, _, _, res => .ok res
  | other :: side, lastElem, lastBegin, lastEnd, marks, res =>
    (Outcome.read other col).bind fun x =>
      if x = lastElem then
        overSide fuel iter edges minDist maxDist junk resWidth firstTwo keep col side lastElem lastBegin lastEnd marks
          (res ++ (res.drop lastBegin).take (lastEnd - lastBegin))
      else
        (dfs fuel iter edges minDist maxDist
          (fun child => if keep child then (boundRow junk resWidth (firstTwo x child).1 (firstTwo x child).2 other col).map ([·]) else .ok [])
          x marks res).bind fun s =>
          overSide fuel iter edges minDist maxDist junk resWidth firstTwo keep col side x res.length s.res.length
            (if side ≠ [] then [] else s.marks) s.res

/-- `computeTransitivePathLeftBound` (393-526). -/
def computeLeftBound (fuel : Nat) (iter : Nat → List Nat → List Nat) (junk : Nat) (sub left : Table) (leftSideCol : Nat) (rightIsVar : Bool)
    (leftCol rightCol rightValue minDist maxDist resWidth : Nat) : Outcome Table :=
  (buildEdges sub leftCol rightCol [] []).bind fun en =>
    overSide fuel iter en.1 minDist maxDist junk resWidth (fun x child => (x, child)) (fun child => rightIsVar || child = rightValue)
      leftSideCol left (2 ^ 64 - 1) 0 0 [] []

/-- `computeTransitivePathRightBound` (528-664). -/
def computeRightBound (fuel : Nat) (iter : Nat → List Nat → List Nat) (junk : Nat) (sub right : Table) (rightSideCol : Nat) (leftIsVar : Bool)
    (leftCol rightCol leftValue minDist maxDist resWidth : Nat) : Outcome Table :=
  (buildEdges sub rightCol leftCol [] []).bind fun en =>
    overSide fuel iter en.1 minDist maxDist junk resWidth (fun x child => (child, x)) (fun child => leftIsVar || child = leftValue)
      rightSideCol right (2 ^ 64 - 1) 0 0 [] []

end Verif.TransitivePath
