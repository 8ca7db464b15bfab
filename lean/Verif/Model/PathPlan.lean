import Verif.Model.PropertyPath
/-
Model of how property paths are planned: `QueryPlanner::seedFromPropertyPathTriple` and the functions that it calls
(src/engine/QueryPlanner.cpp:1479-1823).
-/
namespace Verif.PathPlan
open Verif.PropertyPath (Word Path Op)

/-- The subject or object of a triple.  `fresh n` is the name `"?:" + std::to_string(n)`.  Simplified: these names are different from the names in
queries, since names of variables contain no colon. -/
inductive Term where
  | name (w : Word)
  | fresh (n : Nat)
  deriving DecidableEq, Repr

/-- The operations in a graph pattern (`GraphPatternOperation`, src/parser/ParsedQuery.h) that paths are turned into: a triple with an IRI
(`BasicGraphPattern`), `Union` and `TransPath`.  A graph pattern is the list `_children` of its operations; its other members are not used. -/
inductive Pattern where
  | triple (s : Term) (iri : Word) (o : Term)
  | union (a b : List Pattern)
  | trans (left right innerLeft innerRight : Term) (min max : Nat) (child : List Pattern)
  deriving Repr

/-- A graph pattern and the new value of `_internalVarCount`. -/
abbrev Result := Outcome (List Pattern × Nat)

/-- How a path is turned into a graph pattern: from its left and right side and `_internalVarCount`. -/
abbrev Seed := Term → Term → Nat → Result

/-- `uniteGraphPatterns` (QueryPlanner.cpp:1803-1818).  It reads two patterns without looking at their number. -/
def unite : List (List Pattern) → Outcome (List Pattern)
  | a :: b :: rest => .ok (rest.foldl (fun p q => [.union p q]) [.union a b])
  | _ => .ub

/-! ### Sequences -/

/-- The inner loop that looks for the end of a chunk (QueryPlanner.cpp:1545-1566): `end` after `--end`, `has_non_null` and `wasAtEnd`.  The flags are
`_can_be_null` of the children from `pos` on. -/
def chunkEnd : (flags : List Bool) → (hasNull hasNonNull : Bool) → (pos : Nat) → Nat × Bool × Bool
  | [], _, hasNonNull, pos => (pos - 1, hasNonNull, true)
  | true :: flags, _, hasNonNull, pos => chunkEnd flags true hasNonNull (pos + 1)
  | false :: flags, hasNull, hasNonNull, pos => if hasNull && hasNonNull then (pos - 1, hasNonNull, false) else chunkEnd flags hasNull true (pos + 1)

/-- The loop that computes `nonNullChunks` (QueryPlanner.cpp:1543-1574). -/
def chunks (flags : List Bool) : (fuel start : Nat) → (acc : List (Nat × Nat)) → Outcome (List (Nat × Nat))
  | 0, _, _ => .diverge
  | fuel + 1, start, acc =>
    if start < flags.length then
      let r := chunkEnd (flags.drop start) false false start
      let acc :=
        match acc.getLast? with
        | some (s, _) => if r.2.2 && !r.2.1 then acc.dropLast ++ [(s, r.1 + 1)] else acc ++ [(start, r.1 + 1)]
        | none => acc ++ [(start, r.1 + 1)]
      chunks flags fuel (r.1 + 1) acc
    else .ok acc

/-- The loop that fills `null_child_indices` and counts (QueryPlanner.cpp:1598-1606): the vector has one element for every child of the chunk, but is
indexed by the position among all children. -/
def nullIndices (flags : List Bool) : List Nat → List Nat → Nat → Outcome (List Nat × Nat)
  | [], v, num => .ok (v, num)
  | i :: is, v, num =>
    if flags.getD i false then (if i < v.length then nullIndices flags is (v.set i num) (num + 1) else .ub) else nullIndices flags is v num

/-- `included_ids` (QueryPlanner.cpp:1623-1629). -/
def includedIds (flags : List Bool) (lo hi : Nat) (v : List Nat) (bitmask : Nat) : List Nat :=
  (List.range' lo (hi - lo)).filter fun i => !flags.getD i false || bitmask.testBit (v.getD i 0)

/-- The loop that merges the plans of the included children (QueryPlanner.cpp:1645-1657). -/
def merge (seeds : List Seed) (right : Term) : List Nat → Term → Term → Nat → List Pattern → Result
  | [], _, _, count, acc => .ok (acc, count)
  | i :: is, l, r, count, acc =>
    (Outcome.read seeds i).bind fun s => (s l r count).bind fun child =>
      if 1 < is.length then merge seeds right is r (.fresh child.2) (child.2 + 1) (acc ++ child.1)
      else merge seeds right is r right child.2 (acc ++ child.1)

/-- The loop over the bitmasks (QueryPlanner.cpp:1616-1659): it returns `join_patterns`. -/
def joinPatterns (seeds : List Seed) (flags : List Bool) (lo hi : Nat) (v : List Nat) (left right : Term) :
    List Nat → Nat → List (List Pattern) → Outcome (List (List Pattern) × Nat)
  | [], count, acc => .ok (acc, count)
  | bitmask :: masks, count, acc =>
    match includedIds flags lo hi v bitmask with
    | [] => joinPatterns seeds flags lo hi v left right masks count acc
    | i :: is =>
      (if is ≠ [] then merge seeds right (i :: is) left (.fresh count) (count + 1) [] else merge seeds right (i :: is) left right count []).bind fun p =>
        joinPatterns seeds flags lo hi v left right masks p.2 (acc ++ [p.1])

/-- The pattern for one chunk (QueryPlanner.cpp:1589-1665).  `chunkLeft` and `chunkRight` are not used. -/
def chunkPattern (seeds : List Seed) (flags : List Bool) (left right : Term) (lo hi : Nat) (count : Nat) : Result :=
  (nullIndices flags (List.range' lo (hi - lo)) (List.replicate (hi - lo) (2 ^ 64 - 1)) 0).bind fun v =>
    if 10 < v.2 then .throw
    else (joinPatterns seeds flags lo hi v.1 left right (List.range (2 ^ v.2)) count []).bind fun ps =>
      if ps.1.length = 1 then .ok (ps.1.headD [], ps.2) else (unite ps.1).map fun p => (p, ps.2)

/-- The patterns of all chunks (QueryPlanner.cpp:1588-1666). -/
def chunkPatterns (seeds : List Seed) (flags : List Bool) (left right : Term) : List (Nat × Nat) → Nat → List (List Pattern) → Outcome (List (List Pattern) × Nat)
  | [], count, acc => .ok (acc, count)
  | (lo, hi) :: cs, count, acc => (chunkPattern seeds flags left right lo hi count).bind fun p => chunkPatterns seeds flags left right cs p.2 (acc ++ [p.1])

/-- `seedFromSequence` (QueryPlanner.cpp:1526-1684).  A sequence with one child calls itself again with the same arguments.  The names
`connectionVarNames` are generated, but not used. -/
def sequence (seeds : List Seed) (flags : List Bool) : Seed := fun left right count =>
  if seeds.length = 0 then .throw
  else if seeds.length = 1 then .diverge
  else (chunks flags (flags.length + 1) 0 []).bind fun cs =>
    (chunkPatterns seeds flags left right cs (count + (cs.length - 1)) []).map fun ps =>
      (ps.1.foldl (fun fp p => p ++ fp) [], ps.2)

/-! ### Other operations -/

/-- The loop over the children of an alternative (QueryPlanner.cpp:1703-1705). -/
def summands (left right : Term) : List Seed → Nat → List (List Pattern) → Outcome (List (List Pattern) × Nat)
  | [], count, acc => .ok (acc, count)
  | s :: ss, count, acc => (s left right count).bind fun p => summands left right ss p.2 (acc ++ [p.1])

/-- `seedFromAlternative` (QueryPlanner.cpp:1687-1715).  An alternative with one child calls itself again with the same arguments. -/
def alternative (seeds : List Seed) : Seed := fun left right count =>
  if seeds.length = 0 then .throw
  else if seeds.length = 1 then .diverge
  else (summands left right seeds count []).bind fun ps => (unite ps.1).map fun p => (p, ps.2)

/-- `seedFromTransitive`, `seedFromTransitiveMin` and `seedFromTransitiveMax` (QueryPlanner.cpp:1718-1781), which only differ in `_min` and `_max`. -/
def transitive (seeds : List Seed) (min max : Nat) : Seed := fun left right count =>
  match seeds with
  | [] => .ub
  | s :: _ => (s (.fresh count) (.fresh (count + 1)) (count + 2)).map fun child =>
    ([.trans left right (.fresh count) (.fresh (count + 1)) min max child.1], child.2)

/-- `seedFromInverse` (QueryPlanner.cpp:1784-1788). -/
def inverse (seeds : List Seed) : Seed := fun left right count =>
  match seeds with
  | [] => .ub
  | s :: _ => s right left count

/-- `seedFromIri` (QueryPlanner.cpp:1791-1801). -/
def iri (w : Word) : Seed := fun left right count => .ok ([.triple left w right], count)

/-- `std::numeric_limits<size_t>::max()`. -/
def unlimited : Nat := 2 ^ 64 - 1

/-- The dispatch in `seedFromPropertyPath` (QueryPlanner.cpp:1500-1522), with the functions for the children and their flags. -/
def seedNode (op : Op) (limit : Nat) (w : Word) (seeds : List Seed) (flags : List Bool) : Seed :=
  match op with
  | .alternative => alternative seeds
  | .inverse => inverse seeds
  | .iri => iri w
  | .sequence => sequence seeds flags
  | .transitive => transitive seeds 1 unlimited
  | .transitiveMax => transitive seeds 1 limit
  | .transitiveMin => transitive seeds (max 1 limit) unlimited

mutual
/-- `seedFromPropertyPath` (QueryPlanner.cpp:1500-1522). -/
def seed : Path → Seed
  | .node op limit w children _ => seedNode op limit w (seedAll children) (children.map Path.canBeNull)
/-- The functions for the children. -/
def seedAll : List Path → List Seed
  | [] => []
  | p :: ps => seed p :: seedAll ps
end

/-- `seedFromPropertyPathTriple` (QueryPlanner.cpp:1479-1498), up to the call of `optimize`. -/
def seedTriple (left : Term) (p : Path) (right : Term) (count : Nat) : Result :=
  if p.canBeNull then .throw else seed p left right count

end Verif.PathPlan
