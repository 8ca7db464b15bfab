import Verif.Model.Table
/-
Model of the solution modifiers: `Engine::distinct`, `Engine::sort`, `OrderBy`, `Sort`, the way the planner puts DISTINCT on a plan,
and the LIMIT/OFFSET arithmetic of the export.

Simplifications: timeouts, run time information, result types and the local vocabulary are left out.  `std::sort` and the parallel
sort are modelled by their contract: any sorted permutation may come out if the comparison is a strict weak ordering on the rows,
and behaviour is undefined otherwise.  `Engine::distinct` leaves the result moved-from when the input is empty; only its rows
are modelled.
-/
namespace Verif.Modifiers

/-! ### DISTINCT -/

/-- The predicate of `Engine::distinct` (/repo/src/engine/Engine.h:162-169). -/
def sameKey : List Nat → Row → Row → Outcome Bool
  | [], _, _ => .ok true
  | i :: is, a, b =>
    (Outcome.read a i).bind fun x => (Outcome.read b i).bind fun y =>
      if x ≠ y then .ok false else sameKey is a b

/-- `std::unique` (Engine.h:161) after the first element: an element is dropped iff it is equivalent to the last kept one. -/
def uniqueFrom (keep : List Nat) (last : Row) : Table → Outcome Table
  | [] => .ok []
  | r :: rs => (sameKey keep last r).bind fun e =>
    if e then uniqueFrom keep last rs else (uniqueFrom keep r rs).map (r :: ·)

/-- `Engine::distinct` (Engine.h:151-176) for an input of width `w`. -/
def distinct (w : Nat) (keep : List Nat) : Table → Outcome Table
  | [] => .ok []
  | r :: rs => if keep.length ≤ w then (uniqueFrom keep r rs).map (r :: ·) else .throw

/-! ### Sorting -/

/-- `less` is defined and a strict weak ordering on the rows of `t`. -/
def Comparable (less : Row → Row → Outcome Bool) (t : Table) : Prop :=
  (∀ x ∈ t, ∀ y ∈ t, ∃ b, less x y = .ok b) ∧
  (∀ x ∈ t, less x x = .ok false) ∧
  (∀ x ∈ t, ∀ y ∈ t, ∀ z ∈ t, less x y = .ok true → less y z = .ok true → less x z = .ok true) ∧
  (∀ x ∈ t, ∀ y ∈ t, ∀ z ∈ t, less x y = .ok false → less y x = .ok false → less y z = .ok false → less z y = .ok false →
    less x z = .ok false ∧ less z x = .ok false)

/-- `std::sort(begin, end, less)` by its contract: any permutation without an inversion. -/
inductive Sorts (less : Row → Row → Outcome Bool) (t : Table) : Outcome Table → Prop
  | sorted (t' : Table) : Comparable less t → t'.Perm t → t'.Pairwise (fun x y => less y x = .ok false) → Sorts less t (.ok t')
  | undefined : ¬ Comparable less t → Sorts less t .ub

/-- The comparison of `Engine::sort(tab, keyColumn)` (Engine.h:104-116). -/
def lessColumn (c : Nat) (a b : Row) : Outcome Bool :=
  (Outcome.read a c).bind fun x => (Outcome.read b c).bind fun y => .ok (x < y)

/-- The comparison of `OrderBy::computeResult` (/repo/src/engine/OrderBy.cpp:112-122); a key is a column and whether it is
descending. -/
def lessKeys : List (Nat × Bool) → Row → Row → Outcome Bool
  | [], a, b => (Outcome.read a 0).bind fun x => (Outcome.read b 0).bind fun y => .ok (x < y)
  | k :: ks, a, b =>
    (Outcome.read a k.1).bind fun x => (Outcome.read b k.1).bind fun y =>
      if x < y then .ok (!k.2) else if x > y then .ok k.2 else lessKeys ks a b

/-- `Sort::computeResult` (/repo/src/engine/Sort.cpp:50-84). -/
def SortOp (c : Nat) (t : Table) : Outcome Table → Prop := Sorts (lessColumn c) t

/-- `OrderBy::computeResult` (OrderBy.cpp:75-126). -/
def OrderByOp (keys : List (Nat × Bool)) (t : Table) (o : Outcome Table) : Prop :=
  if keys = [] then o = .throw else Sorts (lessKeys keys) t o

/-- `Sort::resultSortedOn` (/repo/src/engine/Sort.h). -/
def sortSortedOn (c : Nat) : List Nat := [c]

/-- `OrderBy::resultSortedOn` (OrderBy.cpp:62-72): the ascending columns. -/
def orderBySortedOn (keys : List (Nat × Bool)) : List Nat := (keys.filter fun k => !k.2).map (·.1)

/-- The test of `QueryPlanner::getDistinctRow` whether the plan is sorted already
(/repo/src/engine/QueryPlanner.cpp:839-845). -/
def isSorted (sortedOn keep : List Nat) : Bool := keep.length ≤ sortedOn.length && sortedOn.take keep.length == keep

/-- `QueryPlanner::getDistinctRow` (QueryPlanner.cpp:839-881): DISTINCT on the plan itself, on the sorted plan, or on the
ordered plan.  `sortedOn` is what the plan declares. -/
def DistinctRow (w : Nat) (sortedOn keep : List Nat) (t : Table) (o : Outcome Table) : Prop :=
  if isSorted sortedOn keep then o = distinct w keep t
  else if keep.length = 1 then ∃ o', SortOp (keep.headD 0) t o' ∧ o = o'.bind (distinct w keep)
  else ∃ o', OrderByOp (keep.map fun c => (c, false)) t o' ∧ o = o'.bind (distinct w keep)

/-- `Distinct::resultSortedOn` (/repo/src/engine/Distinct.h:32-34) for the plans of `getDistinctRow`: the order of the subtree. -/
def distinctSortedOn (sortedOn keep : List Nat) : List Nat :=
  if isSorted sortedOn keep then sortedOn else if keep.length = 1 then sortSortedOn (keep.headD 0) else orderBySortedOn (keep.map fun c => (c, false))

/-- `QueryPlanner::getOrderByRow` (QueryPlanner.cpp:1038-1092): nothing is done if the plan declares to be sorted already. -/
def OrderByRow (sortedOn : List Nat) (keys : List (Nat × Bool)) (t : Table) (o : Outcome Table) : Prop :=
  match keys with
  | [(c, false)] => if sortedOn.head? = some c then o = .ok t else SortOp c t o
  | _ =>
    if keys.length ≤ sortedOn.length && (keys.zip sortedOn).all fun p => !p.1.2 && p.1.1 == p.2 then o = .ok t
    else OrderByOp keys t o

/-- `QueryPlanner::getHavingRow` (QueryPlanner.cpp:970-990) with filters as predicates on rows: every filter operation is built on
`parent`, and the last one is the plan. -/
def havingRow (filters : List (Row → Bool)) (parent : Table) : Table :=
  filters.foldl (fun _filtered filter => parent.filter filter) parent

/-! ### LIMIT and OFFSET -/

/-- The sign of a number. -/
def splitSign : List Char → Bool × List Char
  | '-' :: ds => (true, ds)
  | '+' :: ds => (false, ds)
  | ds => (false, ds)

/-- `atol` (used at /repo/src/engine/Server.cpp:187, 391, 394, 418, 421) on a string without leading white space; a value that
`long` cannot represent is undefined. -/
def atol (s : List Char) : Outcome Int :=
  let n := ((splitSign s).2.takeWhile Char.isDigit).foldl (fun (acc : Nat) c => 10 * acc + (c.toNat - 48)) 0
  if (splitSign s).1 then (if n ≤ 2 ^ 63 then .ok (-(n : Int)) else .ub) else (if n < 2 ^ 63 then .ok n else .ub)

/-- `static_cast<size_t>` -/
def toSize (i : Int) : Nat := (i % (2 ^ 64 : Int)).toNat

/-- `if (s.size() > 0) v = static_cast<size_t>(atol(s.c_str()))` (Server.cpp:390-395, 417-422). -/
def sizeOr (dflt : Nat) (s : List Char) : Outcome Nat := if s.length > 0 then (atol s).map toSize else .ok dflt

/-- `for (size_t i = from; i < upperBound; ++i)` writes row `i` (/repo/src/engine/QueryExecutionTree.cpp:214-256, 269-309). -/
def writeRows (t : Table) (from_ upperBound : Nat) : Outcome Table :=
  let rec go (i : Nat) : Nat → Outcome Table
    | 0 => .ok []
    | k + 1 => (Outcome.read t i).bind fun r => (go (i + 1) k).map (r :: ·)
  go from_ (upperBound - from_)

/-- `MAX_NOF_ROWS_IN_RESULT` (/repo/src/global/Constants.h). -/
def maxRows : Nat := 100000

/-- `writeJsonTable` (QueryExecutionTree.cpp:200-258). -/
def writeJsonTable (t : Table) (from_ limit : Nat) : Outcome Table :=
  writeRows t from_ (min t.length ((limit + from_) % 2 ^ 64))

/-- `writeResultToStream` (QueryExecutionTree.cpp:88-117). -/
def writeResultToStream (t : Table) (limit offset : Nat) : Outcome Table :=
  writeRows t offset (min ((offset + limit) % 2 ^ 64) t.length)

/-- `Server::composeResponseJson` (Server.cpp:387-400). -/
def composeJson (t : Table) (limit offset : List Char) (maxSend : Nat) : Outcome Table :=
  (sizeOr maxRows limit).bind fun l => (sizeOr 0 offset).bind fun o => writeJsonTable t o (min l maxSend)

/-- `Server::composeResponseSepValues` (Server.cpp:411-427). -/
def composeSepValues (t : Table) (limit offset : List Char) : Outcome Table :=
  (sizeOr (2 ^ 64 - 1) limit).bind fun l => (sizeOr 0 offset).bind fun o => writeResultToStream t l o

end Verif.Modifiers
