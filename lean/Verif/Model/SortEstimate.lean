import Verif.Model.Timeout
/-
Model of `SortPerformanceEstimator` (/repo/src/engine/SortPerformanceEstimator.h, .cpp), its set-up when a server starts
(/repo/src/engine/Server.cpp) and its use by sort operations (/repo/src/engine/Sort.cpp, OrderBy.cpp).

Simplifications: `double` and `float` are rational numbers, and `std::sqrt` is a parameter.  Whether the table for a sample can be
allocated, and how long sorting it takes, is given by the machine.  Numbers of rows and triples are far below 2^58, so that neither the
products nor the conversions to `long long` overflow.
-/
namespace Verif.SortEstimate

/-- SortPerformanceEstimator.h:56-57 -/
def sampleRows : List Nat := [10000, 100000, 1000000, 10000000, 100000000]

/-- SortPerformanceEstimator.h:53 -/
def sampleCols : List Nat := [1, 3, 5, 6, 8, 10]

/-- The machine: time in seconds for sorting a random table (SortPerformanceEstimator.cpp:46-56; `none` if the memory limit is
exceeded), and square roots -/
structure Machine where
  measure : Nat → Nat → Option Rat
  sqrt : Rat → Rat

/-- One sample, SortPerformanceEstimator.cpp:127-133: the exception for large samples is the same as that of the allocator. -/
def sample (M : Machine) (max rows cols : Nat) : Option Rat := if rows * cols > max then none else M.measure rows cols

/-- The value of a sample, SortPerformanceEstimator.cpp:127-156.  `above` is the number of rows of the previous row of samples with its
values from this column on, `left` the previous column with its value. -/
def cell (M : Machine) (max rows : Nat) (above : Option (Nat × List Rat)) (left : Option (Nat × Rat)) (c : Nat) : Outcome Rat :=
  match sample M max rows c with
  | some t => .ok t
  | none =>
    match above with
    | some (r, s :: _) => .ok (s * ((rows : Rat) / (r : Rat)))
    | some (_, []) => .ub
    | none =>
      match left with
      | some (c', s) => .ok (s * M.sqrt ((c : Rat) / (c' : Rat)))
      | none => .throw

/-- The inner loop of `computeEstimatesExpensively`, SortPerformanceEstimator.cpp:123-161 -/
def fillRow (M : Machine) (max rows : Nat) : Option (Nat × List Rat) → Option (Nat × Rat) → List Nat → Outcome (List Rat)
  | _, _, [] => .ok []
  | above, left, c :: cs => do
    let v ← cell M max rows above left c
    let vs ← fillRow M max rows (above.map fun p => (p.1, p.2.tail)) (some (c, v)) cs
    .ok (v :: vs)

/-- The outer loop, SortPerformanceEstimator.cpp:122-162 -/
def fillRows (M : Machine) (max : Nat) : Option (Nat × List Rat) → List Nat → Outcome (List (List Rat))
  | _, [] => .ok []
  | above, r :: rs => do
    let row ← fillRow M max r above none sampleCols
    let rows ← fillRows M max (some (r, row)) rs
    .ok (row :: rows)

/-- `computeEstimatesExpensively`, SortPerformanceEstimator.cpp:110-165 -/
def computeEstimates (M : Machine) (max : Nat) : Outcome (List (List Rat)) := fillRows M max none sampleRows

/-- The call in `Server::initialize`, Server.cpp:40-42, with the percentage from Constants.h:120.  An exception leaves `initialize`, and
`main` ends (ServerMain.cpp:190-200). -/
def serverEstimates (M : Machine) (numTriples : Nat) : Outcome (List (List Rat)) := computeEstimates M (numTriples * 5 / 100)

/-- `dist` in `getClosestIndex`, SortPerformanceEstimator.cpp:77-80 -/
def dist (value x : Nat) : Nat := ((value : Int) - (x : Int)).natAbs

/-- `std::min_element` with `cmp`, SortPerformanceEstimator.cpp:83-88: index and value of the best element so far -/
def minElement (value : Nat) : Nat × Nat → Nat → List Nat → Nat
  | best, _, [] => best.1
  | best, i, x :: l => minElement value (if dist value x < dist value best.2 then (i, x) else best) (i + 1) l

/-- `getClosestIndex`, SortPerformanceEstimator.cpp:75-90 -/
def closestIndex (l : List Nat) (value : Nat) : Nat :=
  match l with
  | [] => 0
  | x :: l => minElement value (0, x) 1 l

/-- `estimatedSortTimeInSeconds`, SortPerformanceEstimator.cpp:65-108; `none` is an estimator that was not set up. -/
def estimate (M : Machine) (samples : Option (List (List Rat))) (numRows numCols : Nat) : Outcome Rat :=
  match samples with
  | none => .ok 0
  | some S => do
    let i := closestIndex sampleRows numRows
    let j := closestIndex sampleCols numCols
    let row ← Outcome.read S i
    let s ← Outcome.read row j
    let r ← Outcome.read sampleRows i
    let c ← Outcome.read sampleCols j
    .ok (s * ((numRows : Rat) / (r : Rat)) * M.sqrt ((numCols : Rat) / (c : Rat)))

/-- The decision of `Sort::computeResult`, Sort.cpp:54-69, and `OrderBy::computeResult`, OrderBy.cpp:81-94, with the factor from
Constants.h:116: is the sort cancelled? -/
def cancelled (estimate : Rat) (remainingMicroseconds : Int) : Bool :=
  decide (estimate > (remainingMicroseconds : Rat) / 1000000 * 3)

end Verif.SortEstimate
