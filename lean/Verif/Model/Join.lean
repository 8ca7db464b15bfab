import Verif.Model.Table
/-
Model of `Join::join` and `Join::doGallopInnerJoin`, /repo/src/engine/Join.cpp:502-726.

Simplifications: timeouts (`checkTimeoutAfterNCalls`, which may throw at any iteration, see C46) and log output are left
out; index arithmetic is on unbounded naturals (no `size_t` overflow, i.e. tables have fewer than 2^62 rows);
`std::lower_bound` is modelled by what it returns on a sorted range.
-/
namespace Verif.Join

/-- The row that is written for a match: all columns of the left row, the columns of the right row before and after its
join column (lines 552-566, 690-703). -/
def combine (jc2 : Nat) (x y : Row) : Row := x ++ y.take jc2 ++ y.drop (jc2 + 1)

variable (fuel : Nat) (a : Table) (jc1 : Nat) (b : Table) (jc2 : Nat)

/-- `while (a(i, jc1) < b(j, jc2)) { ++i; if (i >= a.size()) goto finish; }` (lines 531-537, 613-618).
`none` is `goto finish`/`return`. -/
def skipA (i j : Nat) : Outcome (Option Nat) :=
  loop fuel (fun i =>
    (a.at i jc1).bind fun x => (b.at j jc2).bind fun y =>
    if x < y then
      if i + 1 ≥ a.length then .ok (.inr none) else .ok (.inl (i + 1))
    else .ok (.inr (some i))) i

/-- `while (b(j, jc2) < a(i, jc1)) { ++j; if (j >= b.size()) goto finish; }` (lines 539-545, 678-683). -/
def skipB (i j : Nat) : Outcome (Option Nat) :=
  loop fuel (fun j =>
    (b.at j jc2).bind fun y => (a.at i jc1).bind fun x =>
    if y < x then
      if j + 1 ≥ b.length then .ok (.inr none) else .ok (.inl (j + 1))
    else .ok (.inr (some j))) j

/-- The cross product of row `i` with the rows from `j` on (lines 551-574, 689-708). -/
def inner (i j : Nat) (res : Table) : Outcome (Nat × Table) :=
  loop fuel (fun (s : Nat × Table) =>
    (a.at i jc1).bind fun x => (b.at s.1 jc2).bind fun y =>
    if x = y then
      (Outcome.read a i).bind fun ra => (Outcome.read b s.1).bind fun rb =>
      let res' := s.2 ++ [combine jc2 ra rb]
      if s.1 + 1 ≥ b.length then .ok (.inr (s.1 + 1, res')) else .ok (.inl (s.1 + 1, res'))
    else .ok (.inr s)) (j, res)

/-- How the loop over matching rows is left: `goto finish` or by its condition. -/
inductive Exit where
  | finish (res : Table)
  | more (i j : Nat) (res : Table)
  deriving DecidableEq, Repr

/-- `while (a(i, jc1) == b(j, jc2))` (lines 547-591, 685-724). -/
def matching (i j : Nat) (res : Table) : Outcome Exit :=
  loop fuel (fun (s : Nat × Nat × Table) =>
    let i := s.1; let j := s.2.1; let res := s.2.2
    (a.at i jc1).bind fun x => (b.at j jc2).bind fun y =>
    if x = y then
      (inner fuel a jc1 b jc2 i j res).bind fun jr =>
      if i + 1 ≥ a.length then .ok (.inr (.finish jr.2))
      else
        (a.at (i + 1) jc1).bind fun x' => (b.at j jc2).bind fun y' =>
        if x' = y' then .ok (.inl (i + 1, j, jr.2))
        else if jr.1 ≥ b.length then .ok (.inr (.finish jr.2))
        else .ok (.inl (i + 1, jr.1, jr.2))
    else .ok (.inr (.more i j res))) (i, j, res)

/-- The ordinary merge join (lines 526-592). -/
def zipper : Outcome Table :=
  loop fuel (fun (s : Nat × Nat × Table) =>
    let i := s.1; let j := s.2.1; let res := s.2.2
    if i < a.length ∧ j < b.length then
      (skipA fuel a jc1 b jc2 i j).bind fun
      | none => .ok (.inr res)
      | some i =>
        (skipB fuel a jc1 b jc2 i j).bind fun
        | none => .ok (.inr res)
        | some j =>
          (matching fuel a jc1 b jc2 i j res).bind fun
          | .finish res => .ok (.inr res)
          | .more i j res => .ok (.inl (i, j, res))
    else .ok (.inr res)) (0, 0, [])

/-- `std::lower_bound(t.begin() + lo, t.begin() + hi, needle, [](l, n) { return l[c] < n; }) - t.begin()`: the first
position in `[lo, hi)` whose value is not smaller than `needle`, or `hi`. The range must be valid. -/
def lowerBound (t : Table) (c lo hi needle : Nat) : Outcome Nat :=
  if lo ≤ hi ∧ hi ≤ t.length then
    .ok (lo + (((t.drop lo).take (hi - lo)).takeWhile (fun r => r.getD c 0 < needle)).length)
  else .ub

/-- One exponential search: advance position `p` in table `t` from `p` until `t(p, c) >= needle` (lines 619-631, 649-661).
The result is `none` for `return`, else the final position and `last`. -/
def gallop (t : Table) (c needle p last : Nat) : Outcome (Option (Nat × Nat)) :=
  loop fuel (fun (s : Nat × Nat × Nat) =>
    let p := s.1; let last := s.2.1; let step := s.2.2
    (t.at p c).bind fun x =>
    if needle > x then
      let p' := p + step
      if p' ≥ t.length then
        (t.at (t.length - 1) c).bind fun x' =>
        if needle > x' then .ok (.inr none) else .ok (.inl (t.length - 1, p, step * 2))
      else .ok (.inl (p', p, step * 2))
    else .ok (.inr (some (p, last)))) (p, last, 1)

/-- `while (p > 0 && t(p - 1, c) == needle) p--;` (lines 635-637, 665-667) -/
def stepBack (t : Table) (c needle p : Nat) : Outcome Nat :=
  loop fuel (fun p =>
    if p > 0 then (t.at (p - 1) c).bind fun x => if x = needle then .ok (.inl (p - 1)) else .ok (.inr p)
    else .ok (.inr p)) p

/-- Lines 632-646 and 662-676: locate the first position of `needle` after the exponential search has stopped at `p`. -/
def locate (t : Table) (c needle p last : Nat) : Outcome Nat :=
  (t.at p c).bind fun x =>
  if needle = x then stepBack fuel t c needle p
  else if needle < x then lowerBound t c last p needle
  else .ok p

/-- `doGallopInnerJoin(RightLargerTag, ...)` (lines 609-647, 685-725). -/
def gallopRight : Outcome Table :=
  loop fuel (fun (s : Nat × Nat × Table) =>
    let i := s.1; let j := s.2.1; let res := s.2.2
    if i < a.length ∧ j < b.length then
      (skipA fuel a jc1 b jc2 i j).bind fun
      | none => .ok (.inr res)
      | some i =>
        (a.at i jc1).bind fun needle =>
        (gallop fuel b jc2 needle j j).bind fun
        | none => .ok (.inr res)
        | some (j, last) =>
          (locate fuel b jc2 needle j last).bind fun j =>
          (matching fuel a jc1 b jc2 i j res).bind fun
          | .finish res => .ok (.inr res)
          | .more i j res => .ok (.inl (i, j, res))
    else .ok (.inr res)) (0, 0, [])

/-- `doGallopInnerJoin(LeftLargerTag, ...)` (lines 609-611, 648-725). Note `size_t last = j` (line 650) although `last` is a
position in the other table. -/
def gallopLeft : Outcome Table :=
  loop fuel (fun (s : Nat × Nat × Table) =>
    let i := s.1; let j := s.2.1; let res := s.2.2
    if i < a.length ∧ j < b.length then
      (b.at j jc2).bind fun needle =>
      (gallop fuel a jc1 needle i j).bind fun
      | none => .ok (.inr res)
      | some (i, last) =>
        (locate fuel a jc1 needle i last).bind fun i =>
        (skipB fuel a jc1 b jc2 i j).bind fun
        | none => .ok (.inr res)
        | some j =>
          (matching fuel a jc1 b jc2 i j res).bind fun
          | .finish res => .ok (.inr res)
          | .more i j res => .ok (.inl (i, j, res))
    else .ok (.inr res)) (0, 0, [])

/-- `GALLOP_THRESHOLD` (/repo/src/global/Constants.h:37). -/
def GALLOP_THRESHOLD : Nat := 1000

/-- `Join::join` (lines 502-600). -/
def join : Outcome Table :=
  if a.length = 0 ∨ b.length = 0 then .ok []
  else if a.length / b.length > GALLOP_THRESHOLD then gallopLeft fuel a jc1 b jc2
  else if b.length / a.length > GALLOP_THRESHOLD then gallopRight fuel a jc1 b jc2
  else zipper fuel a jc1 b jc2

end Verif.Join
