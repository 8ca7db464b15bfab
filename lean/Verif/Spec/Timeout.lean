import Verif.Model.Timeout
/-
Specification for the time limits of queries, in terms of the readings of the clock only.
-/
namespace Verif.Timeout.Spec
open Verif.Timeout

/-- a reading of the clock in microseconds -/
def micro (t : TimeVal) : Int := 1000000 * t.sec + t.usec

/-- the two readings of a use of the timer -/
def readings : Use → TimeVal × TimeVal
  | .check a b => (a, b)
  | .remaining a b => (a, b)

/-- The clock does not run backwards: the readings, from `t` on. -/
def Forward : TimeVal → List (TimeVal × TimeVal) → Prop
  | _, [] => True
  | t, (a, b) :: l => micro t ≤ micro a ∧ micro a ≤ micro b ∧ Forward b l

/-- the time between the two readings of the uses, which no one accounts for -/
def lost (l : List (TimeVal × TimeVal)) : Int := (l.map fun p => micro p.2 - micro p.1).sum

/-- A query with a limit in microseconds (`none`: without limit) may go on at a reading of the clock. -/
def MayGoOn (limit : Option Int) (start now : TimeVal) : Prop := ∀ m, limit = some m → micro now - micro start ≤ m

end Verif.Timeout.Spec
