import Verif.Model.Table
/-
What joins are supposed to return, without reference to any algorithm.
-/
namespace Verif.JoinSpec

/-- The join of two tables on one column each: for every row of the first table, all partners in the second, combined
without the second join column. -/
def join (jc1 jc2 : Nat) (a b : Table) : Table :=
  a.flatMap fun x => (b.filter fun y => x[jc1]? = y[jc2]?).map fun y => x ++ y.eraseIdx jc2

/-- Sorted by column `c`. -/
def SortedOn (c : Nat) (t : Table) : Prop := t.Pairwise fun x y => x.getD c 0 ≤ y.getD c 0

/-- The values of a row in some columns. -/
def key (cols : List Nat) (r : Row) : List Nat := cols.map fun c => r.getD c 0

/-- Sorted lexicographically by the columns `cols`. -/
def SortedOnCols (cols : List Nat) (t : Table) : Prop := t.Pairwise fun x y => ¬ key cols y < key cols x

/-- A row without the given columns. -/
def without (cols : List Nat) (r : Row) : Row :=
  (r.zipIdx.filter fun p => p.2 ∉ cols).map (·.1)

/-- Two rows agree on the pairs of join columns. -/
def agree (jcs : List (Nat × Nat)) (x y : Row) : Bool := jcs.all fun jc => x.getD jc.1 0 = y.getD jc.2 0

/-- The join of two tables on several pairs of columns. -/
def multiJoin (jcs : List (Nat × Nat)) (a b : Table) : Table :=
  a.flatMap fun x => (b.filter (agree jcs x)).map fun y => x ++ without (jcs.map (·.2)) y

/-- A left row without partner: unbound values for the columns of the other side; `w` is the width of the result. -/
def padRight (w : Nat) (x : Row) : Row := x ++ List.replicate (w - x.length) ID_NO_VALUE

/-- A right row without partner: the join columns get their values from the right row, the other `wa` columns of the left side
are unbound. -/
def padLeft (jcs : List (Nat × Nat)) (wa : Nat) (y : Row) : Row :=
  ((List.range wa).map fun c =>
    match jcs.find? fun jc => jc.1 = c with
    | some jc => y.getD jc.2 0
    | none => ID_NO_VALUE) ++ without (jcs.map (·.2)) y

/-- The rows with a left part: for every left row its partners, or the padded row if it has none and the right side is
optional. -/
def outerLeft (jcs : List (Nat × Nat)) (w : Nat) (bOpt : Bool) (a b : Table) : Table :=
  a.flatMap fun x =>
    if b.any (agree jcs x) then (b.filter (agree jcs x)).map fun y => x ++ without (jcs.map (·.2)) y
    else if bOpt then [padRight w x] else []

/-- The rows without left partner, if the left side is optional. -/
def outerRight (jcs : List (Nat × Nat)) (wa : Nat) (aOpt : Bool) (a b : Table) : Table :=
  if aOpt then (b.filter fun y => !a.any fun x => agree jcs x y).map (padLeft jcs wa) else []

/-- `A MINUS B`: the rows of `a` that agree with no row of `b`; if the two sides share no variable, all rows. -/
def minus (jcs : List (Nat × Nat)) (a b : Table) : Table :=
  if jcs = [] then a else a.filter fun x => !b.any (agree jcs x)

end Verif.JoinSpec
