import Verif.Model.Table
/-
Rows as solutions: what a row says about a variable.
-/
namespace Verif.UnionSpec

/-- The value that a row assigns to variable `v`, given the columns of the variables; a variable without column is unbound. -/
def value (cols : List (String × Nat)) (row : Row) (v : String) : Option Nat :=
  match cols.find? (fun p => p.1 = v) with
  | some p => row[p.2]?
  | none => some ID_NO_VALUE

/-- The variables have pairwise different names, and their columns are exactly the columns of a table of width `w`. -/
def Covers (cols : List (String × Nat)) (w : Nat) : Prop :=
  (cols.map (·.1)).Nodup ∧ (cols.map (·.2)).Perm (List.range w)

end Verif.UnionSpec
