import Verif.Model.Values
/-
Specification for VALUES: the table of a list of variables and rows, by variables and rows that have a value.
-/
namespace Verif.Values

/-- Whether the variable of column `c` has a value in some row. -/
def boundCol (rows : List (List Word)) (c : Nat) : Bool := rows.any fun r => r[c]? != some UNDEF

/-- The entries of a list at the columns whose variable has a value in some row. -/
def select {α : Type} (rows : List (List Word)) (l : List α) : List α :=
  (List.range l.length).filterMap fun c => if boundCol rows c then l[c]? else none

/-- The cell for an entry: unbound for UNDEF, otherwise the id of the word, if there is one. -/
def cell (getId : Word → Option Nat) (w : Word) : Option Nat := if w = UNDEF then some ID_NO_VALUE else getId w

/-- The row for a list of entries, if all words have ids. -/
def idRow (cell : Word → Option Nat) : List Word → Option (List Nat)
  | [] => some []
  | w :: ws => (cell w).bind fun x => (idRow cell ws).map fun xs => x :: xs

/-- The rows that have a value for some variable. -/
def nonEmptyRows (rows : List (List Word)) : List (List Word) := rows.filter fun r => r.any (· != UNDEF)

/-- The rows of the result according to the documentation. -/
def expected (getId : Word → Option Nat) (rows : List (List Word)) : Table :=
  (nonEmptyRows rows).filterMap fun r => idRow (cell getId) (select rows r)

end Verif.Values
