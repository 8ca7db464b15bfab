import Verif.Model.Loop
/-
Tables as the engine operations see them: `IdTable`, `IdTableView`, `IdTableStatic` (/repo/src/engine/IdTable.h).
-/
namespace Verif

/-- A row of ids. -/
abbrev Row := List Nat
/-- A table: its rows in order. -/
abbrev Table := List Row

/-- `t(i, c)`: undefined behaviour outside the table. -/
def Table.at (t : Table) (i c : Nat) : Outcome Nat :=
  (Outcome.read t i).bind fun r => Outcome.read r c

/-- All rows have width `w`. -/
def Table.WF (t : Table) (w : Nat) : Prop := ∀ r ∈ t, r.length = w

/-- `ID_NO_VALUE` (/repo/src/global/Id.h). -/
def ID_NO_VALUE : Nat := 2 ^ 64 - 1 - 2

end Verif
