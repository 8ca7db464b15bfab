import Verif.Model.Outcome
import Verif.Model.Table
/-
Model of VALUES: `Values::sanitizeValues`, `Values::writeValues`, `Values::computeResult`, `/repo/src/engine/Values.cpp`.

Simplifications: words are lists of characters, the vocabulary is a function from words to optional ids; warnings are left out.
-/
namespace Verif.Values
open Outcome

abbrev Word := List Char

/-- `"UNDEF"s`. -/
def UNDEF : Word := ['U', 'N', 'D', 'E', 'F']

/-- `SparqlValues` (`/repo/src/parser/ParsedQuery.h`). -/
structure SparqlValues where
  variables : List Word
  values : List (List Word)
  deriving DecidableEq, Repr

/-- `v.erase(v.begin() + i)`: not defined behind the end. -/
def erase {α : Type} (l : List α) (i : Nat) : Outcome (List α) := if i < l.length then .ok (l.eraseIdx i) else .ub

/-- The erasure of the rows, `Values.cpp:157-162`; the indices come in the order of the loop. -/
def eraseAll {α : Type} (l : List α) : List Nat → Outcome (List α)
  | [] => .ok l
  | i :: is => (erase l i).bind fun l => eraseAll l is

/-- `for (auto& val : values._values) val.erase(...)`, `Values.cpp:173-175`. -/
def eraseInRows (i : Nat) : List (List Word) → Outcome (List (List Word))
  | [] => .ok []
  | r :: rs => (erase r i).bind fun r => (eraseInRows i rs).map fun rs => r :: rs

/-- The erasure of the variables, `Values.cpp:164-176`, for the indices of the variables that are not bound, in the order of the
loop. -/
def eraseVariables (v : SparqlValues) : List Nat → Outcome SparqlValues
  | [] => .ok v
  | i :: is => (erase v.variables i).bind fun vars => (eraseInRows i v.values).bind fun rows => eraseVariables ⟨vars, rows⟩ is

/-- `emptyValues` and the flags of `variableBound` after the first loop, `Values.cpp:139-156`; `i` is the index of the next row. -/
def scan (n : Nat) (i : Nat) (bound : List Bool) (empty : List Nat) : List (List Word) → Outcome (List Bool × List Nat)
  | [] => .ok (bound, empty)
  | v :: vs =>
    if v.length ≠ n then .throw
    else
      scan n (i + 1) (List.zipWith (fun b w => b || w != UNDEF) bound v)
        (if v.all (· == UNDEF) then empty ++ [i] else empty) vs

/-- The indices of the variables that are not bound, in ascending order. -/
def unbound : Nat → List Bool → List Nat
  | _, [] => []
  | i, b :: bs => if b then unbound (i + 1) bs else i :: unbound (i + 1) bs

/-- `sanitizeValues`, `Values.cpp:138-185`. -/
def sanitizeValues (v : SparqlValues) : Outcome SparqlValues :=
  (scan v.variables.length 0 (List.replicate v.variables.length false) [] v.values).bind fun s =>
  (eraseAll v.values s.2.reverse).bind fun rows =>
  (eraseVariables ⟨v.variables, rows⟩ (unbound 0 s.1).reverse).bind fun v =>
  if v.values.isEmpty || v.variables.isEmpty then .throw else .ok v

/-- `result(row, col) = id`. -/
def setCell (t : Table) (i c x : Nat) : Outcome Table :=
  match t[i]? with
  | some r => if c < r.length then .ok (t.set i (r.set c x)) else .ub
  | none => .ub

/-- The inner loop of `writeValues` with the jump out of it, `Values.cpp:195-206`; `k` columns are left. The flag says
whether the row was written. -/
def writeRow (getId : Word → Option Nat) (row : List Word) (cols written : Nat) (t : Table) : Nat → Outcome (Table × Bool)
  | 0 => .ok (t, true)
  | k + 1 =>
    (read row (cols - (k + 1))).bind fun w =>
    match getId w with
    | none => .ok (t, false)
    | some id => (setCell t written (cols - (k + 1)) id).bind fun t => writeRow getId row cols written t k

/-- The outer loop of `writeValues`, `Values.cpp:192-210`. The result has the numbers of written and skipped rows. -/
def writeRows (getId : Word → Option Nat) (cols : Nat) (t : Table) (written skipped : Nat) :
    List (List Word) → Outcome (Table × Nat × Nat)
  | [] => .ok (t, written, skipped)
  | row :: rows =>
    (writeRow getId row cols written t cols).bind fun r =>
    if r.2 then writeRows getId cols r.1 (written + 1) skipped rows else writeRows getId cols r.1 written (skipped + 1) rows

/-- `writeValues`, `Values.cpp:187-219`; new cells are zero. -/
def writeValues (getId : Word → Option Nat) (v : SparqlValues) : Outcome Table :=
  (writeRows getId v.variables.length (List.replicate v.values.length (List.replicate v.variables.length 0)) 0 0 v.values).bind
    fun r => if r.2.1 + r.2.2 = v.values.length then .ok (r.1.take r.2.1) else .throw

/-- The constructor and `computeResult`, `Values.cpp:12-15, 126-136`: the variables of the columns and the rows. -/
def compute (getId : Word → Option Nat) (v : SparqlValues) : Outcome (List Word × Table) :=
  (sanitizeValues v).bind fun s => (writeValues getId s).map fun t => (s.variables, t)

end Verif.Values
