import Verif.Spec.Json
/-
Specification of the run time information that a client finds in a response.  Nothing here refers to the model.
-/
namespace Verif.RuntimeInfoSpec
open JsonSpec

/-- An operation of an executed plan: what it is called, the columns of its variables, the number of columns and rows of its result,
and the operations whose results it used. -/
inductive Plan where
  | mk (name : List Char) (columns : List (List Char × Nat)) (width rows : Nat) (inputs : List Plan)

/-- Every column has exactly one variable. -/
def Dense (columns : List (α × Nat)) (width : Nat) : Prop :=
  columns.length = width ∧ (columns.map (·.2)).Nodup ∧ ∀ p ∈ columns, p.2 < width

/-- The text of a whole number with a decimal point. -/
def number (t : Int) : List Char := (if t < 0 then ['-'] else []) ++ Nat.toDigits 10 t.natAbs ++ ['.', '0']

mutual
/-- The JSON value shows the plan: names, sizes, and for every column the variable in it. -/
inductive Shows : Plan → Json → Prop where
  | mk {name : List Char} {columns : List (List Char × Nat)} {width rows : Nat} {inputs : List Plan} {j : Json} {names : List (List Char)}
      {js : List Json} :
    j.member "description".toList = some (.str name) →
    j.member "result_rows".toList = some (.num (Nat.toDigits 10 rows)) →
    j.member "result_cols".toList = some (.num (Nat.toDigits 10 width)) →
    j.member "column_names".toList = some (.arr (names.map .str)) →
    names.length = width → (∀ v c, (v, c) ∈ columns → names[c]? = some v) →
    j.member "children".toList = some (.arr js) → ShowsAll inputs js → Shows (.mk name columns width rows inputs) j
inductive ShowsAll : List Plan → List Json → Prop where
  | nil : ShowsAll [] []
  | cons {p j ps js} : Shows p j → ShowsAll ps js → ShowsAll (p :: ps) (j :: js)
end

mutual
/-- The value shows the given total time.  The time of the operation itself is the total time if its result was found, and otherwise
what the times of its inputs leave of the total time.  It is not negative. -/
inductive Times : Json → Int → Prop where
  | cached {j : Json} {t : Int} {js : List Json} {ts : List Int} :
    j.member "was_cached".toList = some (.bool true) → j.member "total_time".toList = some (.num (number t)) →
    j.member "operation_time".toList = some (.num (number t)) → 0 ≤ t →
    j.member "children".toList = some (.arr js) → TimesAll js ts → Times j t
  | computed {j : Json} {t own : Int} {js : List Json} {ts : List Int} :
    j.member "was_cached".toList = some (.bool false) → j.member "total_time".toList = some (.num (number t)) →
    j.member "operation_time".toList = some (.num (number own)) → 0 ≤ own → t = own + ts.sum →
    j.member "children".toList = some (.arr js) → TimesAll js ts → Times j t
inductive TimesAll : List Json → List Int → Prop where
  | nil : TimesAll [] []
  | cons {j t js ts} : Times j t → TimesAll js ts → TimesAll (j :: js) (t :: ts)
end

end Verif.RuntimeInfoSpec
