import Verif.Model.Bind
/-
Specification for BIND: the value of an expression in a row.
-/
namespace Verif.Bind
open Outcome Verif.ResultTable

variable {F : Type}

/-- A table with `width` columns. -/
def Shape (width : Nat) (r : Result) : Prop := (∀ row ∈ r.data, row.length = width) ∧ r.types.length = width

/-- What is assumed of `float`: NaN is equal to nothing and operations with NaN give NaN; the lower four bytes of the id for
"no value" are the bytes of a NaN; the word for "no value" is empty. -/
structure IEEE (env : Env F) : Prop where
  eq_nan : ∀ x, env.eq x env.nan = false
  add_nan : ∀ x, env.add x env.nan = env.nan ∧ env.add env.nan x = env.nan
  sub_nan : ∀ x, env.sub x env.nan = env.nan ∧ env.sub env.nan x = env.nan
  mul_nan : ∀ x, env.mul x env.nan = env.nan ∧ env.mul env.nan x = env.nan
  div_nan : ∀ x, env.div x env.nan = env.nan ∧ env.div env.nan x = env.nan
  no_value : env.ofBits ID_NO_VALUE = env.nan
  no_word : env.isFloatWord (env.word ID_NO_VALUE) = false

/-- The number behind a cell, if there is one; an unbound cell is not a number. -/
def number (env : Env F) (type : RT) (id : Nat) : Option F :=
  if id = ID_NO_VALUE then none else
  match type with
  | .verbatim => some (env.ofId id)
  | .float => some (env.ofBits id)
  | .kb => if env.isFloatWord (env.word id) then some (env.wordToFloat (env.word id)) else none
  | _ => none

/-- The value of a binary expression: undefined if an operand is not a number or the divisor is zero. -/
def binaryValue (env : Env F) (op : Char) (a b : Option F) : Option F :=
  match a, b with
  | some x, some y =>
    match op with
    | '+' => some (env.add x y)
    | '-' => some (env.sub x y)
    | '*' => some (env.mul x y)
    | '/' => if env.eq y env.zero then none else some (env.div x y)
    | _ => none
  | _, _ => none

end Verif.Bind
