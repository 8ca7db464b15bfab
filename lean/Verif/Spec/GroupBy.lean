import Verif.Spec.Join
import Verif.Model.GroupBy
/-
What GROUP BY and the aggregate functions mean, in terms of the values of a group.  Of the model only the data types are used:
`Aggregate`, result types and the abstract operations on floats and words (`Env`).
-/
namespace Verif.GroupBySpec
open JoinSpec GroupBy ResultTable

/-- The groups: for every combination of values of the columns `cols` that occurs, in the order of first occurrence, the rows that have
it, in their order. -/
def groups (cols : List Nat) (t : Table) : List Table :=
  (t.map (key cols)).eraseDups.map fun k => t.filter fun r => key cols r = k

/-- The number a value stands for, if it does. -/
def number (env : Env F) (type : RT) (v : Nat) : Option F :=
  match type with
  | .verbatim => some (env.ofId v)
  | .float => some (env.ofBits v)
  | .kb => if env.isFloatWord (env.word v) then some (env.wordToFloat (env.word v)) else none
  | .text | .localVocab => none

/-- The sum of the values from left to right, NaN if one is not a number. -/
def total (env : Env F) (type : RT) (vals : List Nat) : F :=
  match vals.mapM (number env type) with
  | some xs => xs.foldl env.add env.zero
  | none => env.nan

/-- The string for a value. -/
def text (env : Env F) (type : RT) (v : Nat) : List Char :=
  match type with
  | .kb => if env.isValueWord (env.word v) then env.wordToLiteral (env.word v) else env.word v
  | .verbatim => env.showId v
  | .text => env.excerpt v
  | .float => env.showFloat (env.ofBits v)
  | .localVocab => env.localWord v

/-- `m` is a greatest / least of the values. -/
def IsMax (le : α → α → Prop) (vals : List α) (m : α) : Prop := m ∈ vals ∧ ∀ v ∈ vals, le v m
def IsMin (le : α → α → Prop) (vals : List α) (m : α) : Prop := m ∈ vals ∧ ∀ v ∈ vals, le m v

/-- The order of floats. -/
def fle (env : Env F) (x y : F) : Prop := env.lt y x = false

/-- `v`, to be read with the strings `vocab`, is the result of the aggregate `a` for a group with the values `vals0` in the input
column; `type` is the type of that column. -/
def Aggregated (env : Env F) (type : RT) (a : Aggregate) (vals0 : List Nat) (vocab : List (List Char)) (v : Nat) : Prop :=
  let vals := if a.distinct then vals0.eraseDups else vals0
  match a.type with
  | .count => v = vals.length
  | .sum => v = env.toBits (total env type vals)
  | .avg => v = env.toBits (env.divBy (total env type vals) vals.length)
  | .groupConcat => vocab[v]? = some (a.delim.intercalate (vals.map (text env type)))
  | .sample => v ∈ vals
  | .first => vals.head? = some v
  | .last => vals0.getLast? = some v
  | .max => match type with
    | .text | .localVocab => v = ID_NO_VALUE
    | .float => ∃ f, v = env.toBits f ∧ IsMax (fle env) (vals.map env.ofBits) f
    | _ => IsMax (· ≤ ·) vals v
  | .min => match type with
    | .text | .localVocab => v = ID_NO_VALUE
    | .float => ∃ f, v = env.toBits f ∧ IsMin (fle env) (vals.map env.ofBits) f
    | _ => IsMin (· ≤ ·) vals v

/-- The row `row` holds the results of all aggregates for the group `g`. -/
def RowFor (env : Env F) (types : List RT) (aggs : List Aggregate) (vocab : List (List Char)) (g : Table) (row : Row) : Prop :=
  ∀ a ∈ aggs, ∃ v type, row[a.outCol]? = some v ∧ types[a.inCol]? = some type ∧
    Aggregated env type a (g.map fun r => r.getD a.inCol 0) vocab v

end Verif.GroupBySpec
