import Verif.Spec.Json
/-
Specification for exported results: how a client reads a text of rows with separators.  Nothing here refers to the model.
-/
namespace Verif.ExportSpec

/-- Reads rows, each ended by a newline, with cells that the separator divides; `row` and `cell` are what has been read so far. -/
def readRows (sep : Char) (row : List (List Char)) (cell : List Char) : List Char → List (List (List Char))
  | [] => []
  | c :: s =>
    if c = '\n' then (row ++ [cell]) :: readRows sep [] [] s
    else if c = sep then readRows sep (row ++ [cell]) [] s
    else readRows sep row (cell ++ [c]) s

/-- Reads a text of rows. -/
def readSeparated (sep : Char) (s : List Char) : List (List (List Char)) := readRows sep [] [] s

end Verif.ExportSpec

namespace Verif.JsonSpec

mutual
/-- The strings in a value consist of bytes, and its numbers are texts of numbers. -/
def Json.Bytes : Json → Prop
  | .null => True
  | .bool _ => True
  | .num t => Number t
  | .str s => ∀ c ∈ s, c.toNat < 256
  | .arr l => BytesItems l
  | .obj l => BytesMembers l
def BytesItems : List Json → Prop
  | [] => True
  | v :: l => v.Bytes ∧ BytesItems l
def BytesMembers : List (List Char × Json) → Prop
  | [] => True
  | (k, v) :: l => (∀ c ∈ k, c.toNat < 256) ∧ v.Bytes ∧ BytesMembers l
end

end Verif.JsonSpec
