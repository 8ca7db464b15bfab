import Verif.Spec.Server
/-
Specification of JSON texts: values, and how a client reads a text (RFC 8259).  Numbers stay texts.  Nothing here refers to the model.
-/
namespace Verif.JsonSpec
open ServerSpec

/-- A JSON value. -/
inductive Json where
  | null
  | bool (b : Bool)
  | num (text : List Char)
  | str (s : List Char)
  | arr (items : List Json)
  | obj (members : List (List Char × Json))

/-- White space at the start of a text is skipped. -/
def ws (s : List Char) : List Char := s.dropWhile fun c => c == ' ' || c == '\n' || c == '\t' || c == '\r'

/-- The characters of numbers. -/
def isNum (c : Char) : Bool := c.isDigit || c == '-' || c == '+' || c == '.' || c == 'e' || c == 'E'

mutual
/-- Reads a value at the start of a text: the value and the rest of the text. The number bounds the steps. -/
def readValue : Nat → List Char → Option (Json × List Char)
  | 0, _ => none
  | n + 1, s =>
    match ws s with
    | [] => none
    | c :: r =>
      if c = '"' then (readString (c :: r)).map fun p => (.str p.1, p.2)
      else if c = '[' then
        if (ws r).head? = some ']' then some (.arr [], (ws r).drop 1) else (readItems n r).map fun p => (.arr p.1, p.2)
      else if c = '{' then
        if (ws r).head? = some '}' then some (.obj [], (ws r).drop 1) else (readMembers n r).map fun p => (.obj p.1, p.2)
      else if "null".toList.isPrefixOf (c :: r) then some (.null, r.drop 3)
      else if "true".toList.isPrefixOf (c :: r) then some (.bool true, r.drop 3)
      else if "false".toList.isPrefixOf (c :: r) then some (.bool false, r.drop 4)
      else if c.isDigit || c == '-' then some (.num ((c :: r).takeWhile isNum), (c :: r).dropWhile isNum)
      else none
/-- Reads the values of an array up to the closing bracket. -/
def readItems : Nat → List Char → Option (List Json × List Char)
  | 0, _ => none
  | n + 1, s =>
    match readValue n s with
    | none => none
    | some (v, r) =>
      if (ws r).head? = some ']' then some ([v], (ws r).drop 1)
      else if (ws r).head? = some ',' then (readItems n ((ws r).drop 1)).map fun p => (v :: p.1, p.2)
      else none
/-- Reads the members of an object up to the closing brace. -/
def readMembers : Nat → List Char → Option (List (List Char × Json) × List Char)
  | 0, _ => none
  | n + 1, s =>
    match readString (ws s) with
    | none => none
    | some (k, r) =>
      if (ws r).head? = some ':' then
        match readValue n ((ws r).drop 1) with
        | none => none
        | some (v, r) =>
          if (ws r).head? = some '}' then some ([(k, v)], (ws r).drop 1)
          else if (ws r).head? = some ',' then (readMembers n ((ws r).drop 1)).map fun p => ((k, v) :: p.1, p.2)
          else none
      else none
end

/-- Reads a JSON text: one value, and nothing but white space behind it. -/
def readJson (s : List Char) : Option Json :=
  match readValue (s.length + 1) s with
  | some (v, r) => if ws r = [] then some v else none
  | none => none

/-- The value of a member of an object. -/
def Json.member : Json → List Char → Option Json
  | .obj l, name => (l.find? fun p => p.1 == name).map Prod.snd
  | _, _ => none

/-- The text of a number. -/
def Number (t : List Char) : Prop := (∀ c ∈ t, isNum c = true) ∧ ∃ c r, t = c :: r ∧ (c.isDigit || c == '-') = true

mutual
/-- The strings in a value are UTF-8, and its numbers are texts of numbers. -/
def Json.Valid : Json → Prop
  | .null => True
  | .bool _ => True
  | .num t => Number t
  | .str s => Utf8 s
  | .arr l => ValidItems l
  | .obj l => ValidMembers l
def ValidItems : List Json → Prop
  | [] => True
  | v :: l => v.Valid ∧ ValidItems l
def ValidMembers : List (List Char × Json) → Prop
  | [] => True
  | (k, v) :: l => Utf8 k ∧ v.Valid ∧ ValidMembers l
end

end Verif.JsonSpec
