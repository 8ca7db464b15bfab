import Verif.Model.Server
import Verif.Model.Modifiers
import Verif.Model.Conversions
import Verif.Spec.Json
/-
Model of the text of a result: `nlohmann::json::dump(4)`, `QueryExecutionTree::writeResultAsJson` and `writeResultToStream`, and the two
functions of the server that compose the response.

Simplifications: a JSON value is the type of the specification, with its members in the order in which `dump` writes them (sorted by
name) and with numbers as their texts.  The run time information (C81) and the times are parameters.  What the index knows about an id
(vocabulary, text excerpts) and the text of a `float` are parameters.
-/
namespace Verif.Export
open JsonSpec
open Server (Str Run dumpString decimal outOfRange)

/-! ### JSON -/

/-- `write_characters(indent_string.c_str(), n)` -/
def spaces (n : Nat) : Str := List.replicate n ' '

mutual
/-- `serializer::dump` with `pretty_print` and `indent_step` 4, third_party/json/nlohmann/json.hpp:15534-15799 -/
def dump (indent : Nat) : Json → Run Str
  | .null => .ok "null".toList
  | .bool true => .ok "true".toList
  | .bool false => .ok "false".toList
  | .num t => .ok t
  | .str s => dumpString s
  | .arr [] => .ok "[]".toList
  | .arr (v :: l) =>
    (dump (indent + 4) v).bind fun t => (dumpItems (indent + 4) l).bind fun r =>
      .ok ('[' :: '\n' :: (spaces (indent + 4) ++ t ++ r ++ '\n' :: (spaces indent ++ [']'])))
  | .obj [] => .ok "{}".toList
  | .obj ((k, v) :: l) =>
    (dumpString k).bind fun n => (dump (indent + 4) v).bind fun t => (dumpMembers (indent + 4) l).bind fun r =>
      .ok ('{' :: '\n' :: (spaces (indent + 4) ++ n ++ ':' :: ' ' :: (t ++ r ++ '\n' :: (spaces indent ++ ['}']))))
/-- The elements behind the first one, json.hpp:15623-15641 -/
def dumpItems (indent : Nat) : List Json → Run Str
  | [] => .ok []
  | v :: l =>
    (dump indent v).bind fun t => (dumpItems indent l).bind fun r => .ok (',' :: '\n' :: (spaces indent ++ t ++ r))
/-- The members behind the first one, json.hpp:15558-15583 -/
def dumpMembers (indent : Nat) : List (Str × Json) → Run Str
  | [] => .ok []
  | (k, v) :: l =>
    (dumpString k).bind fun n => (dump indent v).bind fun t => (dumpMembers indent l).bind fun r =>
      .ok (',' :: '\n' :: (spaces indent ++ n ++ ':' :: ' ' :: (t ++ r)))
end

/-! ### The cells -/

/-- `ResultTable::ResultType` (src/engine/ResultTable.h:29-43) -/
inductive Kind where
  | kb | verbatim | text | float | localVocab
  deriving DecidableEq

/-- What is needed to write a cell: `Index::idToOptionalString`, `Index::getTextExcerpt`, the text of the `float` in the lower bytes of
an id, and the local vocabulary of the result. -/
structure Names where
  word : Nat → Option Str
  excerpt : Nat → Str
  float : Nat → Str
  localVocab : List Str

/-- `ID_NO_VALUE` (src/global/Id.h:14) -/
def noValue : Nat := 2 ^ 64 - 3

/-- `convertIndexWordToValueLiteral` if the word begins with `VALUE_PREFIX` (QueryExecutionTree.cpp:229-234, 277-282); the prefix is
`":v:"` (src/global/Constants.h:56) -/
def wordText (w : Str) : Run Str :=
  if ":v:".toList.isPrefixOf w then Run.lift outOfRange (Conversions.wordValue w) else .ok w

/-- `ResultTable::idToOptionalString` (ResultTable.h:80-87) -/
def localWord (N : Names) (id : Nat) : Option Str := N.localVocab[id]?

/-- A cell of the JSON table (QueryExecutionTree.cpp:224-252) -/
def jsonCell (N : Names) (kind : Kind) (id : Nat) : Run Json :=
  match kind with
  | .kb =>
    match N.word id with
    | some w => (wordText w).map .str
    | none => .ok .null
  | .verbatim => .ok (.str (decimal id))
  | .text => .ok (.str (if id = noValue then [] else N.excerpt id))
  | .float => .ok (.str (N.float id))
  | .localVocab =>
    match localWord N id with
    | some w => .ok (.str w)
    | none => .ok .null

/-- A cell of the text with separators (QueryExecutionTree.cpp:272-305) -/
def textCell (N : Names) (kind : Kind) (id : Nat) : Run Str :=
  match kind with
  | .kb =>
    match N.word id with
    | some w => wordText w
    | none => .ok []
  | .verbatim => .ok (decimal id)
  | .text => .ok (if id = noValue then [] else N.excerpt id)
  | .float => .ok (N.float id)
  | .localVocab => .ok ((localWord N id).getD [])

/-- The result of a query: its rows, the columns of the variables, and the types of the columns. -/
structure Result where
  rows : Table
  columns : List (Str × Nat)
  kinds : List Kind

/-- `ResultTable::getResultType` (ResultTable.h:96-101) -/
def kindOf (res : Result) (col : Nat) : Kind := res.kinds.getD col .kb

/-- The last position of a closing parenthesis, `var.rfind(')')` -/
def rfindParen (s : Str) : Option Nat := ((List.range s.length).filter fun i => s[i]? == some ')').getLast?

/-- The variable without `TEXT(` and `)` (QueryExecutionTree.cpp:98-100, 128-130); without a closing parenthesis the length is
`npos - 5` -/
def plainVar (var : Str) : Str :=
  if "TEXT(".toList.isPrefixOf var then
    match rfindParen var with
    | some i => (var.drop 5).take (i - 5)
    | none => var.drop 5
  else var

/-- `validIndices` (QueryExecutionTree.cpp:96-109, 126-139) -/
def validIndices (res : Result) (selectVars : List Str) : List (Option (Nat × Kind)) :=
  selectVars.map fun var => (res.columns.find? fun p => p.1 == plainVar var).map fun p => (p.2, kindOf res p.2)

/-- `f` for every element of a list, in order. -/
def each (f : α → Run β) : List α → Run (List β)
  | [] => .ok []
  | a :: l => (f a).bind fun b => (each f l).bind fun bs => .ok (b :: bs)

/-- The cell of a row for one selected variable, where `f` writes it; a variable without a column gives `missing`. -/
def rowCell (f : Kind → Nat → Run α) (missing : α) (row : Row) : Option (Nat × Kind) → Run α
  | none => .ok missing
  | some p => (Run.lift [] (Outcome.read row p.1)).bind fun id => f p.2 id

/-- One row of `writeJsonTable` (QueryExecutionTree.cpp:214-256) -/
def jsonRow (N : Names) (indices : List (Option (Nat × Kind))) (row : Row) : Run Json :=
  (each (rowCell (jsonCell N) .null row) indices).map .arr

/-- `writeResultAsJson` for the rows that `writeJsonTable` goes over (QueryExecutionTree.cpp:120-147, 200-258) -/
def jsonTable (N : Names) (res : Result) (selectVars : List Str) (rows : Table) : Run Json :=
  if selectVars = [] then .ok (.arr []) else (each (jsonRow N (validIndices res selectVars)) rows).map .arr

/-- One row of `writeTable` (QueryExecutionTree.cpp:269-309) -/
def textRow (N : Names) (sep : Char) (row : Row) : List (Option (Nat × Kind)) → Run Str
  | [] => .ok []
  | o :: l =>
    (rowCell (textCell N) [] row o).bind fun t => (textRow N sep row l).bind fun r => .ok (t ++ (if l = [] then '\n' else sep) :: r)

/-- `writeResultToStream` for the rows that `writeTable` goes over (QueryExecutionTree.cpp:88-117, 261-311) -/
def textTable (N : Names) (sep : Char) (res : Result) (selectVars : List Str) (rows : Table) : Run Str :=
  if selectVars = [] then .ok [] else (each (fun row => textRow N sep row (validIndices res selectVars)) rows).map List.flatten

/-! ### The response -/

/-- What the response says about the execution: run time information, warnings, and the two times. -/
structure Extra where
  runtime : Json
  warnings : List Str
  total : Str
  computeResult : Str

/-- `Server::composeResponseJson` (src/engine/Server.cpp:369-408) -/
def composeJson (N : Names) (X : Extra) (query : Str) (selectVars : List Str) (limit offset : Str) (maxSend : Nat) (res : Result) : Run Str :=
  (Run.lift [] (Modifiers.composeJson res.rows limit offset maxSend)).bind fun rows =>
  (jsonTable N res selectVars rows).bind fun table =>
  dump 0 (.obj [
    ("query".toList, .str query),
    ("res".toList, table),
    ("resultsize".toList, .num (decimal res.rows.length)),
    ("runtimeInformation".toList, X.runtime),
    ("selected".toList, .arr (selectVars.map .str)),
    ("status".toList, .str "OK".toList),
    ("time".toList, .obj [("computeResult".toList, .str X.computeResult), ("total".toList, .str X.total)]),
    ("warnings".toList, .arr (X.warnings.map .str))])

/-- `Server::composeResponseSepValues` (Server.cpp:411-427) -/
def composeSepValues (N : Names) (sep : Char) (selectVars : List Str) (limit offset : Str) (res : Result) : Run Str :=
  (Run.lift [] (Modifiers.composeSepValues res.rows limit offset)).bind fun rows => textTable N sep res selectVars rows

end Verif.Export
