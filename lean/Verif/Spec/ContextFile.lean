/-
Specification of the context file: each line states that a word or an entity occurs in a text record, with a score.
-/
namespace Verif.Spec.ContextFile

/-- What a line states. -/
structure Entry where
  text : List Char
  entity : Bool
  record : Nat
  score : Nat
  deriving DecidableEq, Repr

/-- The line for an entry: four columns. -/
def line (e : Entry) : List Char :=
  e.text ++ ['\t'] ++ [if e.entity then '1' else '0'] ++ ['\t'] ++ Nat.toDigits 10 e.record ++ ['\t'] ++ Nat.toDigits 10 e.score

/-- The file for entries. -/
def file (es : List Entry) : List Char := es.flatMap fun e => line e ++ ['\n']

/-- An entry that can be written: no tabulator and no line feed in the text. -/
def Writable (e : Entry) : Prop := '\t' ∉ e.text ∧ '\n' ∉ e.text

end Verif.Spec.ContextFile
