/-
Specification: a record with five independent fields, and a finite map from relation ids to the values added last.
-/
namespace Verif.MetaDataSpec

/-- The fields a user of the relation meta data sees. -/
structure Fields where
  nofElements : Nat
  col1 : Nat
  col2 : Nat
  functional : Bool
  blocks : Bool
  deriving DecidableEq

/-- An assignment to one field. -/
inductive Update where
  | functional (b : Bool)
  | blocks (b : Bool)
  | col1 (n : Nat)
  | col2 (n : Nat)
  deriving DecidableEq

/-- An assignment changes exactly its field. -/
def Update.apply : Update → Fields → Fields
  | .functional b, f => { f with functional := b }
  | .blocks b, f => { f with blocks := b }
  | .col1 n, f => { f with col1 := n }
  | .col2 n, f => { f with col2 := n }

/-- Multiplicities are stored in one byte. -/
def Update.InRange : Update → Prop
  | .col1 n => n < 256
  | .col2 n => n < 256
  | _ => True

/-- The value added last for a key, if any. -/
def lastFor (key : α → Nat) (adds : List α) (id : Nat) : Option α := (adds.filter fun a => key a == id).getLast?

end Verif.MetaDataSpec
