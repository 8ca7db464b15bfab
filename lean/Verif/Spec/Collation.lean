import Verif.Spec.StringUtils
/-
Specification of the order of words and of prefixes.  Sort keys are lists of bytes, compared from left to right (`<` on lists).
-/
namespace Verif.CollationSpec
open Verif.StringSpec (scanEnd)

/-- What is assumed about ICU: `primary`, `quarternary` and `identical` give the sort keys at these levels.  Sort keys have no zero
bytes, a difference at a level stays a difference in the same direction at the finer levels, and normalised strings (`N`) with the same
key at the level IDENTICAL are equal. -/
structure Lawful (primary quarternary identical : List Char → List Nat) (N : List Char → Prop) : Prop where
  bytes : ∀ s, (∀ x ∈ primary s, 0 < x ∧ x < 256) ∧ (∀ x ∈ quarternary s, 0 < x ∧ x < 256) ∧ ∀ x ∈ identical s, 0 < x ∧ x < 256
  refine4 : ∀ a b, primary a < primary b → quarternary a < quarternary b
  refine5 : ∀ a b, quarternary a < quarternary b → identical a < identical b
  normal : ∀ a b, N a → N b → identical a = identical b → a = b

/-- Words that are split into content and language tag: they start with a quote, or with the byte that marks literals on disk. -/
def Quoted (w : List Char) : Prop := w.head? = some '"' ∨ w.head? = some (Char.ofNat 127)

instance (w : List Char) : Decidable (Quoted w) := by unfold Quoted; infer_instance

/-- The part of a term that is compared: for literals what is between the quotes. -/
def content (w : List Char) : List Char :=
  if Quoted w then match scanEnd '"' w.tail with
    | some i => w.tail.take i
    | none => w.tail
  else w

/-- What follows the closing quote of a literal. -/
def tag (w : List Char) : List Char :=
  if Quoted w then match scanEnd '"' w.tail with
    | some i => w.tail.drop (i + 1)
    | none => []
  else []

/-- A term: a literal has a closing quote. -/
def Closed (w : List Char) : Prop := Quoted w → (scanEnd '"' w.tail).isSome

instance (w : List Char) : Decidable (Closed w) := by unfold Closed; infer_instance

/-- The first byte, which tells the kind of a term. -/
def kind (w : List Char) : Nat := (w.head?.map Char.toNat).getD 0

/-- `a` does not come after `b`: terms are ordered by kind, then by the key of their content. -/
def NotAfter (key : List Char → List Nat) (a b : List Char) : Prop :=
  kind a < kind b ∨ kind a = kind b ∧ ¬ key (content b) < key (content a)

/-- The term `w` begins with `pre`, as far as the keys tell. -/
def Begins (key : List Char → List Nat) (pre w : List Char) : Prop := kind w = kind pre ∧ key (content pre) <+: key (content w)

end Verif.CollationSpec
