import Verif.Spec.Text
import Verif.Spec.TextIndex
/-
Specification of text queries: the triples with a text record, and the rows of a result as bindings of variables.
-/
namespace Verif.Spec.TextQuery

/-- A triple about a text record: it contains words, or an entity. -/
inductive TextTriple where
  | words (ws : List (List Char))
  | entity (v : List Char)

/-- All words. -/
def terms (ts : List TextTriple) : List (List Char) := ts.flatMap fun | .words ws => ws | .entity _ => []

/-- All variables for entities. -/
def entities (ts : List TextTriple) : List (List Char) := ts.flatMap fun | .words _ => [] | .entity v => [v]

/-- The values of some variables. -/
def binding (names : List (List Char)) (values : List Nat) : List Char → Option Nat := fun v => (names.zip values).lookup v

/-- The variable for the score of a record: `SCORE(?x)`. -/
def scoreVariable (x : List Char) : List Char := ['S', 'C', 'O', 'R', 'E', '('] ++ x ++ [')']

/-- The values in a row, given the columns of variables. -/
def inRow (cols : List (List Char × Nat)) (row : List Nat) : List Char → Option Nat := fun v => (cols.lookup v).bind fun c => row[c]?

/-- The records that contain something (`contains`) and every entity of a tuple of `v` entities, with scores. -/
def RecordsOf (contains : Nat → Prop) (entityIn : Nat → Nat → Prop) (v : Nat) (occ : List Nat → List (Nat × Nat)) : Prop :=
  ∀ key : List Nat, (key.length ≠ v → occ key = []) ∧ (key.length = v → ((occ key).map (·.1)).Nodup ∧
    ∀ c, (∃ s, (c, s) ∈ occ key) ↔ contains c ∧ ∀ e ∈ key, entityIn e c)

end Verif.Spec.TextQuery
