/-
Specification of a text index: which records contain something, and with which total score.
-/
namespace Verif.Spec.TextIndex

/-- A text: something (a word, an entity) occurs in a record with a score. -/
abbrev Text (α : Type) := List (α × Nat × Nat)

/-- Something occurs in a record. -/
def Occurs (t : Text α) (a : α) (record : Nat) : Prop := ∃ score, (a, record, score) ∈ t

/-- The total score of something in a record. -/
def total [DecidableEq α] (t : Text α) (a : α) (record : Nat) : Nat :=
  ((t.filter fun x => decide (x.1 = a ∧ x.2.1 = record)).map fun x => x.2.2).sum

/-- The numbers `lists` are in ascending order without repetitions. -/
def StrictlyAscending (l : List Nat) : Prop := l.Pairwise (· < ·)

/-- A list of things with records and scores has exactly those for which `P` holds, each once, in the order of the records. -/
def Lists (P : α → Nat → Nat → Prop) (l : List (α × Nat × Nat)) : Prop :=
  l.Nodup ∧ l.Pairwise (fun a b => a.2.1 ≤ b.2.1) ∧ ∀ a record score, (a, record, score) ∈ l ↔ P a record score

end Verif.Spec.TextIndex
