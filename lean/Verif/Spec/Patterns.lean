/-
Specification of the predicates of subjects.
-/
namespace Verif.PatternsSpec

/-- Some triple has the subject `s`. -/
def Subject (ts : List (Nat × Nat × Nat)) (s : Nat) : Prop := ∃ p o, (s, p, o) ∈ ts

/-- The subject `s` has the predicate `p`, which is not a language predicate (ids from `lo` to `hi`). -/
def HasPredicate (ts : List (Nat × Nat × Nat)) (lo hi s p : Nat) : Prop := (∃ o, (s, p, o) ∈ ts) ∧ (p < lo ∨ hi ≤ p)

/-- `l` are the predicates of the subject `s`, ascending, each once.  There is exactly one such list; it is empty if no triple has
the subject `s`. -/
def PredicatesOf (ts : List (Nat × Nat × Nat)) (lo hi s : Nat) (l : List Nat) : Prop :=
  l.Pairwise (· < ·) ∧ ∀ p, p ∈ l ↔ HasPredicate ts lo hi s p

/-- The triples are sorted by subject, then by predicate. -/
def SortedBySP (ts : List (Nat × Nat × Nat)) : Prop := ts.Pairwise fun a b => a.1 < b.1 ∨ (a.1 = b.1 ∧ a.2.1 ≤ b.2.1)

end Verif.PatternsSpec
