import Verif.Model.Table
/-
What a transitive property path means.
-/
namespace Verif.PathSpec

/-- The edges that a table stands for. -/
def Edge (sub : Table) (leftCol rightCol : Nat) (a b : Nat) : Prop := ∃ r ∈ sub, r.getD leftCol 0 = a ∧ r.getD rightCol 0 = b

/-- A walk of `n` edges. -/
inductive Walk (E : Nat → Nat → Prop) : Nat → Nat → Nat → Prop
  | refl (a : Nat) : Walk E 0 a a
  | step {a b c n : Nat} : E a b → Walk E n b c → Walk E (n + 1) a c

/-- `b` can be reached from `a` by a walk with at least `minDist` edges. -/
def Reaches (E : Nat → Nat → Prop) (minDist : Nat) (a b : Nat) : Prop := ∃ n, minDist ≤ n ∧ Walk E n a b

/-- `b` can be reached from `a` by a walk with at least `minDist` and at most `maxDist` edges. -/
def ReachesWithin (E : Nat → Nat → Prop) (minDist maxDist : Nat) (a b : Nat) : Prop := ∃ n, minDist ≤ n ∧ n ≤ maxDist ∧ Walk E n a b

end Verif.PathSpec
