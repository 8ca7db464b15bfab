import Verif.Model.Table
import Mathlib.Order.Defs.LinearOrder
/-
What FILTER means.
-/
namespace Verif.FilterSpec

/-- The comparisons. -/
inductive Cmp where
  | eq | ne | lt | le | gt | ge
  deriving DecidableEq, Repr

/-- `x c y` -/
def Holds {V : Type} [LinearOrder V] : Cmp → V → V → Prop
  | .eq, x, y => x = y
  | .ne, x, y => x ≠ y
  | .lt, x, y => x < y
  | .le, x, y => x ≤ y
  | .gt, x, y => y < x
  | .ge, x, y => y ≤ x

instance {V : Type} [LinearOrder V] (c : Cmp) (x y : V) : Decidable (Holds c x y) := by
  cases c <;> unfold Holds <;> infer_instance

/-- The rows of `t`, in order, whose value in column `col` compares to `v`; `val` says which value an id stands for. -/
def keep {V : Type} [LinearOrder V] (c : Cmp) (col : Nat) (val : Nat → V) (v : V) (t : Table) : Table :=
  t.filter fun r => decide (Holds c (val (r.getD col 0)) v)

/-- The rows of `t` whose values in the columns `lhs` and `rhs` compare. -/
def keepColumns {V : Type} [LinearOrder V] (c : Cmp) (lhs rhs : Nat) (val : Nat → V) (t : Table) : Table :=
  t.filter fun r => decide (Holds c (val (r.getD lhs 0)) (val (r.getD rhs 0)))

/-- The column is ascending in the values. -/
def Ascending {V : Type} [LinearOrder V] (col : Nat) (val : Nat → V) (t : Table) : Prop :=
  t.Pairwise fun a b => val (a.getD col 0) ≤ val (b.getD col 0)

/-- Some condition "column in range" holds. -/
def InSome (conds : List (Nat × List (Nat × Nat))) (r : Row) : Prop :=
  ∃ m ∈ conds, ∃ p ∈ m.2, p.1 ≤ r.getD m.1 0 ∧ r.getD m.1 0 < p.2

instance (conds : List (Nat × List (Nat × Nat))) (r : Row) : Decidable (InSome conds r) := by
  unfold InSome; infer_instance

end Verif.FilterSpec
