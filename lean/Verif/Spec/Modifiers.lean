import Verif.Spec.Join
/-
What DISTINCT, ORDER BY, LIMIT and OFFSET mean.
-/
namespace Verif.ModifiersSpec
open JoinSpec

/-- `t'` is `t` without duplicates with respect to the columns `keep`: rows of `t` in their order, each combination of values that
occurs in `t` once. -/
def DistinctOf (keep : List Nat) (t t' : Table) : Prop :=
  t'.Sublist t ∧ (t'.map (key keep)).Nodup ∧ ∀ r ∈ t, key keep r ∈ t'.map (key keep)

/-- Row `x` has to come before row `y`: at the first key in which they differ, `x` has the smaller value if the key is ascending
and the larger value if it is descending. -/
def Before (keys : List (Nat × Bool)) (x y : Row) : Prop :=
  ∃ (i c : Nat) (desc : Bool), keys[i]? = some (c, desc) ∧
    (∀ (j c' : Nat) (d : Bool), j < i → keys[j]? = some (c', d) → x.getD c' 0 = y.getD c' 0) ∧
    (if desc then y.getD c 0 < x.getD c 0 else x.getD c 0 < y.getD c 0)

/-- HAVING: the rows that meet all conditions. -/
def having (conditions : List (Row → Bool)) (t : Table) : Table := t.filter fun r => conditions.all fun c => c r

/-- The rows that LIMIT and OFFSET select; no LIMIT selects all. -/
def slice (limit : Option Nat) (offset : Nat) (t : Table) : Table :=
  match limit with
  | some l => (t.drop offset).take l
  | none => t.drop offset

end Verif.ModifiersSpec
