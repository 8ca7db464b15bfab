import Verif.Model.SortEstimate
/-
Specification for the estimates of sort times.
-/
namespace Verif.SortEstimate.Spec

/-- position `k` of `l` holds a number closest to `v` -/
def Closest (l : List Nat) (v k : Nat) : Prop :=
  ∃ h : k < l.length, ∀ y ∈ l, (l[k] ≤ v → v ≤ y → v - l[k] ≤ y - v) ∧ (v ≤ l[k] → y ≤ v → l[k] - v ≤ v - y) ∧
    (l[k] ≤ v → y ≤ v → y ≤ l[k]) ∧ (v ≤ l[k] → v ≤ y → l[k] ≤ y)

/-- a table with one number for each number of rows and columns -/
def Complete (S : List (List Rat)) : Prop := S.length = 5 ∧ ∀ row ∈ S, row.length = 6

end Verif.SortEstimate.Spec
