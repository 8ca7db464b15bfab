import Verif.Spec.Planner
import Verif.Spec.Permutation
/-
What a triple pattern matches (SPARQL 1.1, section 18.3).
-/
namespace Verif.TriplePatternSpec
open PlannerSpec (Sol)

/-- A term with given values of variables stands for `x`.  `ids` says what constants stand for. -/
def Denotes (ids : String → Option Nat) (isVar : String → Bool) (sol : Sol) (term : String) (x : Nat) : Prop :=
  if isVar term = true then sol term = some x else ids term = some x

/-- With the values of the solution the pattern becomes the triple, and no other variable has a value. -/
def Matches (ids : String → Option Nat) (isVar : String → Bool) (s p o : String) (t : Permutation.Triple) (sol : Sol) : Prop :=
  Denotes ids isVar sol s t.s ∧ Denotes ids isVar sol p t.p ∧ Denotes ids isVar sol o t.o ∧
    ∀ v, ¬ (isVar v = true ∧ (v = s ∨ v = p ∨ v = o)) → sol v = none

/-- The solutions of a pattern: each exactly once. -/
def Solutions (ids : String → Option Nat) (isVar : String → Bool) (s p o : String) (T : List Permutation.Triple) (bag : List Sol) : Prop :=
  bag.Nodup ∧ ∀ sol, sol ∈ bag ↔ ∃ t ∈ T, Matches ids isVar s p o t sol

/-- A solution of several patterns (SPARQL 1.1, section 18.3.1): with its values every pattern becomes a triple of the data, and only
the variables of the patterns have values. -/
def Bgp (ids : String → Option Nat) (isVar : String → Bool) (ps : List (String × String × String)) (T : List Permutation.Triple)
    (sol : Sol) : Prop :=
  (∀ q ∈ ps, ∃ t ∈ T, Denotes ids isVar sol q.1 t.s ∧ Denotes ids isVar sol q.2.1 t.p ∧ Denotes ids isVar sol q.2.2 t.o) ∧
    ∀ v, ¬ (isVar v = true ∧ ∃ q ∈ ps, v = q.1 ∨ v = q.2.1 ∨ v = q.2.2) → sol v = none

end Verif.TriplePatternSpec
