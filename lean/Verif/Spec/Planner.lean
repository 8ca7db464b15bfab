/-
What a group of patterns that are joined denotes (SPARQL 1.1, section 18.5, `Join` and `Filter`), without reference to the order
in which joins are computed.
-/
namespace Verif.PlannerSpec

/-- A solution: values for some variables. -/
abbrev Sol := String → Option Nat

/-- Two solutions agree on all variables that both bind. -/
def Compatible (s t : Sol) : Prop := ∀ v, s v = none ∨ t v = none ∨ s v = t v

/-- All variables bound by some of the solutions. -/
def union (ss : List Sol) : Sol := fun v => ss.findSome? fun s => s v

/-- All ways to choose one solution for each pattern. -/
def choices : List (List Sol) → List (List Sol)
  | [] => [[]]
  | b :: bs => b.flatMap fun s => (choices bs).map (s :: ·)

open Classical in
/-- The join of patterns, given the solutions of each: one solution for every choice of pairwise compatible solutions. -/
noncomputable def joinAll (bags : List (List Sol)) : List Sol :=
  ((choices bags).filter fun ss => ss.Pairwise Compatible).map union

/-- The join restricted by filters. -/
noncomputable def answers (bags : List (List Sol)) (filters : List (Sol → Bool)) : List Sol :=
  (joinAll bags).filter fun s => filters.all fun f => f s

end Verif.PlannerSpec
