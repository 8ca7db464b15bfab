import Verif.Spec.Planner
/-
What a group graph pattern denotes (SPARQL 1.1, sections 18.2 and 18.5): `Join`, `LeftJoin`, `Minus`, `Union`, `Extend`.
-/
namespace Verif.PlannerSpec

/-- The join of two bags. -/
noncomputable def join (A B : List Sol) : List Sol := joinAll [A, B]

open Classical in
/-- `A OPTIONAL { B FILTER cond }` -/
noncomputable def leftJoin (A B : List Sol) (cond : Sol → Bool) : List Sol :=
  A.flatMap fun s =>
    let partners := (B.filter fun t => Compatible s t ∧ cond (union [s, t]) = true).map fun t => union [s, t]
    if partners = [] then [s] else partners

open Classical in
/-- `A MINUS { B }` -/
noncomputable def minus (A B : List Sol) : List Sol :=
  A.filter fun s => ¬ ∃ t ∈ B, Compatible s t ∧ ∃ v, s v ≠ none ∧ t v ≠ none

/-- `BIND(e AS ?v)`; `e` is the value of the expression. -/
def extend (A : List Sol) (v : String) (e : Sol → Option Nat) : List Sol := A.map fun s w => if w = v then e s else s w

/-- The parts of a group, one after the other. -/
inductive Part where
  | nil
  /-- a pattern with its solutions -/
  | pattern (b : List Sol) (rest : Part)
  | optional (child : Part) (filters : List (Sol → Bool)) (rest : Part)
  | minus (child : Part) (filters : List (Sol → Bool)) (rest : Part)
  | bind (v : String) (e : Sol → Option Nat) (rest : Part)
  /-- `{ … }` -/
  | group (child : Part) (filters : List (Sol → Bool)) (rest : Part)
  | union (child1 : Part) (filters1 : List (Sol → Bool)) (child2 : Part) (filters2 : List (Sol → Bool)) (rest : Part)

/-- The solution that binds nothing. -/
def noBinding : Sol := fun _ => none

/-- The solutions after the parts of a group, from the solutions before. -/
noncomputable def eval : Part → List Sol → List Sol
  | .nil, A => A
  | .pattern b rest, A => eval rest (join A b)
  | .optional child fs rest, A => eval rest (leftJoin A (eval child [noBinding]) fun s => fs.all fun f => f s)
  | .minus child fs rest, A => eval rest (minus A ((eval child [noBinding]).filter fun s => fs.all fun f => f s))
  | .bind v e rest, A => eval rest (extend A v e)
  | .group child fs rest, A => eval rest (join A ((eval child [noBinding]).filter fun s => fs.all fun f => f s))
  | .union child1 fs1 child2 fs2 rest, A => eval rest (join A
    (((eval child1 [noBinding]).filter fun s => fs1.all fun f => f s) ++ (eval child2 [noBinding]).filter fun s => fs2.all fun f => f s))

/-- The solutions of a group with filters. -/
noncomputable def group (p : Part) (filters : List (Sol → Bool)) : List Sol :=
  (eval p [noBinding]).filter fun s => filters.all fun f => f s

end Verif.PlannerSpec
