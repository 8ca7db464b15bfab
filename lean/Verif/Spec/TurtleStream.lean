import Verif.Spec.Turtle
/-
Turtle documents that are given in pieces.  Independent of the model of the parser.
-/
namespace Verif.TurtleSpec

/-- The text ends with a dot, perhaps followed by the beginning of a percent code or of an escape. -/
def EndsOpen (t : Str) : Prop := ∃ v p, t = v ++ '.' :: p ∧ (p = [] ∨ p = ['%'] ∨ (∃ h, p = ['%', h]) ∨ p = ['\\'])

/-- It is clear at the end of `t` which tokens end there, or there is white space next. -/
def CutOk (t r : Str) : Prop := ¬ EndsOpen t ∨ ∃ c u, r = c :: u ∧ blank c

/-- All cuts of a text into pieces, the first of which is `t`. -/
def Cuts (t : Str) : List Str → Prop
  | [] => True
  | b :: bs => CutOk t (b ++ bs.flatten) ∧ Cuts (t ++ b) bs

/-- No prefix is declared with two meanings. -/
def Consistent (d : List Stmt) : Prop :=
  ∀ q q' p t t' v v', .pre q p t v ∈ d → .pre q' p t' v' ∈ d → v = v'

end Verif.TurtleSpec
