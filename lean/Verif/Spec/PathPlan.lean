import Verif.Model.PathPlan
import Verif.Spec.PropertyPath
/-
Specification of the planning of property paths: what graph patterns mean.
-/
namespace Verif.PathPlanSpec
open Verif.PathPlan Verif.PropertyPathSpec
open Verif.PropertyPath (Word Path)

/-- `k` steps. -/
inductive Walk {N : Type} (R : N → N → Prop) : Nat → N → N → Prop where
  | refl (u) : Walk R 0 u u
  | step {k u v w} : R u v → Walk R k v w → Walk R (k + 1) u w

mutual
/-- An assignment of nodes to names is a solution of an operation.  A `TransPath` is evaluated on its own: its inner variables are assigned again for every
step, only constants keep their nodes. -/
def satOne {N : Type} (G : N → Word → N → Prop) : Pattern → (Term → N) → Prop
  | .triple s w o => fun σ => G (σ s) w (σ o)
  | .union a b => fun σ => sat G a σ ∨ sat G b σ
  | .trans l r il ir mn mx child => fun σ => ∃ k, mn ≤ k ∧ k ≤ mx ∧
      Walk (fun u v => ∃ τ : Term → N, (∀ w, w.head? ≠ some '?' → τ (.name w) = σ (.name w)) ∧ τ il = u ∧ τ ir = v ∧ sat G child τ) k (σ l) (σ r)
/-- An assignment of nodes to names is a solution of a graph pattern. -/
def sat {N : Type} (G : N → Word → N → Prop) : List Pattern → (Term → N) → Prop
  | [] => fun _ => True
  | p :: ps => fun σ => satOne G p σ ∧ sat G ps σ
end

/-- Names that are in use if `_internalVarCount` is `n`. -/
def InUse (n : Nat) : Term → Prop
  | .name _ => True
  | .fresh m => m < n

/-- A tree matches the empty path if it connects every node with itself in every graph. -/
def Null (p : Path) : Prop := ∀ (N : Type) (G : N → Word → N → Prop) (u : N), pathRel G p u u

/-- The trees that are planned correctly: the summands of an alternative agree in whether they match the empty path; in a sequence, nothing that does not
match the empty path stands behind both a factor that does and one that does not, and at most ten factors match the empty path. -/
inductive Supported : Path → Prop where
  | iri (limit w null) : Supported (.node .iri limit w [] null)
  | inverse (limit w c null) : Supported c → Supported (.node .inverse limit w [c] null)
  | transitive (limit w c null) : Supported c → Supported (.node .transitive limit w [c] null)
  | transitiveMin (w c null) : Supported c → Supported (.node .transitiveMin 1 w [c] null)
  | transitiveMax (limit w c null) : Supported c → Supported (.node .transitiveMax limit w [c] null)
  | sequence (limit w cs null) : 2 ≤ cs.length → (∀ c ∈ cs, Supported c) →
      (∀ pre c post, cs = pre ++ c :: post → ¬Null c → (∀ d ∈ pre, Null d) ∨ (∀ d ∈ pre, ¬Null d)) →
      (∀ l : List Path, l.Sublist cs → (∀ d ∈ l, Null d) → l.length ≤ 10) → Supported (.node .sequence limit w cs null)
  | alternative (limit w cs null) : 2 ≤ cs.length → (∀ c ∈ cs, Supported c) → ((∀ c ∈ cs, Null c) ∨ (∀ c ∈ cs, ¬Null c)) →
      Supported (.node .alternative limit w cs null)

end Verif.PathPlanSpec
