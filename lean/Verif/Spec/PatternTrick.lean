import Verif.Model.SparqlParser
/-
The solutions of graph patterns, and the answers to queries that count the solutions for each value of a variable.  From the model of the
parser only the types of parsed queries are used.

Simplification: a filter inside of `OPTIONAL` sees the variables of its group only.
-/
namespace Verif.TrickSpec
open Verif.SparqlParser (Str Triple Filter BindExpr Info Op Pattern Query)
open Classical

/-- A solution: the values of variables. -/
abbrev Sol := Str → Option Nat

/-- Two solutions agree on the variables that both have. -/
def Compat (μ ν : Sol) : Prop := ∀ v, μ v = none ∨ ν v = none ∨ μ v = ν v

def merge (μ ν : Sol) : Sol := fun v => (μ v).or (ν v)

noncomputable def matching (μ : Sol) (Φ : List Sol) : List Sol := (Φ.filter fun ν => decide (Compat μ ν)).map (merge μ)

noncomputable def join (Ω Φ : List Sol) : List Sol := Ω.flatMap fun μ => matching μ Φ

noncomputable def leftJoin (Ω Φ : List Sol) : List Sol := Ω.flatMap fun μ => if matching μ Φ = [] then [μ] else matching μ Φ

/-- Without the solutions that agree with one in `Φ` with which they share a variable. -/
noncomputable def without (Ω Φ : List Sol) : List Sol :=
  Ω.filter fun μ => decide (¬ ∃ ν ∈ Φ, Compat μ ν ∧ ∃ v, μ v ≠ none ∧ ν v ≠ none)

/-- The data, and what filters and expressions mean. -/
structure World where
  triple : Triple → List Sol
  values : List Str → List (List Str) → List Sol
  sub : Query → List Sol
  filter : Filter → Sol → Bool
  expr : BindExpr → Sol → Option Nat

variable (W : World)

mutual
/-- A part of a group, behind parts with the solutions `Ω`. -/
noncomputable def evalOp (Ω : List Sol) : Op → List Sol
  | .basic ts => ts.foldl (fun Ω t => join Ω (W.triple t)) Ω
  | .optional g => leftJoin Ω (evalGroup g)
  | .minus g => without Ω (evalGroup g)
  | .union a b => join Ω (evalGroup a ++ evalGroup b)
  | .subquery q => join Ω (W.sub q)
  | .bind e v => Ω.map fun μ w => if w = v then W.expr e μ else μ w
  | .values vs rows => join Ω (W.values vs rows)
noncomputable def evalOps (Ω : List Sol) : List Op → List Sol
  | [] => Ω
  | o :: os => evalOps (evalOp Ω o) os
/-- The solutions of a group. -/
noncomputable def evalGroup : Pattern → List Sol
  | .mk fs cs => (evalOps [fun _ => none] cs).filter fun μ => fs.all (W.filter · μ)
end

def exprVars : BindExpr → List Str
  | .rename v => [v]
  | .binary v w _ => [v, w]
  | .word _ => []
  | .int _ => []

def filterVars (f : Filter) : List Str := f.lhs :: f.rhs :: f.additionalLhs

/-- The parts of a query only depend on, and give values to, the variables that occur in them. -/
structure World.Lawful : Prop where
  triple : ∀ t μ, μ ∈ W.triple t → ∀ v, μ v ≠ none → v ∈ [t.s, t.p.iri, t.o]
  bound : ∀ t μ, μ ∈ W.triple t → ∀ v ∈ [t.s, t.p.iri, t.o], v.head? = some '?' → μ v ≠ none
  values : ∀ vs rows μ, μ ∈ W.values vs rows → ∀ v, μ v ≠ none → v ∈ vs
  sub : ∀ info g μ, μ ∈ W.sub (.mk info g) → ∀ v, μ v ≠ none → v ∈ info.selected
  filter : ∀ f μ ν, (∀ v ∈ filterVars f, μ v = ν v) → W.filter f μ = W.filter f ν
  expr : ∀ e μ ν, (∀ v ∈ exprVars e, μ v = ν v) → W.expr e μ = W.expr e ν

mutual
/-- The variable occurs in the part of a group (and not only inside of a subquery). -/
def Occurs (v : Str) : Op → Prop
  | .basic ts => ∃ t ∈ ts, v ∈ [t.s, t.p.iri, t.o]
  | .optional g => OccursIn v g
  | .minus g => OccursIn v g
  | .union a b => OccursIn v a ∨ OccursIn v b
  | .subquery (.mk info _) => v ∈ info.selected
  | .bind e w => v = w ∨ v ∈ exprVars e
  | .values vs _ => v ∈ vs
def OccursAny (v : Str) : List Op → Prop
  | [] => False
  | o :: os => Occurs v o ∨ OccursAny v os
def OccursIn (v : Str) : Pattern → Prop
  | .mk _ cs => OccursAny v cs
end

/-- The answers: the values of `v` with the number of solutions (`n`), or the number of different values of `w` in these solutions. -/
noncomputable def counted (Ω : List Sol) (v : Str) (p : Nat) : Nat := (Ω.filter fun μ => μ v == some p).length

/-- `n` is the number of different values of `w` in the solutions with `v = p`. -/
def CountsDistinct (Ω : List Sol) (v w : Str) (p n : Nat) : Prop :=
  ∃ D : List Nat, D.Nodup ∧ D.length = n ∧ ∀ a, a ∈ D ↔ ∃ μ ∈ Ω, μ v = some p ∧ μ w = some a

end Verif.TrickSpec
