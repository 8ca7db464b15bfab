import Verif.Model.GroupPlanner
import Verif.Spec.Group
import Verif.Lemmas.PlannerShape
/-
What groups mean, and the groups for which the planner is right.
-/
namespace Verif.GroupPlanner
open Planner (Var TreeShaped LeafOk)
open PlannerSpec (Sol Part)

/-- The solutions of the triples and of the operations that are not looked into, and the variables that the latter always bind. -/
structure Meaning where
  triple : Nat → List Sol
  op : Nat → List Sol
  certain : Nat → List Var

/-- The value of an expression. -/
def valueOf (W : World) (e : Nat) (s : Sol) : Option Nat := if W.value e s = ID_NO_VALUE then none else some (W.value e s)

/-- The group that the syntax stands for. -/
def denote (W : World) (M : Meaning) : Children → Part
  | .nil => .nil
  | .triples ts rest => ts.foldr (fun tr p => .pattern (M.triple tr.id) p) (denote W M rest)
  | .op id _ rest => .pattern (M.op id) (denote W M rest)
  | .optional g fs rest => .optional (denote W M g) (fs.map fun f => W.keep f.id) (denote W M rest)
  | .minus g fs rest => .minus (denote W M g) (fs.map fun f => W.keep f.id) (denote W M rest)
  | .bind v e rest => .bind v (valueOf W e) (denote W M rest)
  | .group g fs rest => .group (denote W M g) (fs.map fun f => W.keep f.id) (denote W M rest)
  | .union g1 fs1 g2 fs2 rest =>
    .union (denote W M g1) (fs1.map fun f => W.keep f.id) (denote W M g2) (fs2.map fun f => W.keep f.id) (denote W M rest)

/-! ### The data -/

/-- All scans for a triple return the solutions of the triple, in the order in which they say. -/
structure TripleOk (W : World) (M : Meaning) (tr : Triple) : Prop where
  leaf : ∀ k a, tr.node.alts[k]? = some a → LeafOk W.scan (fun _ => tr.node.vars) M.triple tr.id k a
  /-- every column has a variable -/
  exact : ∀ a ∈ tr.node.alts, a.cols.length = a.width
  sorted : ∀ a ∈ tr.node.alts, ∀ c ∈ a.sortedOn, c < a.width
  bound : ∀ s ∈ M.triple tr.id, ∀ v, v ∈ tr.node.vars ↔ s v ≠ none

/-- The same for operations that are not looked into; some of their variables may be unbound. -/
structure OpOk (W : World) (M : Meaning) (id : Nat) (a : Planner.Alt) : Prop where
  scan : a.scan = false
  leaf : LeafOk (fun j _ => W.op j) (fun _ => a.cols.map (·.1)) M.op id 0 a
  exact : a.cols.length = a.width
  sorted : ∀ c ∈ a.sortedOn, c < a.width
  certain : ∀ v ∈ M.certain id, v ∈ a.cols.map (·.1)
  bound : ∀ s ∈ M.op id, ∀ v ∈ M.certain id, s v ≠ none

/-- A filter looks at its variables only. -/
def FilterOk (W : World) (f : Flt) : Prop := ∀ s t : Sol, (∀ v ∈ f.vars, s v = t v) → W.keep f.id s = W.keep f.id t

/-- The operations return the right solutions. -/
def Faithful (W : World) (M : Meaning) : Children → Prop
  | .nil => True
  | .triples ts rest => (∀ tr ∈ ts, TripleOk W M tr) ∧ Faithful W M rest
  | .op id a rest => OpOk W M id a ∧ Faithful W M rest
  | .optional g fs rest => Faithful W M g ∧ (∀ f ∈ fs, FilterOk W f) ∧ Faithful W M rest
  | .minus g fs rest => Faithful W M g ∧ (∀ f ∈ fs, FilterOk W f) ∧ Faithful W M rest
  | .bind _ _ rest => Faithful W M rest
  | .group g fs rest => Faithful W M g ∧ (∀ f ∈ fs, FilterOk W f) ∧ Faithful W M rest
  | .union g1 fs1 g2 fs2 rest => Faithful W M g1 ∧ (∀ f ∈ fs1, FilterOk W f) ∧ Faithful W M g2 ∧ (∀ f ∈ fs2, FilterOk W f) ∧
    Faithful W M rest

/-- Hash maps are iterated in some order. -/
structure Orders (G : GParams) : Prop where
  shuffle : ∀ m, (G.shuffle m).Perm m
  table : ∀ fs ts kids m, ((G.table fs ts kids).shuffle m).Perm m
  order : ∀ fs ts kids g, ((G.table fs ts kids).order g).Perm g

/-! ### The shape of the query -/

/-- The variables before some child: those of the triples and of the other patterns that are not joined yet, and the variables that
are always bound. -/
structure Scope where
  ts : List (List Var)
  plans : List (List Var)
  certain : List Var

def Scope.init : Scope := ⟨[], [], []⟩

/-- The patterns that are joined next. -/
def Scope.patterns (σ : Scope) : List (List Var) := σ.ts ++ σ.plans

/-- All variables. -/
def Scope.vars (σ : Scope) : List Var := σ.patterns.flatten

/-- The patterns that are joined next have the shape of a tree (see C65). -/
def Scope.Tree (σ : Scope) : Prop := TreeShaped (fun j => σ.patterns.getD j []) σ.patterns.length

/-- The variables that two groups always bind. -/
def both (c1 c2 : List Var) : List Var := c1.filter (· ∈ c2)

/-- The variables after some children. -/
def scope (M : Meaning) : Children → Scope → Scope
  | .nil, σ => σ
  | .triples ts rest, σ => scope M rest ⟨σ.ts ++ ts.map (·.node.vars), σ.plans, σ.certain ++ ts.flatMap (·.node.vars)⟩
  | .op id a rest, σ => scope M rest ⟨σ.ts, σ.plans ++ [a.cols.map (·.1)], σ.certain ++ M.certain id⟩
  | .optional g _ rest, σ => scope M rest ⟨[], [σ.vars ++ (scope M g .init).vars], σ.certain⟩
  | .minus _ _ rest, σ => scope M rest ⟨[], [σ.vars], σ.certain⟩
  | .bind v _ rest, σ => scope M rest ⟨[], [σ.vars ++ [v]], σ.certain⟩
  | .group g _ rest, σ =>
    scope M rest ⟨σ.ts, σ.plans ++ [(scope M g .init).vars], σ.certain ++ (scope M g .init).certain⟩
  | .union g1 _ g2 _ rest, σ =>
    scope M rest ⟨σ.ts, σ.plans ++ [(scope M g1 .init).vars ++ (scope M g2 .init).vars],
      σ.certain ++ both (scope M g1 .init).certain (scope M g2 .init).certain⟩

/-- Variables that occur in two parts are always bound in both. -/
def Shared (vs certain vs' certain' : List Var) : Prop := ∀ v, v ∈ vs → v ∈ vs' → v ∈ certain ∧ v ∈ certain'

/-- Filters are on variables of the group. -/
def InScope (fs : List Flt) (vs : List Var) : Prop := ∀ f ∈ fs, ∀ v ∈ f.vars, v ∈ vs

/-- Something follows. -/
def Children.more : Children → Bool
  | .nil => false
  | .triples ts rest => !ts.isEmpty || rest.more
  | _ => true

/-- The groups for which the planner is right: what is joined has the shape of a tree, shared variables are always bound, an
OPTIONAL shares a variable with what is before it, filters are on variables of their group, there are at most 32 variables in
an OPTIONAL and what is before it and at most 100000 in a UNION, and a nested group that is all of its group has no filters. -/
def Safe (M : Meaning) : Children → Scope → Prop
  | .nil, σ => σ.Tree
  | .triples ts rest, σ => (∀ tr ∈ ts, Shared σ.vars σ.certain tr.node.vars tr.node.vars) ∧
    Safe M rest ⟨σ.ts ++ ts.map (·.node.vars), σ.plans, σ.certain ++ ts.flatMap (·.node.vars)⟩
  | .op id a rest, σ => Shared σ.vars σ.certain (a.cols.map (·.1)) (M.certain id) ∧
    Safe M rest ⟨σ.ts, σ.plans ++ [a.cols.map (·.1)], σ.certain ++ M.certain id⟩
  | .optional g fs rest, σ => σ.Tree ∧ Safe M g .init ∧ InScope fs (scope M g .init).vars ∧
    Shared σ.vars σ.certain (scope M g .init).vars (scope M g .init).certain ∧
    (∃ v, v ∈ σ.vars ∧ v ∈ (scope M g .init).vars) ∧
    σ.vars.dedup.length ≤ 32 ∧ (scope M g .init).vars.dedup.length ≤ 32 ∧
    Safe M rest ⟨[], [σ.vars ++ (scope M g .init).vars], σ.certain⟩
  | .minus g fs rest, σ => σ.Tree ∧ Safe M g .init ∧ InScope fs (scope M g .init).vars ∧
    Shared σ.vars σ.certain (scope M g .init).vars (scope M g .init).certain ∧
    Safe M rest ⟨[], [σ.vars], σ.certain⟩
  | .bind v _ rest, σ => σ.Tree ∧ Safe M rest ⟨[], [σ.vars ++ [v]], σ.certain⟩
  | .group g fs rest, σ => Safe M g .init ∧ InScope fs (scope M g .init).vars ∧
    Shared σ.vars σ.certain (scope M g .init).vars (scope M g .init).certain ∧
    (fs = [] ∨ σ.patterns ≠ [] ∨ rest.more = true) ∧
    Safe M rest ⟨σ.ts, σ.plans ++ [(scope M g .init).vars], σ.certain ++ (scope M g .init).certain⟩
  | .union g1 fs1 g2 fs2 rest, σ => Safe M g1 .init ∧ Safe M g2 .init ∧
    InScope fs1 (scope M g1 .init).vars ∧ InScope fs2 (scope M g2 .init).vars ∧
    Shared σ.vars σ.certain ((scope M g1 .init).vars ++ (scope M g2 .init).vars)
      (both (scope M g1 .init).certain (scope M g2 .init).certain) ∧
    ((scope M g1 .init).vars ++ (scope M g2 .init).vars).dedup.length ≤ 100000 ∧
    Safe M rest ⟨σ.ts, σ.plans ++ [(scope M g1 .init).vars ++ (scope M g2 .init).vars],
      σ.certain ++ both (scope M g1 .init).certain (scope M g2 .init).certain⟩

end Verif.GroupPlanner
