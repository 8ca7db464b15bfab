import Verif.Lemmas.GroupPlanner
/-
C66 Whatever plan the query planner chooses for a group graph pattern with triples, OPTIONAL, MINUS, UNION, nested groups, BIND and
filters, its execution returns exactly the solutions of the group.
-/
namespace Verif.GroupPlanner
open Planner (Var solution returns)
open PlannerSpec

/-- **C66** for groups that are `Safe`: what is joined has the shape of a tree, variables that occur in several parts are always
bound, an OPTIONAL shares a variable with what is before it, filters are on variables of their group, and a group that is nothing but
a nested group has no filters in the latter.
Missing: other groups (see `C66_optional_first_violated`, `C66_filter_dropped`, `C66_filter_forgotten`, `C66_group_filter_forgotten`,
`C66_minus_violated`, `C66_bind_first_violated`). -/
theorem C66_group_partial {G : GParams} {W : World} {M : Meaning} {g : Children} {fs : List Flt} (ho : Orders G)
    (hfs : ∀ f ∈ fs, FilterOk W f) (hin : InScope fs (scope M g .init).vars) (hfaith : Faithful W M g) (hsafe : Safe M g .init)
    {ps : List GPlan} (hopt : optimize G g fs = .ok ps) {p : GPlan} (hp : p ∈ ps) {x : Table} (he : GEval G W p.tree x) :
    (x.map (solution (p.tree.cols G))).Perm (group (denote W M g) (fs.map fun f => W.keep f.id)) := by
  unfold optimize at hopt
  obtain ⟨s, h1, h2⟩ := bind_ok_inv hopt
  obtain ⟨htree, seeds, hs, hm⟩ := run_ok ho g hfs init_ok (.inr init_mask) hfaith hsafe h1
  have := (finish_ok ho hfs hs hm htree h2 p hp).1.sols x he
  rw [covered_all hin] at this
  exact this

namespace Sample

def G : GParams := ⟨fun _ _ _ => Planner.Sample.P, fun _ _ => true, id, fun _ => 0⟩

def xy : Triple := ⟨0, ⟨["x", "y"], [Planner.Sample.scan "x" "y", Planner.Sample.scan "y" "x"]⟩⟩
def yz : Triple := ⟨1, ⟨["y", "z"], [Planner.Sample.scan "y" "z", Planner.Sample.scan "z" "y"]⟩⟩

/-- `?z != 9` -/
def f : Flt := ⟨0, ["z"]⟩

/-- `?x <p> ?y OPTIONAL { ?y <q> ?z FILTER(?z != 9) }` -/
def g : Children := .triples [xy] (.optional (.triples [yz] .nil) [f] .nil)

def left : GTree := .joined (.leaf 0 0 true 2 [0, 1] [("x", 0), ("y", 1)]) [] [xy] []
def right : GTree := .joined (.filter (.leaf 0 0 true 2 [0, 1] [("y", 0), ("z", 1)]) 0) [f] [yz] []

def plan : GPlan := ⟨.optional (.orderBy left [1]) right false true [(1, 0)], 0⟩

theorem chosen : optimize G g [] = .ok [plan] := by rfl

/-- `?x <p> ?y MINUS { ?y <q> ?z FILTER(?z != 9) } BIND(?x + 1 AS ?w) FILTER(?w = 3)` -/
def g2 : Children := .triples [xy] (.minus (.triples [yz] .nil) [f] (.bind "w" 0 .nil))

def f2 : Flt := ⟨1, ["w"]⟩

def left2 : GTree := .joined (.leaf 0 0 true 2 [0, 1] [("x", 0), ("y", 1)]) [f2] [xy] []

/-- What the only pattern is after the MINUS. -/
def kid2 : GTree := .minus (.orderBy left2 [1]) right [(1, 0)]

def plan2 : GPlan :=
  ⟨.filter (.bind (.joined (.leaf 0 0 false 2 [1] [("x", 0), ("y", 1)]) [f2] [] [[kid2]]) "w" 0) f2, 1⟩

theorem chosen2 : optimize G g2 [f2] = .ok [plan2] := by rfl

def W : World where
  scan := returns Planner.Sample.data
  op := fun _ _ => False
  keep := fun i s =>
    match i with
    | 0 => s "z" ≠ some 9
    | 1 => s "w" = some 3
    | 2 => s "y" ≠ some 5
    | _ => s "x" = s "z"
  value := fun _ s => (s "x").getD 0 + 1

def M : Meaning := ⟨Planner.Sample.bag, fun _ => [], fun _ => []⟩

theorem orders : Orders G := ⟨fun m => .refl m, fun _ _ _ m => .refl m, fun _ _ _ g => .refl g⟩

theorem xy_ok : TripleOk W M xy := by
  refine ⟨?_, by decide, by decide, ?_⟩
  · intro k a ha
    have h := Planner.Sample.describes.leaf 0 k a ha
    exact ⟨h.map, h.unbound, h.vars, h.wf, h.sorted, h.sols, h.full⟩
  · intro s hs v
    have hs' : s = solution [("x", 0), ("y", 1)] [1, 5] ∨ s = solution [("x", 0), ("y", 1)] [2, 6] := by
      simpa [M, xy, Planner.Sample.bag, Planner.Sample.data] using hs
    constructor
    · intro hv
      have : v = "x" ∨ v = "y" := by simpa [xy] using hv
      rcases this with rfl | rfl <;> rcases hs' with rfl | rfl <;> decide
    · intro hv
      by_contra hn
      apply hv
      rcases hs' with rfl | rfl <;> exact Planner.solution_not_mem hn _

theorem yz_ok : TripleOk W M yz := by
  refine ⟨?_, by decide, by decide, ?_⟩
  · intro k a ha
    have h := Planner.Sample.describes.leaf 1 k a ha
    exact ⟨h.map, h.unbound, h.vars, h.wf, h.sorted, h.sols, h.full⟩
  · intro s hs v
    have hs' : s = solution [("y", 0), ("z", 1)] [5, 8] ∨ s = solution [("y", 0), ("z", 1)] [5, 9] := by
      simpa [M, yz, Planner.Sample.bag, Planner.Sample.data] using hs
    constructor
    · intro hv
      have : v = "y" ∨ v = "z" := by simpa [yz] using hv
      rcases this with rfl | rfl <;> rcases hs' with rfl | rfl <;> decide
    · intro hv
      by_contra hn
      apply hv
      rcases hs' with rfl | rfl <;> exact Planner.solution_not_mem hn _

theorem f_ok : FilterOk W f := fun s t h => by
  have := h "z" (by decide)
  simp [W, f, this]

theorem f2_ok : FilterOk W f2 := fun s t h => by
  have := h "w" (by decide)
  simp [W, f2, this]

theorem faithful : Faithful W M g := by
  refine ⟨?_, ⟨?_, trivial⟩, ?_, trivial⟩
  · intro tr h; rw [List.mem_singleton] at h; subst h; exact xy_ok
  · intro tr h; rw [List.mem_singleton] at h; subst h; exact yz_ok
  · intro f' h; rw [List.mem_singleton] at h; subst h; exact f_ok

theorem faithful2 : Faithful W M g2 := by
  refine ⟨?_, ⟨?_, trivial⟩, ?_, trivial⟩
  · intro tr h; rw [List.mem_singleton] at h; subst h; exact xy_ok
  · intro tr h; rw [List.mem_singleton] at h; subst h; exact yz_ok
  · intro f' h; rw [List.mem_singleton] at h; subst h; exact f_ok

/-- A single pattern has the shape of a tree. -/
theorem tree_single {σ : Scope} (h : σ.patterns.length = 1) : σ.Tree := by
  unfold Scope.Tree
  rw [h]
  refine ⟨id, fun _ _ _ _ h => h, fun j hj v w _ _ ⟨i, _, hi, _⟩ => ?_⟩
  simp only [id] at hi
  omega

theorem shared : Shared ["x", "y"] ["x", "y"] ["y", "z"] ["y", "z"] := fun _ h1 h2 => ⟨h1, h2⟩

theorem safe : Safe M g .init := by
  refine ⟨fun tr _ v h => (by cases h), tree_single rfl, ⟨fun tr _ v h => (by cases h), tree_single rfl⟩, ?_, shared,
    ⟨"y", by decide, by decide⟩, by decide, by decide, tree_single rfl⟩
  intro f' hf v hv
  rw [List.mem_singleton] at hf
  subst hf
  have : v = "z" := by simpa [f] using hv
  subst this
  decide

theorem safe2 : Safe M g2 .init := by
  refine ⟨fun tr _ v h => (by cases h), tree_single rfl, ⟨fun tr _ v h => (by cases h), tree_single rfl⟩, ?_, shared,
    tree_single rfl, tree_single rfl⟩
  intro f' hf v hv
  rw [List.mem_singleton] at hf
  subst hf
  have : v = "z" := by simpa [f] using hv
  subst this
  decide

/-- Leaves for triples only. -/
def leafData : Nat → Nat → Nat → Table → Prop := fun id j k y => j = 0 ∧ y = Planner.Sample.data id k

theorem eval_left (fs : List Flt) : GEval G W (.joined (.leaf 0 0 true 2 [0, 1] [("x", 0), ("y", 1)]) fs [xy] []) [[1, 5], [2, 6]] := by
  refine .joined (data := leafData 0) ?_ ?_ (.leaf rfl ⟨rfl, rfl⟩)
  · rintro j k y tr ⟨rfl, rfl⟩ h
    cases h
    exact rfl
  · rintro j k y ps t ⟨rfl, rfl⟩ h
    simp at h

theorem eval_right : GEval G W right [[5, 8]] := by
  refine .joined (data := leafData 1) ?_ ?_ (Planner.Eval.filter (i := 0) (x := [[5, 8], [5, 9]]) (.leaf rfl ⟨rfl, rfl⟩))
  · rintro j k y tr ⟨rfl, rfl⟩ h
    cases h
    exact rfl
  · rintro j k y ps t ⟨rfl, rfl⟩ h
    simp at h

/-- The sides are ordered by `?y` already. -/
theorem eval_ordered (fs : List Flt) :
    GEval G W (.orderBy (.joined (.leaf 0 0 true 2 [0, 1] [("x", 0), ("y", 1)]) fs [xy] []) [1]) [[1, 5], [2, 6]] :=
  .orderBy (eval_left fs) (.sorted _ (by unfold Modifiers.Comparable; decide) (.refl _) (by decide))

theorem eval_plan : GEval G W plan.tree [[1, 5, 8], [2, 6, ID_NO_VALUE]] :=
  .optional (eval_ordered []) eval_right (fuel := 4) (by decide) (by decide)

theorem eval_plan2 : GEval G W plan2.tree [[2, 6, 3]] := by
  have hk : GEval G W kid2 [[2, 6]] := .minus (eval_ordered [f2]) eval_right (fuel := 4) (by decide) (by decide)
  have hj : GEval G W (.joined (.leaf 0 0 false 2 [1] [("x", 0), ("y", 1)]) [f2] [] [[kid2]]) [[2, 6]] := by
    refine .joined (data := fun j k y => j = 0 ∧ k = 0 ∧ y = [[2, 6]]) ?_ ?_ (.leaf rfl ⟨rfl, rfl, rfl⟩)
    · rintro j k y tr _ h
      cases h
    · rintro j k y ps t ⟨rfl, rfl, rfl⟩ _ h1 h2
      cases h1
      cases h2
      exact hk
  exact GEval.filter (x := [[2, 6, 3]]) (f := f2) (GEval.bind (v := "w") (e := 0) hj)

example : ([[1, 5, 8], [2, 6, ID_NO_VALUE]] : Table).map (solution (plan.tree.cols G)) |>.Perm (group (denote W M g) []) :=
  C66_group_partial orders (fun _ h => by cases h) (fun _ h => by cases h) faithful safe chosen (List.mem_singleton_self _) eval_plan

example : ([[2, 6, 3]] : Table).map (solution (plan2.tree.cols G)) |>.Perm (group (denote W M g2) [W.keep 1]) := by
  refine C66_group_partial (fs := [f2]) orders ?_ ?_ faithful2 safe2 chosen2 (List.mem_singleton_self _) eval_plan2
  · intro f' h; rw [List.mem_singleton] at h; subst h; exact f2_ok
  · intro f' hf v hv
    rw [List.mem_singleton] at hf
    subst hf
    have : v = "w" := by simpa [f2] using hv
    subst this
    decide

/-- `{ ?x <p> ?y } UNION { ?y <q> ?z FILTER(?z != 9) } FILTER(?y != 5)` -/
def g3 : Children := .union (.triples [xy] .nil) [] (.triples [yz] .nil) [f] .nil

def f3 : Flt := ⟨2, ["y"]⟩

def plan3 : GPlan := ⟨.filter (.union left right [(some 0, none), (some 1, some 0), (none, some 1)]) f3, 1⟩

theorem chosen3 : optimize G g3 [f3] = .ok [plan3] := by rfl

theorem eval_plan3 : GEval G W plan3.tree [[2, 6, ID_NO_VALUE]] :=
  GEval.filter (x := [[1, 5, ID_NO_VALUE], [2, 6, ID_NO_VALUE], [ID_NO_VALUE, 5, 8]]) (f := f3)
    (.union (eval_left []) eval_right (by decide))

theorem f3_ok : FilterOk W f3 := fun s t h => by
  have := h "y" (by decide)
  simp [W, f3, this]

theorem in_scope : InScope [f] (scope M (.triples [yz] .nil) .init).vars := by
  intro f' hf v hv
  rw [List.mem_singleton] at hf
  subst hf
  have : v = "z" := by simpa [f] using hv
  subst this
  decide

theorem in_scope3 {g : Children} (h : "y" ∈ (scope M g .init).vars) : InScope [f3] (scope M g .init).vars := by
  intro f' hf v hv
  rw [List.mem_singleton] at hf
  subst hf
  have : v = "y" := by simpa [f3] using hv
  subst this
  exact h

example : ([[2, 6, ID_NO_VALUE]] : Table).map (solution (plan3.tree.cols G)) |>.Perm (group (denote W M g3) [W.keep 2]) := by
  refine C66_group_partial (fs := [f3]) orders ?_ (in_scope3 (by decide)) ?_ ?_ chosen3 (List.mem_singleton_self _) eval_plan3
  · intro f' h; rw [List.mem_singleton] at h; subst h; exact f3_ok
  · refine ⟨⟨?_, trivial⟩, fun _ h => (by cases h), ⟨?_, trivial⟩, ?_, trivial⟩
    · intro tr h; rw [List.mem_singleton] at h; subst h; exact xy_ok
    · intro tr h; rw [List.mem_singleton] at h; subst h; exact yz_ok
    · intro f' h; rw [List.mem_singleton] at h; subst h; exact f_ok
  · exact ⟨⟨fun tr _ v h => (by cases h), tree_single rfl⟩, ⟨fun tr _ v h => (by cases h), tree_single rfl⟩, fun _ h => (by cases h),
      in_scope, fun v h => (by cases h), by decide, tree_single rfl⟩

/-- `{ ?y <q> ?z FILTER(?z != 9) } BIND(?x + 1 AS ?w)` -/
def g4 : Children := .group (.triples [yz] .nil) [f] (.bind "w" 0 .nil)

theorem chosen4 : ∃ p q, optimize G g4 [f3] = .ok [p, q] := ⟨_, _, rfl⟩

example : (∀ f' ∈ [f3], FilterOk W f') ∧ InScope [f3] (scope M g4 .init).vars ∧ Faithful W M g4 ∧ Safe M g4 .init := by
  refine ⟨?_, in_scope3 (by decide), ⟨⟨?_, trivial⟩, ?_, trivial⟩, ⟨fun tr _ v h => (by cases h), tree_single rfl⟩, in_scope,
    fun v h => (by cases h), .inr (.inr rfl), tree_single rfl, tree_single rfl⟩
  · intro f' h; rw [List.mem_singleton] at h; subst h; exact f3_ok
  · intro tr h; rw [List.mem_singleton] at h; subst h; exact yz_ok
  · intro f' h; rw [List.mem_singleton] at h; subst h; exact f_ok

end Sample

/-! ### An OPTIONAL at the start of a group, or without a variable that is bound before -/

/-- `OPTIONAL { ?y <q> ?z } ?x <p> ?y` -/
def optionalFirst : Children := .optional (.triples [Sample.yz] .nil) [] (.triples [Sample.xy] .nil)

/-- There are no triples with `<q>`. -/
def emptyW : World := { Sample.W with scan := fun id k y => if id = 0 then y = Planner.Sample.data 0 k else y = [] }

def emptyM : Meaning := { Sample.M with triple := fun id => if id = 0 then Planner.Sample.bag 0 else [] }

/-- **C66 is violated** by an OPTIONAL none of whose variables occurs before it: it is planned like a pattern that is not optional
(QueryPlanner.cpp:216-229).  Here there is nothing for the OPTIONAL, and the plan returns nothing, but all solutions of the other
pattern are solutions. -/
theorem C66_optional_first_violated : ∃ p, optimize Sample.G optionalFirst [] = .ok [p] ∧ GEval Sample.G emptyW p.tree [] ∧
    group (denote emptyW emptyM optionalFirst) [] ≠ [] := by
  refine ⟨_, rfl, ?_, ?_⟩
  · refine .joined (data := fun j k y => (j = 0 ∧ y = Planner.Sample.data 0 k) ∨ (j = 1 ∧ k = 0 ∧ y = [])) ?_ ?_
      (.join (x := [[5, 1], [6, 2]]) (y := []) (fuel := 5) rfl rfl (.leaf rfl (.inl ⟨rfl, rfl⟩)) (.leaf rfl (.inr ⟨rfl, rfl, rfl⟩))
        (by decide) (by decide))
    · rintro j k y tr (⟨rfl, rfl⟩ | ⟨rfl, rfl, rfl⟩) h
      · cases h; exact rfl
      · cases h
    · rintro j k y ps t (⟨rfl, rfl⟩ | ⟨rfl, rfl, rfl⟩) h h1 h2
      · simp at h
      · cases h1
        cases h2
        refine .joined (data := fun j _ y => j = 0 ∧ y = []) ?_ ?_ (.leaf rfl ⟨rfl, rfl⟩)
        · rintro j k y tr ⟨rfl, rfl⟩ h
          cases h; exact rfl
        · rintro j k y ps t ⟨rfl, rfl⟩ h
          simp at h
  · have : group (denote emptyW emptyM optionalFirst) [] = Planner.Sample.bag 0 := by
      show (join (leftJoin [noBinding] (join [noBinding] []) _) (Planner.Sample.bag 0)).filter _ = _
      rw [join_noBinding]
      have : ∀ c, leftJoin [noBinding] [] c = [noBinding] := fun c => by simp [leftJoin]
      rw [this, join_noBinding]
      exact List.filter_eq_self.mpr fun _ _ => rfl
    rw [this]
    simp [Planner.Sample.bag, Planner.Sample.data]

/-- `?x <p> ?y OPTIONAL { ?u <q> ?z }` and the same with MINUS -/
def uz : Triple := ⟨1, ⟨["u", "z"], [Planner.Sample.scan "u" "z", Planner.Sample.scan "z" "u"]⟩⟩

/-- An OPTIONAL without a common variable, as the only other pattern, is planned like a product: there is no plan, and planning ends
with an exception, though every solution before it leads to a solution. -/
theorem C66_optional_disjoint_violated {W : World} {M : Meaning} (h0 : M.triple 0 ≠ []) :
    optimize Sample.G (.triples [Sample.xy] (.optional (.triples [uz] .nil) [] .nil)) [] = .throw ∧
      group (denote W M (.triples [Sample.xy] (.optional (.triples [uz] .nil) [] .nil))) [] ≠ [] := by
  refine ⟨rfl, ?_⟩
  rw [show group (denote W M (.triples [Sample.xy] (.optional (.triples [uz] .nil) [] .nil))) [] = _ from
    List.filter_eq_self.mpr fun _ _ => rfl]
  have key : ∀ (A B : List Sol) (c : Sol → Bool), A ≠ [] → leftJoin A B c ≠ [] := by
    intro A B c hA h
    obtain ⟨s, l, rfl⟩ := List.exists_cons_of_ne_nil hA
    unfold leftJoin at h
    rw [List.flatMap_cons] at h
    have h := (List.append_eq_nil_iff.mp h).1
    dsimp only at h
    split at h
    · cases h
    · exact absurd h ‹_›
  exact key (join [noBinding] (M.triple 0)) (join [noBinding] (M.triple 1)) (fun _ => true) (by rw [join_noBinding]; exact h0)

/-- **C66 is violated** by a MINUS without a common variable: planning ends with an exception.  The MINUS should have no effect. -/
theorem C66_minus_violated {W : World} {M : Meaning} (h0 : ∀ s ∈ M.triple 0, ∀ v, v ∉ ["x", "y"] → s v = none)
    (h1 : ∀ s ∈ M.triple 1, ∀ v, v ∉ ["u", "z"] → s v = none) :
    optimize Sample.G (.triples [Sample.xy] (.minus (.triples [uz] .nil) [] .nil)) [] = .throw ∧
      group (denote W M (.triples [Sample.xy] (.minus (.triples [uz] .nil) [] .nil))) [] = M.triple 0 := by
  classical
  refine ⟨rfl, ?_⟩
  refine (List.filter_eq_self.mpr fun _ _ => rfl).trans ?_
  show minus (join [noBinding] (M.triple 0)) ((join [noBinding] (M.triple 1)).filter _) = _
  rw [join_noBinding, join_noBinding]
  unfold minus
  refine List.filter_eq_self.mpr fun s hs => ?_
  rw [decide_eq_true_eq]
  rintro ⟨t, ht, _, v, hsv, htv⟩
  have hv : v ∈ ["x", "y"] := by by_contra hn; exact hsv (h0 s hs v hn)
  have hv' : v ∈ ["u", "z"] := by by_contra hn; exact htv (h1 t (List.mem_filter.mp ht).1 v hn)
  have : v = "x" ∨ v = "y" := by simpa using hv
  rcases this with rfl | rfl <;> simp at hv'

/-- **C66 is violated** by a BIND at the start of a group: there is no plan; with a pattern after it, planning ends with an
exception.  `BIND(1 AS ?w)` alone has one solution. -/
theorem C66_bind_first_violated {W : World} {M : Meaning} :
    optimize Sample.G (.bind "w" 0 .nil) [] = .ok [] ∧ optimize Sample.G (.bind "w" 0 (.triples [Sample.xy] .nil)) [] = .throw ∧
      (group (denote W M (.bind "w" 0 .nil)) []).length = 1 := by
  refine ⟨rfl, rfl, ?_⟩
  rfl

/-! ### Filters -/

/-- `OPTIONAL { ?y <q> ?z FILTER(?z != 9) } FILTER(?y != 5)` -/
def nestedFilters : Children := .optional (.triples [Sample.yz] .nil) [Sample.f] .nil

def outerFilter : Flt := ⟨2, ["y"]⟩

/-- **C66 is violated** by filters of a group that starts with an OPTIONAL with filters: the plans of the OPTIONAL are the plans of
the group, with the numbers of *their* filters as those that are already applied (QueryPlanner.cpp:402-435).  The filter of the group
is not applied: a plan returns a solution that does not satisfy it. -/
theorem C66_filter_forgotten : ∃ p q, optimize Sample.G nestedFilters [outerFilter] = .ok [p, q] ∧
    GEval Sample.G Sample.W p.tree [[5, 8]] ∧ Sample.W.keep outerFilter.id (solution (p.tree.cols Sample.G) [5, 8]) = false :=
  ⟨_, _, rfl, Sample.eval_right, rfl⟩

/-- **C66 is violated** by `{ { ?y <q> ?z FILTER(?z != 9) } FILTER(?y != 5) }` in the same way: the plans of the nested group come
with the numbers of its filters, and the filter of the outer group is not applied. -/
theorem C66_group_filter_forgotten : ∃ p q, optimize Sample.G (.group (.triples [Sample.yz] .nil) [Sample.f] .nil) [outerFilter] =
      .ok [p, q] ∧ GEval Sample.G Sample.W p.tree [[5, 8]] ∧
    Sample.W.keep outerFilter.id (solution (p.tree.cols Sample.G) [5, 8]) = false :=
  ⟨_, _, rfl, Sample.eval_right, rfl⟩

/-- `?x <p> ?y OPTIONAL { ?y <q> ?z FILTER(?x = ?z) }` -/
def crossFilter : Children := .triples [Sample.xy] (.optional (.triples [Sample.yz] .nil) [⟨3, ["x", "z"]⟩] .nil)

/-- **C66 is violated** by filters in an OPTIONAL that use a variable from outside: they are not applied at all
(`applyFiltersIfPossible` skips a filter whose variables are not all there, QueryPlanner.cpp:2192-2199, and nobody asks whether all
filters have been applied).  Here `?z` is unbound in all solutions, but not in what the plan returns. -/
theorem C66_filter_dropped : ∃ p, optimize Sample.G crossFilter [] = .ok [p] ∧
    GEval Sample.G Sample.W p.tree [[1, 5, 8], [1, 5, 9], [2, 6, ID_NO_VALUE]] ∧
    solution (p.tree.cols Sample.G) [1, 5, 8] "z" = some 8 ∧
    ∀ s ∈ group (denote Sample.W Sample.M crossFilter) [], s "z" = none := by
  refine ⟨_, rfl, ?_, rfl, ?_⟩
  · refine .optional (Sample.eval_ordered []) (y := [[5, 8], [5, 9]]) ?_ (fuel := 5) (by decide) (by decide)
    refine .joined (data := Sample.leafData 1) ?_ ?_ (.leaf rfl ⟨rfl, rfl⟩)
    · rintro j k y tr ⟨rfl, rfl⟩ h
      cases h
      exact rfl
    · rintro j k y ps t ⟨rfl, rfl⟩ h
      simp at h
  · intro s hs
    have hs : s ∈ (leftJoin (join [noBinding] (Planner.Sample.bag 0)) (join [noBinding] (Planner.Sample.bag 1))
        (fun s => ([Sample.W.keep 3] : List (Sol → Bool)).all fun f => f s)).filter _ := hs
    rw [join_noBinding, join_noBinding] at hs
    obtain ⟨hs, -⟩ := List.mem_filter.mp hs
    unfold leftJoin at hs
    obtain ⟨a, ha, hs⟩ := List.mem_flatMap.mp hs
    have ha' : a = solution [("x", 0), ("y", 1)] [1, 5] ∨ a = solution [("x", 0), ("y", 1)] [2, 6] := by
      simpa [Planner.Sample.bag, Planner.Sample.data] using ha
    rw [if_pos] at hs
    · rw [List.mem_singleton] at hs
      subst hs
      rcases ha' with rfl | rfl <;> rfl
    · rw [List.map_eq_nil_iff, List.filter_eq_nil_iff]
      intro t ht
      have ht' : t = solution [("y", 0), ("z", 1)] [5, 8] ∨ t = solution [("y", 0), ("z", 1)] [5, 9] := by
        simpa [Planner.Sample.bag, Planner.Sample.data] using ht
      simp only [decide_eq_true_eq]
      rintro ⟨_, hc⟩
      rcases ha' with rfl | rfl <;> rcases ht' with rfl | rfl <;> exact absurd hc (by decide)

end Verif.GroupPlanner
