import Verif.Lemmas.GroupRows
import Verif.Props.C14_C15_MultiJoin
/-
Laws of the operations on bags of solutions, and what tables of OPTIONAL and MINUS denote.
-/
namespace Verif.PlannerSpec

theorem union_pair (s t : Sol) : union [s, t] = union2 s t := by
  have := union_append [s] [t]
  rw [union_singleton, union_singleton] at this
  exact this

theorem join_eq (A B : List Sol) : join A B = bagJoin A B := by
  have := joinAll_append [A] [B]
  rw [joinAll_singleton, joinAll_singleton] at this
  exact this

theorem join_noBinding (B : List Sol) : join [noBinding] B = B := by
  classical
  rw [join_eq]
  unfold bagJoin
  rw [List.flatMap_singleton, List.filter_eq_self.mpr]
  · conv => rhs; rw [← List.map_id B]
    apply List.map_congr_left
    intro s _
    funext v
    simp [union2, noBinding]
  · intro t _
    rw [decide_eq_true_eq]
    intro v
    exact .inl rfl

theorem mem_bagJoin {A B : List Sol} {u : Sol} : u ∈ bagJoin A B ↔ ∃ s ∈ A, ∃ t ∈ B, Compatible s t ∧ u = union2 s t := by
  classical
  unfold bagJoin
  rw [List.mem_flatMap]
  refine exists_congr fun s => and_congr_right fun _ => ?_
  rw [List.mem_map]
  constructor
  · rintro ⟨t, ht, rfl⟩
    obtain ⟨h1, h2⟩ := List.mem_filter.mp ht
    exact ⟨t, h1, by simpa using h2, rfl⟩
  · rintro ⟨t, h1, h2, rfl⟩
    exact ⟨t, List.mem_filter.mpr ⟨h1, by simpa using h2⟩, rfl⟩

open Classical in
/-- The left join as two parts: the solutions with and without partner. -/
noncomputable def lj (A B : List Sol) : List Sol := bagJoin A B ++ A.filter fun s => ¬ ∃ t ∈ B, Compatible s t

open Classical in
theorem flatMap_split {α β : Type} (l : List α) (c : α → Prop) [DecidablePred c] (f : α → List β) (g : α → β) (hf : ∀ a ∈ l, f a = [] ↔ c a) :
    (l.flatMap fun a => if f a = [] then [g a] else f a).Perm (l.flatMap f ++ (l.filter fun a => c a).map g) := by
  induction l with
  | nil => exact .refl _
  | cons a l ih =>
    have ih := ih fun b hb => hf b (List.mem_cons_of_mem _ hb)
    rw [List.flatMap_cons, List.flatMap_cons, List.filter_cons]
    by_cases h : f a = []
    · have hc := (hf a List.mem_cons_self).mp h
      simp only [h, if_true, hc, decide_true, List.map_cons, List.nil_append, List.singleton_append]
      exact (ih.cons _).trans List.perm_middle.symm
    · have hc : ¬ c a := fun hc => h ((hf a List.mem_cons_self).mpr hc)
      simp only [h, if_false, hc, decide_false, Bool.false_eq_true]
      rw [List.append_assoc]
      exact ih.append_left _

theorem leftJoin_perm_lj {A B : List Sol} {cond : Sol → Bool}
    (hc : ∀ s ∈ A, ∀ t ∈ B, Compatible s t → cond (union2 s t) = cond t) : (leftJoin A B cond).Perm (lj A (B.filter cond)) := by
  classical
  unfold leftJoin lj
  simp only
  have hp : ∀ s ∈ A, ((B.filter fun t => Compatible s t ∧ cond (union [s, t]) = true).map fun t => union [s, t]) =
      ((B.filter cond).filter fun t => Compatible s t).map (union2 s) := by
    intro s hs
    simp only [union_pair]
    congr 1
    rw [List.filter_filter]
    apply List.filter_congr
    intro t ht
    rw [Bool.eq_iff_iff]
    simp only [Bool.and_eq_true, decide_eq_true_eq]
    constructor
    · rintro ⟨h1, h2⟩
      exact ⟨h1, by rw [← hc s hs t ht h1]; exact h2⟩
    · rintro ⟨h1, h2⟩
      exact ⟨h1, by rw [hc s hs t ht h1]; exact h2⟩
  have he : (A.flatMap fun s =>
      if ((B.filter fun t => Compatible s t ∧ cond (union [s, t]) = true).map fun t => union [s, t]) = [] then [s]
      else (B.filter fun t => Compatible s t ∧ cond (union [s, t]) = true).map fun t => union [s, t]) =
      A.flatMap fun s => if ((B.filter cond).filter fun t => Compatible s t).map (union2 s) = [] then [s]
      else ((B.filter cond).filter fun t => Compatible s t).map (union2 s) := by
    apply List.flatMap_congr
    intro s hs
    rw [hp s hs]
  rw [he]
  have := flatMap_split A (fun s => ¬ ∃ t ∈ B.filter cond, Compatible s t)
    (fun s => ((B.filter cond).filter fun t => Compatible s t).map (union2 s)) id (by
      intro s _
      rw [List.map_eq_nil_iff, List.filter_eq_nil_iff]
      constructor
      · rintro h ⟨t, ht, hst⟩
        exact h t ht (by simpa using hst)
      · intro h t ht hst
        exact h ⟨t, ht, by simpa using hst⟩)
  rw [List.map_id] at this
  exact this

theorem lj_perm {A A' B B' : List Sol} (h1 : A.Perm A') (h2 : B.Perm B') : (lj A B).Perm (lj A' B') := by
  classical
  unfold lj
  refine (bagJoin_perm h1 h2).append ((h1.filter _).trans (List.Perm.of_eq ?_))
  apply List.filter_congr
  intro s _
  rw [decide_eq_decide]
  apply not_congr
  exact exists_congr fun t => and_congr_left fun _ => h2.mem_iff

/-- Filters on the left side can be applied before. -/
theorem lj_filter {A B : List Sol} {p : Sol → Bool} (hp : ∀ s ∈ A, ∀ t ∈ B, Compatible s t → p (union2 s t) = p s) :
    lj (A.filter p) B = (lj A B).filter p := by
  classical
  unfold lj
  rw [List.filter_append]
  congr 1
  · have := bagJoin_filter (A := A) (B := B) (p := p) (q := fun _ => true) hp (fun _ _ _ _ _ => rfl)
    rw [List.filter_eq_self.mpr (fun _ _ => rfl : ∀ t ∈ B, (fun _ => true) t = true)] at this
    rw [this]
    apply List.filter_congr
    intro s _
    simp
  · rw [List.filter_filter, List.filter_filter]
    apply List.filter_congr
    intro s _
    rw [Bool.and_comm]

theorem mem_lj {A B : List Sol} {u : Sol} :
    u ∈ lj A B ↔ (∃ s ∈ A, ∃ t ∈ B, Compatible s t ∧ u = union2 s t) ∨ (u ∈ A ∧ ¬ ∃ t ∈ B, Compatible u t) := by
  classical
  unfold lj
  rw [List.mem_append, mem_bagJoin, List.mem_filter]
  simp

theorem minus_perm {A A' B B' : List Sol} (h1 : A.Perm A') (h2 : B.Perm B') : (minus A B).Perm (minus A' B') := by
  classical
  unfold minus
  refine (h1.filter _).trans (List.Perm.of_eq ?_)
  apply List.filter_congr
  intro s _
  rw [decide_eq_decide]
  apply not_congr
  exact exists_congr fun t => and_congr_left fun _ => h2.mem_iff

theorem minus_filter (A B : List Sol) (p : Sol → Bool) : minus (A.filter p) B = (minus A B).filter p := by
  classical
  unfold minus
  rw [List.filter_filter, List.filter_filter]
  apply List.filter_congr
  intro s _
  rw [Bool.and_comm]

theorem extend_perm {A A' : List Sol} (h : A.Perm A') (v : String) (e : Sol → Option Nat) : (extend A v e).Perm (extend A' v e) :=
  h.map _

end Verif.PlannerSpec

namespace Verif.Planner
open MultiJoin (VarMap JoinCols optionalVariableColumns)
open PlannerSpec
open JoinSpec (agree without)

section
variable {ml mr : VarMap} {wl wr : Nat} (hl : MapOk ml wl) (hr : MapOk mr wr) {jcs : JoinCols} (hs : SharesAll ml mr jcs)
  {x y : Table} (hwx : x.WF wl) (hwy : y.WF wr)
  (hx : ∀ r ∈ x, ∀ v, v ∈ ml.map (·.1) → v ∈ mr.map (·.1) → solution ml r v ≠ none)
  (hy : ∀ r ∈ y, ∀ v, v ∈ ml.map (·.1) → v ∈ mr.map (·.1) → solution mr r v ≠ none)
include hl hr hs hwx hwy hx hy

omit hwx hwy in
theorem filter_agree {r : Row} (hr' : r ∈ x) :
    y.filter (agree jcs r) = y.filter fun z => (Classical.propDecidable (Compatible (solution ml r) (solution mr z))).decide := by
  apply List.filter_congr
  intro z hz
  classical
  rw [Bool.eq_iff_iff, ← compatible_agree hl hr hs (hx r hr') (hy z hz), decide_eq_true_eq]

/-- The rows with a partner. -/
theorem multi_solutions (bOpt : Bool) (w : Nat) (h : bOpt = false) :
    (JoinSpec.outerLeft jcs w bOpt x y).map (solution (optionalVariableColumns ml mr wl jcs)) =
      bagJoin (x.map (solution ml)) (y.map (solution mr)) := by
  classical
  subst h
  unfold JoinSpec.outerLeft bagJoin
  rw [List.map_flatMap, List.flatMap_map]
  refine List.flatMap_congr fun r hr' => ?_
  rw [List.filter_map, List.map_map]
  have hfa := filter_agree hl hr hs hx hy hr'
  by_cases h : y.any (agree jcs r) = true
  · rw [if_pos h, List.map_map, hfa]
    have : (fun z => (Classical.propDecidable (Compatible (solution ml r) (solution mr z))).decide) =
        (fun t => decide (Compatible (solution ml r) t)) ∘ solution mr := by
      funext z
      simp only [Function.comp]
    rw [this]
    apply List.map_congr_left
    intro z hz
    exact solution_optional hl hr hs (hwx r hr') (hwy z (List.mem_filter.mp hz).1) (hx r hr')
  · rw [if_neg h]
    have hnil : y.filter (agree jcs r) = [] := by
      rw [List.filter_eq_nil_iff]
      intro z hz hz'
      exact h (List.any_eq_true.mpr ⟨z, hz, hz'⟩)
    rw [hfa] at hnil
    have : (fun z => (Classical.propDecidable (Compatible (solution ml r) (solution mr z))).decide) =
        (fun t => decide (Compatible (solution ml r) t)) ∘ solution mr := by
      funext z
      simp only [Function.comp]
    rw [this] at hnil
    rw [hnil]
    rfl

/-- OPTIONAL with the optional side on the right. -/
theorem outerLeft_solutions (w : Nat) :
    ((JoinSpec.outerLeft jcs w true x y).map (solution (optionalVariableColumns ml mr wl jcs))).Perm
      (lj (x.map (solution ml)) (y.map (solution mr))) := by
  classical
  unfold JoinSpec.outerLeft lj bagJoin
  rw [List.map_flatMap, List.flatMap_map, List.filter_map]
  have hpart : ∀ r ∈ x, ((y.map (solution mr)).filter fun t => Compatible (solution ml r) t).map (union2 (solution ml r)) =
      (y.filter (agree jcs r)).map fun z => solution (optionalVariableColumns ml mr wl jcs) (r ++ without (jcs.map (·.2)) z) := by
    intro r hr'
    rw [List.filter_map, List.map_map, filter_agree hl hr hs hx hy hr']
    have : (fun z => (Classical.propDecidable (Compatible (solution ml r) (solution mr z))).decide) =
        (fun t => decide (Compatible (solution ml r) t)) ∘ solution mr := by
      funext z
      simp only [Function.comp]
    rw [this]
    apply List.map_congr_left
    intro z hz
    exact (solution_optional hl hr hs (hwx r hr') (hwy z (List.mem_filter.mp hz).1) (hx r hr')).symm
  have he : (x.flatMap fun r => (if y.any (agree jcs r) = true then
        (y.filter (agree jcs r)).map fun z => r ++ without (jcs.map (·.2)) z
      else if true = true then [JoinSpec.padRight w r] else []).map (solution (optionalVariableColumns ml mr wl jcs))) =
      x.flatMap fun r =>
        if (((y.map (solution mr)).filter fun t => Compatible (solution ml r) t).map (union2 (solution ml r))) = [] then [solution ml r]
        else ((y.map (solution mr)).filter fun t => Compatible (solution ml r) t).map (union2 (solution ml r)) := by
    apply List.flatMap_congr
    intro r hr'
    rw [hpart r hr']
    by_cases h : y.any (agree jcs r) = true
    · rw [if_pos h, if_neg, List.map_map]
      · rfl
      · rw [List.map_eq_nil_iff, List.filter_eq_nil_iff]
        intro h'
        obtain ⟨z, hz, hz'⟩ := List.any_eq_true.mp h
        exact h' z hz hz'
    · rw [if_neg h, if_pos rfl, if_pos, List.map_singleton, solution_padRight hl hr hs (hwx r hr')]
      rw [List.map_eq_nil_iff, List.filter_eq_nil_iff]
      intro z hz hz'
      exact h (List.any_eq_true.mpr ⟨z, hz, hz'⟩)
  rw [he]
  refine (flatMap_split x (fun r => ¬ ∃ t ∈ y.map (solution mr), Compatible (solution ml r) t) _ (solution ml) ?_).trans ?_
  · intro r _
    rw [List.map_eq_nil_iff, List.filter_eq_nil_iff]
    constructor
    · rintro h ⟨t, ht, hst⟩
      exact h t ht (by simpa using hst)
    · intro h t ht hst
      exact h ⟨t, ht, by simpa using hst⟩
  · refine List.Perm.of_eq (congrArg _ (congrArg _ (List.filter_congr fun r _ => ?_)))
    simp only [Function.comp]

/-- OPTIONAL with the optional side on the left. -/
theorem outerRight_solutions (w : Nat) :
    ((JoinSpec.outerLeft jcs w false x y ++ JoinSpec.outerRight jcs wl true x y).map
      (solution (optionalVariableColumns ml mr wl jcs))).Perm (lj (y.map (solution mr)) (x.map (solution ml))) := by
  classical
  rw [List.map_append, multi_solutions hl hr hs hwx hwy hx hy false w rfl]
  unfold lj
  refine (bagJoin_comm _ _).append (List.Perm.of_eq ?_)
  unfold JoinSpec.outerRight
  rw [if_pos rfl, List.map_map, List.filter_map]
  have : (y.filter fun z => !x.any fun r => agree jcs r z) =
      y.filter ((fun s => decide (¬ ∃ t ∈ x.map (solution ml), Compatible s t)) ∘ solution mr) := by
    apply List.filter_congr
    intro z hz
    rw [Bool.eq_iff_iff]
    simp only [Function.comp, Bool.not_eq_true', decide_eq_true_eq]
    rw [← Bool.not_eq_true, not_iff_not, List.any_eq_true]
    constructor
    · rintro ⟨r, hr', ha⟩
      exact ⟨_, List.mem_map_of_mem hr', ((compatible_agree hl hr hs (hx r hr') (hy z hz)).mpr ha).symm⟩
    · rintro ⟨t, ht, hc⟩
      obtain ⟨r, hr', rfl⟩ := List.mem_map.mp ht
      exact ⟨r, hr', (compatible_agree hl hr hs (hx r hr') (hy z hz)).mp hc.symm⟩
  rw [this]
  apply List.map_congr_left
  intro z hz
  have hz' := (List.mem_filter.mp hz).1
  exact solution_padLeft hl hr hs (hwy z hz') (hy z hz')

omit hwx hwy in
/-- MINUS -/
theorem minus_solutions (hne : jcs ≠ []) :
    (JoinSpec.minus jcs x y).map (solution ml) = minus (x.map (solution ml)) (y.map (solution mr)) := by
  classical
  unfold JoinSpec.minus minus
  rw [if_neg hne, List.filter_map]
  congr 1
  apply List.filter_congr
  intro r hr'
  rw [Bool.eq_iff_iff]
  simp only [Function.comp, Bool.not_eq_true', decide_eq_true_eq]
  rw [← Bool.not_eq_true, not_iff_not, List.any_eq_true]
  constructor
  · rintro ⟨z, hz, ha⟩
    refine ⟨_, List.mem_map_of_mem hz, (compatible_agree hl hr hs (hx r hr') (hy z hz)).mpr ha, ?_⟩
    obtain ⟨⟨a, b⟩, hm⟩ := List.exists_mem_of_ne_nil _ hne
    obtain ⟨v, h1, h2⟩ := (hs.mem a b).mp hm
    exact ⟨v, hx r hr' v (mem_keys h1) (mem_keys h2), hy z hz v (mem_keys h1) (mem_keys h2)⟩
  · rintro ⟨t, ht, hc, _⟩
    obtain ⟨z, hz, rfl⟩ := List.mem_map.mp ht
    exact ⟨z, hz, (compatible_agree hl hr hs (hx r hr') (hy z hz)).mp hc⟩

end

end Verif.Planner
