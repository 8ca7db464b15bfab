import Mathlib.Data.Multiset.Bind
import Verif.Spec.Planner
/-
Algebra of the joins of bags of solutions.
-/
namespace Verif.PlannerSpec

def union2 (s t : Sol) : Sol := fun v => (s v).or (t v)

open Classical in
noncomputable def bagJoin (A B : List Sol) : List Sol := A.flatMap fun s => (B.filter fun t => Compatible s t).map (union2 s)

theorem union_append (a b : List Sol) : union (a ++ b) = union2 (union a) (union b) := by
  funext v
  simp [union, union2, List.findSome?_append]

theorem union_singleton (s : Sol) : union [s] = s := by
  funext v
  simp [union, List.findSome?]
  cases s v <;> rfl

theorem choices_append (A B : List (List Sol)) :
    choices (A ++ B) = (choices A).flatMap fun a => (choices B).map (a ++ ·) := by
  induction A with
  | nil => simp [choices]
  | cons b A ih =>
    simp only [List.cons_append, choices, ih, List.flatMap_assoc, List.map_flatMap, List.flatMap_map, List.map_map]
    rfl

theorem Compatible.symm {s t : Sol} (h : Compatible s t) : Compatible t s := by
  intro v
  rcases h v with h | h | h
  · exact .inr (.inl h)
  · exact .inl h
  · exact .inr (.inr h.symm)

theorem union_of_mem {ss : List Sol} (h : ss.Pairwise Compatible) {s : Sol} (hs : s ∈ ss) {v : String} {x : Nat}
    (hx : s v = some x) : union ss v = some x := by
  induction ss with
  | nil => simp at hs
  | cons t ss ih =>
    obtain ⟨h1, h2⟩ := List.pairwise_cons.mp h
    unfold union
    rw [List.findSome?_cons]
    rcases List.mem_cons.mp hs with rfl | hs
    · rw [hx]
    · have := h1 s hs v
      cases ht : t v with
      | none => simpa [union] using ih h2 hs
      | some y =>
        rw [ht, hx] at this
        simpa using this

theorem mem_of_union {ss : List Sol} {v : String} {x : Nat} (h : union ss v = some x) : ∃ s ∈ ss, s v = some x :=
  List.exists_of_findSome?_eq_some h

theorem compatible_union {a b : List Sol} (ha : a.Pairwise Compatible) (hb : b.Pairwise Compatible) :
    Compatible (union a) (union b) ↔ ∀ s ∈ a, ∀ t ∈ b, Compatible s t := by
  constructor
  · intro h s hs t ht v
    cases hsv : s v with
    | none => exact .inl rfl
    | some x =>
      cases htv : t v with
      | none => exact .inr (.inl rfl)
      | some y =>
        have := h v
        rw [union_of_mem ha hs hsv, union_of_mem hb ht htv] at this
        right; right
        simpa using this
  · intro h v
    cases hsv : union a v with
    | none => exact .inl rfl
    | some x =>
      cases htv : union b v with
      | none => exact .inr (.inl rfl)
      | some y =>
        obtain ⟨s, hs, hs'⟩ := mem_of_union hsv
        obtain ⟨t, ht, ht'⟩ := mem_of_union htv
        have := h s hs t ht v
        rw [hs', ht'] at this
        right; right
        simpa using this

theorem flatMap_filter {α β : Type} (l : List α) (p : α → Bool) (f : α → List β) :
    (l.filter p).flatMap f = l.flatMap fun a => if p a then f a else [] := by
  induction l with
  | nil => rfl
  | cons a l ih =>
    rw [List.filter_cons, List.flatMap_cons]
    by_cases h : p a = true
    · rw [if_pos h, if_pos h, List.flatMap_cons, ih]
    · rw [if_neg h, if_neg h, ih, List.nil_append]

theorem joinAll_append (A B : List (List Sol)) : joinAll (A ++ B) = bagJoin (joinAll A) (joinAll B) := by
  classical
  unfold joinAll bagJoin
  rw [choices_append, List.filter_flatMap, List.map_flatMap, List.flatMap_map, flatMap_filter]
  congr 1
  funext a
  rw [List.filter_map, List.map_map]
  by_cases ha : a.Pairwise Compatible
  · rw [if_pos (by simpa using ha), List.filter_map, List.map_map, List.filter_filter]
    have : (choices B).filter ((fun ss => decide (ss.Pairwise Compatible)) ∘ fun x => a ++ x) =
        (choices B).filter fun b => ((fun t => decide (Compatible (union a) t)) ∘ union) b && decide (b.Pairwise Compatible) := by
      apply List.filter_congr
      intro b _
      rw [Bool.eq_iff_iff]
      simp only [Function.comp, decide_eq_true_eq, Bool.and_eq_true, List.pairwise_append]
      constructor
      · rintro ⟨_, h2, h3⟩
        exact ⟨(compatible_union ha h2).mpr h3, h2⟩
      · rintro ⟨h1, h2⟩
        exact ⟨ha, h2, (compatible_union ha h2).mp h1⟩
    rw [this]
    apply List.map_congr_left
    intro b _
    exact union_append a b
  · rw [if_neg (by simpa using ha)]
    rw [List.filter_eq_nil_iff.mpr]
    · rfl
    · intro b _ h
      simp only [Function.comp, decide_eq_true_eq, List.pairwise_append] at h
      exact ha h.1

theorem joinAll_singleton (b : List Sol) : joinAll [b] = b := by
  classical
  unfold joinAll
  have : choices [b] = b.map fun s => [s] := by
    simp only [choices, List.map_cons, List.map_nil]
    induction b with
    | nil => rfl
    | cons s b ih => rw [List.flatMap_cons, ih]; rfl
  rw [this, List.filter_map, List.map_map, List.filter_eq_self.mpr (by intro s _; simp)]
  have : union ∘ (fun s : Sol => [s]) = id := by funext s; exact union_singleton s
  rw [this, List.map_id]

theorem union2_comm {s t : Sol} (h : Compatible s t) : union2 s t = union2 t s := by
  funext v
  unfold union2
  rcases h v with h | h | h
  · rw [h]; cases t v <;> rfl
  · rw [h]; cases s v <;> rfl
  · rw [h]

open Classical in
theorem coe_bagJoin (A B : List Sol) :
    ((bagJoin A B : List Sol) : Multiset Sol) =
      (A : Multiset Sol).bind fun s => (B : Multiset Sol).bind fun t => if Compatible s t then {union2 s t} else 0 := by
  unfold bagJoin
  rw [← Multiset.coe_bind]
  congr 1
  funext s
  induction B with
  | nil => rfl
  | cons t B ih =>
    rw [List.filter_cons]
    by_cases h : Compatible s t
    · rw [if_pos (by simpa using h), List.map_cons, ← Multiset.cons_coe, ih, ← Multiset.cons_coe, Multiset.cons_bind, if_pos h]
      rfl
    · rw [if_neg (by simpa using h), ih, ← Multiset.cons_coe, Multiset.cons_bind, if_neg h, zero_add]

theorem bagJoin_comm (A B : List Sol) : (bagJoin A B).Perm (bagJoin B A) := by
  classical
  rw [← Multiset.coe_eq_coe, coe_bagJoin, coe_bagJoin, Multiset.bind_bind]
  congr 1
  funext t
  congr 1
  funext s
  by_cases h : Compatible s t
  · rw [if_pos h, if_pos h.symm, union2_comm h]
  · rw [if_neg h, if_neg fun h' => h h'.symm]

theorem bagJoin_perm {A A' B B' : List Sol} (h1 : A.Perm A') (h2 : B.Perm B') : (bagJoin A B).Perm (bagJoin A' B') := by
  classical
  rw [← Multiset.coe_eq_coe, coe_bagJoin, coe_bagJoin, Multiset.coe_eq_coe.mpr h1, Multiset.coe_eq_coe.mpr h2]

theorem joinAll_perm {A B : List (List Sol)} (h : A.Perm B) : (joinAll A).Perm (joinAll B) := by
  induction h with
  | nil => exact .refl _
  | @cons b A B _ ih =>
    have h1 := joinAll_append [b] A
    have h2 := joinAll_append [b] B
    rw [List.singleton_append] at h1 h2
    rw [h1, h2]
    exact bagJoin_perm (.refl _) ih
  | @swap a b A =>
    have h1 := joinAll_append [a, b] A
    have h2 := joinAll_append [b, a] A
    have h3 := joinAll_append [a] [b]
    have h4 := joinAll_append [b] [a]
    simp only [List.cons_append, List.nil_append] at h1 h2 h3 h4
    rw [h1, h2, h3, h4]
    exact bagJoin_perm (bagJoin_comm _ _) (.refl _)
  | trans _ _ ih1 ih2 => exact ih1.trans ih2

theorem mem_choices {bags : List (List Sol)} {ss : List Sol} (h : ss ∈ choices bags) :
    List.Forall₂ (fun s b => s ∈ b) ss bags := by
  induction bags generalizing ss with
  | nil => simp [choices] at h; subst h; exact .nil
  | cons b bags ih =>
    simp only [choices, List.mem_flatMap, List.mem_map] at h
    obtain ⟨s, hs, ts, hts, rfl⟩ := h
    exact .cons hs (ih hts)

/-- A variable that is bound in all solutions of one pattern is bound in the join. -/
theorem joinAll_bound {bags : List (List Sol)} {b : List Sol} (hb : b ∈ bags) {v : String} (hv : ∀ s ∈ b, s v ≠ none) {s : Sol}
    (hs : s ∈ joinAll bags) : s v ≠ none := by
  unfold joinAll at hs
  obtain ⟨ss, hss, rfl⟩ := List.mem_map.mp hs
  obtain ⟨h1, h2'⟩ := List.mem_filter.mp hss
  have h2 : ss.Pairwise Compatible := by simpa using h2'
  have h3 := mem_choices h1
  have : ∃ s ∈ ss, s ∈ b := by
    clear hs hss h1 h2 h2'
    induction h3 with
    | nil => simp at hb
    | @cons s c ss bags hsc _ ih =>
      rcases List.mem_cons.mp hb with rfl | hb
      · exact ⟨s, List.mem_cons_self, hsc⟩
      · obtain ⟨t, ht, ht'⟩ := ih hb
        exact ⟨t, List.mem_cons_of_mem _ ht, ht'⟩
  obtain ⟨t, ht, htb⟩ := this
  obtain ⟨x, hx⟩ := Option.ne_none_iff_exists'.mp (hv t htb)
  rw [union_of_mem h2 ht hx]
  simp

open Classical in
/-- Filters can be applied to the parts of a join that bind what they look at. -/
theorem bagJoin_filter {A B : List Sol} {p q : Sol → Bool} (hp : ∀ s ∈ A, ∀ t ∈ B, Compatible s t → p (union2 s t) = p s)
    (hq : ∀ s ∈ A, ∀ t ∈ B, Compatible s t → q (union2 s t) = q t) :
    bagJoin (A.filter p) (B.filter q) = (bagJoin A B).filter fun s => p s && q s := by
  unfold bagJoin
  rw [List.filter_flatMap, flatMap_filter]
  refine List.flatMap_congr fun s hs => ?_
  rw [List.filter_map]
  by_cases h : p s = true
  · rw [if_pos h, List.filter_filter, List.filter_filter]
    congr 1
    apply List.filter_congr
    intro t ht
    rw [Bool.eq_iff_iff]
    simp only [Function.comp, Bool.and_eq_true, decide_eq_true_eq]
    constructor
    · rintro ⟨h1, h2⟩
      exact ⟨⟨by rw [hp s hs t ht h1]; exact h, by rw [hq s hs t ht h1]; exact h2⟩, h1⟩
    · rintro ⟨⟨h1, h2⟩, h3⟩
      exact ⟨h3, by rw [← hq s hs t ht h3]; exact h2⟩
  · rw [if_neg h, List.filter_filter, List.filter_eq_nil_iff.mpr, List.map_nil]
    intro t ht h'
    simp only [Function.comp, Bool.and_eq_true, decide_eq_true_eq] at h'
    exact h (by rw [← hp s hs t ht h'.2]; exact h'.1.1)

end Verif.PlannerSpec
