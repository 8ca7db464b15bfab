import Verif.Spec.TriplePattern
import Verif.Lemmas.PlannerSpec
/-
The join of the solutions of triple patterns.
-/
namespace Verif.TriplePatternSpec
open PlannerSpec

variable {ids : String → Option Nat} {isVar : String → Bool} {T : List Permutation.Triple}

theorem mem_bagJoin {A B : List Sol} {sol : Sol} :
    sol ∈ bagJoin A B ↔ ∃ s ∈ A, ∃ u ∈ B, Compatible s u ∧ union2 s u = sol := by
  classical
  unfold bagJoin
  simp only [List.mem_flatMap, List.mem_map, List.mem_filter, decide_eq_true_eq]
  constructor
  · rintro ⟨s, hs, u, ⟨hu, hc⟩, rfl⟩
    exact ⟨s, hs, u, hu, hc, rfl⟩
  · rintro ⟨s, hs, u, hu, hc, rfl⟩
    exact ⟨s, hs, u, ⟨hu, hc⟩, rfl⟩

theorem union2_left {s u : Sol} {v : String} {x : Nat} (h : s v = some x) : union2 s u v = some x := by
  unfold union2
  rw [h]
  rfl

theorem union2_right {s u : Sol} (hc : Compatible s u) {v : String} {x : Nat} (h : u v = some x) : union2 s u v = some x := by
  rw [union2_comm hc]
  exact union2_left h

theorem Denotes.mono {s u : Sol} (h : ∀ v x, s v = some x → u v = some x) {term : String} {x : Nat} (hd : Denotes ids isVar s term x) :
    Denotes ids isVar u term x := by
  unfold Denotes at *
  split <;> rename_i hv
  · rw [if_pos hv] at hd
    exact h _ _ hd
  · rw [if_neg hv] at hd
    exact hd

theorem Denotes.bound {s : Sol} {term : String} {x : Nat} (hd : Denotes ids isVar s term x) (hv : isVar term = true) : s term = some x := by
  unfold Denotes at hd
  rwa [if_pos hv] at hd

/-- A solution of patterns binds all their variables. -/
theorem Bgp.bound {ps : List (String × String × String)} {sol : Sol} (h : Bgp ids isVar ps T sol) {v : String} :
    (isVar v = true ∧ ∃ q ∈ ps, v = q.1 ∨ v = q.2.1 ∨ v = q.2.2) ↔ sol v ≠ none := by
  constructor
  · rintro ⟨hv, q, hq, hor⟩
    obtain ⟨t, _, h1, h2, h3⟩ := h.1 q hq
    rcases hor with rfl | rfl | rfl
    · rw [h1.bound hv]; simp
    · rw [h2.bound hv]; simp
    · rw [h3.bound hv]; simp
  · intro hne
    by_contra hn
    exact hne (h.2 v hn)

theorem matches_bgp {q : String × String × String} {sol : Sol} :
    (∃ t ∈ T, Matches ids isVar q.1 q.2.1 q.2.2 t sol) ↔ Bgp ids isVar [q] T sol := by
  unfold Matches Bgp
  simp only [List.mem_singleton, forall_eq, exists_eq_left]
  constructor
  · rintro ⟨t, ht, h1, h2, h3, h4⟩
    exact ⟨⟨t, ht, h1, h2, h3⟩, h4⟩
  · rintro ⟨⟨t, ht, h1, h2, h3⟩, h4⟩
    exact ⟨t, ht, h1, h2, h3, h4⟩

/-- Solutions of patterns that agree on all variables of the patterns are equal. -/
theorem Bgp.ext {ps : List (String × String × String)} {s s' u : Sol} (h : Bgp ids isVar ps T s) (h' : Bgp ids isVar ps T s')
    (hs : ∀ v x, s v = some x → u v = some x) (hs' : ∀ v x, s' v = some x → u v = some x) : s = s' := by
  funext v
  by_cases hv : isVar v = true ∧ ∃ q ∈ ps, v = q.1 ∨ v = q.2.1 ∨ v = q.2.2
  · cases e : s v with
    | none => exact absurd e (h.bound.mp hv)
    | some x =>
      cases e' : s' v with
      | none => exact absurd e' (h'.bound.mp hv)
      | some y =>
        have h1 := hs v x e
        rw [hs' v y e'] at h1
        exact h1.symm
  · rw [h.2 v hv, h'.2 v hv]

theorem bgp_cons {q : String × String × String} {ps : List (String × String × String)} {sol : Sol} :
    Bgp ids isVar (q :: ps) T sol ↔ ∃ s u, Bgp ids isVar [q] T s ∧ Bgp ids isVar ps T u ∧ Compatible s u ∧ union2 s u = sol := by
  classical
  constructor
  · intro h
    let r (l : List (String × String × String)) : Sol := fun v =>
      if isVar v = true ∧ ∃ q ∈ l, v = q.1 ∨ v = q.2.1 ∨ v = q.2.2 then sol v else none
    have hr : ∀ l, (∀ q' ∈ l, q' ∈ q :: ps) → Bgp ids isVar l T (r l) := by
      intro l hl
      refine ⟨fun q' hq' => ?_, fun v hv => if_neg hv⟩
      obtain ⟨t, ht, h1, h2, h3⟩ := h.1 q' (hl q' hq')
      have key : ∀ term x, (term = q'.1 ∨ term = q'.2.1 ∨ term = q'.2.2) → Denotes ids isVar sol term x → Denotes ids isVar (r l) term x := by
        intro term x hor hd
        unfold Denotes at *
        by_cases hv : isVar term = true
        · rw [if_pos hv] at hd ⊢
          show (if _ then _ else _) = _
          rw [if_pos ⟨hv, q', hq', hor⟩]
          exact hd
        · rw [if_neg hv] at hd ⊢
          exact hd
      exact ⟨t, ht, key _ _ (.inl rfl) h1, key _ _ (.inr (.inl rfl)) h2, key _ _ (.inr (.inr rfl)) h3⟩
    have hor : ∀ l v, r l v = none ∨ r l v = sol v := by
      intro l v
      show (if _ then _ else _) = none ∨ (if _ then _ else _) = _
      split
      · exact .inr rfl
      · exact .inl rfl
    refine ⟨r [q], r ps, hr _ (by simp), hr _ (fun q' hq' => List.mem_cons_of_mem _ hq'), ?_, ?_⟩
    · intro v
      rcases hor [q] v with h1 | h1
      · exact .inl h1
      · rcases hor ps v with h2 | h2
        · exact .inr (.inl h2)
        · exact .inr (.inr (h1.trans h2.symm))
    · funext v
      unfold union2
      by_cases h1 : isVar v = true ∧ ∃ q' ∈ [q], v = q'.1 ∨ v = q'.2.1 ∨ v = q'.2.2
      · have e : r [q] v = sol v := if_pos h1
        rw [e]
        cases e2 : sol v with
        | none =>
          rcases hor ps v with h2 | h2
          · rw [h2]; rfl
          · rw [h2, e2]; rfl
        | some x => rfl
      · have e : r [q] v = none := if_neg h1
        rw [e]
        by_cases h2 : isVar v = true ∧ ∃ q' ∈ ps, v = q'.1 ∨ v = q'.2.1 ∨ v = q'.2.2
        · have e2 : r ps v = sol v := if_pos h2
          rw [e2]
          cases sol v <;> rfl
        · have e2 : r ps v = none := if_neg h2
          rw [e2, h.2 v]
          · rfl
          · rintro ⟨hv, q', hq', hh⟩
            rcases List.mem_cons.mp hq' with rfl | hq'
            · exact h1 ⟨hv, _, List.mem_singleton.mpr rfl, hh⟩
            · exact h2 ⟨hv, q', hq', hh⟩
  · rintro ⟨s, u, hs, hu, hc, rfl⟩
    have m1 : ∀ v x, s v = some x → union2 s u v = some x := fun v x => union2_left
    have m2 : ∀ v x, u v = some x → union2 s u v = some x := fun v x => union2_right hc
    refine ⟨fun q' hq' => ?_, fun v hv => ?_⟩
    · rcases List.mem_cons.mp hq' with rfl | hq'
      · obtain ⟨t, ht, h1, h2, h3⟩ := hs.1 _ (List.mem_singleton.mpr rfl)
        exact ⟨t, ht, h1.mono m1, h2.mono m1, h3.mono m1⟩
      · obtain ⟨t, ht, h1, h2, h3⟩ := hu.1 q' hq'
        exact ⟨t, ht, h1.mono m2, h2.mono m2, h3.mono m2⟩
    · unfold union2
      rw [hs.2 v, hu.2 v]
      · rfl
      · rintro ⟨hv', q', hq', hh⟩
        exact hv ⟨hv', q', List.mem_cons_of_mem _ hq', hh⟩
      · rintro ⟨hv', q', hq', hh⟩
        exact hv ⟨hv', q', by rw [List.mem_singleton.mp hq']; exact List.mem_cons_self, hh⟩

/-- The join of the solutions of several patterns: the solutions of the patterns together, each once. -/
theorem joinAll_bgp {ps : List (String × String × String)} {bags : List (List Sol)}
    (h : List.Forall₂ (fun q b => Solutions ids isVar q.1 q.2.1 q.2.2 T b) ps bags) :
    (joinAll bags).Nodup ∧ ∀ sol, sol ∈ joinAll bags ↔ Bgp ids isVar ps T sol := by
  classical
  induction h with
  | nil =>
    have e : joinAll [] = [fun _ => none] := by
      unfold joinAll choices
      simp only [List.filter_cons, List.filter_nil, List.Pairwise.nil, decide_true, if_true, List.map_cons, List.map_nil]
      rfl
    rw [e]
    refine ⟨List.nodup_singleton _, fun sol => ?_⟩
    rw [List.mem_singleton]
    constructor
    · rintro rfl
      exact ⟨by simp, fun _ _ => rfl⟩
    · intro h
      funext v
      exact h.2 v (by simp)
  | @cons q b ps bags hq _ ih =>
    obtain ⟨ih1, ih2⟩ := ih
    obtain ⟨hq1, hq2⟩ := hq
    have e := joinAll_append [b] bags
    rw [List.singleton_append, joinAll_singleton] at e
    rw [e]
    have hb : ∀ s, s ∈ b ↔ Bgp ids isVar [q] T s := fun s => (hq2 s).trans matches_bgp
    refine ⟨?_, fun sol => ?_⟩
    · unfold bagJoin
      rw [List.nodup_flatMap]
      refine ⟨fun s hs => ?_, ?_⟩
      · refine List.Nodup.map_on ?_ (ih1.filter _)
        intro u hu u' hu' he
        obtain ⟨hu, hc⟩ := List.mem_filter.mp hu
        obtain ⟨hu', hc'⟩ := List.mem_filter.mp hu'
        rw [decide_eq_true_eq] at hc hc'
        exact Bgp.ext ((ih2 u).mp hu) ((ih2 u').mp hu') (fun v x => union2_right hc) (fun v x h => by
          rw [he]; exact union2_right hc' h)
      · refine List.Pairwise.imp_of_mem ?_ hq1
        intro s s' hs hs' hne
        show List.Disjoint _ _
        intro sol h1 h2
        obtain ⟨u, hu, rfl⟩ := List.mem_map.mp h1
        obtain ⟨u', hu', he⟩ := List.mem_map.mp h2
        refine hne (Bgp.ext (u := union2 s u) ((hb s).mp hs) ((hb s').mp hs') (fun v x => union2_left) (fun v x h => ?_))
        rw [← he]
        exact union2_left h
    · rw [mem_bagJoin, bgp_cons]
      constructor
      · rintro ⟨s, hs, u, hu, hc⟩
        exact ⟨s, u, (hb s).mp hs, (ih2 u).mp hu, hc⟩
      · rintro ⟨s, u, hs, hu, hc⟩
        exact ⟨s, (hb s).mpr hs, u, (ih2 u).mpr hu, hc⟩

end Verif.TriplePatternSpec
