import Verif.Spec.TermAnswers
import Mathlib.Data.List.Perm.Subperm
import Mathlib.Data.List.Nodup
/-
The number of solutions of patterns.
-/
namespace Verif.TermSpec
open VocabularySpec (Words)

/-- All lists of `n` triples. -/
def tuples (D : List Words) : Nat → List (List Words)
  | 0 => [[]]
  | n + 1 => D.flatMap fun t => (tuples D n).map (t :: ·)

theorem tuples_length (D : List Words) : ∀ n, (tuples D n).length = D.length ^ n
  | 0 => rfl
  | n + 1 => by
    have : ∀ E : List Words, (E.flatMap fun t => (tuples D n).map (t :: ·)).length = E.length * D.length ^ n := by
      intro E
      induction E with
      | nil => simp
      | cons t E ih => rw [List.flatMap_cons, List.length_append, ih, List.length_map, tuples_length D n, List.length_cons, Nat.succ_mul, Nat.add_comm]
    rw [tuples, this, Nat.pow_succ, Nat.mul_comm]

theorem mem_tuples {D : List Words} {R : String × String × String → Words → Prop} : ∀ {qs : List (String × String × String)} {l : List Words},
    List.Forall₂ (fun q t => t ∈ D ∧ R q t) qs l → l ∈ tuples D qs.length
  | _, _, .nil => List.mem_singleton.mpr rfl
  | _, _, .cons h hs => List.mem_flatMap.mpr ⟨_, h.1, List.mem_map_of_mem (mem_tuples hs)⟩

/-- Patterns have at most as many solutions as there are ways to choose a triple for each pattern. -/
theorem few_solutions {isVar : String → Bool} {qs : List (String × String × String)} {D : List Words} {sols : List TermSol} (hnd : sols.Nodup)
    (h : ∀ sol ∈ sols, TermBgp isVar qs D sol) : sols.length ≤ D.length ^ qs.length := by
  have hex : ∀ sol : TermSol, ∃ l : List Words, sol ∈ sols → List.Forall₂ (fun q t => t ∈ D ∧
      Means isVar sol q.1 t.1 ∧ Means isVar sol q.2.1 t.2.1 ∧ Means isVar sol q.2.2 t.2.2) qs l := by
    intro sol
    by_cases hs : sol ∈ sols
    · have h1 := (h sol hs).1
      clear h
      suffices hsuff : ∃ l, List.Forall₂ (fun q t => t ∈ D ∧
          Means isVar sol q.1 t.1 ∧ Means isVar sol q.2.1 t.2.1 ∧ Means isVar sol q.2.2 t.2.2) qs l from
        ⟨hsuff.choose, fun _ => hsuff.choose_spec⟩
      induction qs with
      | nil => exact ⟨[], .nil⟩
      | cons q qs ih =>
        obtain ⟨l, hl⟩ := ih fun q' hq' => h1 q' (List.mem_cons_of_mem _ hq')
        obtain ⟨t, ht, hm⟩ := h1 q List.mem_cons_self
        exact ⟨t :: l, .cons ⟨ht, hm⟩ hl⟩
    · exact ⟨[], fun h => absurd h hs⟩
  obtain ⟨f, hf⟩ := Classical.axiomOfChoice hex
  have hinj : ∀ a ∈ sols, ∀ b ∈ sols, f a = f b → a = b := by
    intro a ha b hb e
    have fa := hf a ha
    have fb := hf b hb
    rw [← e] at fb
    have key : ∀ (qs' : List (String × String × String)) (l : List Words),
        List.Forall₂ (fun q t => t ∈ D ∧ Means isVar a q.1 t.1 ∧ Means isVar a q.2.1 t.2.1 ∧ Means isVar a q.2.2 t.2.2) qs' l →
        List.Forall₂ (fun q t => t ∈ D ∧ Means isVar b q.1 t.1 ∧ Means isVar b q.2.1 t.2.1 ∧ Means isVar b q.2.2 t.2.2) qs' l →
        ∀ v, isVar v = true → (∃ q ∈ qs', v = q.1 ∨ v = q.2.1 ∨ v = q.2.2) → a v = b v := by
      intro qs' l h1
      induction h1 with
      | nil => rintro - v - ⟨q, hq, -⟩; cases hq
      | @cons q t qs' l hq _ ih =>
        intro h2 v hv hex
        cases h2 with
        | cons hq' h2 =>
          obtain ⟨q', hm, he⟩ := hex
          rcases List.mem_cons.mp hm with rfl | hm
          · have one : ∀ (w : List Char), Means isVar a v w → Means isVar b v w → a v = b v := by
              intro w m1 m2
              unfold Means at m1 m2
              rw [if_pos hv] at m1 m2
              rw [m1, m2]
            rcases he with rfl | rfl | rfl
            · exact one _ hq.2.1 hq'.2.1
            · exact one _ hq.2.2.1 hq'.2.2.1
            · exact one _ hq.2.2.2 hq'.2.2.2
          · exact ih h2 v hv ⟨q', hm, he⟩
    funext v
    by_cases hv : isVar v = true ∧ ∃ q ∈ qs, v = q.1 ∨ v = q.2.1 ∨ v = q.2.2
    · exact key qs (f a) fa fb v hv.1 hv.2
    · rw [(h a ha).2 v hv, (h b hb).2 v hv]
  have hsub : (sols.map f).Subperm (tuples D qs.length) :=
    List.subperm_of_subset (hnd.map_on hinj) fun l hl => by
      obtain ⟨s, hs, rfl⟩ := List.mem_map.mp hl
      exact mem_tuples (hf s hs)
  have := hsub.length_le
  rwa [List.length_map, tuples_length] at this

end Verif.TermSpec
