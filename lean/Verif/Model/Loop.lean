import Verif.Model.Outcome
/-
`while` loops.  The body of a loop either continues with a new state or leaves the loop with a result.
-/
namespace Verif

/-- A loop; `diverge` stands for "more than `fuel` iterations". Theorems about `loop` hold for all `fuel` above a stated
bound, hence for the unbounded loop of the C++ code. -/
def loop (fuel : Nat) (body : σ → Outcome (σ ⊕ ρ)) (s : σ) : Outcome ρ :=
  match fuel with
  | 0 => .diverge
  | n + 1 => (body s).bind fun
    | .inl s' => loop n body s'
    | .inr r => .ok r

/-- Total correctness rule: invariant `P`, postcondition `Q`, decreasing measure `μ`. -/
theorem loop_spec {body : σ → Outcome (σ ⊕ ρ)} (P : σ → Prop) (Q : ρ → Prop) (μ : σ → Nat)
    (h : ∀ s, P s → (∃ s', body s = .ok (.inl s') ∧ P s' ∧ μ s' < μ s) ∨ (∃ r, body s = .ok (.inr r) ∧ Q r)) :
    ∀ fuel s, P s → μ s < fuel → ∃ r, loop fuel body s = .ok r ∧ Q r := by
  intro fuel
  induction fuel with
  | zero => intro s _ hf; omega
  | succ n ih =>
    intro s hP hf
    rcases h s hP with ⟨s', hb, hP', hμ⟩ | ⟨r, hb, hQ⟩
    · simp only [loop, hb, Outcome.bind]
      exact ih s' hP' (by omega)
    · exact ⟨r, by simp only [loop, hb, Outcome.bind], hQ⟩

/-- The same for loops that may run into undefined behaviour. -/
theorem loop_spec_ub {body : σ → Outcome (σ ⊕ ρ)} (P : σ → Prop) (Q : ρ → Prop) (μ : σ → Nat)
    (h : ∀ s, P s → (∃ s', body s = .ok (.inl s') ∧ P s' ∧ μ s' < μ s) ∨ (∃ r, body s = .ok (.inr r) ∧ Q r) ∨
      body s = .ub) :
    ∀ fuel s, P s → μ s < fuel → (∃ r, loop fuel body s = .ok r ∧ Q r) ∨ loop fuel body s = .ub := by
  intro fuel
  induction fuel with
  | zero => intro s _ hf; omega
  | succ n ih =>
    intro s hP hf
    rcases h s hP with ⟨s', hb, hP', hμ⟩ | ⟨r, hb, hQ⟩ | hb
    · simp only [loop, hb, Outcome.bind]
      exact ih s' hP' (by omega)
    · exact .inl ⟨r, by simp only [loop, hb, Outcome.bind], hQ⟩
    · exact .inr (by simp only [loop, hb, Outcome.bind])

/-- Partial correctness rule: if the loop returns normally, then `Q` holds. -/
theorem loop_partial {body : σ → Outcome (σ ⊕ ρ)} (P : σ → Prop) (Q : ρ → Prop)
    (h : ∀ s, P s → (∀ s', body s = .ok (.inl s') → P s') ∧ (∀ r, body s = .ok (.inr r) → Q r)) :
    ∀ fuel s r, P s → loop fuel body s = .ok r → Q r := by
  intro fuel
  induction fuel with
  | zero => intro s r _ hr; simp [loop] at hr
  | succ n ih =>
    intro s r hP hr
    simp only [loop] at hr
    cases hb : body s with
    | ok o =>
      simp only [hb, Outcome.bind] at hr
      cases o with
      | inl s' => exact ih s' r ((h s hP).1 s' hb) hr
      | inr r' =>
        simp only [Outcome.ok.injEq] at hr
        subst hr
        exact (h s hP).2 r' hb
    | _ => simp [hb] at hr

end Verif
