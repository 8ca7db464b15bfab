import Verif.Model.PatternTrick
import Verif.Spec.PatternTrick
import Mathlib.Data.List.Perm.Basic
/-
Lemmas for C70: a triple can be joined last.
-/
namespace Verif.PatternTrick
open Verif.SparqlParser (Str Triple FilterType Filter BindExpr Info Op Pattern Query Alias)
open Verif.TrickSpec
open Classical

/-! ### Solutions -/

theorem compat_merge {μ τ φ : Sol} (h : Compat μ τ) : Compat (merge μ τ) φ ↔ Compat μ φ ∧ Compat τ φ := by
  unfold Compat merge at *
  constructor
  · intro h'
    refine ⟨fun v => ?_, fun v => ?_⟩
    · have := h' v
      cases hm : μ v with
      | none => simp
      | some x => rw [hm] at this; simpa using this
    · have h1 := h' v
      have h2 := h v
      cases hm : μ v with
      | none => rw [hm] at h1; simpa using h1
      | some x =>
        rw [hm] at h1 h2
        rcases h2 with h2 | h2 | h2
        · cases h2
        · exact .inl h2
        · rw [← h2]; simpa using h1
  · rintro ⟨h1, h2⟩ v
    cases hm : μ v with
    | none => simpa using h2 v
    | some x => have := h1 v; rw [hm] at this; simpa using this

theorem compat_comm {μ ν : Sol} (h : Compat μ ν) : Compat ν μ := by
  intro v
  rcases h v with h | h | h
  · exact .inr (.inl h)
  · exact .inl h
  · exact .inr (.inr h.symm)

theorem merge_swap {μ τ φ : Sol} (h : Compat τ φ) : merge (merge μ τ) φ = merge (merge μ φ) τ := by
  funext v
  unfold merge
  cases hm : μ v with
  | some x => simp
  | none =>
    rcases h v with h | h | h
    · simp [h]
    · simp [h]
    · simp [h]

/-- Two solutions together. -/
noncomputable def comb (μ ν : Sol) : Option Sol := if Compat μ ν then some (merge μ ν) else none

theorem matching_eq (μ : Sol) (Φ : List Sol) : matching μ Φ = Φ.filterMap (comb μ) := by
  unfold matching
  induction Φ with
  | nil => rfl
  | cons φ Φ ih =>
    by_cases h : Compat μ φ
    · rw [List.filter_cons_of_pos (by simpa using h), List.map_cons, ih, List.filterMap_cons_some (b := merge μ φ) (by simp [comb, h])]
    · rw [List.filter_cons_of_neg (by simpa using h), ih, List.filterMap_cons_none (by simp [comb, h])]

theorem mem_matching {μ ν : Sol} {Φ : List Sol} : ν ∈ matching μ Φ ↔ ∃ φ ∈ Φ, Compat μ φ ∧ merge μ φ = ν := by
  unfold matching
  simp only [List.mem_map, List.mem_filter, decide_eq_true_eq, and_assoc]

theorem mem_join {ν : Sol} {Ω Φ : List Sol} : ν ∈ join Ω Φ ↔ ∃ μ ∈ Ω, ∃ φ ∈ Φ, Compat μ φ ∧ merge μ φ = ν := by
  unfold join
  simp only [List.mem_flatMap, mem_matching]

theorem flatMap_swap {α β γ : Type} (l : List α) (m : List β) (h : α → β → Option γ) :
    (l.flatMap fun a => m.filterMap (h a)).Perm (m.flatMap fun b => l.filterMap (h · b)) := by
  induction l with
  | nil => simp
  | cons a l ih =>
    rw [List.flatMap_cons]
    refine (List.Perm.append_left _ ih).trans ?_
    have e : m.filterMap (h a) = m.flatMap fun b => (h a b).toList := by
      clear ih
      induction m with
      | nil => rfl
      | cons b m ih => rw [List.flatMap_cons, ← ih]; cases hb : h a b <;> simp [hb]
    rw [e]
    refine (List.flatMap_append_perm m _ _).trans ?_
    refine List.Perm.flatMap_left m fun b _ => ?_
    cases hb : h a b <;> simp [hb]

theorem comb_swap (μ τ φ : Sol) : (comb μ τ).bind (comb · φ) = (comb μ φ).bind (comb · τ) := by
  unfold comb
  by_cases h1 : Compat μ τ
  · by_cases h2 : Compat μ φ
    · by_cases h3 : Compat τ φ
      · rw [if_pos h1, if_pos h2, Option.bind_some, Option.bind_some, if_pos ((compat_merge h1).2 ⟨h2, h3⟩),
          if_pos ((compat_merge h2).2 ⟨h1, compat_comm h3⟩), merge_swap h3]
      · rw [if_pos h1, if_pos h2, Option.bind_some, Option.bind_some, if_neg fun h => h3 ((compat_merge h1).1 h).2,
          if_neg fun h => h3 (compat_comm ((compat_merge h2).1 h).2)]
    · rw [if_pos h1, if_neg h2, Option.bind_some, if_neg fun h => h2 ((compat_merge h1).1 h).1]
      rfl
  · by_cases h2 : Compat μ φ
    · rw [if_neg h1, if_pos h2, Option.bind_some, if_neg fun h => h1 ((compat_merge h2).1 h).1]
      rfl
    · rw [if_neg h1, if_neg h2]
      rfl

theorem matching_twice (μ : Sol) (T Φ : List Sol) :
    (matching μ T).flatMap (matching · Φ) = T.flatMap fun τ => Φ.filterMap fun φ => (comb μ τ).bind (comb · φ) := by
  rw [matching_eq]
  induction T with
  | nil => rfl
  | cons τ T ih =>
    rw [List.flatMap_cons, ← ih]
    cases h : comb μ τ with
    | none => rw [List.filterMap_cons_none h]; simp
    | some x => rw [List.filterMap_cons_some h, List.flatMap_cons, matching_eq]; simp

theorem matching_swap (μ : Sol) (T Φ : List Sol) : ((matching μ T).flatMap (matching · Φ)).Perm ((matching μ Φ).flatMap (matching · T)) := by
  rw [matching_twice, matching_twice]
  refine (flatMap_swap T Φ _).trans ?_
  simp only [comb_swap μ _ _]
  exact .refl _

theorem join_swap (Ω T Φ : List Sol) : (join (join Ω T) Φ).Perm (join (join Ω Φ) T) := by
  unfold join
  rw [List.flatMap_assoc, List.flatMap_assoc]
  exact List.Perm.flatMap_left Ω fun μ _ => matching_swap μ T Φ

theorem join_perm {Ω Ω' : List Sol} (h : Ω.Perm Ω') (Φ : List Sol) : (join Ω Φ).Perm (join Ω' Φ) := h.flatMap_right _

theorem join_perm_right (Ω : List Sol) {Φ Φ' : List Sol} (h : Φ.Perm Φ') : (join Ω Φ).Perm (join Ω Φ') :=
  List.Perm.flatMap_left Ω fun _ _ => (h.filter _).map _

theorem leftJoin_swap (Ω T Φ : List Sol) (h : ∀ μ ∈ Ω, ∀ τ ∈ T, ∀ φ ∈ Φ, Compat μ τ → Compat μ φ → Compat τ φ) :
    (leftJoin (join Ω T) Φ).Perm (join (leftJoin Ω Φ) T) := by
  unfold leftJoin join
  rw [List.flatMap_assoc, List.flatMap_assoc]
  refine List.Perm.flatMap_left Ω fun μ hμ => ?_
  by_cases hm : matching μ Φ = []
  · rw [if_pos hm]
    have : ∀ x ∈ matching μ T, (if matching x Φ = [] then [x] else matching x Φ) = [x] := by
      intro x hx
      obtain ⟨τ, hτ, hc, rfl⟩ := mem_matching.1 hx
      rw [if_pos]
      rw [List.eq_nil_iff_forall_not_mem] at hm ⊢
      intro y hy
      obtain ⟨φ, hφ, hc', rfl⟩ := mem_matching.1 hy
      exact hm _ (mem_matching.2 ⟨φ, hφ, ((compat_merge hc).1 hc').1, rfl⟩)
    rw [List.flatMap_congr this]
    simp
  · rw [if_neg hm]
    have : ∀ x ∈ matching μ T, (if matching x Φ = [] then [x] else matching x Φ) = matching x Φ := by
      intro x hx
      obtain ⟨τ, hτ, hc, rfl⟩ := mem_matching.1 hx
      rw [if_neg]
      intro he
      obtain ⟨y, hy⟩ := List.exists_mem_of_ne_nil _ hm
      obtain ⟨φ, hφ, hc', rfl⟩ := mem_matching.1 hy
      rw [List.eq_nil_iff_forall_not_mem] at he
      exact he _ (mem_matching.2 ⟨φ, hφ, (compat_merge hc).2 ⟨hc', h μ hμ τ hτ φ hφ hc hc'⟩, rfl⟩)
    rw [List.flatMap_congr this]
    exact matching_swap μ T Φ

theorem filter_join (Ω T : List Sol) (P : Sol → Bool) (h : ∀ μ ∈ Ω, ∀ τ ∈ T, Compat μ τ → P (merge μ τ) = P μ) :
    (join Ω T).filter P = join (Ω.filter P) T := by
  unfold join
  induction Ω with
  | nil => rfl
  | cons μ Ω ih =>
    rw [List.flatMap_cons, List.filter_append, ih fun μ hμ => h μ (List.mem_cons_of_mem _ hμ)]
    by_cases hp : P μ = true
    · rw [List.filter_cons_of_pos hp, List.flatMap_cons, List.filter_eq_self.2]
      intro x hx
      obtain ⟨τ, hτ, hc, rfl⟩ := mem_matching.1 hx
      rw [h μ (by simp) τ hτ hc, hp]
    · rw [List.filter_cons_of_neg hp, List.filter_eq_nil_iff.2, List.nil_append]
      intro x hx
      obtain ⟨τ, hτ, hc, rfl⟩ := mem_matching.1 hx
      rw [h μ (by simp) τ hτ hc]
      exact hp

theorem map_join (Ω T : List Sol) (f : Sol → Sol)
    (h : ∀ μ ∈ Ω, ∀ τ ∈ T, (Compat (f μ) τ ↔ Compat μ τ) ∧ (Compat μ τ → f (merge μ τ) = merge (f μ) τ)) :
    (join Ω T).map f = join (Ω.map f) T := by
  unfold join
  induction Ω with
  | nil => rfl
  | cons μ Ω ih =>
    rw [List.flatMap_cons, List.map_append, List.map_cons, List.flatMap_cons, ih fun μ hμ => h μ (List.mem_cons_of_mem _ hμ)]
    congr 1
    replace h := h μ (by simp)
    clear ih
    unfold matching
    induction T with
    | nil => rfl
    | cons τ T ih =>
      have ih := ih fun τ hτ => h τ (List.mem_cons_of_mem _ hτ)
      have h := h τ (by simp)
      by_cases hc : Compat μ τ
      · rw [List.filter_cons_of_pos (by simpa using hc), List.filter_cons_of_pos (by simpa using h.1.2 hc), List.map_cons, List.map_cons,
          List.map_cons, ih, h.2 hc]
      · rw [List.filter_cons_of_neg (by simpa using hc), List.filter_cons_of_neg (by simpa using fun x => hc (h.1.1 x)), ih]

/-! ### Patterns -/

variable {W : World}

theorem basic_perm (ts : List Triple) : ∀ {Ω Ω' : List Sol}, Ω.Perm Ω' →
    (ts.foldl (fun Ω t => join Ω (W.triple t)) Ω).Perm (ts.foldl (fun Ω t => join Ω (W.triple t)) Ω') := by
  induction ts with
  | nil => intro _ _ h; exact h
  | cons t ts ih => intro _ _ h; exact ih (join_perm h _)

theorem op_perm (op : Op) {Ω Ω' : List Sol} (h : Ω.Perm Ω') : (evalOp W Ω op).Perm (evalOp W Ω' op) := by
  cases op with
  | basic ts => exact basic_perm ts h
  | optional g => exact h.flatMap_right _
  | minus g => exact h.filter _
  | union a b => exact join_perm h _
  | subquery q => exact join_perm h _
  | bind e v => exact h.map _
  | values vs rows => exact join_perm h _

theorem ops_perm (cs : List Op) : ∀ {Ω Ω' : List Sol}, Ω.Perm Ω' → (evalOps W Ω cs).Perm (evalOps W Ω' cs) := by
  induction cs with
  | nil => intro _ _ h; exact h
  | cons c cs ih => intro _ _ h; exact ih (op_perm c h)

theorem ops_append (a b : List Op) : ∀ Ω, evalOps W Ω (a ++ b) = evalOps W (evalOps W Ω a) b := by
  induction a with
  | nil => intro Ω; rfl
  | cons c a ih => intro Ω; exact ih _

/-- No value for `v`. -/
def Free (v : Str) (Ω : List Sol) : Prop := ∀ μ ∈ Ω, μ v = none

def Bound (v : Str) (Ω : List Sol) : Prop := ∀ μ ∈ Ω, μ v ≠ none

theorem join_free {v : Str} {Ω Φ : List Sol} (h : Free v Ω) (h' : Free v Φ) : Free v (join Ω Φ) := by
  intro μ hm
  obtain ⟨a, ha, b, hb, _, rfl⟩ := mem_join.1 hm
  simp [merge, h a ha, h' b hb]

theorem leftJoin_mem {ν : Sol} {Ω Φ : List Sol} (h : ν ∈ leftJoin Ω Φ) : ν ∈ Ω ∨ ν ∈ join Ω Φ := by
  unfold leftJoin at h
  obtain ⟨μ, hμ, h⟩ := List.mem_flatMap.1 h
  by_cases hm : matching μ Φ = []
  · rw [if_pos hm, List.mem_singleton] at h
    exact .inl (h ▸ hμ)
  · rw [if_neg hm] at h
    exact .inr (List.mem_flatMap.2 ⟨μ, hμ, h⟩)

theorem basic_free (hW : W.Lawful) {v : Str} (ts : List Triple) (h : ∀ t ∈ ts, v ∉ [t.s, t.p.iri, t.o]) : ∀ {Ω : List Sol}, Free v Ω →
    Free v (ts.foldl (fun Ω t => join Ω (W.triple t)) Ω) := by
  induction ts with
  | nil => intro _ h; exact h
  | cons t ts ih =>
    intro Ω hΩ
    refine ih (fun t ht => h t (List.mem_cons_of_mem _ ht)) (join_free hΩ fun μ hμ => ?_)
    cases hv : μ v with
    | none => rfl
    | some x => exact absurd (hW.triple t μ hμ v (by rw [hv]; simp)) (h t (by simp))

mutual
theorem op_free (hW : W.Lawful) {v : Str} : ∀ (op : Op), ¬ Occurs v op → ∀ {Ω : List Sol}, Free v Ω → Free v (evalOp W Ω op)
  | .basic ts, h, Ω, hΩ => by
    rw [evalOp]
    exact basic_free hW ts (fun t ht hm => h (by rw [Occurs]; exact ⟨t, ht, hm⟩)) hΩ
  | .optional g, h, Ω, hΩ => by
    rw [evalOp]
    intro μ hm
    rcases leftJoin_mem hm with hm | hm
    · exact hΩ μ hm
    · exact join_free hΩ (group_free hW g (by rwa [Occurs] at h)) μ hm
  | .minus g, h, Ω, hΩ => by
    rw [evalOp]
    exact fun μ hm => hΩ μ (List.mem_filter.1 hm).1
  | .union a b, h, Ω, hΩ => by
    rw [evalOp]
    rw [Occurs, not_or] at h
    refine join_free hΩ fun μ hm => ?_
    rcases List.mem_append.1 hm with hm | hm
    · exact group_free hW a h.1 μ hm
    · exact group_free hW b h.2 μ hm
  | .subquery (.mk info g), h, Ω, hΩ => by
    rw [evalOp]
    rw [Occurs] at h
    refine join_free hΩ fun μ hm => ?_
    cases hv : μ v with
    | none => rfl
    | some x => exact absurd (hW.sub info g μ hm v (by rw [hv]; simp)) h
  | .bind e w, h, Ω, hΩ => by
    rw [evalOp]
    rw [Occurs, not_or] at h
    intro μ hm
    obtain ⟨ν, hν, rfl⟩ := List.mem_map.1 hm
    simp only
    rw [if_neg h.1, hΩ ν hν]
  | .values vs rows, h, Ω, hΩ => by
    rw [evalOp]
    rw [Occurs] at h
    refine join_free hΩ fun μ hm => ?_
    cases hv : μ v with
    | none => rfl
    | some x => exact absurd (hW.values vs rows μ hm v (by rw [hv]; simp)) h
theorem ops_free (hW : W.Lawful) {v : Str} : ∀ (cs : List Op), ¬ OccursAny v cs → ∀ {Ω : List Sol}, Free v Ω → Free v (evalOps W Ω cs)
  | [], _, Ω, hΩ => by rw [evalOps]; exact hΩ
  | c :: cs, h, Ω, hΩ => by
    rw [evalOps]
    rw [OccursAny, not_or] at h
    exact ops_free hW cs h.2 (op_free hW c h.1 hΩ)
theorem group_free (hW : W.Lawful) {v : Str} : ∀ (g : Pattern), ¬ OccursIn v g → Free v (evalGroup W g)
  | .mk fs cs, h => by
    rw [evalGroup]
    rw [OccursIn] at h
    intro μ hm
    refine ops_free hW cs h ?_ μ (List.mem_filter.1 hm).1
    intro ν hν
    rw [List.mem_singleton] at hν
    rw [hν]
end

theorem join_bound {v : Str} {Ω Φ : List Sol} (h : Bound v Ω) : Bound v (join Ω Φ) := by
  intro μ hm
  obtain ⟨a, ha, b, hb, _, rfl⟩ := mem_join.1 hm
  have := h a ha
  unfold merge
  cases ha : a v with
  | none => exact absurd ha this
  | some x => simp

theorem join_bound_right {v : Str} {Ω Φ : List Sol} (h : Bound v Φ) : Bound v (join Ω Φ) := by
  intro μ hm
  obtain ⟨a, ha, b, hb, _, rfl⟩ := mem_join.1 hm
  have := h b hb
  unfold merge
  cases ha : a v with
  | none => simpa using this
  | some x => simp

theorem basic_bound {v : Str} (ts : List Triple) : ∀ {Ω : List Sol}, Bound v Ω → Bound v (ts.foldl (fun Ω t => join Ω (W.triple t)) Ω) := by
  induction ts with
  | nil => intro _ h; exact h
  | cons t ts ih => intro Ω hΩ; exact ih (join_bound hΩ)

theorem basic_binds (hW : W.Lawful) {v : Str} (hv : v.head? = some '?') {ts : List Triple} {t : Triple} (ht : t ∈ ts) (h : v ∈ [t.s, t.p.iri, t.o]) :
    ∀ {Ω : List Sol}, Bound v (ts.foldl (fun Ω t => join Ω (W.triple t)) Ω) := by
  induction ts with
  | nil => cases ht
  | cons x ts ih =>
    intro Ω
    rcases List.mem_cons.1 ht with rfl | ht
    · exact basic_bound ts (join_bound_right fun μ hμ => hW.bound _ μ hμ v h hv)
    · exact ih ht

/-- `BIND` does not change `v`. -/
def Keeps (v : Str) : Op → Prop
  | .bind _ w => w ≠ v
  | _ => True

theorem op_bound {v : Str} (op : Op) (hk : Keeps v op) {Ω : List Sol} (h : Bound v Ω) : Bound v (evalOp W Ω op) := by
  cases op with
  | basic ts => exact basic_bound ts h
  | optional g =>
    intro μ hm
    rcases leftJoin_mem hm with hm | hm
    · exact h μ hm
    · exact join_bound h μ hm
  | minus g => exact fun μ hm => h μ (List.mem_filter.1 hm).1
  | union a b => exact join_bound h
  | subquery q => exact join_bound h
  | bind e w =>
    intro μ hm
    obtain ⟨ν, hν, rfl⟩ := List.mem_map.1 hm
    simp only
    rw [if_neg (Ne.symm hk)]
    exact h ν hν
  | values vs rows => exact join_bound h

theorem ops_bound {v : Str} (cs : List Op) (hk : ∀ c ∈ cs, Keeps v c) : ∀ {Ω : List Sol}, Bound v Ω → Bound v (evalOps W Ω cs) := by
  induction cs with
  | nil => intro _ h; exact h
  | cons c cs ih => intro _ h; exact ih (fun c hc => hk c (List.mem_cons_of_mem _ hc)) (op_bound c (hk c (by simp)) h)

theorem ops_binds (hW : W.Lawful) {v : Str} (hv : v.head? = some '?') {cs : List Op} (hk : ∀ c ∈ cs, Keeps v c) {t : Triple}
    (ht : t ∈ basicTriples cs) (h : v ∈ [t.s, t.p.iri, t.o]) : ∀ {Ω : List Sol}, Bound v (evalOps W Ω cs) := by
  induction cs with
  | nil => cases ht
  | cons c cs ih =>
    intro Ω
    have hk' : ∀ c ∈ cs, Keeps v c := fun c hc => hk c (List.mem_cons_of_mem _ hc)
    unfold basicTriples at ht
    rw [List.flatMap_cons, List.mem_append] at ht
    rw [evalOps]
    rcases ht with ht | ht
    · cases c with
      | basic ts => exact ops_bound cs hk' (by rw [evalOp]; exact basic_binds hW hv ht h)
      | _ => cases ht
    · exact ih hk' ht

/-- The part is joined with what stands in front of it. -/
def Joins : Op → Prop
  | .basic _ | .union _ _ | .subquery _ | .values _ _ => True
  | _ => False

variable {s o : Str} {T : List Sol}

/-- Joining `T`, which has the variables `s` and `o`, before or behind a part. -/
theorem op_swap (hW : W.Lawful) (hT : ∀ τ ∈ T, ∀ v, τ v ≠ none → v = s ∨ v = o) (op : Op) (ho : ¬ Occurs o op) (hk : Keeps s op) {Ω : List Sol}
    (h : Joins op ∨ Bound s Ω ∨ ¬ Occurs s op) : (evalOp W (join Ω T) op).Perm (join (evalOp W Ω op) T) := by
  have hT' : ∀ τ ∈ T, ∀ v, v ≠ s → v ≠ o → τ v = none := by
    intro τ hτ v h1 h2
    cases hv : τ v with
    | none => rfl
    | some x => rcases hT τ hτ v (by rw [hv]; simp) with h | h
                · exact absurd h h1
                · exact absurd h h2
  have safe : ∀ Φ : List Sol, Free o Φ → (Bound s Ω ∨ Free s Φ) → ∀ μ ∈ Ω, ∀ τ ∈ T, ∀ φ ∈ Φ, Compat μ τ → Compat μ φ → Compat τ φ := by
    intro Φ ho hs μ hμ τ hτ φ hφ h1 h2 v
    by_cases hvo : v = o
    · subst hvo
      exact .inr (.inl (ho φ hφ))
    · by_cases hvs : v = s
      · subst hvs
        rcases hs with hs | hs
        · have := hs μ hμ
          rcases h1 v with a | a | a
          · exact absurd a this
          · exact .inl a
          · rcases h2 v with b | b | b
            · exact absurd b this
            · exact .inr (.inl b)
            · exact .inr (.inr (a.symm.trans b))
        · exact .inr (.inl (hs φ hφ))
      · exact .inl (hT' τ hτ v hvs hvo)
  cases op with
  | basic ts =>
    rw [evalOp, evalOp]
    clear h ho hk safe
    induction ts generalizing Ω with
    | nil => exact .refl _
    | cons t ts ih => exact (basic_perm ts (join_swap Ω T _)).trans (ih)
  | optional g =>
    rw [evalOp, evalOp]
    rw [Occurs] at ho h
    refine leftJoin_swap Ω T _ (safe _ (group_free hW g ho) ?_)
    rcases h with h | h | h
    · exact absurd h (by simp [Joins])
    · exact .inl h
    · exact .inr (group_free hW g h)
  | minus g =>
    rw [evalOp, evalOp]
    rw [Occurs] at ho h
    have hs : Bound s Ω ∨ Free s (evalGroup W g) := by
      rcases h with h | h | h
      · exact absurd h (by simp [Joins])
      · exact .inl h
      · exact .inr (group_free hW g h)
    have hg := group_free hW g ho
    refine List.Perm.of_eq ?_
    unfold without
    refine filter_join Ω T _ fun μ hμ τ hτ hc => ?_
    rw [decide_eq_decide]
    refine not_congr ⟨?_, ?_⟩
    · rintro ⟨ν, hν, h1, v, h2, h3⟩
      refine ⟨ν, hν, ((compat_merge hc).1 h1).1, v, ?_, h3⟩
      intro hn
      have hτv : τ v ≠ none := by simpa [merge, hn] using h2
      rcases hT τ hτ v hτv with rfl | rfl
      · rcases hs with hs | hs
        · exact hs μ hμ hn
        · exact h3 (hs ν hν)
      · exact h3 (hg ν hν)
    · rintro ⟨ν, hν, h1, v, h2, h3⟩
      refine ⟨ν, hν, (compat_merge hc).2 ⟨h1, safe _ hg hs μ hμ τ hτ ν hν hc h1⟩, v, ?_, h3⟩
      unfold merge
      cases hm : μ v with
      | none => exact absurd hm h2
      | some x => simp
  | union a b => rw [evalOp, evalOp]; exact join_swap Ω T _
  | subquery q => rw [evalOp, evalOp]; exact join_swap Ω T _
  | values vs rows => rw [evalOp, evalOp]; exact join_swap Ω T _
  | bind e w =>
    rw [evalOp, evalOp]
    rw [Occurs, not_or] at ho
    have hw : ∀ τ ∈ T, τ w = none := fun τ hτ => hT' τ hτ w hk (Ne.symm ho.1)
    refine List.Perm.of_eq (map_join Ω T _ fun μ hμ τ hτ => ⟨⟨?_, ?_⟩, ?_⟩)
    · intro h v
      by_cases hv : v = w
      · subst hv; exact .inr (.inl (hw τ hτ))
      · have := h v
        simp only [if_neg hv] at this
        exact this
    · intro h v
      by_cases hv : v = w
      · subst hv; exact .inr (.inl (hw τ hτ))
      · simp only [if_neg hv]
        exact h v
    · intro hc
      have he : W.expr e (merge μ τ) = W.expr e μ := by
        refine hW.expr e _ _ fun v hv => ?_
        unfold merge
        cases hm : μ v with
        | some x => simp
        | none =>
          have hvo : v ≠ o := by rintro rfl; exact ho.2 hv
          have hvs : v ≠ s := by
            rintro rfl
            rcases h with h | h | h
            · exact h
            · exact h μ hμ hm
            · exact h (by rw [Occurs]; exact .inr hv)
          simp [hT' τ hτ v hvs hvo]
      funext v
      by_cases hv : v = w
      · subst hv
        simp [merge, he, hw τ hτ]
      · simp [merge, hv]

theorem ops_swap (hW : W.Lawful) (hT : ∀ τ ∈ T, ∀ v, τ v ≠ none → v = s ∨ v = o) (cs : List Op) (ho : ∀ c ∈ cs, ¬ Occurs o c)
    (hk : ∀ c ∈ cs, Keeps s c) : ∀ {Ω : List Sol}, (Bound s Ω ∨ ∀ c ∈ cs, Joins c ∨ ¬ Occurs s c) →
    (evalOps W (join Ω T) cs).Perm (join (evalOps W Ω cs) T) := by
  induction cs with
  | nil => intro _ _; exact .refl _
  | cons c cs ih =>
    intro Ω h
    have hk' : ∀ c ∈ cs, Keeps s c := fun c hc => hk c (List.mem_cons_of_mem _ hc)
    have ho' : ∀ c ∈ cs, ¬ Occurs o c := fun c hc => ho c (List.mem_cons_of_mem _ hc)
    rw [evalOps, evalOps]
    refine (ops_perm cs (op_swap hW hT c (ho c (by simp)) (hk c (by simp)) ?_)).trans (ih ho' hk' ?_)
    · rcases h with h | h
      · exact .inr (.inl h)
      · rcases h c (by simp) with h | h
        · exact .inl h
        · exact .inr (.inr h)
    · rcases h with h | h
      · exact .inl (op_bound c (hk c (by simp)) h)
      · exact .inr fun c hc => h c (List.mem_cons_of_mem _ hc)

/-! ### The checks -/

mutual
theorem op_occurs (v : Str) : ∀ op : Op, opBlocks v op = false → ¬ Occurs v op
  | .basic ts, h => by
    rw [opBlocks, List.any_eq_false] at h
    rw [Occurs]
    rintro ⟨t, ht, hv⟩
    have := h t ht
    simp only [inTriple, Bool.or_eq_true, beq_iff_eq, not_or] at this
    simp only [List.mem_cons, List.not_mem_nil, or_false] at hv
    rcases hv with rfl | rfl | rfl
    · exact this.1.1 rfl
    · exact this.1.2 rfl
    · exact this.2 rfl
  | .optional g, h => by rw [opBlocks] at h; rw [Occurs]; exact pattern_occurs v g h
  | .minus g, h => by rw [opBlocks] at h; rw [Occurs]; exact pattern_occurs v g h
  | .union a b, h => by
    rw [opBlocks, Bool.or_eq_false_iff] at h
    rw [Occurs, not_or]
    exact ⟨pattern_occurs v a h.1, pattern_occurs v b h.2⟩
  | .subquery (.mk info g), h => by rw [opBlocks] at h; rw [Occurs]; simpa using h
  | .bind e w, h => by
    rw [opBlocks] at h
    rw [Occurs]
    cases e <;> simp_all [bindStrings, exprVars]
  | .values vs rows, h => by rw [opBlocks] at h; rw [Occurs]; simpa using h
theorem ops_occurs (v : Str) : ∀ cs : List Op, opsBlock v cs = false → ¬ OccursAny v cs
  | [], _ => by rw [OccursAny]; exact id
  | c :: cs, h => by
    rw [opsBlock, Bool.or_eq_false_iff] at h
    rw [OccursAny, not_or]
    exact ⟨op_occurs v c h.1, ops_occurs v cs h.2⟩
theorem pattern_occurs (v : Str) : ∀ g : Pattern, patternBlocks v g = false → ¬ OccursIn v g
  | .mk fs cs, h => by rw [patternBlocks] at h; rw [OccursIn]; exact ops_occurs v cs h
end

/-- The parts of the query itself that the check does not look at. -/
def Unchecked : Op → Prop
  | .minus _ | .values _ _ => True
  | _ => False

theorem root_occurs {v : Str} {op : Op} (h : rootBlocks v op = false) (hb : ∀ ts, op = .basic ts → ts.any (inTriple v) = false)
    (hu : Unchecked op → ¬ Occurs v op) : ¬ Occurs v op := by
  cases op with
  | basic ts => exact op_occurs v _ (by rw [opBlocks]; exact hb ts rfl)
  | optional g => exact op_occurs v _ (by rw [opBlocks]; exact h)
  | minus g => exact hu trivial
  | union a b => exact op_occurs v _ (by rw [opBlocks]; exact h)
  | subquery q => cases q; exact op_occurs v _ (by rw [opBlocks]; exact h)
  | bind e w => exact op_occurs v _ (by rw [opBlocks]; exact h)
  | values vs rows => exact hu trivial

theorem findTriple_spec {info : Info} {fs : List Filter} {before after : List Op} {t : Triple} {cs' : List Op} (ts : List Triple) :
    ∀ a, findTriple info fs before after a ts = some (t, cs') →
    ∃ a' b, a ++ ts = a' ++ t :: b ∧ usable info fs before a' t b after = true ∧ cs' = before ++ .basic (a' ++ b) :: after := by
  induction ts with
  | nil => intro a h; cases h
  | cons x b ih =>
    intro a h
    rw [findTriple] at h
    by_cases hu : usable info fs before a x b after = true
    · rw [if_pos hu] at h
      cases h
      exact ⟨a, b, rfl, hu, rfl⟩
    · rw [if_neg hu] at h
      obtain ⟨a', b', h1, h2, h3⟩ := ih _ h
      exact ⟨a', b', by rw [← h1]; simp, h2, h3⟩

theorem findChild_spec {info : Info} {fs : List Filter} {t : Triple} {cs' : List Op} (cs : List Op) :
    ∀ before, findChild info fs before cs = some (t, cs') →
    ∃ before' a b after, before ++ cs = before' ++ .basic (a ++ t :: b) :: after ∧ usable info fs before' a t b after = true ∧
      cs' = before' ++ .basic (a ++ b) :: after := by
  induction cs with
  | nil => intro _ h; cases h
  | cons c cs ih =>
    intro before h
    have next : findChild info fs (before ++ [c]) cs = some (t, cs') →
        ∃ before' a b after, before ++ c :: cs = before' ++ .basic (a ++ t :: b) :: after ∧ usable info fs before' a t b after = true ∧
          cs' = before' ++ .basic (a ++ b) :: after := by
      intro h
      obtain ⟨b', a, b, after, h1, h2, h3⟩ := ih _ h
      exact ⟨b', a, b, after, by rw [← h1]; simp, h2, h3⟩
    cases c with
    | basic ts =>
      rw [findChild] at h
      cases hf : findTriple info fs before cs [] ts with
      | some r =>
        rw [hf] at h
        cases h
        obtain ⟨a, b, h1, h2, h3⟩ := findTriple_spec ts [] hf
        rw [List.nil_append] at h1
        exact ⟨before, a, b, cs, by rw [h1], h2, h3⟩
      | none => rw [hf] at h; exact next h
    | optional g => rw [findChild] at h; exact next h; simp
    | minus g => rw [findChild] at h; exact next h; simp
    | union a b => rw [findChild] at h; exact next h; simp
    | subquery q => rw [findChild] at h; exact next h; simp
    | bind e w => rw [findChild] at h; exact next h; simp
    | values vs rows => rw [findChild] at h; exact next h; simp

theorem check_spec {low : Char → Char} {info : Info} {fs : List Filter} {cs : List Op} {t : Triple} {q' : Query}
    (h : checkUse low (.mk info (.mk fs cs)) = some (t, q')) :
    ∃ before a b after, cs = before ++ .basic (a ++ t :: b) :: after ∧ usable info fs before a t b after = true ∧
      q' = .mk { info with having := info.having ++ fs.filter (movable t) }
        (.mk (fs.filter fun f => !movable t f) (before ++ .basic (a ++ b) :: after)) := by
  rw [checkUse] at h
  split at h
  · cases h
  · split at h
    · cases h
    · cases hf : findChild info fs [] cs with
      | none => rw [hf] at h; cases h
      | some r =>
        obtain ⟨t', cs'⟩ := r
        rw [hf] at h
        cases h
        obtain ⟨before, a, b, after, h1, h2, h3⟩ := findChild_spec cs [] hf
        exact ⟨before, a, b, after, h1, h2, by rw [h3]⟩

theorem basic_middle (a : List Triple) (t : Triple) (b : List Triple) (Ω : List Sol) :
    ((a ++ t :: b).foldl (fun Ω t => join Ω (W.triple t)) Ω).Perm (join ((a ++ b).foldl (fun Ω t => join Ω (W.triple t)) Ω) (W.triple t)) := by
  rw [List.foldl_append, List.foldl_append, List.foldl_cons]
  generalize a.foldl (fun Ω t => join Ω (W.triple t)) Ω = Ω
  induction b generalizing Ω with
  | nil => exact .refl _
  | cons x b ih => exact (basic_perm b (join_swap Ω _ _)).trans (ih _)

/-- The triple can be joined last. -/
theorem ops_last (hW : W.Lawful) (hv : s.head? = some '?') {before after : List Op} {a b : List Triple} {t : Triple}
    (hT : ∀ τ ∈ W.triple t, ∀ v, τ v ≠ none → v = s ∨ v = o)
    (ho : ∀ c ∈ after, ¬ Occurs o c) (hkb : ∀ c ∈ before, Keeps s c) (hka : ∀ c ∈ after, Keeps s c)
    (hs : (∃ x ∈ basicTriples before ++ a ++ b, s ∈ [x.s, x.p.iri, x.o]) ∨ ∀ c ∈ after, Joins c ∨ ¬ Occurs s c) (Ω : List Sol) :
    (evalOps W Ω (before ++ .basic (a ++ t :: b) :: after)).Perm (join (evalOps W Ω (before ++ .basic (a ++ b) :: after)) (W.triple t)) := by
  rw [ops_append, ops_append, evalOps, evalOps, evalOp, evalOp]
  refine (ops_perm after (basic_middle a t b _)).trans (ops_swap hW hT after ho hka ?_)
  rcases hs with ⟨x, hx, hm⟩ | hs
  · refine .inl ?_
    rw [List.append_assoc, List.mem_append] at hx
    rcases hx with hx | hx
    · exact basic_bound _ (ops_binds hW hv hkb hx hm)
    · exact basic_binds hW hv hx hm
  · exact .inr hs

theorem any_append_free (v : Str) (cs : List Op) (h : (basicTriples cs).any (inTriple v) = false) : ∀ ts, .basic ts ∈ cs →
    ts.any (inTriple v) = false := by
  intro ts hts
  rw [List.any_eq_false] at h ⊢
  intro t ht
  refine h t ?_
  unfold basicTriples
  exact List.mem_flatMap.2 ⟨_, hts, ht⟩

/-- What a successful check means. -/
theorem usable_spec {info : Info} {fs : List Filter} {before after : List Op} {a b : List Triple} {t : Triple}
    (h : usable info fs before a t b after = true) (hu : ∀ c ∈ before ++ after, Unchecked c → ¬ Occurs t.o c) :
    (∀ c ∈ before ++ .basic (a ++ b) :: after, ¬ Occurs t.o c) ∧ ∀ f ∈ fs, movable t f = false → f.lhs ≠ t.s ∧ f.lhs ≠ t.o ∧ f.rhs ≠ t.o ∧ f.rhs ≠ t.s := by
  unfold usable at h
  simp only [Bool.and_eq_true, Bool.not_eq_true', List.any_append, Bool.or_eq_false_iff] at h
  obtain ⟨⟨⟨⟨⟨⟨_, _⟩, _⟩, _⟩, ⟨⟨h1, h2⟩, h3⟩, h4⟩, h5⟩, h6, h7⟩ := h
  rw [List.any_eq_false] at h6 h7
  constructor
  · intro c hc
    rcases List.mem_append.1 hc with hc | hc
    · exact root_occurs (by simpa using h6 c hc) (fun ts e => any_append_free _ _ h1 ts (e ▸ hc)) (hu c (List.mem_append_left _ hc))
    · rcases List.mem_cons.1 hc with rfl | hc
      · refine op_occurs _ _ ?_
        rw [opBlocks, List.any_append, h2, h3]
        rfl
      · exact root_occurs (by simpa using h7 c hc) (fun ts e => any_append_free _ _ h4 ts (e ▸ hc)) (hu c (List.mem_append_right _ hc))
  · intro f hf hm
    rw [List.any_eq_false] at h5
    have := h5 f hf
    rw [filterBlocks, hm] at this
    simp only [Bool.not_false, Bool.true_and, Bool.or_eq_true, beq_iff_eq, not_or] at this
    exact ⟨this.1.1.1, this.1.1.2, this.1.2, this.2⟩

theorem occursAny_of {v : Str} {cs : List Op} (h : ∀ c ∈ cs, ¬ Occurs v c) : ¬ OccursAny v cs := by
  induction cs with
  | nil => rw [OccursAny]; exact id
  | cons c cs ih => rw [OccursAny, not_or]; exact ⟨h c (by simp), ih fun c hc => h c (List.mem_cons_of_mem _ hc)⟩

theorem join_unit (Φ : List Sol) : join [fun _ => none] Φ = Φ := by
  unfold join matching
  simp only [List.flatMap_cons, List.flatMap_nil, List.append_nil]
  rw [List.filter_eq_self.2]
  · conv => rhs; rw [← List.map_id Φ]
    refine List.map_congr_left fun φ _ => ?_
    funext v
    simp [merge]
  · intro φ _
    simp [Compat]

theorem noPlan_eval {cs : List Op} (h : noPlan cs = true) (Ω : List Sol) : evalOps W Ω cs = Ω := by
  induction cs generalizing Ω with
  | nil => rfl
  | cons c cs ih =>
    unfold noPlan at h
    rw [List.all_cons, Bool.and_eq_true] at h
    rw [evalOps]
    cases c with
    | basic ts =>
      cases ts with
      | nil => rw [evalOp]; exact ih h.2 Ω
      | cons _ _ => simp at h
    | _ => simp at h

end Verif.PatternTrick
