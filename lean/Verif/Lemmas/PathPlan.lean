import Mathlib.Data.Fintype.Pigeonhole
import Verif.Spec.PathPlan
import Verif.Lemmas.PropertyPathTree
/-
Helper lemmas for C61: what the graph patterns mean that paths are turned into.
-/
namespace Verif.PathPlan
open Verif.PropertyPath Verif.PropertyPathSpec Verif.PathPlanSpec

variable {N : Type} {G : N → Word → N → Prop}

/-! ### Walks -/

theorem walk_congr {R S : N → N → Prop} (h : ∀ u v, R u v → S u v) {k u v} (hw : Walk R k u v) : Walk S k u v := by
  induction hw with
  | refl => exact .refl _
  | step h1 _ ih => exact .step (h _ _ h1) ih

theorem walk_fun {R : N → N → Prop} {k u v} (h : Walk R k u v) : ∃ f : Nat → N, f 0 = u ∧ f k = v ∧ ∀ i, i < k → R (f i) (f (i + 1)) := by
  induction h with
  | refl u => exact ⟨fun _ => u, rfl, rfl, fun i hi => by omega⟩
  | @step k u v w h1 _ ih =>
    obtain ⟨f, h0, hk, hs⟩ := ih
    refine ⟨fun i => match i with | 0 => u | i + 1 => f i, rfl, hk, fun i hi => ?_⟩
    cases i with
    | zero => show R u (f 0); rw [h0]; exact h1
    | succ i => exact hs i (by omega)

theorem fun_walk {R : N → N → Prop} (f : Nat → N) (k : Nat) (h : ∀ i, i < k → R (f i) (f (i + 1))) : Walk R k (f 0) (f k) := by
  induction k generalizing f with
  | zero => exact .refl _
  | succ k ih => exact .step (h 0 (by omega)) (ih (fun i => f (i + 1)) fun i hi => h (i + 1) (by omega))

theorem walk_append {R : N → N → Prop} {k m u v w} (h : Walk R k u v) (h' : Walk R m v w) : Walk R (k + m) u w := by
  induction h with
  | refl => rw [Nat.zero_add]; exact h'
  | step h1 _ ih => rw [Nat.add_right_comm]; exact .step h1 (ih h')

/-- A walk need not be longer than the number of nodes. -/
theorem walk_short [Fintype N] {R : N → N → Prop} (k : Nat) : ∀ u v, Walk R k u v → 1 ≤ k → ∃ m, 1 ≤ m ∧ m ≤ Fintype.card N ∧ Walk R m u v := by
  induction k using Nat.strongRecOn with
  | ind k ih =>
    intro u v h h1
    by_cases hk : k ≤ Fintype.card N
    · exact ⟨k, h1, hk, h⟩
    · obtain ⟨f, h0, hf, hs⟩ := walk_fun h
      obtain ⟨i, j, hne, hij⟩ := Fintype.exists_ne_map_eq_of_card_lt (fun i : Fin k => f (i.1 + 1)) (by simpa using Nat.lt_of_not_le hk)
      have key : ∀ i j : Fin k, i.1 < j.1 → f (i.1 + 1) = f (j.1 + 1) → ∃ m, 1 ≤ m ∧ m ≤ Fintype.card N ∧ Walk R m u v := by
        intro i j hlt hij
        have w1 : Walk R (i.1 + 1) u (f (i.1 + 1)) := by rw [← h0]; exact fun_walk f _ fun a ha => hs a (by omega)
        have w2 : Walk R (k - (j.1 + 1)) (f (j.1 + 1)) v := by
          have := fun_walk (R := R) (fun a => f (j.1 + 1 + a)) (k - (j.1 + 1)) fun a ha => hs (j.1 + 1 + a) (by omega)
          simp only [Nat.add_zero] at this
          rw [show j.1 + 1 + (k - (j.1 + 1)) = k by omega, hf] at this
          exact this
        rw [← hij] at w2
        exact ih _ (by omega) u v (walk_append w1 w2) (by omega)
      rcases Nat.lt_or_gt_of_ne (fun e => hne (Fin.ext e)) with hlt | hlt
      · exact key i j hlt hij
      · exact key j i hlt hij.symm

theorem steps_walk {R : N → N → Prop} {u v} : Steps R u v ↔ ∃ k, Walk R k u v := by
  constructor
  · intro h
    induction h with
    | refl u => exact ⟨0, .refl u⟩
    | step h _ ih => obtain ⟨k, hk⟩ := ih; exact ⟨k + 1, .step h hk⟩
  · rintro ⟨k, hk⟩
    induction hk with
    | refl u => exact .refl u
    | step h _ ih => exact .step h ih

theorem within_walk {R : N → N → Prop} {n u v} : Within R n u v ↔ ∃ k, k ≤ n ∧ Walk R k u v := by
  constructor
  · intro h
    induction h with
    | refl n u => exact ⟨0, Nat.zero_le _, .refl u⟩
    | step h _ ih => obtain ⟨k, hk, hw⟩ := ih; exact ⟨k + 1, by omega, .step h hw⟩
  · rintro ⟨k, hk, hw⟩
    induction hw generalizing n with
    | refl u => exact .refl _ u
    | step h _ ih =>
      obtain ⟨m, rfl⟩ : ∃ m, n = m + 1 := ⟨n - 1, by omega⟩
      exact .step h (ih (by omega))

/-- Steps that may stay at their node can be left out. -/
theorem walk_or_eq {R S : N → N → Prop} {f : Prop} (h : ∀ u v, R u v ↔ S u v ∨ (f ∧ u = v)) {k u v} (hw : Walk R k u v) : ∃ m, m ≤ k ∧ Walk S m u v ∧
    (1 ≤ m ∨ k = 0 ∨ f) := by
  induction hw with
  | refl u => exact ⟨0, Nat.le_refl _, .refl u, .inr (.inl rfl)⟩
  | step h1 _ ih =>
    obtain ⟨m, hm, hw, _⟩ := ih
    rcases (h _ _).1 h1 with h1 | ⟨hf, rfl⟩
    · exact ⟨m + 1, by omega, .step h1 hw, .inl (by omega)⟩
    · exact ⟨m, by omega, hw, .inr (.inr hf)⟩

/-! ### What patterns mean -/

theorem sat_append (a b : List Pattern) (σ : Term → N) : sat G (a ++ b) σ ↔ sat G a σ ∧ sat G b σ := by
  induction a with
  | nil => simp [sat]
  | cons p a ih => simp only [List.cons_append, sat, ih, and_assoc]

/-- Two assignments agree on the names in use. -/
def Agree (n : Nat) (σ τ : Term → N) : Prop := ∀ t, InUse n t → σ t = τ t

theorem _root_.Verif.PathPlanSpec.InUse.mono {n m : Nat} (h : n ≤ m) {t : Term} (ht : InUse n t) : InUse m t := by
  cases t with
  | name w => trivial
  | fresh k => exact Nat.lt_of_lt_of_le ht h

theorem Agree.mono {n m : Nat} (h : n ≤ m) {σ τ : Term → N} (ha : Agree m σ τ) : Agree n σ τ := fun t ht => ha t (ht.mono h)
theorem Agree.symm {n : Nat} {σ τ : Term → N} (h : Agree n σ τ) : Agree n τ σ := fun t ht => (h t ht).symm
theorem Agree.trans {n : Nat} {σ τ ρ : Term → N} (h : Agree n σ τ) (h' : Agree n τ ρ) : Agree n σ ρ := fun t ht => (h t ht).trans (h' t ht)
theorem Agree.refl {n : Nat} (σ : Term → N) : Agree n σ σ := fun _ _ => rfl

/-- A pattern, created while the counter went from `n` to `n'`, has solutions exactly for the assignments with `T`, and uses no later names. -/
structure Means (G : N → Word → N → Prop) (pat : List Pattern) (n n' : Nat) (T : (Term → N) → Prop) : Prop where
  le : n ≤ n'
  sound : ∀ σ, sat G pat σ → T σ
  complete : ∀ σ, T σ → ∃ σ', Agree n σ' σ ∧ sat G pat σ'
  loc : ∀ σ σ', Agree n' σ σ' → sat G pat σ → sat G pat σ'

theorem Means.congr {pat : List Pattern} {n n' : Nat} {T T' : (Term → N) → Prop} (h : Means G pat n n' T) (hT : ∀ σ, T σ ↔ T' σ) : Means G pat n n' T' :=
  ⟨h.le, fun σ hs => (hT σ).1 (h.sound σ hs), fun σ ht => h.complete σ ((hT σ).2 ht), h.loc⟩

theorem Means.append {a b : List Pattern} {n n1 n2 : Nat} {T1 T2 : (Term → N) → Prop} (ha : Means G a n n1 T1) (hb : Means G b n1 n2 T2)
    (hT : ∀ σ σ', Agree n σ σ' → T2 σ → T2 σ') : Means G (a ++ b) n n2 fun σ => T1 σ ∧ T2 σ := by
  refine ⟨Nat.le_trans ha.le hb.le, fun σ hs => ?_, fun σ ht => ?_, fun σ σ' hag hs => ?_⟩
  · rw [sat_append] at hs; exact ⟨ha.sound σ hs.1, hb.sound σ hs.2⟩
  · obtain ⟨σ1, h1, s1⟩ := ha.complete σ ht.1
    obtain ⟨σ2, h2, s2⟩ := hb.complete σ1 (hT σ σ1 h1.symm ht.2)
    refine ⟨σ2, (h2.mono ha.le).trans h1, ?_⟩
    rw [sat_append]
    exact ⟨ha.loc σ1 σ2 h2.symm s1, s2⟩
  · rw [sat_append] at hs ⊢
    exact ⟨ha.loc σ σ' (hag.mono hb.le) hs.1, hb.loc σ σ' hag hs.2⟩

/-- An assignment with another node for one name. -/
def assign (σ : Term → N) (t : Term) (w : N) : Term → N := fun s => if s = t then w else σ s

theorem assign_same (σ : Term → N) (t : Term) (w : N) : assign σ t w t = w := if_pos rfl
theorem assign_other (σ : Term → N) (t : Term) (w : N) {s : Term} (h : s ≠ t) : assign σ t w s = σ s := if_neg h
theorem assign_self (σ : Term → N) (t : Term) : assign σ t (σ t) = σ := by
  funext s
  by_cases h : s = t
  · rw [h, assign_same]
  · rw [assign_other _ _ _ h]

theorem inUse_ne {n : Nat} {t : Term} (h : InUse n t) : t ≠ .fresh n := by
  rintro rfl; exact absurd h (Nat.lt_irrefl n)

theorem Means.exists {pat : List Pattern} {n n' : Nat} {T : (Term → N) → Prop} (h : Means G pat (n + 1) n' T) :
    Means G pat n n' fun σ => ∃ w, T (assign σ (.fresh n) w) := by
  refine ⟨Nat.le_of_succ_le h.le, fun σ hs => ⟨σ (.fresh n), by rw [assign_self]; exact h.sound σ hs⟩, fun σ ⟨w, ht⟩ => ?_, h.loc⟩
  obtain ⟨σ', h1, h2⟩ := h.complete _ ht
  refine ⟨σ', fun t ht => ?_, h2⟩
  rw [h1 t (ht.mono (Nat.le_succ n)), assign_other _ _ _ (inUse_ne ht)]

/-! ### Unions -/

theorem sat_unite (ps : List (List Pattern)) (hl : 2 ≤ ps.length) : ∃ pat, unite ps = .ok pat ∧ ∀ (N : Type) (G : N → Word → N → Prop) (σ : Term → N),
    sat G pat σ ↔ ∃ p ∈ ps, sat G p σ := by
  have fold : ∀ (rest : List (List Pattern)) (p : List Pattern) (N : Type) (G : N → Word → N → Prop) (σ : Term → N),
      sat G (rest.foldl (fun p q => [.union p q]) p) σ ↔ sat G p σ ∨ ∃ q ∈ rest, sat G q σ := by
    intro rest
    induction rest with
    | nil => intro p N G σ; simp
    | cons q rest ih =>
      intro p N G σ
      rw [List.foldl_cons, ih]
      simp only [sat, satOne, and_true, List.mem_cons, exists_eq_or_imp, or_assoc]
  match ps, hl with
  | a :: b :: rest, _ =>
    refine ⟨_, rfl, fun N G σ => ?_⟩
    rw [fold]
    simp only [sat, satOne, and_true, List.mem_cons, exists_eq_or_imp, or_assoc]

/-- Patterns that were created one after the other. -/
inductive Created (G : N → Word → N → Prop) : List (List Pattern) → Nat → Nat → List ((Term → N) → Prop) → Prop where
  | nil (n) : Created G [] n n []
  | cons {p ps n n1 n2 T Ts} : Means G p n n1 T → Created G ps n1 n2 Ts → Created G (p :: ps) n n2 (T :: Ts)

theorem Created.append {ps qs : List (List Pattern)} {n n1 n2 : Nat} {Ts Us : List ((Term → N) → Prop)} (h : Created G ps n n1 Ts)
    (h' : Created G qs n1 n2 Us) : Created G (ps ++ qs) n n2 (Ts ++ Us) := by
  induction h with
  | nil => exact h'
  | cons hm _ ih => exact .cons hm (ih h')

theorem Created.le {ps : List (List Pattern)} {n n' : Nat} {Ts : List ((Term → N) → Prop)} (h : Created G ps n n' Ts) : n ≤ n' := by
  induction h with
  | nil => exact Nat.le_refl _
  | cons hm _ ih => exact Nat.le_trans hm.le ih

theorem Created.length {ps : List (List Pattern)} {n n' : Nat} {Ts : List ((Term → N) → Prop)} (h : Created G ps n n' Ts) : ps.length = Ts.length := by
  induction h with
  | nil => rfl
  | cons _ _ ih => simp [ih]

/-- The union of patterns. -/
theorem Created.union {ps : List (List Pattern)} {n n' : Nat} {Ts : List ((Term → N) → Prop)} (h : Created G ps n n' Ts) {pat : List Pattern}
    (hp : ∀ σ : Term → N, sat G pat σ ↔ ∃ p ∈ ps, sat G p σ) : Means G pat n n' fun σ => ∃ T ∈ Ts, T σ := by
  have key : (∀ σ, (∃ p ∈ ps, sat G p σ) → ∃ T ∈ Ts, T σ) ∧ (∀ σ, (∃ T ∈ Ts, T σ) → ∃ σ', Agree n σ' σ ∧ ∃ p ∈ ps, sat G p σ') ∧
      (∀ σ σ', Agree n' σ σ' → (∃ p ∈ ps, sat G p σ) → ∃ p ∈ ps, sat G p σ') := by
    clear hp
    induction h with
    | nil => refine ⟨?_, ?_, ?_⟩ <;> simp
    | @cons p ps n n1 n2 T Ts hm hc ih =>
      simp only [List.mem_cons, exists_eq_or_imp]
      refine ⟨fun σ hs => hs.imp (hm.sound σ) (ih.1 σ), fun σ ht => ?_, fun σ σ' ha hs => hs.imp (hm.loc σ σ' (ha.mono hc.le)) (ih.2.2 σ σ' ha)⟩
      rcases ht with ht | ht
      · obtain ⟨σ', h1, h2⟩ := hm.complete σ ht
        exact ⟨σ', h1, .inl h2⟩
      · obtain ⟨σ', h1, h2⟩ := ih.2.1 σ ht
        exact ⟨σ', h1.mono hm.le, .inr h2⟩
  exact ⟨h.le, fun σ hs => key.1 σ ((hp σ).1 hs), fun σ ht => by obtain ⟨σ', h1, h2⟩ := key.2.1 σ ht; exact ⟨σ', h1, (hp σ').2 h2⟩,
    fun σ σ' ha hs => (hp σ').2 (key.2.2 σ σ' ha ((hp σ).1 hs))⟩

/-! ### Functions that turn paths into patterns -/

/-- A function turns a path with the relation `S` into a pattern. -/
def Good (G : N → Word → N → Prop) (s : Seed) (S : N → N → Prop) : Prop :=
  ∀ l r n, InUse n l → InUse n r → ∃ pat n', s l r n = .ok (pat, n') ∧ Means G pat n n' fun σ => S (σ l) (σ r)

theorem good_iri (w : Word) : Good G (iri w) fun u v => G u w v := by
  intro l r n hl hr
  refine ⟨_, _, rfl, Nat.le_refl _, fun σ hs => ?_, fun σ ht => ⟨σ, .refl σ, ?_⟩, fun σ σ' ha hs => ?_⟩
  · simpa [sat, satOne] using hs
  · simpa [sat, satOne] using ht
  · simpa [sat, satOne, ha l hl, ha r hr] using hs

theorem good_inverse {s : Seed} {S : N → N → Prop} (h : Good G s S) (ss : List Seed) : Good G (inverse (s :: ss)) fun u v => S v u :=
  fun l r n hl hr => h r l n hr hl

theorem good_transitive {s : Seed} {S : N → N → Prop} (h : Good G s S) (ss : List Seed) (mn mx : Nat) :
    Good G (transitive (s :: ss) mn mx) fun u v => ∃ k, mn ≤ k ∧ k ≤ mx ∧ Walk S k u v := by
  intro l r n hl hr
  obtain ⟨pat, n', e, hm⟩ := h (.fresh n) (.fresh (n + 1)) (n + 2) (Nat.lt_add_of_pos_right (by decide)) (Nat.lt_succ_self _)
  have hrel : ∀ (σ : Term → N) u v, (∃ τ : Term → N, (∀ w, w.head? ≠ some '?' → τ (.name w) = σ (.name w)) ∧ τ (.fresh n) = u ∧ τ (.fresh (n + 1)) = v ∧
      sat G pat τ) ↔ S u v := by
    intro σ u v
    constructor
    · rintro ⟨τ, _, rfl, rfl, hs⟩; exact hm.sound τ hs
    · intro hS
      have h1 : assign (assign σ (.fresh n) u) (.fresh (n + 1)) v (.fresh n) = u := by
        rw [assign_other _ _ _ (by simp), assign_same]
      have h2 : assign (assign σ (.fresh n) u) (.fresh (n + 1)) v (.fresh (n + 1)) = v := assign_same _ _ _
      obtain ⟨τ, ha, hs⟩ := hm.complete (assign (assign σ (.fresh n) u) (.fresh (n + 1)) v) (by show S _ _; rw [h1, h2]; exact hS)
      refine ⟨τ, fun w _ => ?_, ?_, ?_, hs⟩
      · rw [ha (.name w) trivial, assign_other _ _ _ (by simp), assign_other _ _ _ (by simp)]
      · rw [ha _ (Nat.lt_add_of_pos_right (by decide)), h1]
      · rw [ha _ (Nat.lt_succ_self _), h2]
  have hsat : ∀ σ : Term → N, sat G [.trans l r (.fresh n) (.fresh (n + 1)) mn mx pat] σ ↔ ∃ k, mn ≤ k ∧ k ≤ mx ∧ Walk S k (σ l) (σ r) := by
    intro σ
    simp only [sat, satOne, and_true]
    refine exists_congr fun k => and_congr_right fun _ => and_congr_right fun _ => ⟨walk_congr fun u v => (hrel σ u v).1, walk_congr fun u v => (hrel σ u v).2⟩
  refine ⟨_, n', by rw [transitive, e]; rfl, by have := hm.le; omega, fun σ hs => (hsat σ).1 hs, fun σ ht => ⟨σ, .refl σ, (hsat σ).2 ht⟩, fun σ σ' ha hs => ?_⟩
  have hle := hm.le
  rw [hsat] at hs ⊢
  rw [← ha l (hl.mono (by omega)), ← ha r (hr.mono (by omega))]
  exact hs

theorem summands_created (left right : Term) (l : List (Seed × (N → N → Prop))) (h : ∀ x ∈ l, Good G x.1 x.2) : ∀ (n : Nat) (acc : List (List Pattern)),
    InUse n left → InUse n right → ∃ ps n', summands left right (l.map Prod.fst) n acc = .ok (acc ++ ps, n') ∧
      Created G ps n n' (l.map fun x σ => x.2 (σ left) (σ right)) := by
  induction l with
  | nil => intro n acc _ _; exact ⟨[], n, by simp [summands], .nil n⟩
  | cons x l ih =>
    intro n acc hl hr
    obtain ⟨p, n1, e, hm⟩ := h x List.mem_cons_self left right n hl hr
    obtain ⟨ps, n2, e2, hc⟩ := ih (fun y hy => h y (List.mem_cons_of_mem _ hy)) n1 (acc ++ [p]) (hl.mono hm.le) (hr.mono hm.le)
    refine ⟨p :: ps, n2, ?_, .cons hm hc⟩
    rw [List.map_cons, summands, e]
    simp only [Outcome.bind]
    rw [e2, List.append_assoc]
    rfl

theorem good_alternative (l : List (Seed × (N → N → Prop))) (h : ∀ x ∈ l, Good G x.1 x.2) (h2 : 2 ≤ l.length) :
    Good G (alternative (l.map Prod.fst)) fun u v => ∃ x ∈ l, x.2 u v := by
  intro left right n hl hr
  obtain ⟨ps, n', e, hc⟩ := summands_created left right l h n [] hl hr
  obtain ⟨pat, eu, hs⟩ := sat_unite ps (by rw [hc.length]; simpa using h2)
  refine ⟨pat, n', ?_, (hc.union fun σ => hs N G σ).congr fun σ => ?_⟩
  · rw [alternative, if_neg (by rw [List.length_map]; omega), if_neg (by rw [List.length_map]; omega), e]
    simp [eu]
  · simp

/-! ### Sequences -/

/-- One relation after the other. -/
def chain : List (N → N → Prop) → N → N → Prop
  | [] => fun u v => u = v
  | R :: Rs => fun u v => ∃ w, R u w ∧ chain Rs w v

theorem merge_means (seeds : List Seed) (rels : Nat → N → N → Prop) (right : Term) (ids : List Nat) (h : ∀ i ∈ ids, ∃ s, seeds[i]? = some s ∧ Good G s (rels i)) :
    ∀ i is, ids = i :: is → ∀ (l r : Term) (n : Nat) (acc : List Pattern), InUse n l → InUse n r → InUse n right → (is = [] → r = right) →
      ∃ pat n', merge seeds right ids l r n acc = .ok (acc ++ pat, n') ∧
        Means G pat n n' fun σ => rels i (σ l) (σ r) ∧ chain (is.map rels) (σ r) (σ right) := by
  induction ids with
  | nil => intro i is e; cases e
  | cons i ids ih =>
    intro i' is e l r n acc hl hr hright hlast
    cases e
    obtain ⟨s, hs, hg⟩ := h i List.mem_cons_self
    obtain ⟨p, n1, e1, hm⟩ := hg l r n hl hr
    have hread : Outcome.read seeds i = .ok s := by rw [Outcome.read, hs]
    have ih' := ih fun j hj => h j (List.mem_cons_of_mem _ hj)
    match ids, ih', hlast with
    | [], _, hlast =>
      refine ⟨p, n1, ?_, hm.congr fun σ => ?_⟩
      · rw [merge, hread]; simp [e1, merge]
      · rw [hlast rfl]; simp [chain]
    | [j], ih', _ =>
      obtain ⟨q, n2, e2, hm2⟩ := ih' j [] rfl r right n1 (acc ++ p) (hr.mono hm.le) (hright.mono hm.le) (hright.mono hm.le) fun _ => rfl
      refine ⟨p ++ q, n2, ?_, (hm.append hm2 fun σ σ' ha ht => ?_).congr fun σ => ?_⟩
      · rw [merge, hread]
        simp only [Outcome.bind]
        rw [e1]
        simp only
        rw [if_neg (by simp), e2, List.append_assoc]
      · rw [← ha r hr, ← ha right hright]; exact ht
      · simp [chain]
    | j :: k :: ids, ih', _ =>
      have hle := hm.le
      obtain ⟨q, n2, e2, hm2⟩ := ih' j (k :: ids) rfl r (.fresh n1) (n1 + 1) (acc ++ p) (hr.mono (by omega)) (Nat.lt_succ_self _) (hright.mono (by omega))
        (by intro h; cases h)
      refine ⟨p ++ q, n2, ?_, (hm.append hm2.exists fun σ σ' ha ht => ?_).congr fun σ => ?_⟩
      · rw [merge, hread]
        simp only [Outcome.bind]
        rw [e1]
        simp only
        rw [if_pos (by simp), e2, List.append_assoc]
      · obtain ⟨w, ht⟩ := ht
        refine ⟨w, ?_⟩
        rw [assign_same, assign_other _ _ _ (inUse_ne (hr.mono hle)), assign_other _ _ _ (inUse_ne (hright.mono hle))] at ht ⊢
        rw [← ha r hr, ← ha right hright]; exact ht
      · refine and_congr_right fun _ => ?_
        rw [List.map_cons, chain]
        refine exists_congr fun w => ?_
        rw [assign_same, assign_other _ _ _ (inUse_ne (hr.mono hle)), assign_other _ _ _ (inUse_ne (hright.mono hle))]
        exact Iff.rfl

/-- One combination of children. -/
theorem combination (seeds : List Seed) (rels : Nat → N → N → Prop) (left right : Term) (i : Nat) (is : List Nat)
    (h : ∀ j ∈ i :: is, ∃ s, seeds[j]? = some s ∧ Good G s (rels j)) (n : Nat) (hl : InUse n left) (hr : InUse n right) :
    ∃ pat n', (if is ≠ [] then merge seeds right (i :: is) left (.fresh n) (n + 1) [] else merge seeds right (i :: is) left right n []) = .ok (pat, n') ∧
      Means G pat n n' fun σ => chain ((i :: is).map rels) (σ left) (σ right) := by
  by_cases hi : is = []
  · obtain ⟨pat, n', e, hm⟩ := merge_means seeds rels right (i :: is) h i is rfl left right n [] hl hr hr fun _ => rfl
    refine ⟨pat, n', by rw [if_neg (by simpa using hi)]; exact e, hm.congr fun σ => ?_⟩
    subst hi
    simp [chain]
  · obtain ⟨pat, n', e, hm⟩ := merge_means seeds rels right (i :: is) h i is rfl left (.fresh n) (n + 1) [] (hl.mono (by omega)) (Nat.lt_succ_self _)
      (hr.mono (by omega)) fun h => absurd h hi
    refine ⟨pat, n', by rw [if_pos hi]; exact e, hm.exists.congr fun σ => ?_⟩
    rw [List.map_cons, chain]
    refine exists_congr fun w => ?_
    rw [assign_same, assign_other _ _ _ (inUse_ne hl), assign_other _ _ _ (inUse_ne hr)]

theorem joinPatterns_created (seeds : List Seed) (rels : Nat → N → N → Prop) (flags : List Bool) (lo hi : Nat) (v : List Nat) (left right : Term)
    (h : ∀ j, lo ≤ j → j < hi → ∃ s, seeds[j]? = some s ∧ Good G s (rels j)) (masks : List Nat) : ∀ (n : Nat) (acc : List (List Pattern)),
    InUse n left → InUse n right → ∃ ps n', joinPatterns seeds flags lo hi v left right masks n acc = .ok (acc ++ ps, n') ∧
      Created G ps n n' (((masks.map (includedIds flags lo hi v)).filter (· ≠ [])).map fun ids σ => chain (ids.map rels) (σ left) (σ right)) := by
  induction masks with
  | nil => intro n acc _ _; exact ⟨[], n, by simp [joinPatterns], .nil n⟩
  | cons m masks ih =>
    intro n acc hl hr
    have hin : ∀ j ∈ includedIds flags lo hi v m, ∃ s, seeds[j]? = some s ∧ Good G s (rels j) := by
      intro j hj
      have := (List.mem_filter.1 hj).1
      rw [List.mem_range'_1] at this
      exact h j this.1 (by omega)
    rw [joinPatterns, List.map_cons]
    generalize includedIds flags lo hi v m = ids at hin ⊢
    match ids, hin with
    | [], _ => exact ih n acc hl hr
    | i :: is, hin =>
      obtain ⟨p, n1, e, hm⟩ := combination seeds rels left right i is hin n hl hr
      obtain ⟨ps, n2, e2, hc⟩ := ih n1 (acc ++ [p]) (hl.mono hm.le) (hr.mono hm.le)
      refine ⟨p :: ps, n2, ?_, .cons hm hc⟩
      show Outcome.bind (if is ≠ [] then _ else _) _ = _
      rw [e]
      simp only [Outcome.bind]
      rw [e2, List.append_assoc]
      rfl

end Verif.PathPlan
