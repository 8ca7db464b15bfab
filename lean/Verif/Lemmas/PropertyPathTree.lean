import Verif.Lemmas.PropertyPath
/-
Helper lemmas for C47 and C61: induction over trees, what trees mean, and flags.
-/
namespace Verif.PropertyPath
open Verif.PropertyPathSpec

/-- Induction over trees. -/
theorem Path.ind {P : Path → Prop} (h : ∀ op limit iri cs null, (∀ c ∈ cs, P c) → P (.node op limit iri cs null)) (p : Path) : P p :=
  Path.rec (motive_1 := P) (motive_2 := fun cs => ∀ c ∈ cs, P c) (fun op limit iri cs null ih => h op limit iri cs null ih) (by intro c hc; cases hc)
    (fun p ps hp hps c hc => by
      rcases List.mem_cons.1 hc with rfl | hc
      · exact hp
      · exact hps c hc) p

theorem computeAll_map (ps : List Path) : computeAll ps = ps.map computeCanBeNull := by
  induction ps with
  | nil => rw [computeAll]; rfl
  | cons p ps ih => rw [computeAll, ih]; rfl

theorem stripAll_map (ps : List Path) : stripAll ps = ps.map strip := by
  induction ps with
  | nil => rw [stripAll]; rfl
  | cons p ps ih => rw [stripAll, ih]; rfl

/-- The flag of a node. -/
theorem compute_node (op : Op) (limit : Nat) (iri : Word) (cs : List Path) (null : Bool) :
    ∃ b, computeCanBeNull (.node op limit iri cs null) = .node op limit iri (cs.map computeCanBeNull) b ∧
      (b = true ↔ op = .transitive ∨ op = .transitiveMax ∨ (op = .transitiveMin ∧ limit = 0) ∨ (cs ≠ [] ∧ ∀ c ∈ cs, (computeCanBeNull c).canBeNull = true)) := by
  refine ⟨_, by rw [computeCanBeNull, computeAll_map], ?_⟩
  by_cases h : op = .transitive ∨ op = .transitiveMax ∨ (op = .transitiveMin ∧ limit = 0)
  · rw [if_pos h]
    refine ⟨fun _ => ?_, fun _ => rfl⟩
    rcases h with h | h | h
    · exact .inl h
    · exact .inr (.inl h)
    · exact .inr (.inr (.inl h))
  · rw [if_neg h]
    simp only [Bool.and_eq_true, decide_eq_true_eq, List.all_map, List.all_eq_true, ne_eq, List.map_eq_nil_iff, Function.comp]
    constructor
    · exact fun h => .inr (.inr (.inr h))
    · rintro (h' | h' | h' | h')
      · exact absurd (.inl h') h
      · exact absurd (.inr (.inl h')) h
      · exact absurd (.inr (.inr h')) h
      · exact h'

theorem strip_compute (p : Path) : strip (computeCanBeNull p) = strip p := by
  induction p using Path.ind with
  | h op limit iri cs null ih =>
    obtain ⟨b, e, _⟩ := compute_node op limit iri cs null
    rw [e, strip, strip, stripAll_map, stripAll_map, List.map_map]
    congr 1
    exact List.map_congr_left ih

/-- The number of children fits to the operation. -/
inductive WF : Path → Prop where
  | iri (limit w null) : WF (.node .iri limit w [] null)
  | inverse (limit w c null) : WF c → WF (.node .inverse limit w [c] null)
  | transitive (limit w c null) : WF c → WF (.node .transitive limit w [c] null)
  | transitiveMin (w c null) : WF c → WF (.node .transitiveMin 1 w [c] null)
  | transitiveMax (limit w c null) : WF c → WF (.node .transitiveMax limit w [c] null)
  | sequence (limit w cs null) : 2 ≤ cs.length → (∀ c ∈ cs, WF c) → WF (.node .sequence limit w cs null)
  | alternative (limit w cs null) : 2 ≤ cs.length → (∀ c ∈ cs, WF c) → WF (.node .alternative limit w cs null)

theorem wf_compute (p : Path) (h : WF p) : WF (computeCanBeNull p) := by
  induction h with
  | iri limit w null => obtain ⟨b, e, _⟩ := compute_node .iri limit w [] null; rw [e]; exact .iri _ _ _
  | inverse limit w c null _ ih => obtain ⟨b, e, _⟩ := compute_node .inverse limit w [c] null; rw [e]; exact .inverse _ _ _ _ ih
  | transitive limit w c null _ ih => obtain ⟨b, e, _⟩ := compute_node .transitive limit w [c] null; rw [e]; exact .transitive _ _ _ _ ih
  | transitiveMin w c null _ ih => obtain ⟨b, e, _⟩ := compute_node .transitiveMin 1 w [c] null; rw [e]; exact .transitiveMin _ _ _ ih
  | transitiveMax limit w c null _ ih => obtain ⟨b, e, _⟩ := compute_node .transitiveMax limit w [c] null; rw [e]; exact .transitiveMax _ _ _ _ ih
  | sequence limit w cs null hl _ ih =>
    obtain ⟨b, e, _⟩ := compute_node .sequence limit w cs null
    rw [e]
    exact .sequence _ _ _ _ (by simpa using hl) fun c hc => by obtain ⟨x, hx, rfl⟩ := List.mem_map.1 hc; exact ih x hx
  | alternative limit w cs null hl _ ih =>
    obtain ⟨b, e, _⟩ := compute_node .alternative limit w cs null
    rw [e]
    exact .alternative _ _ _ _ (by simpa using hl) fun c hc => by obtain ⟨x, hx, rfl⟩ := List.mem_map.1 hc; exact ih x hx

/-! ### What trees mean -/

theorem firstRel_one {N : Type} (G : N → Word → N → Prop) (c : Path) : firstRel G [c] = pathRel G c := by rw [firstRel]

theorem seqRel_congr {N : Type} (G : N → Word → N → Prop) (f : Path → Path) (cs : List Path) (h : ∀ c ∈ cs, pathRel G (f c) = pathRel G c) :
    seqRel G (cs.map f) = seqRel G cs := by
  induction cs with
  | nil => rfl
  | cons c cs ih => rw [List.map_cons, seqRel, seqRel, h c List.mem_cons_self, ih fun x hx => h x (List.mem_cons_of_mem _ hx)]

theorem altRel_congr {N : Type} (G : N → Word → N → Prop) (f : Path → Path) (cs : List Path) (h : ∀ c ∈ cs, pathRel G (f c) = pathRel G c) :
    altRel G (cs.map f) = altRel G cs := by
  induction cs with
  | nil => rfl
  | cons c cs ih => rw [List.map_cons, altRel, altRel, h c List.mem_cons_self, ih fun x hx => h x (List.mem_cons_of_mem _ hx)]

theorem firstRel_congr {N : Type} (G : N → Word → N → Prop) (f : Path → Path) (cs : List Path) (h : ∀ c ∈ cs, pathRel G (f c) = pathRel G c) :
    firstRel G (cs.map f) = firstRel G cs := by
  cases cs with
  | nil => rfl
  | cons c cs => rw [List.map_cons, firstRel, firstRel, h c List.mem_cons_self]

/-- Flags have no meaning. -/
theorem pathRel_compute {N : Type} (G : N → Word → N → Prop) (p : Path) : pathRel G (computeCanBeNull p) = pathRel G p := by
  induction p using Path.ind with
  | h op limit iri cs null ih =>
    obtain ⟨b, e, _⟩ := compute_node op limit iri cs null
    rw [e]
    cases op <;> simp only [pathRel, firstRel_congr G _ cs ih, seqRel_congr G _ cs ih, altRel_congr G _ cs ih]

/-- Trees have the right number of children, and mean what the path means. -/
theorem trees_spec {N : Type} (G : N → Word → N → Prop) (s : Syn) : WF s.tree ∧ (∀ c ∈ s.trees.2.1, WF c) ∧ (∀ c ∈ s.trees.2.2, WF c) ∧
    s.trees.2.1 ≠ [] ∧ s.trees.2.2 ≠ [] ∧
    (∀ u v, pathRel G s.tree u v ↔ s.Rel G u v) ∧ (∀ u v, seqRel G s.trees.2.1 u v ↔ s.Rel G u v) ∧ (∀ u v, altRel G s.trees.2.2 u v ↔ s.Rel G u v) := by
  have single : ∀ s : Syn, s.trees.2.1 = [s.tree] → s.trees.2.2 = [s.tree] → WF s.tree → (∀ u v, pathRel G s.tree u v ↔ s.Rel G u v) →
      WF s.tree ∧ (∀ c ∈ s.trees.2.1, WF c) ∧ (∀ c ∈ s.trees.2.2, WF c) ∧ s.trees.2.1 ≠ [] ∧ s.trees.2.2 ≠ [] ∧
      (∀ u v, pathRel G s.tree u v ↔ s.Rel G u v) ∧ (∀ u v, seqRel G s.trees.2.1 u v ↔ s.Rel G u v) ∧
      (∀ u v, altRel G s.trees.2.2 u v ↔ s.Rel G u v) := by
    intro s h1 h2 hw hr
    rw [h1, h2]
    refine ⟨hw, by simpa using hw, by simpa using hw, by simp, by simp, hr, fun u v => ?_, fun u v => ?_⟩
    · simp only [seqRel]
      constructor
      · rintro ⟨w, h, rfl⟩; exact (hr _ _).1 h
      · exact fun h => ⟨v, (hr _ _).2 h, rfl⟩
    · simp only [altRel, or_false]; exact hr u v
  induction s with
  | iri w => exact single _ rfl rfl (.iri _ _ _) fun u v => by simp only [Syn.tree, Syn.trees, Syn.trees.single, pathRel, Syn.Rel]
  | paren s ih => exact single _ rfl rfl ih.1 ih.2.2.2.2.2.1
  | mod s m ih =>
    have hrel : pathRel G s.tree = s.Rel G := funext fun u => funext fun v => propext (ih.2.2.2.2.2.1 u v)
    have hrel' : firstRel G [s.trees.1] = s.Rel G := by rw [firstRel_one]; exact hrel
    cases m with
    | opt =>
      refine single _ rfl rfl (.transitiveMax _ _ _ _ ih.1) fun u v => ?_
      simp only [Syn.tree, Syn.trees, Syn.trees.single, pathRel, hrel', Syn.Rel]
      constructor
      · intro h
        cases h with
        | refl => exact .inl rfl
        | step h h' => cases h' with
          | refl => exact .inr h
      · rintro (rfl | h)
        · exact .refl _ _
        · exact .step h (.refl _ _)
    | star => exact single _ rfl rfl (.transitive _ _ _ _ ih.1) fun u v => by simp only [Syn.tree, Syn.trees, Syn.trees.single, pathRel, hrel', Syn.Rel]
    | plus => exact single _ rfl rfl (.transitiveMin _ _ _ ih.1) fun u v => by simp only [Syn.tree, Syn.trees, Syn.trees.single, pathRel, hrel', Syn.Rel]
    | atMost ds =>
      exact single _ rfl rfl (.transitiveMax _ _ _ _ ih.1) fun u v => by simp only [Syn.tree, Syn.trees, Syn.trees.single, pathRel, hrel', Syn.Rel]
  | inv s ih =>
    have hrel : pathRel G s.tree = s.Rel G := funext fun u => funext fun v => propext (ih.2.2.2.2.2.1 u v)
    have hrel' : firstRel G [s.trees.1] = s.Rel G := by rw [firstRel_one]; exact hrel
    exact single _ rfl rfl (.inverse _ _ _ _ ih.1) fun u v => by simp only [Syn.tree, Syn.trees, Syn.trees.single, pathRel, hrel', Syn.Rel]
  | seq a b iha ihb =>
    have hl : 2 ≤ (a.trees.1 :: b.trees.2.1).length := by
      have := List.length_pos_iff.2 ihb.2.2.2.1
      rw [List.length_cons]; omega
    have hc : ∀ c ∈ a.trees.1 :: b.trees.2.1, WF c := by
      intro c hc
      rcases List.mem_cons.1 hc with rfl | hc
      · exact iha.1
      · exact ihb.2.1 c hc
    have hw : WF (Syn.seq a b).tree := .sequence _ _ _ _ hl hc
    have hr : ∀ u v, seqRel G (a.trees.1 :: b.trees.2.1) u v ↔ (Syn.seq a b).Rel G u v := by
      intro u v
      simp only [seqRel, Syn.Rel]
      exact exists_congr fun w => and_congr (iha.2.2.2.2.2.1 u w) (ihb.2.2.2.2.2.2.1 w v)
    have hr' : ∀ u v, pathRel G (Syn.seq a b).tree u v ↔ (Syn.seq a b).Rel G u v := by
      intro u v
      simp only [Syn.tree, Syn.trees, pathRel]
      exact hr u v
    refine ⟨hw, hc, fun c hc => ?_, by simp [Syn.trees], by simp [Syn.trees], hr', hr, fun u v => ?_⟩
    · rw [show (Syn.seq a b).trees.2.2 = [(Syn.seq a b).tree] from rfl, List.mem_singleton] at hc
      rw [hc]; exact hw
    · rw [show (Syn.seq a b).trees.2.2 = [(Syn.seq a b).tree] from rfl]
      simp only [altRel, or_false]
      exact hr' u v
  | alt a b iha ihb =>
    have hl : 2 ≤ (a.trees.1 :: b.trees.2.2).length := by
      have := List.length_pos_iff.2 ihb.2.2.2.2.1
      rw [List.length_cons]; omega
    have hc : ∀ c ∈ a.trees.1 :: b.trees.2.2, WF c := by
      intro c hc
      rcases List.mem_cons.1 hc with rfl | hc
      · exact iha.1
      · exact ihb.2.2.1 c hc
    have hw : WF (Syn.alt a b).tree := .alternative _ _ _ _ hl hc
    have hr : ∀ u v, altRel G (a.trees.1 :: b.trees.2.2) u v ↔ (Syn.alt a b).Rel G u v := by
      intro u v
      simp only [altRel, Syn.Rel]
      exact or_congr (iha.2.2.2.2.2.1 u v) (ihb.2.2.2.2.2.2.2 u v)
    have hr' : ∀ u v, pathRel G (Syn.alt a b).tree u v ↔ (Syn.alt a b).Rel G u v := by
      intro u v
      simp only [Syn.tree, Syn.trees, pathRel]
      exact hr u v
    refine ⟨hw, fun c hc => ?_, hc, by simp [Syn.trees], by simp [Syn.trees], hr', fun u v => ?_, hr⟩
    · rw [show (Syn.alt a b).trees.2.1 = [(Syn.alt a b).tree] from rfl, List.mem_singleton] at hc
      rw [hc]; exact hw
    · rw [show (Syn.alt a b).trees.2.1 = [(Syn.alt a b).tree] from rfl]
      simp only [seqRel]
      constructor
      · rintro ⟨w, h, rfl⟩; exact (hr' _ _).1 h
      · exact fun h => ⟨v, (hr' _ _).2 h, rfl⟩

/-! ### The empty path -/

theorem seqRel_refl {N : Type} (G : N → Word → N → Prop) (cs : List Path) (u : N) (h : ∀ c ∈ cs, pathRel G c u u) : seqRel G cs u u := by
  induction cs with
  | nil => simp only [seqRel]
  | cons c cs ih => simp only [seqRel]; exact ⟨u, h c List.mem_cons_self, ih fun x hx => h x (List.mem_cons_of_mem _ hx)⟩

theorem altRel_iff {N : Type} (G : N → Word → N → Prop) (cs : List Path) (u v : N) : altRel G cs u v ↔ ∃ c ∈ cs, pathRel G c u v := by
  induction cs with
  | nil => simp [altRel]
  | cons c cs ih => simp [altRel, ih]

/-- A flag is only set for trees that match the empty path. -/
theorem flag_sound {N : Type} (G : N → Word → N → Prop) (p : Path) (h : WF p) (hf : (computeCanBeNull p).canBeNull = true) (u : N) : pathRel G p u u := by
  induction h generalizing u with
  | iri limit w null => obtain ⟨b, e, hb⟩ := compute_node .iri limit w [] null; rw [e] at hf; have := hb.1 hf; simp at this
  | inverse limit w c null _ ih =>
    obtain ⟨b, e, hb⟩ := compute_node .inverse limit w [c] null
    rw [e] at hf
    have := hb.1 hf
    simp only [pathRel, firstRel_one]
    exact ih (by simpa using this) u
  | transitive limit w c null _ ih => simp only [pathRel]; exact .refl _
  | transitiveMin w c null _ ih =>
    obtain ⟨b, e, hb⟩ := compute_node .transitiveMin 1 w [c] null
    rw [e] at hf
    have := hb.1 hf
    simp only [pathRel, firstRel_one]
    exact ⟨u, ih (by simpa using this) u, .refl _⟩
  | transitiveMax limit w c null _ ih => simp only [pathRel]; exact .refl _ _
  | sequence limit w cs null hl _ ih =>
    obtain ⟨b, e, hb⟩ := compute_node .sequence limit w cs null
    rw [e] at hf
    have := hb.1 hf
    simp only [reduceCtorEq, false_and, false_or] at this
    simp only [pathRel]
    exact seqRel_refl G cs u fun c hc => ih c hc (this.2 c hc) u
  | alternative limit w cs null hl _ ih =>
    obtain ⟨b, e, hb⟩ := compute_node .alternative limit w cs null
    rw [e] at hf
    have := hb.1 hf
    simp only [reduceCtorEq, false_and, false_or] at this
    cases cs with
    | nil => exact absurd rfl this.1
    | cons c cs =>
      simp only [pathRel, altRel]
      exact .inl (ih c List.mem_cons_self (this.2 c List.mem_cons_self) u)

/-- The graph without triples. -/
def noTriples : Unit → Word → Unit → Prop := fun _ _ _ => False

/-- A path matches the empty path. -/
def nul : Syn → Bool
  | .iri _ => false
  | .paren s => nul s
  | .mod s .plus => nul s
  | .mod _ _ => true
  | .inv s => nul s
  | .seq a b => nul a && nul b
  | .alt a b => nul a || nul b

theorem nul_sound {N : Type} (G : N → Word → N → Prop) (s : Syn) (h : nul s = true) (u : N) : s.Rel G u u := by
  induction s generalizing u with
  | iri w => exact absurd h (by simp [nul])
  | paren s ih => exact ih h u
  | mod s m ih =>
    cases m with
    | opt => exact .inl rfl
    | star => exact .refl _
    | plus => exact ⟨u, ih h u, .refl _⟩
    | atMost ds => exact .refl _ _
  | inv s ih => exact ih h u
  | seq a b iha ihb =>
    simp only [nul, Bool.and_eq_true] at h
    exact ⟨u, iha h.1 u, ihb h.2 u⟩
  | alt a b iha ihb =>
    simp only [nul, Bool.or_eq_true] at h
    exact h.imp (fun h => iha h u) fun h => ihb h u

theorem nul_complete (s : Syn) (h : s.Rel noTriples () ()) : nul s = true := by
  induction s with
  | iri w => exact h.elim
  | paren s ih => exact ih h
  | mod s m ih =>
    cases m with
    | plus => obtain ⟨_, h, _⟩ := h; exact ih h
    | _ => rfl
  | inv s ih => exact ih h
  | seq a b iha ihb =>
    obtain ⟨_, h1, h2⟩ := h
    simp only [nul, Bool.and_eq_true]
    exact ⟨iha h1, ihb h2⟩
  | alt a b iha ihb =>
    simp only [nul, Bool.or_eq_true]
    exact h.imp iha ihb

theorem empty_iff (s : Syn) : s.Empty ↔ nul s = true := ⟨fun h => nul_complete s (h Unit noTriples ()), fun h _ G u => nul_sound G s h u⟩

/-- The flag of a path. -/
def flag (p : Path) : Bool := (computeCanBeNull p).canBeNull

theorem flag_node (op : Op) (limit : Nat) (iri : Word) (cs : List Path) (null : Bool) : flag (.node op limit iri cs null) = true ↔
    op = .transitive ∨ op = .transitiveMax ∨ (op = .transitiveMin ∧ limit = 0) ∨ (cs ≠ [] ∧ ∀ c ∈ cs, flag c = true) := by
  obtain ⟨b, e, hb⟩ := compute_node op limit iri cs null
  rw [flag, e]
  exact hb

/-- What the flag says: alternatives need the flag of all summands. -/
def flagged : Syn → Bool
  | .iri _ => false
  | .paren s => flagged s
  | .mod s .plus => flagged s
  | .mod _ _ => true
  | .inv s => flagged s
  | .seq a b => flagged a && flagged b
  | .alt a b => flagged a && flagged b

theorem flag_tree (s : Syn) : (flag s.tree = true ↔ flagged s = true) ∧ ((∀ c ∈ s.trees.2.1, flag c = true) ↔ flagged s = true) ∧
    ((∀ c ∈ s.trees.2.2, flag c = true) ↔ flagged s = true) := by
  have single : ∀ s : Syn, s.trees.2.1 = [s.tree] → s.trees.2.2 = [s.tree] → (flag s.tree = true ↔ flagged s = true) →
      (flag s.tree = true ↔ flagged s = true) ∧ ((∀ c ∈ s.trees.2.1, flag c = true) ↔ flagged s = true) ∧
      ((∀ c ∈ s.trees.2.2, flag c = true) ↔ flagged s = true) := by
    intro s h1 h2 h
    rw [h1, h2]
    simpa using h
  induction s with
  | iri w => exact single _ rfl rfl (by simp [Syn.tree, Syn.trees, Syn.trees.single, flag_node, flagged])
  | paren s ih => exact single _ rfl rfl ih.1
  | mod s m ih =>
    have h1 : flag s.trees.1 = true ↔ flagged s = true := ih.1
    cases m with
    | opt => exact single _ rfl rfl (by simp [Syn.tree, Syn.trees, Syn.trees.single, flag_node, flagged])
    | star => exact single _ rfl rfl (by simp [Syn.tree, Syn.trees, Syn.trees.single, flag_node, flagged])
    | plus => exact single _ rfl rfl (by simpa [Syn.tree, Syn.trees, Syn.trees.single, flag_node, flagged] using h1)
    | atMost ds => exact single _ rfl rfl (by simp [Syn.tree, Syn.trees, Syn.trees.single, flag_node, flagged])
  | inv s ih =>
    have h1 : flag s.trees.1 = true ↔ flagged s = true := ih.1
    exact single _ rfl rfl (by simpa [Syn.tree, Syn.trees, Syn.trees.single, flag_node, flagged] using h1)
  | seq a b iha ihb =>
    have h1 : flag a.trees.1 = true ↔ flagged a = true := iha.1
    have h2 := ihb.2.1
    have h3 : (∀ c ∈ a.trees.1 :: b.trees.2.1, flag c = true) ↔ flagged (.seq a b) = true := by
      rw [List.forall_mem_cons, h1, h2, flagged, Bool.and_eq_true]
    have h4 : flag (Syn.seq a b).tree = true ↔ flagged (.seq a b) = true := by
      rw [← h3, Syn.tree, Syn.trees, flag_node]
      simp
    exact ⟨h4, h3, by rw [show (Syn.seq a b).trees.2.2 = [(Syn.seq a b).tree] from rfl]; simpa using h4⟩
  | alt a b iha ihb =>
    have h1 : flag a.trees.1 = true ↔ flagged a = true := iha.1
    have h2 := ihb.2.2
    have h3 : (∀ c ∈ a.trees.1 :: b.trees.2.2, flag c = true) ↔ flagged (.alt a b) = true := by
      rw [List.forall_mem_cons, h1, h2, flagged, Bool.and_eq_true]
    have h4 : flag (Syn.alt a b).tree = true ↔ flagged (.alt a b) = true := by
      rw [← h3, Syn.tree, Syn.trees, flag_node]
      simp
    exact ⟨h4, by rw [show (Syn.alt a b).trees.2.1 = [(Syn.alt a b).tree] from rfl]; simpa using h4, h3⟩

/-- Subtrees. -/
inductive Sub (q : Path) : Path → Prop where
  | self : Sub q q
  | child (op limit iri cs null c) : c ∈ cs → Sub q c → Sub q (.node op limit iri cs null)

theorem sub_compute (p : Path) (h : WF p) : ∀ q, Sub q (computeCanBeNull p) → ∃ r, WF r ∧ q = computeCanBeNull r := by
  induction p using Path.ind with
  | h op limit iri cs null ih =>
    intro q hq
    obtain ⟨b, e, _⟩ := compute_node op limit iri cs null
    rw [e] at hq
    cases hq with
    | self => exact ⟨_, h, e.symm⟩
    | child _ _ _ _ _ c hc hs =>
      obtain ⟨x, hx, rfl⟩ := List.mem_map.1 hc
      refine ih x hx ?_ q hs
      cases h with
      | iri => cases hx
      | inverse _ _ c _ hw => rw [List.mem_singleton] at hx; rw [hx]; exact hw
      | transitive _ _ c _ hw => rw [List.mem_singleton] at hx; rw [hx]; exact hw
      | transitiveMin _ c _ hw => rw [List.mem_singleton] at hx; rw [hx]; exact hw
      | transitiveMax _ _ c _ hw => rw [List.mem_singleton] at hx; rw [hx]; exact hw
      | sequence _ _ _ _ _ hw => exact hw x hx
      | alternative _ _ _ _ _ hw => exact hw x hx

end Verif.PropertyPath
