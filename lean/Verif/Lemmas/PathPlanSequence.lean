import Verif.Lemmas.PathPlan
/-
Helper lemmas for C61: sequences, and whole trees.
-/
namespace Verif.PathPlan
open Verif.PropertyPath Verif.PropertyPathSpec Verif.PathPlanSpec

variable {N : Type} {G : N → Word → N → Prop}

/-! ### Bitmasks -/

/-- The number of children before a position that can be null. -/
def rank (flags : List Bool) (i : Nat) : Nat := (flags.take i).count true

theorem rank_succ (flags : List Bool) (i : Nat) (h : i < flags.length) : rank flags (i + 1) = rank flags i + (if flags.getD i false then 1 else 0) := by
  unfold rank
  rw [List.take_succ_eq_append_getElem h, List.count_append]
  have : flags.getD i false = flags[i] := by simp [List.getD, h]
  rw [this]
  cases flags[i] <;> simp

theorem rank_mono (flags : List Bool) {i j : Nat} (h : i ≤ j) : rank flags i ≤ rank flags j := by
  unfold rank
  exact List.Sublist.count_le _ (List.take_sublist_take_left h)

theorem rank_inj (flags : List Bool) {i j : Nat} (hi : i < flags.length) (hj : j < flags.length) (fi : flags.getD i false = true)
    (fj : flags.getD j false = true) (h : rank flags i = rank flags j) : i = j := by
  rcases Nat.lt_trichotomy i j with hlt | he | hlt
  · have h1 := rank_succ flags i hi
    have h2 := rank_mono flags (show i + 1 ≤ j from hlt)
    rw [if_pos fi] at h1
    omega
  · exact he
  · have h1 := rank_succ flags j hj
    have h2 := rank_mono flags (show j + 1 ≤ i from hlt)
    rw [if_pos fj] at h1
    omega

theorem nullIndices_ok (flags : List Bool) (m : Nat) : ∀ (k : Nat) (v : List Nat), k + m = flags.length → v.length = flags.length →
    (∀ i, i < k → flags.getD i false = true → v.getD i 0 = rank flags i) →
    ∃ v', nullIndices flags (List.range' k m) v (rank flags k) = .ok (v', flags.count true) ∧
      ∀ i, i < flags.length → flags.getD i false = true → v'.getD i 0 = rank flags i := by
  induction m with
  | zero =>
    intro k v hk hv hr
    refine ⟨v, ?_, fun i hi => hr i (by omega)⟩
    rw [List.range'_zero, nullIndices]
    unfold rank
    rw [List.take_of_length_le (by omega)]
  | succ m ih =>
    intro k v hk hv hr
    have hlt : k < flags.length := by omega
    have hs := rank_succ flags k hlt
    rw [List.range'_succ, nullIndices]
    by_cases hf : flags.getD k false = true
    · rw [if_pos hf, if_pos (by omega)]
      rw [if_pos hf] at hs
      rw [← hs]
      refine ih (k + 1) _ (by omega) (by rw [List.length_set]; exact hv) fun i hi fi => ?_
      by_cases hik : i = k
      · subst hik
        simp [List.getD, hv, hlt]
      · rw [← hr i (by omega) fi]
        simp only [List.getD]
        rw [List.getElem?_set_ne (fun e => hik e.symm)]
    · rw [if_neg hf]
      rw [if_neg hf] at hs
      rw [show rank flags k = rank flags (k + 1) from hs.symm]
      refine ih (k + 1) v (by omega) hv fun i hi fi => ?_
      by_cases hik : i = k
      · subst hik; exact absurd fi hf
      · exact hr i (by omega) fi

theorem bits (m : Nat) : ∀ g : Nat → Bool, ∃ b, b < 2 ^ m ∧ ∀ k, k < m → b.testBit k = g k := by
  induction m with
  | zero => intro g; exact ⟨0, by simp, fun k hk => by omega⟩
  | succ m ih =>
    intro g
    obtain ⟨b, hb, hg⟩ := ih fun k => g (k + 1)
    refine ⟨2 * b + (if g 0 then 1 else 0), by rw [Nat.pow_succ]; split <;> omega, fun k hk => ?_⟩
    cases k with
    | zero =>
      rw [Nat.testBit_zero]
      cases g 0 <;> simp
    | succ k =>
      rw [Nat.testBit_succ, ← hg k (by omega)]
      congr 1
      split <;> omega

/-- Which children can be chosen by a bitmask: all that include the children that cannot be null. -/
theorem masks_iff (flags : List Bool) (v : List Nat) (hv : ∀ i, i < flags.length → flags.getD i false = true → v.getD i 0 = rank flags i) (ids : List Nat) :
    ids ∈ (List.range (2 ^ flags.count true)).map (includedIds flags 0 flags.length v) ↔
      ∃ keep : Nat → Bool, (∀ i, i < flags.length → flags.getD i false = false → keep i = true) ∧ ids = (List.range' 0 flags.length).filter keep := by
  rw [List.mem_map]
  constructor
  · rintro ⟨m, _, rfl⟩
    exact ⟨fun i => !flags.getD i false || m.testBit (v.getD i 0), fun i _ hf => by simp only [hf]; rfl, by rw [includedIds, Nat.sub_zero]⟩
  · rintro ⟨keep, hk, rfl⟩
    obtain ⟨b, hb, hg⟩ := bits (flags.count true) fun k => (List.range flags.length).any fun i => flags.getD i false && decide (rank flags i = k) && keep i
    refine ⟨b, List.mem_range.2 hb, ?_⟩
    rw [includedIds, Nat.sub_zero]
    apply List.filter_congr
    intro i hi
    rw [List.mem_range'_1] at hi
    have hi : i < flags.length := by omega
    by_cases hf : flags.getD i false = true
    · rw [hv i hi hf, hf, Bool.not_true, Bool.false_or]
      have hlt : rank flags i < flags.count true := by
        have h1 := rank_succ flags i hi
        rw [if_pos hf] at h1
        have h2 := rank_mono flags (show i + 1 ≤ flags.length from hi)
        have h3 : rank flags flags.length = flags.count true := by unfold rank; rw [List.take_length]
        omega
      rw [hg _ hlt, Bool.eq_iff_iff, List.any_eq_true]
      constructor
      · rintro ⟨j, hj, h⟩
        simp only [Bool.and_eq_true, decide_eq_true_eq] at h
        rw [rank_inj flags hi (List.mem_range.1 hj) hf h.1.1 h.1.2.symm]
        exact h.2
      · intro h
        exact ⟨i, List.mem_range.2 hi, by rw [hf, h]; simp⟩
    · rw [Bool.not_eq_true] at hf
      rw [hf, hk i hi hf]
      rfl

/-! ### Leaving out children -/

theorem chain_optional (R : Nat → N → N → Prop) (fl : Nat → Bool) (ids : List Nat) (hn : ids.Nodup) : ∀ u v,
    chain (ids.map fun i u v => R i u v ∨ (fl i = true ∧ u = v)) u v ↔
      ∃ keep : Nat → Bool, (∀ i ∈ ids, fl i = false → keep i = true) ∧ chain ((ids.filter keep).map R) u v := by
  induction ids with
  | nil => intro u v; simp [chain]
  | cons i ids ih =>
    intro u v
    obtain ⟨hi, hn⟩ := List.nodup_cons.1 hn
    have ih := ih hn
    rw [List.map_cons]
    constructor
    · rintro ⟨w, h1, h2⟩
      obtain ⟨keep, hk, hc⟩ := (ih w v).1 h2
      rcases h1 with h1 | ⟨hf, rfl⟩
      · refine ⟨fun j => decide (j = i) || keep j, fun j hj hf => ?_, ?_⟩
        · rcases List.mem_cons.1 hj with rfl | hj
          · simp
          · simp [hk j hj hf]
        · rw [List.filter_cons_of_pos (by simp), List.map_cons]
          refine ⟨w, h1, ?_⟩
          rw [List.filter_congr (q := keep)]
          · exact hc
          · intro j hj
            have : j ≠ i := fun e => hi (e ▸ hj)
            simp [this]
      · refine ⟨fun j => decide (j ≠ i) && keep j, fun j hj hf' => ?_, ?_⟩
        · rcases List.mem_cons.1 hj with rfl | hj
          · rw [hf] at hf'; cases hf'
          · have : j ≠ i := fun e => hi (e ▸ hj)
            simp [hk j hj hf', this]
        · rw [List.filter_cons_of_neg (by simp), List.filter_congr (q := keep)]
          · exact hc
          · intro j hj
            have : j ≠ i := fun e => hi (e ▸ hj)
            simp [this]
    · rintro ⟨keep, hk, hc⟩
      by_cases hki : keep i = true
      · rw [List.filter_cons_of_pos hki, List.map_cons] at hc
        obtain ⟨w, h1, h2⟩ := hc
        exact ⟨w, .inl h1, (ih w v).2 ⟨keep, fun j hj => hk j (List.mem_cons_of_mem _ hj), h2⟩⟩
      · rw [List.filter_cons_of_neg hki] at hc
        refine ⟨u, .inr ⟨?_, rfl⟩, (ih u v).2 ⟨keep, fun j hj => hk j (List.mem_cons_of_mem _ hj), hc⟩⟩
        cases hf : fl i with
        | true => rfl
        | false => exact absurd (hk i List.mem_cons_self hf) hki

/-! ### Chunks -/

theorem chunkEnd_one (flags : List Bool) : ∀ (hasNull hasNon : Bool) (pos : Nat),
    (∀ pre post, flags = pre ++ false :: post → ¬((hasNull = true ∨ true ∈ pre) ∧ (hasNon = true ∨ false ∈ pre))) →
    ∃ b, chunkEnd flags hasNull hasNon pos = (pos + flags.length - 1, b, true) := by
  induction flags with
  | nil => intro nl nn pos _; exact ⟨nn, rfl⟩
  | cons f flags ih =>
    intro nl nn pos h
    cases f with
    | true =>
      obtain ⟨b, e⟩ := ih true nn (pos + 1) fun pre post e hc => h (true :: pre) post (by rw [e]; rfl) ⟨.inr List.mem_cons_self,
        hc.2.imp id fun h => List.mem_cons_of_mem _ h⟩
      exact ⟨b, by rw [chunkEnd, e, List.length_cons]; congr 1; omega⟩
    | false =>
      have h0 : ¬(nl && nn) = true := by
        intro hc
        rw [Bool.and_eq_true] at hc
        exact h [] flags rfl ⟨.inl hc.1, .inl hc.2⟩
      obtain ⟨b, e⟩ := ih nl true (pos + 1) fun pre post e hc => h (false :: pre) post (by rw [e]; rfl) ⟨hc.1.imp id fun h => List.mem_cons_of_mem _ h,
        .inr List.mem_cons_self⟩
      exact ⟨b, by rw [chunkEnd, if_neg h0, e, List.length_cons]; congr 1; omega⟩

theorem chunks_one (flags : List Bool) (hl : 2 ≤ flags.length) (h : ∀ pre post, flags = pre ++ false :: post → ¬(true ∈ pre ∧ false ∈ pre)) :
    chunks flags (flags.length + 1) 0 [] = .ok [(0, flags.length)] := by
  obtain ⟨b, e⟩ := chunkEnd_one flags false false 0 fun pre post e hc => h pre post e ⟨by simpa using hc.1, by simpa using hc.2⟩
  obtain ⟨k, hk⟩ : ∃ k, flags.length = k + 1 := ⟨flags.length - 1, by omega⟩
  rw [hk, chunks, if_pos (by omega)]
  simp only [List.drop_zero, e, List.getLast?_nil, List.nil_append]
  rw [show 0 + flags.length - 1 + 1 = flags.length by omega, chunks, if_neg (Nat.lt_irrefl _), hk]

/-! ### One sequence -/

theorem good_sequence (seeds : List Seed) (flags : List Bool) (rels : Nat → N → N → Prop) (hlen : seeds.length = flags.length) (hl : 2 ≤ flags.length)
    (h : ∀ j, j < flags.length → ∃ s, seeds[j]? = some s ∧ Good G s (rels j))
    (hone : ∀ pre post, flags = pre ++ false :: post → ¬(true ∈ pre ∧ false ∈ pre)) (hten : flags.count true ≤ 10) :
    Good G (sequence seeds flags) fun u v => ∃ keep : Nat → Bool, (∀ i, i < flags.length → flags.getD i false = false → keep i = true) ∧
      (List.range' 0 flags.length).filter keep ≠ [] ∧ chain (((List.range' 0 flags.length).filter keep).map rels) u v := by
  intro left right n hleft hright
  obtain ⟨v, ev, hv⟩ := nullIndices_ok flags flags.length 0 (List.replicate flags.length (2 ^ 64 - 1)) (by omega) (by simp) (by intro i hi; omega)
  have hr0 : rank flags 0 = 0 := by simp [rank]
  rw [hr0] at ev
  obtain ⟨ps, n', ej, hc⟩ := joinPatterns_created seeds rels flags 0 flags.length v left right (fun j _ hj => h j hj) (List.range (2 ^ flags.count true)) n []
    hleft hright
  have hmem : ∀ ids, ids ∈ ((List.range (2 ^ flags.count true)).map (includedIds flags 0 flags.length v)).filter (· ≠ []) ↔
      ∃ keep : Nat → Bool, (∀ i, i < flags.length → flags.getD i false = false → keep i = true) ∧ (List.range' 0 flags.length).filter keep ≠ [] ∧
        ids = (List.range' 0 flags.length).filter keep := by
    intro ids
    rw [List.mem_filter, masks_iff flags v hv, decide_eq_true_eq]
    constructor
    · rintro ⟨⟨keep, hk, rfl⟩, hne⟩; exact ⟨keep, hk, hne, rfl⟩
    · rintro ⟨keep, hk, hne, rfl⟩; exact ⟨⟨keep, hk, rfl⟩, hne⟩
  have hT : ∀ σ : Term → N, (∃ T ∈ (((List.range (2 ^ flags.count true)).map (includedIds flags 0 flags.length v)).filter (· ≠ [])).map
      (fun ids (σ : Term → N) => chain (ids.map rels) (σ left) (σ right)), T σ) ↔
      ∃ keep : Nat → Bool, (∀ i, i < flags.length → flags.getD i false = false → keep i = true) ∧
      (List.range' 0 flags.length).filter keep ≠ [] ∧ chain (((List.range' 0 flags.length).filter keep).map rels) (σ left) (σ right) := by
    intro σ
    constructor
    · rintro ⟨T, hT, ht⟩
      obtain ⟨ids, hids, rfl⟩ := List.mem_map.1 hT
      obtain ⟨keep, hk, hne, rfl⟩ := (hmem ids).1 hids
      exact ⟨keep, hk, hne, ht⟩
    · rintro ⟨keep, hk, hne, ht⟩
      exact ⟨_, List.mem_map.2 ⟨_, (hmem _).2 ⟨keep, hk, hne, rfl⟩, rfl⟩, ht⟩
  have hpos : ps.length ≠ 0 := by
    rw [hc.length, List.length_map]
    refine List.length_pos_iff.2 (List.ne_nil_of_mem ((hmem ((List.range' 0 flags.length).filter fun _ => true)).2 ⟨fun _ => true, fun _ _ _ => rfl, ?_, rfl⟩)) |>.ne'
    rw [List.filter_true]
    intro he
    have := congrArg List.length he
    rw [List.length_range', List.length_nil] at this
    omega
  have hpat : ∃ pat, chunkPattern seeds flags left right 0 flags.length n = .ok (pat, n') ∧ ∀ σ : Term → N, sat G pat σ ↔ ∃ p ∈ ps, sat G p σ := by
    unfold chunkPattern
    rw [Nat.sub_zero, ev]
    simp only [Outcome.bind]
    rw [if_neg (by omega), ej, List.nil_append]
    simp only
    by_cases h1 : ps.length = 1
    · rw [if_pos h1]
      obtain ⟨p, rfl⟩ := List.length_eq_one_iff.1 h1
      exact ⟨p, rfl, fun σ => by simp⟩
    · rw [if_neg h1]
      obtain ⟨pat, eu, hs⟩ := sat_unite ps (by omega)
      exact ⟨pat, by rw [eu]; rfl, fun σ => hs N G σ⟩
  obtain ⟨pat, ep, hs⟩ := hpat
  refine ⟨pat, n', ?_, (hc.union hs).congr hT⟩
  rw [sequence, if_neg (by omega), if_neg (by omega), chunks_one flags hl hone]
  simp [chunkPatterns, ep]

/-! ### Whole trees -/

theorem seedAll_map (ps : List Path) : seedAll ps = ps.map seed := by
  induction ps with
  | nil => rw [seedAll]; rfl
  | cons p ps ih => rw [seedAll, ih]; rfl

theorem seed_node (op : Op) (limit : Nat) (w : Word) (cs : List Path) (null : Bool) :
    seed (.node op limit w cs null) = seedNode op limit w (cs.map seed) (cs.map Path.canBeNull) := by rw [seed, seedAll_map]

/-- Flags in correctly planned trees tell whether the tree matches the empty path. -/
theorem flag_null (p : Path) (h : Supported p) : flag p = true ↔ Null p := by
  have sound : ∀ p, WF p → flag p = true → Null p := fun p hw hf N G u => flag_sound G p hw hf u
  have key : WF p ∧ (pathRel noTriples p () () → flag p = true) := by
    induction h with
    | iri limit w null => exact ⟨.iri _ _ _, fun h => by simp only [pathRel] at h; exact h.elim⟩
    | inverse limit w c null _ ih =>
      exact ⟨.inverse _ _ _ _ ih.1, fun h => by simp only [pathRel, firstRel_one] at h; rw [flag_node]; simp [ih.2 h]⟩
    | transitive limit w c null _ ih => exact ⟨.transitive _ _ _ _ ih.1, fun _ => by rw [flag_node]; simp⟩
    | transitiveMin w c null _ ih =>
      refine ⟨.transitiveMin _ _ _ ih.1, fun h => ?_⟩
      simp only [pathRel, firstRel_one] at h
      obtain ⟨_, h, _⟩ := h
      rw [flag_node]; simp [ih.2 h]
    | transitiveMax limit w c null _ ih => exact ⟨.transitiveMax _ _ _ _ ih.1, fun _ => by rw [flag_node]; simp⟩
    | sequence limit w cs null hl _ _ _ ih =>
      refine ⟨.sequence _ _ _ _ hl fun c hc => (ih c hc).1, fun h => ?_⟩
      simp only [pathRel] at h
      have : ∀ cs : List Path, (∀ c ∈ cs, pathRel noTriples c () () → flag c = true) → seqRel noTriples cs () () → ∀ c ∈ cs, flag c = true := by
        intro cs
        induction cs with
        | nil => intro _ _ c hc; cases hc
        | cons d cs ih =>
          intro h1 h2 c hc
          simp only [seqRel] at h2
          obtain ⟨_, h2, h3⟩ := h2
          rcases List.mem_cons.1 hc with rfl | hc
          · exact h1 c List.mem_cons_self h2
          · exact ih (fun x hx => h1 x (List.mem_cons_of_mem _ hx)) h3 c hc
      rw [flag_node]
      have hne : cs ≠ [] := by rintro rfl; simp at hl
      exact .inr (.inr (.inr ⟨hne, this cs (fun c hc => (ih c hc).2) h⟩))
    | alternative limit w cs null hl _ hev ih =>
      refine ⟨.alternative _ _ _ _ hl fun c hc => (ih c hc).1, fun h => ?_⟩
      simp only [pathRel] at h
      rw [altRel_iff] at h
      obtain ⟨c, hc, h⟩ := h
      have hf := (ih c hc).2 h
      have hnull := sound c (ih c hc).1 hf
      have hne : cs ≠ [] := by rintro rfl; simp at hl
      rw [flag_node]
      refine .inr (.inr (.inr ⟨hne, fun d hd => ?_⟩))
      rcases hev with hev | hev
      · exact (ih d hd).2 (hev d hd Unit noTriples ())
      · exact absurd hnull (hev c hc)
  exact ⟨sound p key.1, fun h => key.2 (h Unit noTriples ())⟩

theorem seqRel_chain (G : N → Word → N → Prop) (cs : List Path) : ∀ u v, seqRel G cs u v ↔ chain (cs.map (pathRel G)) u v := by
  induction cs with
  | nil => intro u v; simp [seqRel, chain]
  | cons c cs ih =>
    intro u v
    simp only [seqRel, List.map_cons, chain]
    exact exists_congr fun w => and_congr_right fun _ => ih w v

/-- A tree that is planned correctly: the pattern connects the nodes that the tree connects, apart from the empty path. -/
theorem planned [Fintype N] (hN : Fintype.card N < 2 ^ 64) (G : N → Word → N → Prop) (p : Path) (h : Supported p) :
    ∃ S, Good G (seed (computeCanBeNull p)) S ∧ ∀ u v, pathRel G p u v ↔ S u v ∨ (flag p = true ∧ u = v) := by
  induction h with
  | iri limit w null =>
    obtain ⟨b, e, hb⟩ := compute_node .iri limit w [] null
    refine ⟨_, by rw [e, seed_node]; exact good_iri w, fun u v => ?_⟩
    simp [pathRel, flag_node]
  | inverse limit w c null _ ih =>
    obtain ⟨b, e, hb⟩ := compute_node .inverse limit w [c] null
    obtain ⟨S, hg, hS⟩ := ih
    refine ⟨_, by rw [e, seed_node]; exact good_inverse hg [], fun u v => ?_⟩
    have hf : flag (.node .inverse limit w [c] null) = true ↔ flag c = true := by rw [flag_node]; simp
    simp only [pathRel, firstRel_one]
    rw [hS v u, hf, @eq_comm _ v u]
  | transitive limit w c null _ ih =>
    obtain ⟨b, e, hb⟩ := compute_node .transitive limit w [c] null
    obtain ⟨S, hg, hS⟩ := ih
    refine ⟨_, by rw [e, seed_node]; exact good_transitive hg [] _ _, fun u v => ?_⟩
    simp only [pathRel, firstRel_one, flag_node, true_or, true_and]
    rw [steps_walk]
    constructor
    · rintro ⟨k, hk⟩
      obtain ⟨m, _, hm, _⟩ := walk_or_eq hS hk
      by_cases h1 : 1 ≤ m
      · obtain ⟨m', h1, h2, h3⟩ := walk_short m u v hm h1
        exact .inl ⟨m', h1, by rw [unlimited]; omega, h3⟩
      · obtain rfl : m = 0 := by omega
        cases hm
        exact .inr rfl
    · rintro (⟨k, _, _, hk⟩ | rfl)
      · exact ⟨k, walk_congr (fun u v h => (hS u v).2 (.inl h)) hk⟩
      · exact ⟨0, .refl _⟩
  | transitiveMin w c null _ ih =>
    obtain ⟨b, e, hb⟩ := compute_node .transitiveMin 1 w [c] null
    obtain ⟨S, hg, hS⟩ := ih
    refine ⟨_, by rw [e, seed_node]; exact good_transitive hg [] _ _, fun u v => ?_⟩
    have hf : flag (.node .transitiveMin 1 w [c] null) = true ↔ flag c = true := by rw [flag_node]; simp
    simp only [pathRel, firstRel_one]
    rw [hf]
    constructor
    · rintro ⟨x, h1, h2⟩
      obtain ⟨k, hk⟩ := steps_walk.1 h2
      obtain ⟨m, _, hm, hm'⟩ := walk_or_eq hS (.step h1 hk)
      by_cases h1 : 1 ≤ m
      · obtain ⟨m', h1, h2, h3⟩ := walk_short m u v hm h1
        exact .inl ⟨m', by omega, by rw [unlimited]; omega, h3⟩
      · obtain rfl : m = 0 := by omega
        cases hm
        refine .inr ⟨?_, rfl⟩
        rcases hm' with h | h | h
        · omega
        · omega
        · exact h
    · rintro (⟨k, hk1, _, hk⟩ | ⟨hf, rfl⟩)
      · cases hk with
        | refl => omega
        | step h1 h2 => exact ⟨_, (hS _ _).2 (.inl h1), steps_walk.2 ⟨_, walk_congr (fun u v h => (hS u v).2 (.inl h)) h2⟩⟩
      · exact ⟨u, (hS _ _).2 (.inr ⟨hf, rfl⟩), .refl _⟩
  | transitiveMax limit w c null _ ih =>
    obtain ⟨b, e, hb⟩ := compute_node .transitiveMax limit w [c] null
    obtain ⟨S, hg, hS⟩ := ih
    refine ⟨_, by rw [e, seed_node]; exact good_transitive hg [] _ _, fun u v => ?_⟩
    have hf : flag (.node .transitiveMax limit w [c] null) = true := by rw [flag_node]; simp
    simp only [pathRel, firstRel_one, hf, true_and]
    rw [within_walk]
    constructor
    · rintro ⟨k, hk, hw⟩
      obtain ⟨m, hmk, hm, _⟩ := walk_or_eq hS hw
      by_cases h1 : 1 ≤ m
      · exact .inl ⟨m, h1, by omega, hm⟩
      · obtain rfl : m = 0 := by omega
        cases hm
        exact .inr rfl
    · rintro (⟨k, _, hk, hw⟩ | rfl)
      · exact ⟨k, hk, walk_congr (fun u v h => (hS u v).2 (.inl h)) hw⟩
      · exact ⟨0, Nat.zero_le _, .refl _⟩
  | sequence limit w cs null hl hsup hone hten ih =>
    obtain ⟨b, e, hb⟩ := compute_node .sequence limit w cs null
    have hch : ∃ S : Path → N → N → Prop, ∀ c ∈ cs, Good G (seed (computeCanBeNull c)) (S c) ∧ ∀ u v, pathRel G c u v ↔ S c u v ∨ (flag c = true ∧ u = v) := by
      classical
      refine ⟨fun c => if hc : c ∈ cs then Classical.choose (ih c hc) else fun _ _ => False, fun c hc => ?_⟩
      simp only [dif_pos hc]
      exact Classical.choose_spec (ih c hc)
    obtain ⟨S, hS⟩ := hch
    have hfl : (cs.map computeCanBeNull).map Path.canBeNull = cs.map flag := by rw [List.map_map]; rfl
    have hlen : (cs.map flag).length = cs.length := List.length_map _
    let rels : Nat → N → N → Prop := fun i => match cs[i]? with
      | some c => S c
      | none => fun _ _ => False
    have hg := good_sequence (G := G) ((cs.map computeCanBeNull).map seed) (cs.map flag) rels (by simp) (by rw [hlen]; exact hl)
      (by
        intro j hj
        rw [hlen] at hj
        refine ⟨seed (computeCanBeNull cs[j]), by simp [hj], ?_⟩
        have : rels j = S cs[j] := by simp only [rels]; rw [List.getElem?_eq_getElem hj]
        rw [this]
        exact (hS _ (List.getElem_mem hj)).1)
      (by
        intro pre post he hc
        obtain ⟨pre', rest, rfl, h1, h2⟩ := List.map_eq_append_iff.1 he
        obtain ⟨c, post', rfl, h3, h4⟩ := List.map_eq_cons_iff.1 h2
        have hsub : ∀ d ∈ pre' ++ c :: post', (flag d = true ↔ Null d) := fun d hd => flag_null d (hsup d hd)
        rcases hone pre' c post' rfl (fun hn => by rw [(hsub c (by simp)).2 hn] at h3; cases h3) with h | h
        · rw [← h1] at hc
          obtain ⟨d, hd, hf⟩ := List.mem_map.1 hc.2
          rw [(hsub d (by simp [hd])).2 (h d hd)] at hf; cases hf
        · rw [← h1] at hc
          obtain ⟨d, hd, hf⟩ := List.mem_map.1 hc.1
          exact h d hd ((hsub d (by simp [hd])).1 hf))
      (by
        rw [List.count, List.countP_map, List.countP_eq_length_filter]
        refine hten _ List.filter_sublist fun d hd => ?_
        rw [List.mem_filter] at hd
        exact (flag_null d (hsup d hd.1)).1 (by simpa using hd.2))
    refine ⟨_, by rw [e, seed_node, hfl]; exact hg, fun u v => ?_⟩
    have hmap : cs.map (pathRel G) = (List.range' 0 cs.length).map fun i u v => rels i u v ∨ ((cs.map flag).getD i false = true ∧ u = v) := by
      apply List.ext_getElem (by simp)
      intro i h1 h2
      rw [List.length_map] at h1
      funext u v
      apply propext
      have : rels i = S cs[i] := by simp only [rels]; rw [List.getElem?_eq_getElem h1]
      simp only [List.getElem_map, List.getElem_range', Nat.zero_add, Nat.one_mul]
      rw [(hS _ (List.getElem_mem h1)).2 u v, this]
      simp [List.getD, h1]
    have hne : cs ≠ [] := by rintro rfl; simp at hl
    have hflag : flag (.node .sequence limit w cs null) = true ↔ ∀ c ∈ cs, flag c = true := by rw [flag_node]; simp [hne]
    simp only [pathRel]
    rw [seqRel_chain, hmap, chain_optional _ _ _ List.nodup_range', hlen, hflag]
    constructor
    · rintro ⟨keep, hk, hc⟩
      have hk' : ∀ i, i < cs.length → (cs.map flag).getD i false = false → keep i = true := fun i hi => hk i (by rw [List.mem_range'_1]; omega)
      by_cases hnil : (List.range' 0 cs.length).filter keep = []
      · rw [hnil] at hc
        refine .inr ⟨fun c hc => ?_, hc⟩
        obtain ⟨i, hi, rfl⟩ := List.getElem_of_mem hc
        cases hf : flag cs[i] with
        | true => rfl
        | false =>
          have := hk' i hi (by simp [List.getD, hi, hf])
          rw [List.filter_eq_nil_iff] at hnil
          exact absurd this (hnil i (by rw [List.mem_range'_1]; omega))
      · exact .inl ⟨keep, hk', hnil, hc⟩
    · rintro (⟨keep, hk, _, hc⟩ | ⟨hall, rfl⟩)
      · exact ⟨keep, fun i hi => hk i (by rw [List.mem_range'_1] at hi; omega), hc⟩
      · refine ⟨fun _ => false, fun i hi hf => ?_, ?_⟩
        · rw [List.mem_range'_1] at hi
          have hi : i < cs.length := by omega
          have := hall cs[i] (List.getElem_mem hi)
          simp [List.getD, hi, this] at hf
        · rw [List.filter_false]; rfl
  | alternative limit w cs null hl hsup hev ih =>
    obtain ⟨b, e, hb⟩ := compute_node .alternative limit w cs null
    have hch : ∃ S : Path → N → N → Prop, ∀ c ∈ cs, Good G (seed (computeCanBeNull c)) (S c) ∧ ∀ u v, pathRel G c u v ↔ S c u v ∨ (flag c = true ∧ u = v) := by
      classical
      refine ⟨fun c => if hc : c ∈ cs then Classical.choose (ih c hc) else fun _ _ => False, fun c hc => ?_⟩
      simp only [dif_pos hc]
      exact Classical.choose_spec (ih c hc)
    obtain ⟨S, hS⟩ := hch
    have hg := good_alternative (G := G) (cs.map fun c => (seed (computeCanBeNull c), S c)) (by
      intro x hx
      obtain ⟨c, hc, rfl⟩ := List.mem_map.1 hx
      exact (hS c hc).1) (by simpa using hl)
    rw [List.map_map] at hg
    refine ⟨_, by rw [e, seed_node, List.map_map]; exact hg, fun u v => ?_⟩
    have hne : cs ≠ [] := by rintro rfl; simp at hl
    have hflag : flag (.node .alternative limit w cs null) = true ↔ ∀ c ∈ cs, flag c = true := by rw [flag_node]; simp [hne]
    simp only [pathRel]
    rw [altRel_iff, hflag]
    constructor
    · rintro ⟨c, hc, h⟩
      rcases ((hS c hc).2 u v).1 h with h | ⟨hf, rfl⟩
      · exact .inl ⟨_, List.mem_map.2 ⟨c, hc, rfl⟩, h⟩
      · refine .inr ⟨fun d hd => ?_, rfl⟩
        rcases hev with hev | hev
        · exact (flag_null d (hsup d hd)).2 (hev d hd)
        · exact absurd ((flag_null c (hsup c hc)).1 hf) (hev c hc)
    · rintro (⟨x, hx, h⟩ | ⟨hall, rfl⟩)
      · obtain ⟨c, hc, rfl⟩ := List.mem_map.1 hx
        exact ⟨c, hc, ((hS c hc).2 u v).2 (.inl h)⟩
      · obtain ⟨c, hc⟩ := List.exists_mem_of_ne_nil cs hne
        exact ⟨c, hc, ((hS c hc).2 u u).2 (.inr ⟨hall c hc, rfl⟩)⟩

end Verif.PathPlan
