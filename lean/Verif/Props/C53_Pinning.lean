import Verif.Props.C09_C10_C46_ConcurrentCache
/-
C53 Results that were requested to be pinned are pinned.
-/
namespace Verif.ConcurrentCache
open CacheSpec (Ev)
open Cache (find Stored)
set_option linter.unusedSectionVars false
variable {K V : Type} [DecidableEq K] [DecidableEq V]

/-- What holds for the requests that asked for pinning, as long as nobody has called `clearAll`. -/
structure PinInv (es : List (Event K V)) (s : State K V) : Prop where
  started : ∀ r k p, .start r k p ∈ es → s.req r ≠ .idle
  reg : ∀ r k rip p, .start r k true ∈ es → (owns (s.req r) = some (k, rip) ∨ s.req r = .waiting k rip) →
    find s.inProg k = some (p, rip) → p = true
  moved : ∀ r k rip r' v, .start r k true ∈ es → (r = r' ∨ s.req r = .waiting k rip) → s.req r' = .moved k rip v →
    (k, v) ∈ s.cache.pinnedMap
  fin : ∀ r k rip v, .start r k true ∈ es → s.req r = .waiting k rip → s.rips[rip]? = some (.finished v) →
    (k, v) ∈ s.cache.pinnedMap
  done : ∀ r k v b, .start r k true ∈ es → s.req r = .done k (.value v b) → (k, v) ∈ s.cache.pinnedMap

/-- Only `clearAll` and `erase` remove pinned entries. -/
theorem pinned_keep {c : Cache.Config V} {s s' : Cache.State K V} {e : Ev K V} (h : Cache.Step c s e s')
    (i : Cache.Inv c s) (h1 : e ≠ .clearAll) (h2 : ∀ k, e ≠ .erase k) {k : K} {v : V} (hk : (k, v) ∈ s.pinnedMap) :
    (k, v) ∈ s'.pinnedMap := by
  have key : ∀ k' v', k' ∉ s.pinnedMap.map (·.1) → (k, v) ∈ Cache.setKey s.pinnedMap k' v' := by
    intro k' v' hn
    simp only [Cache.setKey, Cache.eraseKey_of_not_mem hn]
    exact List.mem_cons_of_mem _ hk
  cases h with
  | insert k' v' score hc hsz hr =>
    rw [(Cache.shrink_inv hr (i.pushed v' score hc)).2.2.1]; exact hk
  | insertPinned k' v' hc hsz hr =>
    rw [(Cache.shrink_inv hr (i.pinnedPushed v' hc)).2.2.1]
    exact key k' v' (Cache.contains_false i hc).1
  | setMaxNumEntries n hr =>
    rw [(Cache.shrink_inv hr ⟨i.acc, i.keys, i.handles, i.hlt, i.pkeys, i.disj, i.tnp, i.tp⟩).2.2.1]; exact hk
  | makePinned k' h' e' hp ha hd => exact key k' _ (Cache.find_none.mp hp)
  | clearAll => exact absurd rfl h1
  | erase k' => exact absurd rfl (h2 k')
  | erasePinned k' => exact absurd rfl (h2 k')
  | _ => exact hk

theorem insertPinned_mem {c : Cache.Config V} {s s' : Cache.State K V} {k : K} {v : V}
    (h : Cache.Step c s (.insertPinned k v) s') (i : Cache.Inv c s) : (k, v) ∈ s'.pinnedMap := by
  cases h with
  | insertPinned k' v' hc hsz hr =>
    rw [(Cache.shrink_inv hr (i.pinnedPushed v hc)).2.2.1]
    exact List.mem_cons_self

theorem pin_lookup {c : Cache.Config V} {s s1 s2 : Cache.State K V} {k : K} {res : Option V}
    (h : Cache.Step c s (.makePinned k true) s1) (hl : Cache.Step c s1 (.lookup k res) s2) {v : V}
    (hv : res = some v) : (k, v) ∈ s2.pinnedMap := by
  have : ∃ w, find s1.pinnedMap k = some w := by
    cases h with
    | makePinnedAlready _ w hf => exact ⟨w, hf⟩
    | makePinned _ h' e' hp ha hd => exact ⟨e'.val, find_setKey_self _ _ _⟩
  obtain ⟨w, hw⟩ := this
  cases hl with
  | lookupPinned _ w' hf => cases hv; exact Cache.find_some hf
  | lookupNone _ hp ha => cases hv
  | lookup _ h' e' n hp ha hd => rw [hw] at hp; cases hp

/-- Nothing relevant changes: request `r` moves on to a phase in which it owns at most what it owned before. -/
theorem PinInv.quiet {es : List (Event K V)} {s : State K V} (p : PinInv es s) (e : Event K V) (r : Nat) (q : Phase K V)
    (c1 : Cache.State K V) (hkeep : ∀ k v, (k, v) ∈ s.cache.pinnedMap → (k, v) ∈ c1.pinnedMap)
    (he : ∀ r' k' p', e = .start r' k' p' → r' = r ∧ p' = true ∧ s.req r = .idle ∨ r' = r ∧ p' = false ∧ s.req r = .idle)
    (hq : q ≠ .idle) (hw : ∀ k rip, q ≠ .waiting k rip)
    (ho : ∀ k rip, owns q = some (k, rip) → owns (s.req r) = some (k, rip))
    (hm : ∀ k rip v, q ≠ .moved k rip v)
    (hd : ∀ k v b, Event.start r k true ∈ es ++ [e] → q = .done k (.value v b) → (k, v) ∈ c1.pinnedMap) :
    PinInv (es ++ [e]) { s with cache := c1, req := setReq s.req r q } := by
  have hold : ∀ x k, x ≠ r → Event.start x k true ∈ es ++ [e] → Event.start x k true ∈ es := by
    intro x k hx h
    rcases List.mem_append.mp h with h | h
    · exact h
    · exfalso
      have := List.mem_singleton.mp h
      rcases he x k true this.symm with h | h <;> exact hx h.1
  have hself : ∀ k rip, Event.start r k true ∈ es ++ [e] → owns (s.req r) = some (k, rip) → Event.start r k true ∈ es := by
    intro k rip h h2
    rcases List.mem_append.mp h with h | h
    · exact h
    · exfalso
      have := List.mem_singleton.mp h
      rcases he r k true this.symm with h | h <;> rw [h.2.2] at h2 <;> simp [owns] at h2
  refine ⟨?_, ?_, ?_, ?_, ?_⟩
  · intro x k p' h
    by_cases hx : x = r
    · subst hx; simp only [setReq_self]; exact hq
    · simp only [setReq_ne _ _ hx]
      rcases List.mem_append.mp h with h | h
      · exact p.started x k p' h
      · have := List.mem_singleton.mp h
        rcases he x k p' this.symm with h | h <;> exact absurd h.1 hx
  · intro x k rip p' h h1 h2
    by_cases hx : x = r
    · subst hx; simp only [setReq_self] at h1
      rcases h1 with h1 | h1
      · exact p.reg x k rip p' (hself k rip h (ho k rip h1)) (.inl (ho k rip h1)) h2
      · exact absurd h1 (hw k rip)
    · simp only [setReq_ne _ _ hx] at h1
      exact p.reg x k rip p' (hold x k hx h) h1 h2
  · intro x k rip y v h h1 h2
    by_cases hy : y = r
    · subst hy; simp only [setReq_self] at h2; exact absurd h2 (hm k rip v)
    · simp only [setReq_ne _ _ hy] at h2
      by_cases hx : x = r
      · subst hx; simp only [setReq_self] at h1
        rcases h1 with h1 | h1
        · exact absurd h1.symm hy
        · exact absurd h1 (hw k rip)
      · simp only [setReq_ne _ _ hx] at h1
        exact hkeep _ _ (p.moved x k rip y v (hold x k hx h) h1 h2)
  · intro x k rip v h h1 h2
    by_cases hx : x = r
    · subst hx; simp only [setReq_self] at h1; exact absurd h1 (hw k rip)
    · simp only [setReq_ne _ _ hx] at h1
      exact hkeep _ _ (p.fin x k rip v (hold x k hx h) h1 h2)
  · intro x k v b h h1
    by_cases hx : x = r
    · subst hx; simp only [setReq_self] at h1; exact hd k v b h h1
    · simp only [setReq_ne _ _ hx] at h1
      exact hkeep _ _ (p.done x k v b (hold x k hx h) h1)

/-- The owner stores its result: afterwards it is pinned if somebody asked for that. -/
theorem PinInv.leave {es : List (Event K V)} {s : State K V} (p : PinInv es s)
    (r : Nat) (k : K) (rip : Nat) (v : V) (c1 : Cache.State K V)
    (hkeep : ∀ k v, (k, v) ∈ s.cache.pinnedMap → (k, v) ∈ c1.pinnedMap)
    (hpin : ∀ x, Event.start x k true ∈ es → (x = r ∨ s.req x = .waiting k rip) → (k, v) ∈ c1.pinnedMap) :
    PinInv (es ++ [.move r])
      { s with cache := c1, inProg := Cache.eraseKey s.inProg k, req := setReq s.req r (.moved k rip v) } := by
  have mem : ∀ {x k b}, Event.start x k b ∈ es ++ [.move r] → Event.start x k b ∈ es := by
    intro x k b h
    rcases List.mem_append.mp h with h | h
    · exact h
    · have := List.mem_singleton.mp h; cases this
  refine ⟨?_, ?_, ?_, ?_, ?_⟩
  · intro x k' p' h
    by_cases hx : x = r
    · subst hx; simp [setReq_self]
    · simp only [setReq_ne _ _ hx]; exact p.started x k' p' (mem h)
  · intro x k' rip' p' h h1 h2
    simp only at h2
    by_cases hk : k' = k
    · subst hk; rw [find_eraseKey_self] at h2; cases h2
    · rw [find_eraseKey_ne hk] at h2
      by_cases hx : x = r
      · subst hx; simp only [setReq_self, owns] at h1
        rcases h1 with h1 | h1
        · cases h1; exact absurd rfl hk
        · cases h1
      · simp only [setReq_ne _ _ hx] at h1
        exact p.reg x k' rip' p' (mem h) h1 h2
  · intro x k' rip' y v' h h1 h2
    by_cases hy : y = r
    · subst hy; simp only [setReq_self] at h2
      cases h2
      by_cases hx : x = y
      · exact hpin x (mem h) (.inl hx)
      · simp only [setReq_ne _ _ hx] at h1
        exact hpin x (mem h) (h1.imp id id)
    · simp only [setReq_ne _ _ hy] at h2
      by_cases hx : x = r
      · subst hx; simp only [setReq_self] at h1
        rcases h1 with h1 | h1
        · exact absurd h1.symm hy
        · cases h1
      · simp only [setReq_ne _ _ hx] at h1
        exact hkeep _ _ (p.moved x k' rip' y v' (mem h) h1 h2)
  · intro x k' rip' v' h h1 h2
    by_cases hx : x = r
    · subst hx; simp [setReq_self] at h1
    · simp only [setReq_ne _ _ hx] at h1
      exact hkeep _ _ (p.fin x k' rip' v' (mem h) h1 h2)
  · intro x k' v' b h h1
    by_cases hx : x = r
    · subst hx; simp [setReq_self] at h1
    · simp only [setReq_ne _ _ hx] at h1
      exact hkeep _ _ (p.done x k' v' b (mem h) h1)

theorem PinInv.step {c : Cache.Config V} {es : List (Event K V)} {s s' : State K V} {e : Event K V} (i : Inv c es s)
    (p : PinInv es s) (h : Step c s e s') (hc : e ≠ .maintenance .clearAll) : PinInv (es ++ [e]) s' := by
  have mem : ∀ {x k}, (∀ r k p, e ≠ .start r k p) → Event.start x k true ∈ es ++ [e] → Event.start x k true ∈ es := by
    intro x k hn h
    rcases List.mem_append.mp h with h | h
    · exact h
    · exact absurd (List.mem_singleton.mp h).symm (hn _ _ _)
  have memP : ∀ {x k b}, (∀ r k p, e ≠ .start r k p) → Event.start x k b ∈ es ++ [e] → Event.start x k b ∈ es := by
    intro x k b hn h
    rcases List.mem_append.mp h with h | h
    · exact h
    · exact absurd (List.mem_singleton.mp h).symm (hn _ _ _)
  have noStart : ∀ {r k b}, s.req r = .idle → Event.start r k b ∉ es := fun h1 h2 => p.started _ _ _ h2 h1
  cases h with
  | startCached r k res c2 hr hcn hl =>
    refine p.quiet _ r _ c2 (fun k v => pinned_keep hl i.cache (by simp) (by simp)) ?_ (by simp) (by simp)
      (by simp [owns]) (by simp) ?_
    · intro r' k' p' h; cases h; exact .inr ⟨rfl, rfl, hr⟩
    · intro k' v b h
      rcases List.mem_append.mp h with h | h
      · exact absurd h (noStart hr)
      · have := List.mem_singleton.mp h; cases this
  | startCachedPin r k res c1 c2 hr hcn hl =>
    have i1 := Cache.step_inv hcn i.cache
    refine p.quiet _ r _ c2 (fun k v h => pinned_keep hl i1 (by simp) (by simp)
      (pinned_keep hcn i.cache (by simp) (by simp) h)) ?_ (by simp) (by simp) (by simp [owns]) (by simp) ?_
    · intro r' k' p' h; cases h; exact .inl ⟨rfl, rfl, hr⟩
    · intro k' v b h h1
      have hk : k' = k := by simp only [Phase.done.injEq] at h1; exact h1.1.symm
      subst hk
      cases res with
      | none => simp [ofLookup] at h1
      | some w =>
        simp only [ofLookup, Phase.done.injEq, Res.value.injEq, true_and] at h1
        exact pin_lookup hcn hl (by rw [h1.1])
  | startWait r k pinned c1 pp rip hr hcn hp =>
    have hkeep : ∀ k v, (k, v) ∈ s.cache.pinnedMap → (k, v) ∈ c1.pinnedMap := by
      intro k' v h
      cases pinned with
      | true => exact pinned_keep hcn i.cache (by simp) (by simp) h
      | false => exact pinned_keep hcn i.cache (by simp) (by simp) h
    obtain ⟨r0, hr0⟩ := i.regC k pp rip hp
    have hrip := i.own r0 k rip (registered_owns hr0)
    have hold : ∀ x k', x ≠ r → Event.start x k' true ∈ es ++ [.start r k pinned] → Event.start x k' true ∈ es := by
      intro x k' hx h
      rcases List.mem_append.mp h with h | h
      · exact h
      · have := List.mem_singleton.mp h; cases this; exact absurd rfl hx
    refine ⟨?_, ?_, ?_, ?_, ?_⟩
    · intro x k' p' h
      by_cases hx : x = r
      · subst hx; simp [setReq_self]
      · simp only [setReq_ne _ _ hx]
        rcases List.mem_append.mp h with h | h
        · exact p.started x k' p' h
        · have := List.mem_singleton.mp h; cases this; exact absurd rfl hx
    · intro x k' rip' p' h h1 h2
      by_cases hx : x = r
      · subst hx; simp only [setReq_self] at h1
        rcases h1 with h1 | h1
        · simp [owns] at h1
        · cases h1
          simp only at h2
          rw [find_setKey_self] at h2
          rcases List.mem_append.mp h with h | h
          · exact absurd h (noStart hr)
          · have := List.mem_singleton.mp h; cases this
            cases h2; simp
      · simp only [setReq_ne _ _ hx] at h1
        simp only at h2
        by_cases hk : k' = k
        · subst hk
          rw [find_setKey_self] at h2
          cases h2
          rw [p.reg x k' rip pp (hold x k' hx h) h1 hp]; rfl
        · have : find (Cache.setKey s.inProg k (pp || pinned, rip)) k' = find s.inProg k' := by
            rw [find_setKey_ne hk]
          rw [this] at h2
          exact p.reg x k' rip' p' (hold x k' hx h) h1 h2
    · intro x k' rip' y v h h1 h2
      have hy : y ≠ r := by
        intro hy; subst hy; simp [setReq_self] at h2
      simp only [setReq_ne _ _ hy] at h2
      by_cases hx : x = r
      · subst hx; simp only [setReq_self] at h1
        rcases h1 with h1 | h1
        · exact absurd h1.symm hy
        · cases h1
          have := i.ownU y r0 _ _ _ (by rw [h2]; rfl) (registered_owns hr0)
          subst this
          rw [h2] at hr0; simp [registered] at hr0
      · simp only [setReq_ne _ _ hx] at h1
        exact hkeep _ _ (p.moved x k' rip' y v (hold x k' hx h) h1 h2)
    · intro x k' rip' v h h1 h2
      by_cases hx : x = r
      · subst hx; simp only [setReq_self] at h1
        cases h1
        simp only at h2
        rw [hrip] at h2; cases h2
      · simp only [setReq_ne _ _ hx] at h1
        exact hkeep _ _ (p.fin x k' rip' v (hold x k' hx h) h1 h2)
    · intro x k' v b h h1
      by_cases hx : x = r
      · subst hx; simp [setReq_self] at h1
      · simp only [setReq_ne _ _ hx] at h1
        exact hkeep _ _ (p.done x k' v b (hold x k' hx h) h1)
  | startCompute r k pinned c1 hr hcn hp =>
    have hkeep : ∀ k v, (k, v) ∈ s.cache.pinnedMap → (k, v) ∈ c1.pinnedMap := by
      intro k' v h
      cases pinned with
      | true => exact pinned_keep hcn i.cache (by simp) (by simp) h
      | false => exact pinned_keep hcn i.cache (by simp) (by simp) h
    have hold : ∀ x k', x ≠ r → Event.start x k' true ∈ es ++ [.start r k pinned] → Event.start x k' true ∈ es := by
      intro x k' hx h
      rcases List.mem_append.mp h with h | h
      · exact h
      · have := List.mem_singleton.mp h; cases this; exact absurd rfl hx
    have hlt : ∀ x k' rip', (owns (s.req x) = some (k', rip') ∨ s.req x = .waiting k' rip') → rip' < s.rips.length := by
      intro x k' rip' h
      rcases h with h | h
      · exact (List.getElem?_eq_some_iff.mp (i.own x k' rip' h)).1
      · rcases i.wait x k' rip' h with h | ⟨v, h⟩ | h
        · exact (List.getElem?_eq_some_iff.mp h.1).1
        · exact (List.getElem?_eq_some_iff.mp h.1).1
        · exact (List.getElem?_eq_some_iff.mp h).1
    refine ⟨?_, ?_, ?_, ?_, ?_⟩
    · intro x k' p' h
      by_cases hx : x = r
      · subst hx; simp [setReq_self]
      · simp only [setReq_ne _ _ hx]
        rcases List.mem_append.mp h with h | h
        · exact p.started x k' p' h
        · have := List.mem_singleton.mp h; cases this; exact absurd rfl hx
    · intro x k' rip' p' h h1 h2
      simp only at h2
      by_cases hx : x = r
      · subst hx; simp only [setReq_self] at h1
        rcases h1 with h1 | h1
        · simp only [owns, Option.some.injEq, Prod.mk.injEq] at h1
          obtain ⟨rfl, rfl⟩ := h1
          rw [find_setKey_self] at h2
          rcases List.mem_append.mp h with h | h
          · exact absurd h (noStart hr)
          · have := List.mem_singleton.mp h; cases this
            cases h2; rfl
        · simp at h1
      · simp only [setReq_ne _ _ hx] at h1
        have := hlt x k' rip' h1
        by_cases hk : k' = k
        · subst hk
          rw [find_setKey_self] at h2
          cases h2; omega
        · rw [find_setKey_ne hk] at h2
          exact p.reg x k' rip' p' (hold x k' hx h) h1 h2
    · intro x k' rip' y v h h1 h2
      have hy : y ≠ r := by
        intro hy; subst hy; simp [setReq_self] at h2
      simp only [setReq_ne _ _ hy] at h2
      by_cases hx : x = r
      · subst hx; simp only [setReq_self] at h1
        rcases h1 with h1 | h1
        · exact absurd h1.symm hy
        · simp at h1
      · simp only [setReq_ne _ _ hx] at h1
        exact hkeep _ _ (p.moved x k' rip' y v (hold x k' hx h) h1 h2)
    · intro x k' rip' v h h1 h2
      by_cases hx : x = r
      · subst hx; simp [setReq_self] at h1
      · simp only [setReq_ne _ _ hx] at h1
        have := hlt x k' rip' (.inr h1)
        simp only at h2
        rw [List.getElem?_append_left this] at h2
        exact hkeep _ _ (p.fin x k' rip' v (hold x k' hx h) h1 h2)
    · intro x k' v b h h1
      by_cases hx : x = r
      · subst hx; simp [setReq_self] at h1
      · simp only [setReq_ne _ _ hx] at h1
        exact hkeep _ _ (p.done x k' v b (hold x k' hx h) h1)
  | computeOk r k rip v before after res hr hv =>
    exact p.quiet _ r _ s.cache (fun _ _ h => h) (by simp) (by simp) (by simp) (by simp [owns, hr]) (by simp) (by simp)
  | computeThrow r k rip before after res hr hv =>
    exact p.quiet _ r _ s.cache (fun _ _ h => h) (by simp) (by simp) (by simp) (by simp [owns, hr]) (by simp) (by simp)
  | moveCheck r k rip v hr hp =>
    exact p.quiet _ r _ s.cache (fun _ _ h => h) (by simp) (by simp) (by simp) (by simp [owns, hr]) (by simp) (by simp)
  | movePinnedThrow r k rip v rip' c1 hr hp hi =>
    exact p.quiet _ r _ c1 (fun _ _ h => pinned_keep hi i.cache (by simp) (by simp) h) (by simp) (by simp) (by simp)
      (by simp [owns, hr]) (by simp) (by simp)
  | moveThrow r k rip v rip' c1 hr hp hi =>
    exact p.quiet _ r _ c1 (fun _ _ h => pinned_keep hi i.cache (by simp) (by simp) h) (by simp) (by simp) (by simp)
      (by simp [owns, hr]) (by simp) (by simp)
  | finishCheck r k rip v hr hs =>
    exact p.quiet _ r _ s.cache (fun _ _ h => h) (by simp) (by simp) (by simp) (by simp [owns, hr]) (by simp) (by simp)
  | wakeOk r k rip v hr hs =>
    refine p.quiet _ r _ s.cache (fun _ _ h => h) (by simp) (by simp) (by simp) (by simp [owns]) (by simp) ?_
    intro k' v' b h h1
    cases h1
    exact p.fin r k rip v (mem (by simp) h) hr hs
  | wakeAborted r k rip hr hs =>
    exact p.quiet _ r _ s.cache (fun _ _ h => h) (by simp) (by simp) (by simp) (by simp [owns]) (by simp) (by simp)
  | movePinned r k rip v rip' c1 hr hp hi =>
    have hkeep : ∀ k v, (k, v) ∈ s.cache.pinnedMap → (k, v) ∈ c1.pinnedMap :=
      fun k' v' h => pinned_keep hi i.cache (by simp) (by simp) h
    exact p.leave r k rip v c1 hkeep (fun _ _ _ => insertPinned_mem hi i.cache)
  | move r k rip v rip' c1 e' hr hp he hi =>
    have hkeep : ∀ k v, (k, v) ∈ s.cache.pinnedMap → (k, v) ∈ c1.pinnedMap :=
      fun k' v' h => pinned_keep hi i.cache (by rcases he with h | h <;> simp [h]) (by rcases he with h | h <;> simp [h]) h
    refine p.leave r k rip v c1 hkeep (fun x hx hw => ?_)
    obtain ⟨p0, hp0⟩ := i.reg r k rip (by rw [hr]; rfl)
    have : rip' = rip ∧ p0 = false := by rw [hp] at hp0; cases hp0; exact ⟨rfl, rfl⟩
    obtain ⟨rfl, rfl⟩ := this
    have hw' : owns (s.req x) = some (k, rip') ∨ s.req x = .waiting k rip' := by
      rcases hw with rfl | hw
      · left; rw [hr]; rfl
      · exact .inr hw
    have := p.reg x k rip' false hx hw' hp
    cases this
  | finish r k rip v hr hs =>
    have hset : ∀ j, j ≠ rip → (s.rips.set rip (.finished v))[j]? = s.rips[j]? := by
      intro j hj; rw [List.getElem?_set_ne (fun h => hj h.symm)]
    refine ⟨?_, ?_, ?_, ?_, ?_⟩
    · intro x k' p' h
      have hm := memP (by simp) h
      by_cases hx : x = r
      · subst hx; simp [setReq_self]
      · simp only [setReq_ne _ _ hx]; exact p.started x k' p' hm
    · intro x k' rip' p' h h1 h2
      have hm := mem (by simp) h
      by_cases hx : x = r
      · subst hx; simp [setReq_self, owns] at h1
      · simp only [setReq_ne _ _ hx] at h1
        exact p.reg x k' rip' p' hm h1 h2
    · intro x k' rip' y v' h h1 h2
      have hm := mem (by simp) h
      have hy : y ≠ r := by
        intro hy; subst hy; simp [setReq_self] at h2
      simp only [setReq_ne _ _ hy] at h2
      by_cases hx : x = r
      · subst hx; simp only [setReq_self] at h1
        rcases h1 with h1 | h1
        · exact absurd h1.symm hy
        · simp at h1
      · simp only [setReq_ne _ _ hx] at h1
        exact p.moved x k' rip' y v' hm h1 h2
    · intro x k' rip' v' h h1 h2
      have hm := mem (by simp) h
      by_cases hx : x = r
      · subst hx; simp [setReq_self] at h1
      · simp only [setReq_ne _ _ hx] at h1
        simp only at h2
        by_cases hj : rip' = rip
        · subst hj
          have hlt : rip' < s.rips.length := (List.getElem?_eq_some_iff.mp hs).1
          rw [List.getElem?_set_self hlt] at h2
          cases h2
          rcases i.wait x k' rip' h1 with ⟨_, y, hy⟩ | ⟨v', h3, _⟩ | h3
          · have := i.ownU y r k' k rip' hy (by rw [hr]; rfl)
            subst this
            rw [hr] at hy; cases hy
            exact p.moved x k rip' y v hm (.inr h1) hr
          · rw [hs] at h3; cases h3
          · rw [hs] at h3; cases h3
        · rw [hset rip' hj] at h2
          exact p.fin x k' rip' v' hm h1 h2
    · intro x k' v' b h h1
      have hm := mem (by simp) h
      by_cases hx : x = r
      · subst hx; simp only [setReq_self] at h1
        cases h1
        exact p.moved x k rip x v hm (.inl rfl) hr
      · simp only [setReq_ne _ _ hx] at h1
        exact p.done x k' v' b hm h1
  | unregister r k rip hr =>
    have q := p.quiet (.unregister r) r (.aborting k rip) s.cache (fun _ _ h => h) (by simp) (by simp) (by simp)
      (by simp [owns, hr]) (by simp) (by simp)
    refine ⟨q.started, ?_, q.moved, q.fin, q.done⟩
    intro x k' rip' p' h h1 h2
    simp only at h2
    by_cases hk : k' = k
    · subst hk; rw [find_eraseKey_self] at h2; cases h2
    · rw [find_eraseKey_ne hk] at h2
      exact q.reg x k' rip' p' h h1 h2
  | abort r k rip hr =>
    have q := p.quiet (.abort r) r (.done k .exception) s.cache (fun _ _ h => h) (by simp) (by simp) (by simp)
      (by simp [owns]) (by simp) (by simp)
    refine ⟨q.started, q.reg, q.moved, ?_, q.done⟩
    intro x k' rip' v h h1 h2
    refine q.fin x k' rip' v h h1 ?_
    simp only at h2
    split at h2
    · by_cases hj : rip' = rip
      · subst hj
        have hlt : rip' < s.rips.length := by
          rename_i hs; exact (List.getElem?_eq_some_iff.mp hs).1
        rw [List.getElem?_set_self hlt] at h2; cases h2
      · rw [List.getElem?_set_ne (fun h => hj h.symm)] at h2; exact h2
    · exact h2
  | maintenance e' c1 he hs =>
    have hkeep : ∀ k v, (k, v) ∈ s.cache.pinnedMap → (k, v) ∈ c1.pinnedMap :=
      fun k' v' h => pinned_keep hs i.cache (fun h => hc (by rw [h])) (by intro k h; rw [h] at he; exact he) h
    have q := fun {x k b} => memP (x := x) (k := k) (b := b) (by simp)
    exact ⟨fun x k b h => p.started x k b (q h), fun x k rip b h => p.reg x k rip b (q h),
      fun x k rip y v h h1 h2 => hkeep _ _ (p.moved x k rip y v (q h) h1 h2),
      fun x k rip v h h1 h2 => hkeep _ _ (p.fin x k rip v (q h) h1 h2),
      fun x k v b h h1 => hkeep _ _ (p.done x k v b (q h) h1)⟩

/-- **C53**. As long as nobody calls `clearAll`: once a request that asked for pinning has returned a value, that value is in the
cache as a pinned entry under its key, regardless of which request computed it and of the other requests for the same key. -/
theorem C53_pinned {c : Cache.Config V} {n : Nat} {es : List (Event K V)} {s : State K V} (h : Exec c n es s)
    (hc : .maintenance .clearAll ∉ es) {r : Nat} {k : K} {v : V} {cached : Bool} (hs : .start r k true ∈ es)
    (hd : s.req r = .done k (.value v cached)) : find s.cache.pinnedMap k = some v := by
  have : PinInv es s := by
    clear hd hs
    induction h with
    | nil => exact ⟨by simp, by simp, by simp, by simp, by simp⟩
    | snoc e h hs ih =>
      refine PinInv.step (exec_inv h) (ih fun hm => hc (List.mem_append_left _ hm)) hs ?_
      rintro rfl
      exact hc (by simp)
  exact Cache.find_mem (exec_inv h).cache.pkeys (this.done r k v cached hs hd)

/-- Request 0 computes key 7 without pinning; request 1 asks for it to be pinned and waits; afterwards it is pinned. -/
example : ∃ s, Exec (K := Nat) demo 10
    ([] ++ [.start 0 7 false] ++ [.start 1 7 true] ++ [.compute 0 7 false (.ok 3) false] ++ [.move 0] ++ [.finish 0] ++
      [.wake 1]) s ∧ s.req 1 = .done 7 (.value 3 false) ∧ find s.cache.pinnedMap 7 = some 3 := by
  refine ⟨_, .snoc _ (.snoc _ (.snoc _ (.snoc _ (.snoc _ (.snoc _ .nil
    (.startCompute 0 7 false _ rfl (.contains 7) rfl)) (.startWait 1 7 true _ false 0 rfl (.makePinnedAbsent 7 rfl rfl) rfl))
    (.computeOk 0 7 0 3 false false (.ok 3) rfl rfl))
    (.movePinned 0 7 0 3 0 _ rfl rfl (.insertPinned 7 3 rfl (by decide) (.done ?_))))
    (.finish 0 7 0 3 rfl rfl)) (.wakeOk 1 7 0 3 rfl rfl), rfl, rfl⟩
  right; decide

end Verif.ConcurrentCache
