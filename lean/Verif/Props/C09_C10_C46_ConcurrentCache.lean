import Verif.Lemmas.ConcurrentCache
/-
C09 Each cached result is computed at most once at a time.
C10 A failing computation does not block its key.
C46 Timed-out or failed operations never leave a result in the cache.

All statements are about `Exec`, i.e. every number of requests, every interleaving of their steps, every outcome of every
computation and every behaviour of the cache (evictions, clearing by third parties).
-/
namespace Verif.ConcurrentCache
open CacheSpec (Ev)
open Cache (find Stored)
set_option linter.unusedSectionVars false
variable {K V : Type} [DecidableEq K] [DecidableEq V]

/-- The request that performs an event; maintenance is done by nobody in particular. -/
def actor : Event K V → Option Nat
  | .start r _ _ | .compute r _ _ _ _ | .move r | .finish r | .unregister r | .abort r | .wake r => some r
  | .maintenance _ => none

/-- `v` can be found in the cache under `k` (observably: a lookup may return it). -/
def Cached (c : Cache.Config V) (s : State K V) (k : K) : Prop :=
  ∃ v c', Cache.Step c s.cache (.lookup k (some v)) c'

/-! ### Facts about single steps -/

theorem step_frame {c : Cache.Config V} {s s' : State K V} {e : Event K V} (h : Step c s e s') (r : Nat)
    (hr : actor e ≠ some r) : s'.req r = s.req r := by
  cases h <;> simp only [actor, ne_eq, Option.some.injEq] at hr <;> first
    | rfl
    | exact setReq_ne _ _ (fun h => hr h.symm)

theorem step_done {c : Cache.Config V} {s s' : State K V} {e : Event K V} (h : Step c s e s') (r : Nat) (k : K)
    (res : Res V) (hr : s.req r = .done k res) : s'.req r = .done k res := by
  by_cases ha : actor e = some r
  · exfalso
    cases h <;> simp only [actor, Option.some.injEq] at ha <;> first
      | (subst ha; rename_i h; rw [hr] at h; simp at h; done)
      | (subst ha; simp_all; done)
      | (cases ha)
  · rw [step_frame h r ha]; exact hr

theorem cached_iff {c : Cache.Config V} {es : List (Event K V)} {s : State K V} (i : Inv c es s) (k : K) :
    Cached c s k ↔ ∃ v, Stored s.cache k v := by
  constructor
  · rintro ⟨v, c', h⟩
    exact ⟨v, (Cache.lookup_stored h i.cache).1 v rfl⟩
  · rintro ⟨v, h⟩
    cases hp : find s.cache.pinnedMap k with
    | some v' => exact ⟨v', _, .lookupPinned k v' hp⟩
    | none =>
      cases ha : find s.cache.accessMap k with
      | none =>
        exact absurd h ((Cache.lookup_stored (c := c) (.lookupNone k hp ha) i.cache).2 rfl v)
      | some hd =>
        obtain ⟨e, he, h1, h2, h3⟩ := i.cache.deref ha
        exact ⟨e.val, _, .lookup k hd e 0 hp ha h1⟩

/-! ### C09 -/

/-- **C09** (mutual exclusion). At any moment at most one request is computing a given key; this covers the whole time
from the start of the computation until its result is in the cache. -/
theorem C09_at_most_one_computing {c : Cache.Config V} {n : Nat} {es : List (Event K V)} {s : State K V}
    (h : Exec c n es s) {r r' : Nat} {k : K} {rip rip' : Nat}
    (hr : s.req r = .computing k rip ∨ ∃ v, s.req r = .computed k rip v)
    (hr' : s.req r' = .computing k rip' ∨ ∃ v, s.req r' = .computed k rip' v) : r = r' := by
  have i := exec_inv h
  have h1 : registered (s.req r) = some (k, rip) := by
    rcases hr with hr | ⟨v, hr⟩ <;> rw [hr] <;> rfl
  have h2 : registered (s.req r') = some (k, rip') := by
    rcases hr' with hr | ⟨v, hr⟩ <;> rw [hr] <;> rfl
  obtain ⟨p, hp⟩ := i.reg r k rip h1
  obtain ⟨p', hp'⟩ := i.reg r' k rip' h2
  rw [hp] at hp'; cases hp'
  exact i.ownU r r' k k rip (registered_owns h1) (registered_owns h2)

/-- **C09** (no needless computation). A request for a key that is in the cache gets a value from the cache at once. -/
theorem C09_cached_not_recomputed {c : Cache.Config V} {n : Nat} {es : List (Event K V)} {s s' : State K V}
    (h : Exec c n es s) {r : Nat} {k : K} {pinned : Bool} (hc : Cached c s k) (hs : Step c s (.start r k pinned) s') :
    ∃ v, s'.req r = .done k (.value v true) := by
  have i := exec_inv h
  have i' := i.step hs
  obtain ⟨v, hv⟩ := (cached_iff i k).mp hc
  cases hs with
  | startCached _ _ res c2 hr hc hl =>
    cases res with
    | some v' => exact ⟨v', by simp [setReq_self, ofLookup]⟩
    | none => exact absurd hv ((Cache.lookup_stored hl i.cache).2 rfl v)
  | startCachedPin _ _ res c1 c2 hr hc hl =>
    cases res with
    | some v' => exact ⟨v', by simp [setReq_self, ofLookup]⟩
    | none => exact absurd (by simp [setReq_self, ofLookup]) (i'.notNull r k)
  | startWait _ _ pinned c1 p rip hr hc hp => exact absurd hv (i.notStored k _ hp v)
  | startCompute _ _ pinned c1 hr hc hp =>
    cases pinned with
    | true => exact absurd hv (((Cache.makePinned_stored hc i.cache).2 rfl).2 v)
    | false => exact absurd hv ((Cache.contains_stored hc i.cache).2.1 rfl v)

/-- **C09**. While a key is being computed it is not in the cache. -/
theorem C09_computing_not_cached {c : Cache.Config V} {n : Nat} {es : List (Event K V)} {s : State K V}
    (h : Exec c n es s) {r : Nat} {k : K} {rip : Nat} (hr : s.req r = .computing k rip) : ¬ Cached c s k := by
  have i := exec_inv h
  intro hc
  obtain ⟨v, hv⟩ := (cached_iff i k).mp hc
  obtain ⟨p, hp⟩ := i.reg r k rip (by rw [hr]; rfl)
  exact i.notStored k _ hp v hv

/-- **C09** (results). A request that completes normally returns the value of a successfully completed computation for
exactly its key; it never returns a null pointer. -/
theorem C09_results {c : Cache.Config V} {n : Nat} {es : List (Event K V)} {s : State K V} (h : Exec c n es s)
    {r : Nat} {k : K} {res : Res V} (hr : s.req r = .done k res) :
    res ≠ .null ∧ ∀ v cached, res = .value v cached →
      ∃ r' before outcome after, .compute r' k before outcome after ∈ es ∧ computeLambda before outcome after = .ok v := by
  have i := exec_inv h
  refine ⟨fun hn => i.notNull r k (by rw [hr, hn]), fun v b hv => ?_⟩
  exact i.res r k v b (by rw [hr, hv])

/-- The joint fate of the owner `r'` of a computation and a request `r` that waits for it. -/
inductive Fate (s : State K V) (k : K) (rip : Nat) (r r' : Nat) : Prop where
  | running (h1 : owns (s.req r') = some (k, rip)) (h2 : s.req r = .waiting k rip)
  | finished (v : V) (h1 : s.req r' = .done k (.value v false)) (h2 : s.rips[rip]? = some (.finished v))
      (h3 : s.req r = .waiting k rip ∨ s.req r = .done k (.value v false))
  | failed (h1 : s.req r' = .done k .exception) (h2 : s.rips[rip]? = some .aborted)
      (h3 : s.req r = .waiting k rip ∨ s.req r = .done k .waitedFailed)

theorem settled_stays {c : Cache.Config V} {es : List (Event K V)} {s s' : State K V} {e : Event K V} (i : Inv c es s)
    (h : Step c s e s') (rip : Nat) (st : Status V) (hst : st ≠ .inProgress) (hr : s.rips[rip]? = some st) :
    s'.rips[rip]? = some st := by
  cases h with
  | startCompute r k pinned c1 hr' hc hp =>
    have hlt := (List.getElem?_eq_some_iff.mp hr).1
    simp only
    rw [List.getElem?_append_left hlt]; exact hr
  | finish r k rip' v hr' hs =>
    have : rip ≠ rip' := by
      intro h; subst h
      have := i.own r k rip (by rw [hr']; rfl)
      rw [this] at hr; cases hr; exact hst rfl
    simp only
    rw [List.getElem?_set_ne (fun h => this h.symm)]; exact hr
  | abort r k rip' hr' =>
    have : rip ≠ rip' := by
      intro h; subst h
      have := i.own r k rip (by rw [hr']; rfl)
      rw [this] at hr; cases hr; exact hst rfl
    simp only
    split
    · rw [List.getElem?_set_ne (fun h => this h.symm)]; exact hr
    · exact hr
  | _ => exact hr

theorem wait_step {c : Cache.Config V} {s s' : State K V} {e : Event K V} (h : Step c s e s') (r : Nat) (k : K)
    (rip : Nat) (hr : s.req r = .waiting k rip) :
    s'.req r = .waiting k rip ∨ (∃ v, s.rips[rip]? = some (.finished v) ∧ s'.req r = .done k (.value v false)) ∨
      (s.rips[rip]? = some .aborted ∧ s'.req r = .done k .waitedFailed) := by
  by_cases ha : actor e = some r
  · cases h with
    | wakeOk r2 k2 rip2 v hr2 hs =>
      simp only [actor, Option.some.injEq] at ha; subst ha
      rw [hr] at hr2; cases hr2
      exact .inr (.inl ⟨v, hs, setReq_self _ _ _⟩)
    | wakeAborted r2 k2 rip2 hr2 hs =>
      simp only [actor, Option.some.injEq] at ha; subst ha
      rw [hr] at hr2; cases hr2
      exact .inr (.inr ⟨hs, setReq_self _ _ _⟩)
    | maintenance e' c1 he hs => simp [actor] at ha
    | _ =>
      exfalso
      simp only [actor, Option.some.injEq] at ha
      subst ha
      simp_all
  · left; rw [step_frame h r ha]; exact hr

theorem own_step {c : Cache.Config V} {es : List (Event K V)} {s s' : State K V} {e : Event K V} (i : Inv c es s)
    (h : Step c s e s') (r : Nat) (k : K) (rip : Nat) (hr : owns (s.req r) = some (k, rip)) :
    owns (s'.req r) = some (k, rip) ∨
      (∃ v, s'.rips[rip]? = some (.finished v) ∧ s'.req r = .done k (.value v false)) ∨
      (s'.rips[rip]? = some .aborted ∧ s'.req r = .done k .exception) := by
  by_cases ha : actor e = some r
  · have hip := i.own r k rip hr
    have hlt := (List.getElem?_eq_some_iff.mp hip).1
    cases h with
    | maintenance e' c1 he hs => simp [actor] at ha
    | finish r2 k2 rip2 v hr2 hs =>
      simp only [actor, Option.some.injEq] at ha; subst ha
      rw [hr2] at hr; simp only [owns] at hr; cases hr
      exact .inr (.inl ⟨v, by simp [hlt], setReq_self _ _ _⟩)
    | abort r2 k2 rip2 hr2 =>
      simp only [actor, Option.some.injEq] at ha; subst ha
      rw [hr2] at hr; simp only [owns] at hr; cases hr
      refine .inr (.inr ⟨?_, setReq_self _ _ _⟩)
      simp only
      rw [if_pos hip]
      simp [hlt]
    | startCached r2 k2 res c2 hr2 | startCachedPin r2 k2 res c1 c2 hr2 | startWait r2 k2 p c1 p2 rip2 hr2
    | startCompute r2 k2 p c1 hr2 | wakeOk r2 k2 rip2 v hr2 | wakeAborted r2 k2 rip2 hr2 =>
      simp only [actor, Option.some.injEq] at ha; subst ha
      rw [hr2] at hr; simp [owns] at hr
    | _ =>
      left
      simp only [actor, Option.some.injEq] at ha
      subst ha
      rename_i hr2 _ <;> simp_all [setReq_self, owns]
  · left; rw [step_frame h r ha]; exact hr

theorem fate_step {c : Cache.Config V} {es : List (Event K V)} {s s' : State K V} {e : Event K V} (i : Inv c es s)
    (h : Step c s e s') {k : K} {rip r r' : Nat} (f : Fate s k rip r r') : Fate s' k rip r r' := by
  cases f with
  | running h1 h2 =>
    have hip := i.own r' k rip h1
    have hw : s'.req r = .waiting k rip := by
      rcases wait_step h r k rip h2 with h | ⟨v, h, _⟩ | ⟨h, _⟩
      · exact h
      · rw [hip] at h; cases h
      · rw [hip] at h; cases h
    rcases own_step i h r' k rip h1 with h3 | ⟨v, h3, h4⟩ | ⟨h3, h4⟩
    · exact .running h3 hw
    · exact .finished v h4 h3 (.inl hw)
    · exact .failed h4 h3 (.inl hw)
  | finished v h1 h2 h3 =>
    refine .finished v (step_done h r' k _ h1) (settled_stays i h rip _ (by simp) h2) ?_
    rcases h3 with h3 | h3
    · rcases wait_step h r k rip h3 with h | ⟨v', h, h'⟩ | ⟨h, _⟩
      · exact .inl h
      · rw [h2] at h; cases h; exact .inr h'
      · rw [h2] at h; cases h
    · exact .inr (step_done h r k _ h3)
  | failed h1 h2 h3 =>
    refine .failed (step_done h r' k _ h1) (settled_stays i h rip _ (by simp) h2) ?_
    rcases h3 with h3 | h3
    · rcases wait_step h r k rip h3 with h | ⟨v', h, h'⟩ | ⟨h, h'⟩
      · exact .inl h
      · rw [h2] at h; cases h
      · exact .inr h'
    · exact .inr (step_done h r k _ h3)

theorem exec_steps {c : Cache.Config V} {n : Nat} {es : List (Event K V)} {s s' : State K V} (h : Exec c n es s)
    (hs : Steps c s s') : ∃ es', Exec c n es' s' := by
  induction hs with
  | refl => exact ⟨es, h⟩
  | tail e _ hst ih =>
    obtain ⟨es', h'⟩ := ih
    exact ⟨_, .snoc e h' hst⟩

theorem fate_steps {c : Cache.Config V} {n : Nat} {es : List (Event K V)} {s s' : State K V} (h : Exec c n es s)
    (hs : Steps c s s') {k : K} {rip r r' : Nat} (f : Fate s k rip r r') : Fate s' k rip r r' := by
  induction hs with
  | refl => exact f
  | tail e hs' hst ih =>
    obtain ⟨es', h'⟩ := exec_steps h hs'
    exact fate_step (exec_inv h') hst ih

/-- **C09/C10** (waiters). Let `r` wait for the computation that `r'` is performing.  Whatever happens afterwards: if
`r'` has returned a value, then `r` (once it is done) has returned the same value; if `r'` has ended with an exception, then
`r` (once it is done) has ended with `WaitedForResultWhichThenFailedException`; and `r` is not done before `r'` is. -/
theorem C09_C10_waiters {c : Cache.Config V} {n : Nat} {es : List (Event K V)} {s s' : State K V} (h : Exec c n es s)
    {k : K} {rip r r' : Nat} (hr' : s.req r' = .computing k rip) (hr : s.req r = .waiting k rip) (hs : Steps c s s')
    {res : Res V} (hd : s'.req r = .done k res) :
    (∃ v, s'.req r' = .done k (.value v false) ∧ res = .value v false) ∨
    (s'.req r' = .done k .exception ∧ res = .waitedFailed) := by
  have f : Fate s k rip r r' := .running (by rw [hr']; rfl) hr
  cases fate_steps h hs f with
  | running h1 h2 => rw [hd] at h2; cases h2
  | finished v h1 h2 h3 =>
    rcases h3 with h3 | h3
    · rw [hd] at h3; cases h3
    · rw [hd] at h3; cases h3; exact .inl ⟨v, h1, rfl⟩
  | failed h1 h2 h3 =>
    rcases h3 with h3 | h3
    · rw [hd] at h3; cases h3
    · rw [hd] at h3; cases h3; exact .inr ⟨h1, rfl⟩

/-! ### C10 -/

/-- **C10**. A computation that throws leaves nothing in the cache. -/
theorem C10_key_not_stored {c : Cache.Config V} {n : Nat} {es : List (Event K V)} {s s' : State K V} (h : Exec c n es s)
    {r : Nat} {k : K} {before after : Bool} {res : Outcome V} (hs : Step c s (.compute r k before res after) s')
    (ht : computeLambda before res after = .throw) : ¬ Cached c s' k := by
  have i := (exec_inv h).step hs
  intro hc
  obtain ⟨v, hv⟩ := (cached_iff i k).mp hc
  cases hs with
  | computeOk _ _ rip v before after res hr hv' => rw [ht] at hv'; cases hv'
  | computeThrow _ _ rip before after res hr hv' =>
    obtain ⟨p, hp⟩ := i.reg r k rip (by simp [setReq_self, registered])
    exact i.notStored k _ hp v hv

/-- Starting is possible in every state. -/
theorem C10_start_total {c : Cache.Config V} {n : Nat} {es : List (Event K V)} {s : State K V} (h : Exec c n es s)
    {r : Nat} (k : K) (pinned : Bool) (hr : s.req r = .idle) : ∃ s', Step c s (.start r k pinned) s' := by
  have i := exec_inv h
  have hlook : ∀ (cs : Cache.State K V), Cache.Inv c cs → ∃ res c', Cache.Step c cs (.lookup k res) c' := by
    intro cs ic
    cases hp : find cs.pinnedMap k with
    | some v' => exact ⟨_, _, .lookupPinned k v' hp⟩
    | none =>
      cases ha : find cs.accessMap k with
      | none => exact ⟨_, _, .lookupNone k hp ha⟩
      | some hd =>
        obtain ⟨e, he, h1, h2, h3⟩ := ic.deref ha
        exact ⟨_, _, .lookup k hd e 0 hp ha h1⟩
  have hneg : ∀ c1, Cache.Step c s.cache (if pinned then .makePinned k false else .contains k false) c1 →
      ∃ s', Step c s (.start r k pinned) s' := by
    intro c1 hc
    cases hp : find s.inProg k with
    | none => exact ⟨_, .startCompute r k pinned c1 hr hc hp⟩
    | some p => exact ⟨_, .startWait r k pinned c1 p.1 p.2 hr hc hp⟩
  cases pinned with
  | false =>
    cases hb : Cache.contains s.cache k with
    | true =>
      have hc : Cache.Step c s.cache (.contains k true) s.cache := by rw [← hb]; exact .contains k
      obtain ⟨res, c2, hl⟩ := hlook s.cache i.cache
      exact ⟨_, .startCached r k res c2 hr hc hl⟩
    | false =>
      exact hneg s.cache (by simp only [Bool.false_eq_true, if_false]; rw [← hb]; exact .contains k)
  | true =>
    cases hp : find s.cache.pinnedMap k with
    | some v =>
      obtain ⟨res, c2, hl⟩ := hlook s.cache i.cache
      exact ⟨_, .startCachedPin r k res _ c2 hr (.makePinnedAlready k v hp) hl⟩
    | none =>
      cases ha : find s.cache.accessMap k with
      | none => exact hneg s.cache (.makePinnedAbsent k hp ha)
      | some hd =>
        obtain ⟨e, he, h1, h2, h3⟩ := i.cache.deref ha
        have hc : Cache.Step c s.cache (.makePinned k true) _ := .makePinned k hd e hp ha h1
        obtain ⟨res, c2, hl⟩ := hlook _ (Cache.step_inv hc i.cache)
        exact ⟨_, .startCachedPin r k res _ c2 hr hc hl⟩

/-- **C10**. Once the failed computation has been taken off the list (its next step), a request for the key starts a new
computation. -/
theorem C10_new_computation {c : Cache.Config V} {n : Nat} {es : List (Event K V)} {s s' s'' : State K V}
    (h : Exec c n es s) {r r2 : Nat} {k : K} {rip : Nat} {pinned : Bool} (hr : s.req r = .failing k rip)
    (hs : Step c s (.unregister r) s') (hs' : Step c s' (.start r2 k pinned) s'') :
    ∃ rip', s''.req r2 = .computing k rip' := by
  have i := exec_inv h
  have i' := i.step hs
  obtain ⟨p, hp⟩ := i.reg r k rip (by rw [hr]; rfl)
  have hnone : find s'.inProg k = none ∧ s'.cache = s.cache := by
    cases hs with
    | unregister _ k2 rip2 hr2 =>
      rw [hr] at hr2; cases hr2
      exact ⟨find_eraseKey_self _ _, rfl⟩
  have hns : ∀ v, ¬ Stored s'.cache k v := by rw [hnone.2]; exact i.notStored k _ hp
  cases hs' with
  | startCached _ _ res c2 hr hc hl =>
    obtain ⟨v, hv⟩ := (Cache.contains_stored hc i'.cache).2.2 rfl
    exact absurd hv (hns v)
  | startCachedPin _ _ res c1 c2 hr hc hl =>
    obtain ⟨v, hv, _⟩ := (Cache.makePinned_stored hc i'.cache).1 rfl
    exact absurd hv (hns v)
  | startWait _ _ pinned c1 p rip hr hc hp => rw [hnone.1] at hp; cases hp
  | startCompute _ _ pinned c1 hr hc hp => exact ⟨_, setReq_self _ _ _⟩

/-- More generally: a request for a key that is neither cached nor being computed by anybody starts a computation. -/
theorem C10_idle_key_computed {c : Cache.Config V} {n : Nat} {es : List (Event K V)} {s s' : State K V}
    (h : Exec c n es s) {r : Nat} {k : K} {pinned : Bool} (hs : Step c s (.start r k pinned) s')
    (hc : ¬ Cached c s k)
    (hno : ∀ r' rip, s.req r' ≠ .computing k rip ∧ (∀ v, s.req r' ≠ .computed k rip v) ∧ s.req r' ≠ .failing k rip) :
    ∃ rip, s'.req r = .computing k rip := by
  have i := exec_inv h
  have hns : ∀ v, ¬ Stored s.cache k v := fun v hv => hc ((cached_iff i k).mpr ⟨v, hv⟩)
  cases hs with
  | startCached _ _ res c2 hr hc hl =>
    obtain ⟨v, hv⟩ := (Cache.contains_stored hc i.cache).2.2 rfl
    exact absurd hv (hns v)
  | startCachedPin _ _ res c1 c2 hr hc hl =>
    obtain ⟨v, hv, _⟩ := (Cache.makePinned_stored hc i.cache).1 rfl
    exact absurd hv (hns v)
  | startWait _ _ pinned c1 p rip hr hc hp =>
    obtain ⟨r', hr'⟩ := i.regC k p rip hp
    obtain ⟨h1, h2, h3⟩ := hno r' rip
    cases hq : s.req r' with
    | computing k' rip' => rw [hq] at hr'; cases hr'; exact absurd hq h1
    | computed k' rip' v => rw [hq] at hr'; cases hr'; exact absurd hq (h2 v)
    | failing k' rip' => rw [hq] at hr'; cases hr'; exact absurd hq h3
    | _ => rw [hq] at hr'; simp [registered] at hr'
  | startCompute _ _ pinned c1 hr hc hp => exact ⟨_, setReq_self _ _ _⟩

/-- How many own steps a request that is responsible for a computation still needs at most. -/
def rank : Phase K V → Nat
  | .computing _ _ => 4
  | .computed _ _ _ => 3
  | .failing _ _ => 2
  | .moved _ _ _ | .aborting _ _ => 1
  | _ => 0

/-- **C10** (nobody is stuck). Every waiting request can either continue at once, or there is a request for the same key
that is responsible for the computation, is not waiting for that key itself and has a next step (if it is computing: whether
the computation succeeds or throws). -/
theorem C10_progress {c : Cache.Config V} {n : Nat} {es : List (Event K V)} {s : State K V} (h : Exec c n es s)
    {r : Nat} {k : K} {rip : Nat} (hr : s.req r = .waiting k rip) :
    (∃ s', Step c s (.wake r) s') ∨
    ∃ r', owns (s.req r') = some (k, rip) ∧
      ((s.req r' = .computing k rip ∧ ∀ before res after,
          (computeLambda before res after = .throw ∨ ∃ v, computeLambda before res after = .ok v) →
          ∃ s', Step c s (.compute r' k before res after) s') ∨
        (s.req r' ≠ .computing k rip ∧ ∃ e s', actor e = some r' ∧ Step c s e s')) := by
  have i := exec_inv h
  rcases i.wait r k rip hr with ⟨h1, r', h2⟩ | ⟨v, h1, _⟩ | h1
  · right
    refine ⟨r', h2, ?_⟩
    cases hq : s.req r' with
    | computing k' rip' =>
      rw [hq] at h2; cases h2
      left
      refine ⟨rfl, ?_⟩
      intro before res after ho
      rcases ho with ho | ⟨v, ho⟩
      · exact ⟨_, .computeThrow r' k rip before after res hq ho⟩
      · exact ⟨_, .computeOk r' k rip v before after res hq ho⟩
    | computed k' rip' v =>
      rw [hq] at h2; cases h2
      right
      refine ⟨by simp, .move r', ?_⟩
      obtain ⟨p, hp⟩ := i.reg r' k rip (by rw [hq]; rfl)
      have hns := i.notStored k _ hp
      have hc : Cache.contains s.cache k = false := by
        cases hc : Cache.contains s.cache k with
        | false => rfl
        | true =>
          obtain ⟨v, hv⟩ := (Cache.contains_iff i.cache k).mp hc
          exact absurd hv (hns v)
      by_cases hsz : c.sizeOf v ≤ c.maxSizeSingleEntry
      · cases p with
        | true =>
          obtain ⟨c1, hc1⟩ := Cache.shrink_total c _ (Cache.pinnedPushed c s.cache k v) rfl
          exact ⟨_, rfl, .movePinned r' k rip v rip c1 hq hp (.insertPinned k v hc hsz hc1)⟩
        | false =>
          obtain ⟨c1, hc1⟩ := Cache.shrink_total c _ (Cache.pushed c s.cache k v 0) rfl
          exact ⟨_, rfl, .move r' k rip v rip c1 _ hq hp (.inl rfl) (.insert k v 0 hc hsz hc1)⟩
      · cases p with
        | true => exact ⟨_, rfl, .movePinnedThrow r' k rip v rip _ hq hp (.insertPinnedRefused k v (.inr (by omega)))⟩
        | false => exact ⟨_, rfl, .move r' k rip v rip _ _ hq hp (.inr rfl) (.insertIgnored k v hc (by omega))⟩
    | moved k' rip' v =>
      rw [hq] at h2; cases h2
      exact .inr ⟨by simp, .finish r', _, rfl, .finish r' k rip v hq h1⟩
    | failing k' rip' =>
      rw [hq] at h2; cases h2
      exact .inr ⟨by simp, .unregister r', _, rfl, .unregister r' k rip hq⟩
    | aborting k' rip' =>
      rw [hq] at h2; cases h2
      exact .inr ⟨by simp, .abort r', _, rfl, .abort r' k rip hq⟩
    | _ => rw [hq] at h2; simp [owns] at h2
  · exact .inl ⟨_, .wakeOk r k rip v hr h1⟩
  · exact .inl ⟨_, .wakeAborted r k rip hr h1⟩

/-- **C10** (bounded). Each step of the responsible request brings it closer to its end, and steps of others do not set it
back; so a waiting request can continue after at most four steps of the responsible one. -/
theorem C10_rank {c : Cache.Config V} {n : Nat} {es : List (Event K V)} {s s' : State K V} (h : Exec c n es s)
    {e : Event K V} (hs : Step c s e s') {r : Nat} {x : K × Nat} (ho : owns (s.req r) = some x) :
    (actor e = some r → rank (s'.req r) < rank (s.req r)) ∧ (actor e ≠ some r → s'.req r = s.req r) := by
  have i := exec_inv h
  refine ⟨fun ha => ?_, step_frame hs r⟩
  cases hs with
  | maintenance e' c1 he hs => simp [actor] at ha
  | startCached r2 k2 res c2 hr2 | startCachedPin r2 k2 res c1 c2 hr2 | startWait r2 k2 p c1 p2 rip2 hr2
  | startCompute r2 k2 p c1 hr2 | wakeOk r2 k2 rip2 v hr2 | wakeAborted r2 k2 rip2 hr2 =>
    simp only [actor, Option.some.injEq] at ha; subst ha
    rw [hr2] at ho; simp [owns] at ho
  | finishCheck r2 k2 rip2 v hr2 hs => exact absurd (i.own r2 k2 rip2 (by rw [hr2]; rfl)) hs
  | computeOk r2 k2 rip2 v b a res hr2 hv | computeThrow r2 k2 rip2 b a res hr2 hv
  | moveCheck r2 k2 rip2 v hr2 hp | movePinned r2 k2 rip2 v rip' c1 hr2 hp hi
  | movePinnedThrow r2 k2 rip2 v rip' c1 hr2 hp hi | move r2 k2 rip2 v rip' c1 e' hr2 hp he hi
  | moveThrow r2 k2 rip2 v rip' c1 hr2 hp hi | finish r2 k2 rip2 v hr2 hs | unregister r2 k2 rip2 hr2
  | abort r2 k2 rip2 hr2 =>
    simp only [actor, Option.some.injEq] at ha; subst ha
    simp [hr2, setReq_self, rank]

/-- **C10** (internal checks). None of the `AD_CHECK`s of the concurrent cache can fail: a finished computation finds its
entry in the list, and its shared object is still in progress when it is settled. Also `insert`/`insertPinned` never find the
key already present. -/
theorem C10_checks_hold {c : Cache.Config V} {n : Nat} {es : List (Event K V)} {s : State K V} (h : Exec c n es s)
    {r : Nat} {k : K} {rip : Nat} :
    (∀ v, s.req r = .computed k rip v → (∃ p, find s.inProg k = some (p, rip)) ∧ Cache.contains s.cache k = false) ∧
    (∀ v, s.req r = .moved k rip v → s.rips[rip]? = some .inProgress) ∧
    (s.req r = .aborting k rip → s.rips[rip]? = some .inProgress) := by
  have i := exec_inv h
  refine ⟨fun v hr => ?_, fun v hr => i.own r k rip (by rw [hr]; rfl), fun hr => i.own r k rip (by rw [hr]; rfl)⟩
  obtain ⟨p, hp⟩ := i.reg r k rip (by rw [hr]; rfl)
  refine ⟨⟨p, hp⟩, ?_⟩
  cases hc : Cache.contains s.cache k with
  | false => rfl
  | true =>
    obtain ⟨v, hv⟩ := (Cache.contains_iff i.cache k).mp hc
    exact absurd hv (i.notStored k _ hp v)

/-! ### C46 -/

theorem computeLambda_ok {before after : Bool} {res : Outcome V} {v : V} (h : computeLambda before res after = .ok v) :
    before = false ∧ res = .ok v ∧ after = false := by
  unfold computeLambda at h
  cases before <;> cases res <;> cases after <;> simp at h ⊢
  exact h

/-- **C46**. Whatever can be looked up in the cache was returned by an operation that completed without exception and had
not run out of time, neither before nor after computing. -/
theorem C46_cached_complete {c : Cache.Config V} {n : Nat} {es : List (Event K V)} {s : State K V} (h : Exec c n es s)
    {k : K} {v : V} {c'} (hl : Cache.Step c s.cache (.lookup k (some v)) c') :
    ∃ r, .compute r k false (.ok v) false ∈ es := by
  have i := exec_inv h
  obtain ⟨r, b, res, a, h1, h2⟩ := i.prov k v ((Cache.lookup_stored hl i.cache).1 v rfl)
  obtain ⟨rfl, rfl, rfl⟩ := computeLambda_ok h2
  exact ⟨r, h1⟩

/-- **C46**. Whatever a request returns was returned by an operation that completed without exception and in time. -/
theorem C46_returned_complete {c : Cache.Config V} {n : Nat} {es : List (Event K V)} {s : State K V} (h : Exec c n es s)
    {r : Nat} {k : K} {v : V} {b : Bool} (hr : s.req r = .done k (.value v b)) :
    ∃ r', .compute r' k false (.ok v) false ∈ es := by
  obtain ⟨r', b', res, a, h1, h2⟩ := (C09_results h hr).2 v b rfl
  obtain ⟨rfl, rfl, rfl⟩ := computeLambda_ok h2
  exact ⟨r', h1⟩

/-- **C46**. A request whose computation throws or exceeds the time limit (noticed before or after computing) ends with an
exception: in every continuation it is on its way there or has ended so. -/
theorem C46_requester_gets_exception {c : Cache.Config V} {s s' s'' : State K V}
    {r : Nat} {k : K} {before after : Bool} {res : Outcome V} (hs : Step c s (.compute r k before res after) s')
    (hbad : before = true ∨ res = .throw ∨ after = true) (hc : Steps c s' s'') :
    (∃ rip, s''.req r = .failing k rip) ∨ (∃ rip, s''.req r = .aborting k rip) ∨ s''.req r = .done k .exception := by
  induction hc with
  | refl =>
    cases hs with
    | computeOk _ _ rip v before after res hr hv =>
      obtain ⟨rfl, rfl, rfl⟩ := computeLambda_ok hv
      simp at hbad
    | computeThrow _ _ rip before after res hr hv => exact .inl ⟨rip, setReq_self _ _ _⟩
  | tail e hc' hst ih =>
    rename_i s1 s2
    rcases ih with ⟨rip, h1⟩ | ⟨rip, h1⟩ | h1
    · by_cases ha : actor e = some r
      · cases hst with
        | unregister r2 k2 rip2 hr2 =>
          simp only [actor, Option.some.injEq] at ha; subst ha
          rw [h1] at hr2; cases hr2
          exact .inr (.inl ⟨_, setReq_self _ _ _⟩)
        | maintenance e' c1 he hs => simp [actor] at ha
        | _ =>
          exfalso
          simp only [actor, Option.some.injEq] at ha
          subst ha
          simp_all
      · left; exact ⟨rip, by rw [step_frame hst r ha]; exact h1⟩
    · by_cases ha : actor e = some r
      · cases hst with
        | abort r2 k2 rip2 hr2 =>
          simp only [actor, Option.some.injEq] at ha; subst ha
          rw [h1] at hr2; cases hr2
          exact .inr (.inr (setReq_self _ _ _))
        | maintenance e' c1 he hs => simp [actor] at ha
        | _ =>
          exfalso
          simp only [actor, Option.some.injEq] at ha
          subst ha
          simp_all
      · right; left; exact ⟨rip, by rw [step_frame hst r ha]; exact h1⟩
    · exact .inr (.inr (step_done hst r k _ h1))

/-! ### Non-vacuity and a surprising behaviour -/

/-- A limit of 5 per entry. -/
def demo : Cache.Config Nat := ⟨100, 5, id⟩

/-- Request 0 computes key 7, request 1 waits, the computation succeeds, both return 3. -/
example : ∃ s, Exec (K := Nat) demo 10
    ([] ++ [.start 0 7 false] ++ [.start 1 7 false] ++ [.compute 0 7 false (.ok 3) false] ++ [.move 0] ++ [.finish 0] ++
      [.wake 1]) s ∧ s.req 0 = .done 7 (.value 3 false) ∧ s.req 1 = .done 7 (.value 3 false) := by
  refine ⟨_, .snoc _ (.snoc _ (.snoc _ (.snoc _ (.snoc _ (.snoc _ .nil
    (.startCompute 0 7 false _ rfl (.contains 7) rfl)) (.startWait 1 7 false _ false 0 rfl (.contains 7) rfl))
    (.computeOk 0 7 0 3 false false (.ok 3) rfl rfl))
    (.move 0 7 0 3 0 _ _ rfl rfl (.inl rfl) (.insert 7 3 1 rfl (by decide) (.done ?_))))
    (.finish 0 7 0 3 rfl rfl)) (.wakeOk 1 7 0 3 rfl rfl), rfl, rfl⟩
  right; decide

/-- The same with a computation that runs out of time; afterwards request 2 computes again. -/
example : ∃ s, Exec (K := Nat) demo 10
    ([] ++ [.start 0 7 false] ++ [.start 1 7 false] ++ [.compute 0 7 false (.ok 3) true] ++ [.unregister 0] ++
      [.start 2 7 false] ++ [.abort 0] ++ [.wake 1]) s ∧ s.req 0 = .done 7 .exception ∧ s.req 1 = .done 7 .waitedFailed ∧
      s.req 2 = .computing 7 1 := by
  exact ⟨_, .snoc _ (.snoc _ (.snoc _ (.snoc _ (.snoc _ (.snoc _ (.snoc _ .nil
    (.startCompute 0 7 false _ rfl (.contains 7) rfl)) (.startWait 1 7 false _ false 0 rfl (.contains 7) rfl))
    (.computeThrow 0 7 0 false true (.ok 3) rfl rfl)) (.unregister 0 7 0 rfl))
    (.startCompute 2 7 false _ rfl (.contains 7) rfl)) (.abort 0 7 0 rfl)) (.wakeAborted 1 7 0 rfl rfl), rfl, rfl, rfl⟩

/-- Surprising: a request whose computation succeeded can still end with an exception because of another request.  The
result (size 9) is too large for the cache, which does not matter to request 0; but request 1 asks for the same key to be
pinned, so storing the result throws, and the exception reaches request 0. -/
theorem C10_pinning_spoils_other_request : ∃ s, Exec (K := Nat) demo 10
    ([] ++ [.start 0 7 false] ++ [.start 1 7 true] ++ [.compute 0 7 false (.ok 9) false] ++ [.move 0] ++ [.unregister 0] ++
      [.abort 0]) s ∧ s.req 0 = .done 7 .exception := by
  exact ⟨_, .snoc _ (.snoc _ (.snoc _ (.snoc _ (.snoc _ (.snoc _ .nil
    (.startCompute 0 7 false _ rfl (.contains 7) rfl)) (.startWait 1 7 true _ false 0 rfl (.makePinnedAbsent 7 rfl rfl) rfl))
    (.computeOk 0 7 0 9 false false (.ok 9) rfl rfl))
    (.movePinnedThrow 0 7 0 9 0 _ rfl rfl (.insertPinnedRefused 7 9 (.inr (by decide)))))
    (.unregister 0 7 0 rfl)) (.abort 0 7 0 rfl), rfl⟩

end Verif.ConcurrentCache
