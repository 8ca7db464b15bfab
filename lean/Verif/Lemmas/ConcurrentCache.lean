import Verif.Model.ConcurrentCache
import Verif.Lemmas.Cache
/-
Invariant of the concurrent cache.
-/
namespace Verif.Cache
open CacheSpec (Ev)
set_option linter.unusedSectionVars false
variable {K V : Type} [DecidableEq K] [DecidableEq V]

/-- `v` is in the cache under `k`. -/
def Stored (s : State K V) (k : K) (v : V) : Prop :=
  (k, v) ∈ s.pinnedMap ∨ ∃ e ∈ s.entries, e.key = k ∧ e.val = v

theorem stored_shrink {c : Config V} {s s' : State K V} (h : Shrink c s s') (i : Inv c s) {k v}
    (hs : Stored s' k v) : Stored s k v := by
  obtain ⟨_, _, hp, hsub, _⟩ := shrink_inv h i
  rcases hs with hs | ⟨e, he, h1, h2⟩
  · left; rw [← hp]; exact hs
  · exact .inr ⟨e, hsub.subset he, h1, h2⟩

theorem stored_step {c : Config V} {s s' : State K V} {e : Ev K V} (h : Step c s e s') (i : Inv c s) {k v}
    (hs : Stored s' k v) : Stored s k v ∨ e = .insert k v ∨ e = .insertPinned k v := by
  cases h with
  | insert k' v' score hc hsz hr =>
    rcases stored_shrink hr (i.pushed v' score hc) hs with h1 | ⟨e, he, h1, h2⟩
    · exact .inl (.inl h1)
    · simp only [pushed] at he
      rcases List.mem_cons.mp he with rfl | he
      · right; left; simp only at h1 h2; rw [h1, h2]
      · exact .inl (.inr ⟨e, he, h1, h2⟩)
  | insertPinned k' v' hc hsz hr =>
    rcases stored_shrink hr (i.pinnedPushed v' hc) hs with h1 | h1
    · simp only [pinnedPushed, setKey] at h1
      rcases List.mem_cons.mp h1 with h1 | h1
      · right; right; cases h1; rfl
      · exact .inl (.inl (mem_eraseKey.mp h1).1)
    · exact .inl (.inr h1)
  | lookup k' h e n hp ha hd =>
    rcases hs with hs | ⟨e', he', h1, h2⟩
    · exact .inl (.inl hs)
    · obtain ⟨y, hy, rfl⟩ := List.mem_map.mp he'
      left; right
      refine ⟨y, hy, ?_, ?_⟩
      · split at h1 <;> exact h1
      · split at h2 <;> exact h2
  | makePinned k' h e hp ha hd =>
    obtain ⟨e', he', hd', hk, hh⟩ := i.deref ha
    have hee : e = e' := by rw [hd] at hd'; exact Option.some.inj hd'
    subst hee
    rcases hs with hs | ⟨x, hx, h1, h2⟩
    · simp only [setKey] at hs
      rcases List.mem_cons.mp hs with h1 | h1
      · cases h1; exact .inl (.inr ⟨e, he', hk, rfl⟩)
      · exact .inl (.inl (mem_eraseKey.mp h1).1)
    · exact .inl (.inr ⟨x, List.mem_of_mem_erase hx, h1, h2⟩)
  | erasePinned k' v' hf =>
    rcases hs with hs | hs
    · exact .inl (.inl (mem_eraseKey.mp hs).1)
    · exact .inl (.inr hs)
  | erase k' h e hp ha hd =>
    rcases hs with hs | ⟨x, hx, h1, h2⟩
    · exact .inl (.inl hs)
    · exact .inl (.inr ⟨x, List.mem_of_mem_erase hx, h1, h2⟩)
  | clearUnpinnedOnly =>
    rcases hs with hs | ⟨x, hx, h1, h2⟩
    · exact .inl (.inl hs)
    · simp at hx
  | clearAll =>
    rcases hs with hs | ⟨x, hx, h1, h2⟩
    · simp at hs
    · simp at hx
  | setMaxNumEntries n hr =>
    exact .inl (stored_shrink hr ⟨i.acc, i.keys, i.handles, i.hlt, i.pkeys, i.disj, i.tnp, i.tp⟩ hs)
  | _ => exact .inl hs

theorem step_inv {c : Config V} {s s' : State K V} {e : Ev K V} (h : Step c s e s') (i : Inv c s) : Inv c s' := by
  -- the invariant does not depend on the limits: use the simulation with a state that satisfies the link
  cases h with
  | insert k v score hc hsz hr => exact (shrink_inv hr (i.pushed v score hc)).1
  | insertPinned k v hc hsz hr => exact (shrink_inv hr (i.pinnedPushed v hc)).1
  | setMaxNumEntries n hr =>
    exact (shrink_inv hr ⟨i.acc, i.keys, i.handles, i.hlt, i.pkeys, i.disj, i.tnp, i.tp⟩).1
  | lookup k h e n hp ha hd =>
    refine ⟨?_, ?_, ?_, ?_, i.pkeys, ?_, ?_, i.tp⟩
    · simp only; rw [map_score_eq _ _ _ _ (fun _ => rfl)]; exact i.acc
    · simp only; rw [map_score_eq _ _ _ _ (fun _ => rfl)]; exact i.keys
    · simp only; rw [map_score_eq _ _ _ _ (fun _ => rfl)]; exact i.handles
    · intro x hx
      obtain ⟨y, hy, rfl⟩ := List.mem_map.mp hx
      have := i.hlt y hy
      split <;> exact this
    · intro x hx
      obtain ⟨y, hy, rfl⟩ := List.mem_map.mp hx
      have := i.disj y hy
      split <;> exact this
    · simp only; rw [map_score_eq _ _ _ _ (fun _ => rfl)]; exact i.tnp
  | makePinned k h e hp ha hd =>
    have h1 := find_none.mp hp
    obtain ⟨e', he', hd', hk, hh⟩ := i.deref ha
    have hee : e = e' := by rw [hd] at hd'; exact Option.some.inj hd'
    subst hee
    have ir := i.remove he'
    have hperm := List.perm_cons_erase he'
    have hkeys : (e.key :: (s.entries.erase e).map (·.key)).Nodup := by
      have := (hperm.map (·.key)).nodup_iff.mp i.keys
      simpa using this
    have hset : setKey s.pinnedMap k e.val = (k, e.val) :: s.pinnedMap := by
      simp only [setKey, eraseKey_of_not_mem h1]
    refine ⟨?_, ir.keys, ir.handles, ir.hlt, ?_, ?_, ir.tnp, ?_⟩
    · have := ir.acc; simp only [hk] at this; exact this
    · simp only [hset, List.map_cons]; exact List.nodup_cons.mpr ⟨h1, i.pkeys⟩
    · intro x hx p hp
      simp only [hset] at hp
      rcases List.mem_cons.mp hp with rfl | hp
      · intro hxk
        simp only at hxk
        rw [← hk] at hxk
        exact (List.nodup_cons.mp hkeys).1 (List.mem_map.mpr ⟨x, hx, hxk⟩)
      · exact i.disj x (List.mem_of_mem_erase hx) p hp
    · simp only [hset, List.map_cons, sumSize_cons, i.tp]; omega
  | erasePinned k v hf =>
    have hperm := eraseKey_perm i.pkeys (find_some hf)
    refine ⟨i.acc, i.keys, i.handles, i.hlt, eraseKey_keys_nodup i.pkeys k, ?_, i.tnp, ?_⟩
    · intro e he p hp; exact i.disj e he p (mem_eraseKey.mp hp).1
    · have := sumSize_perm c (hperm.map (·.2))
      rw [List.map_cons, sumSize_cons, ← i.tp] at this
      simp only at this
      simp only [subWrap]
      rw [if_pos (by omega)]
      omega
  | erase k h e hp ha hd =>
    obtain ⟨e', he', hd', hk, hh⟩ := i.deref ha
    have hee : e = e' := by rw [hd] at hd'; exact Option.some.inj hd'
    subst hee
    have ir := i.remove he'
    simp only [hk] at ir; exact ir
  | clearUnpinnedOnly => exact ⟨by simp, by simp, by simp, by simp, i.pkeys, by simp, rfl, i.tp⟩
  | clearAll => exact ⟨by simp, by simp, by simp, by simp, by simp, by simp, rfl, rfl⟩
  | _ => exact i

theorem contains_iff {c : Config V} {s : State K V} (i : Inv c s) (k : K) :
    contains s k = true ↔ ∃ v, Stored s k v := by
  constructor
  · intro h
    rcases contains_true i h with h | ⟨e, he, hk⟩
    · obtain ⟨p, hp, hk⟩ := List.mem_map.mp h
      exact ⟨p.2, .inl (by rw [← hk]; exact hp)⟩
    · exact ⟨e.val, .inr ⟨e, he, hk, rfl⟩⟩
  · rintro ⟨v, h⟩
    cases hc : contains s k with
    | true => rfl
    | false =>
      exfalso
      obtain ⟨h1, h2⟩ := contains_false i hc
      rcases h with h | ⟨e, he, hk, _⟩
      · exact h1 (List.mem_map.mpr ⟨_, h, rfl⟩)
      · exact h2 e he hk

theorem lookup_stored {c : Config V} {s s' : State K V} {k : K} {r : Option V} (h : Step c s (.lookup k r) s')
    (i : Inv c s) : (∀ v, r = some v → Stored s k v) ∧ (r = none → ∀ v, ¬ Stored s k v) := by
  cases h with
  | lookupPinned k v hf => exact ⟨fun v' hv => by cases hv; exact .inl (find_some hf), by simp⟩
  | lookupNone k hp ha =>
    refine ⟨by simp, fun _ v hs => ?_⟩
    rcases hs with hs | ⟨e, he, hk, _⟩
    · exact find_none.mp hp (List.mem_map.mpr ⟨_, hs, rfl⟩)
    · exact find_none.mp ha ((i.acc_keys k).mpr ⟨e, he, hk⟩)
  | lookup k h e n hp ha hd =>
    obtain ⟨e', he', hd', hk, hh⟩ := i.deref ha
    have hee : e = e' := by rw [hd] at hd'; exact Option.some.inj hd'
    subst hee
    exact ⟨fun v hv => by cases hv; exact .inr ⟨e, he', hk, rfl⟩, by simp⟩

theorem makePinned_stored {c : Config V} {s s' : State K V} {k : K} {b : Bool} (h : Step c s (.makePinned k b) s')
    (i : Inv c s) : (b = true → ∃ v, Stored s k v ∧ Stored s' k v) ∧ (b = false → s' = s ∧ ∀ v, ¬ Stored s k v) := by
  cases h with
  | makePinnedAlready k v hf => exact ⟨fun _ => ⟨v, .inl (find_some hf), .inl (find_some hf)⟩, by simp⟩
  | makePinnedAbsent k hp ha =>
    refine ⟨by simp, fun _ => ⟨rfl, fun v hs => ?_⟩⟩
    rcases hs with hs | ⟨e, he, hk, _⟩
    · exact find_none.mp hp (List.mem_map.mpr ⟨_, hs, rfl⟩)
    · exact find_none.mp ha ((i.acc_keys k).mpr ⟨e, he, hk⟩)
  | makePinned k h e hp ha hd =>
    obtain ⟨e', he', hd', hk, hh⟩ := i.deref ha
    have hee : e = e' := by rw [hd] at hd'; exact Option.some.inj hd'
    subst hee
    exact ⟨fun _ => ⟨e.val, .inr ⟨e, he', hk, rfl⟩, .inl List.mem_cons_self⟩, by simp⟩

theorem contains_stored {c : Config V} {s s' : State K V} {k : K} {b : Bool} (h : Step c s (.contains k b) s')
    (i : Inv c s) : s' = s ∧ (b = false → ∀ v, ¬ Stored s k v) ∧ (b = true → ∃ v, Stored s k v) := by
  have hb : b = contains s k ∧ s' = s := by cases h; exact ⟨rfl, rfl⟩
  refine ⟨hb.2, ?_, ?_⟩
  · intro hf v hs
    have := (contains_iff i k).mpr ⟨v, hs⟩
    rw [← hb.1, hf] at this
    simp at this
  · intro ht
    exact (contains_iff i k).mp (by rw [← hb.1, ht])

end Verif.Cache

namespace Verif.ConcurrentCache
open CacheSpec (Ev)
open Cache (find setKey eraseKey Stored find_some find_none find_mem mem_eraseKey eraseKey_keys_nodup)
set_option linter.unusedSectionVars false
variable {K V : Type} [DecidableEq K] [DecidableEq V]

/-- The computation a request is responsible for. -/
def owns : Phase K V → Option (K × Nat)
  | .computing k rip | .computed k rip _ | .moved k rip _ | .failing k rip | .aborting k rip => some (k, rip)
  | _ => none

/-- The computation a request has an entry in `_inProgress` for. -/
def registered : Phase K V → Option (K × Nat)
  | .computing k rip | .computed k rip _ | .failing k rip => some (k, rip)
  | _ => none

/-- A computation of `k` has delivered `v`. -/
def Computed (es : List (Event K V)) (k : K) (v : V) : Prop :=
  ∃ r before res after, Event.compute r k before res after ∈ es ∧ computeLambda before res after = .ok v

theorem Computed.mono {es : List (Event K V)} {k : K} {v : V} (e) (h : Computed es k v) : Computed (es ++ [e]) k v := by
  obtain ⟨r, b, res, a, h1, h2⟩ := h
  exact ⟨r, b, res, a, List.mem_append_left _ h1, h2⟩

structure Inv (c : Cache.Config V) (es : List (Event K V)) (s : State K V) : Prop where
  cache : Cache.Inv c s.cache
  keys : (s.inProg.map (·.1)).Nodup
  reg : ∀ r k rip, registered (s.req r) = some (k, rip) → ∃ p, find s.inProg k = some (p, rip)
  regC : ∀ k p rip, find s.inProg k = some (p, rip) → ∃ r, registered (s.req r) = some (k, rip)
  own : ∀ r k rip, owns (s.req r) = some (k, rip) → s.rips[rip]? = some .inProgress
  ownU : ∀ r r' k k' rip, owns (s.req r) = some (k, rip) → owns (s.req r') = some (k', rip) → r = r'
  notStored : ∀ k p, find s.inProg k = some p → ∀ v, ¬ Stored s.cache k v
  prov : ∀ k v, Stored s.cache k v → Computed es k v
  val : ∀ r k rip v, s.req r = .computed k rip v ∨ s.req r = .moved k rip v → Computed es k v
  wait : ∀ r k rip, s.req r = .waiting k rip →
    (s.rips[rip]? = some .inProgress ∧ ∃ r', owns (s.req r') = some (k, rip)) ∨
    (∃ v, s.rips[rip]? = some (.finished v) ∧ Computed es k v) ∨ s.rips[rip]? = some .aborted
  res : ∀ r k v b, s.req r = .done k (.value v b) → Computed es k v
  notNull : ∀ r k, s.req r ≠ .done k .null

theorem registered_owns {p : Phase K V} {x : K × Nat} (h : registered p = some x) : owns p = some x := by
  cases p <;> simp [registered, owns] at h ⊢ <;> exact h

theorem find_setKey_self (m : List (K × α)) (k : K) (x : α) : find (setKey m k x) k = some x := by
  simp [find, setKey]

theorem find_eraseKey_self (m : List (K × α)) (k : K) : find (eraseKey m k) k = none := by
  rw [find_none]
  intro h
  obtain ⟨p, hp, hk⟩ := List.mem_map.mp h
  exact (mem_eraseKey.mp hp).2 hk

theorem find_eraseKey_ne {m : List (K × α)} {k k' : K} (h : k' ≠ k) : find (eraseKey m k) k' = find m k' := by
  induction m with
  | nil => rfl
  | cons a m ih =>
    simp only [find, eraseKey, List.filter_cons, List.find?_cons] at ih ⊢
    by_cases ha : a.1 = k
    · have : ¬ a.1 = k' := fun h' => h (h'.symm.trans ha)
      simp only [ha, Bool.false_eq_true, if_false, ne_eq, not_true_eq_false, decide_false,
        show ¬ k = k' from fun h' => h h'.symm]
      exact ih
    · by_cases hb : a.1 = k'
      · simp [hb, h]
      · simp [ha, hb]
        simpa using ih

theorem find_setKey_ne {m : List (K × α)} {k k' : K} (h : k' ≠ k) (x : α) : find (setKey m k x) k' = find m k' := by
  have : find (setKey m k x) k' = find (eraseKey m k) k' := by
    simp only [find, setKey, List.find?_cons]
    simp [show ¬ k = k' from fun h' => h h'.symm]
  rw [this, find_eraseKey_ne h]

theorem setKey_keys_nodup {m : List (K × α)} (h : (m.map (·.1)).Nodup) (k : K) (x : α) :
    ((setKey m k x).map (·.1)).Nodup := by
  simp only [setKey, List.map_cons]
  refine List.nodup_cons.mpr ⟨?_, eraseKey_keys_nodup h k⟩
  exact find_none.mp (find_eraseKey_self m k)

theorem setReq_self (f : Nat → Phase K V) (r : Nat) (p : Phase K V) : setReq f r p r = p := by simp [setReq]

theorem setReq_ne (f : Nat → Phase K V) {r x : Nat} (p : Phase K V) (h : x ≠ r) : setReq f r p x = f x := by
  simp [setReq, h]

/-- A step of a request that keeps what it is responsible for, with a possible step of the cache that stores nothing
new. -/
theorem Inv.keep {c : Cache.Config V} {es : List (Event K V)} {s : State K V} (i : Inv c es s) (e : Event K V)
    (r : Nat) (q : Phase K V) (c1 : Cache.State K V)
    (hown : owns q = owns (s.req r)) (hreg : registered q = registered (s.req r))
    (hc : Cache.Inv c c1) (hst : ∀ k v, Stored c1 k v → Stored s.cache k v)
    (hval : ∀ k rip v, q = .computed k rip v ∨ q = .moved k rip v → Computed (es ++ [e]) k v)
    (hwait : ∀ k rip, q ≠ .waiting k rip)
    (hres : ∀ k v b, q = .done k (.value v b) → Computed (es ++ [e]) k v) (hnull : ∀ k, q ≠ .done k .null) :
    Inv c (es ++ [e]) { s with cache := c1, req := setReq s.req r q } := by
  have ho : ∀ x, owns (setReq s.req r q x) = owns (s.req x) := by
    intro x; by_cases h : x = r
    · subst h; rw [setReq_self, hown]
    · rw [setReq_ne _ _ h]
  have hr : ∀ x, registered (setReq s.req r q x) = registered (s.req x) := by
    intro x; by_cases h : x = r
    · subst h; rw [setReq_self, hreg]
    · rw [setReq_ne _ _ h]
  refine ⟨hc, i.keys, ?_, ?_, ?_, ?_, ?_, ?_, ?_, ?_, ?_, ?_⟩
  · intro x k rip h; simp only [hr] at h; exact i.reg x k rip h
  · intro k p rip h; obtain ⟨x, hx⟩ := i.regC k p rip h; exact ⟨x, by simp only [hr]; exact hx⟩
  · intro x k rip h; simp only [ho] at h; exact i.own x k rip h
  · intro x y k k' rip h1 h2; simp only [ho] at h1 h2; exact i.ownU x y k k' rip h1 h2
  · intro k p h v hs; exact i.notStored k p h v (hst k v hs)
  · intro k v hs; exact (i.prov k v (hst k v hs)).mono e
  · intro x k rip v h
    by_cases hx : x = r
    · subst hx; simp only [setReq_self] at h; exact hval k rip v h
    · simp only [setReq_ne _ _ hx] at h; exact (i.val x k rip v h).mono e
  · intro x k rip h
    by_cases hx : x = r
    · subst hx; simp only [setReq_self] at h; exact absurd h (hwait k rip)
    · simp only [setReq_ne _ _ hx] at h
      rcases i.wait x k rip h with ⟨h1, y, h2⟩ | ⟨v, h1, h2⟩ | h1
      · exact .inl ⟨h1, y, by simp only [ho]; exact h2⟩
      · exact .inr (.inl ⟨v, h1, h2.mono e⟩)
      · exact .inr (.inr h1)
  · intro x k v b h
    by_cases hx : x = r
    · subst hx; simp only [setReq_self] at h; exact hres k v b h
    · simp only [setReq_ne _ _ hx] at h; exact (i.res x k v b h).mono e
  · intro x k h
    by_cases hx : x = r
    · subst hx; simp only [setReq_self] at h; exact hnull k h
    · simp only [setReq_ne _ _ hx] at h; exact i.notNull x k h

/-- The owner of a computation takes it out of `_inProgress`; the only thing the cache may gain is the result. -/
theorem Inv.leave {c : Cache.Config V} {es : List (Event K V)} {s : State K V} (i : Inv c es s) (e : Event K V)
    (r : Nat) (k : K) (rip : Nat) (q : Phase K V) (c1 : Cache.State K V)
    (hown : owns q = some (k, rip)) (hq : registered q = none) (hreg : registered (s.req r) = some (k, rip))
    (hc : Cache.Inv c c1)
    (hst : ∀ k' v, Stored c1 k' v → Stored s.cache k' v ∨ k' = k ∧ Computed es k' v)
    (hval : ∀ k rip v, q = .computed k rip v ∨ q = .moved k rip v → Computed es k v) :
    Inv c (es ++ [e]) { s with cache := c1, inProg := eraseKey s.inProg k, req := setReq s.req r q } := by
  have ho : ∀ x, owns (setReq s.req r q x) = owns (s.req x) := by
    intro x; by_cases h : x = r
    · subst h; rw [setReq_self, hown, registered_owns hreg]
    · rw [setReq_ne _ _ h]
  have hqd : ∀ k res, q ≠ .done k res := by intro k res h; rw [h] at hown; simp [owns] at hown
  have hqw : ∀ k rip, q ≠ .waiting k rip := by intro k res h; rw [h] at hown; simp [owns] at hown
  have hipr : ∃ p, find s.inProg k = some (p, rip) := i.reg r k rip hreg
  obtain ⟨p0, hp0⟩ := hipr
  refine ⟨hc, eraseKey_keys_nodup i.keys k, ?_, ?_, ?_, ?_, ?_, ?_, ?_, ?_, ?_, ?_⟩
  · intro x k' rip' h
    by_cases hx : x = r
    · subst hx; simp only [setReq_self, hq] at h; simp at h
    · simp only [setReq_ne _ _ hx] at h
      have hk : k' ≠ k := by
        intro hk; subst hk
        obtain ⟨p, hp⟩ := i.reg x k' rip' h
        have hr : rip' = rip := by rw [hp0] at hp; cases hp; rfl
        subst hr
        exact hx (i.ownU x r k' k' rip' (registered_owns h) (registered_owns hreg))
      obtain ⟨p, hp⟩ := i.reg x k' rip' h
      exact ⟨p, by simp only; rw [find_eraseKey_ne hk]; exact hp⟩
  · intro k' p rip' h
    simp only at h
    have hk : k' ≠ k := by intro hk; subst hk; rw [find_eraseKey_self] at h; simp at h
    rw [find_eraseKey_ne hk] at h
    obtain ⟨x, hx⟩ := i.regC k' p rip' h
    have hxr : x ≠ r := by intro hxr; subst hxr; rw [hreg] at hx; cases hx; exact hk rfl
    exact ⟨x, by simp only [setReq_ne _ _ hxr]; exact hx⟩
  · intro x k rip h; simp only [ho] at h; exact i.own x k rip h
  · intro x y k k' rip h1 h2; simp only [ho] at h1 h2; exact i.ownU x y k k' rip h1 h2
  · intro k' p h v hs
    simp only at h
    have hk : k' ≠ k := by intro hk; subst hk; rw [find_eraseKey_self] at h; simp at h
    rw [find_eraseKey_ne hk] at h
    rcases hst k' v hs with hs | ⟨h1, _⟩
    · exact i.notStored k' p h v hs
    · exact hk h1
  · intro k' v hs
    rcases hst k' v hs with h | ⟨_, h⟩
    · exact (i.prov k' v h).mono e
    · exact h.mono e
  · intro x k rip v h
    by_cases hx : x = r
    · subst hx; simp only [setReq_self] at h; exact (hval k rip v h).mono e
    · simp only [setReq_ne _ _ hx] at h; exact (i.val x k rip v h).mono e
  · intro x k rip h
    by_cases hx : x = r
    · subst hx; simp only [setReq_self] at h; exact absurd h (hqw k rip)
    · simp only [setReq_ne _ _ hx] at h
      rcases i.wait x k rip h with ⟨h1, y, h2⟩ | ⟨v, h1, h2⟩ | h1
      · exact .inl ⟨h1, y, by simp only [ho]; exact h2⟩
      · exact .inr (.inl ⟨v, h1, h2.mono e⟩)
      · exact .inr (.inr h1)
  · intro x k v b h
    by_cases hx : x = r
    · subst hx; simp only [setReq_self] at h; exact absurd h (hqd _ _)
    · simp only [setReq_ne _ _ hx] at h; exact (i.res x k v b h).mono e
  · intro x k h
    by_cases hx : x = r
    · subst hx; simp only [setReq_self] at h; exact hqd _ _ h
    · simp only [setReq_ne _ _ hx] at h; exact i.notNull x k h

/-- The owner of a computation settles its shared object and is done. -/
theorem Inv.settle {c : Cache.Config V} {es : List (Event K V)} {s : State K V} (i : Inv c es s) (e : Event K V)
    (r : Nat) (k : K) (rip : Nat) (st : Status V) (res : Res V)
    (hown : owns (s.req r) = some (k, rip)) (hreg : registered (s.req r) = none)
    (hst : (∃ v, st = .finished v ∧ Computed es k v) ∨ st = .aborted)
    (hres : ∀ v b, res = .value v b → Computed es k v) (hnull : res ≠ .null) :
    Inv c (es ++ [e]) { s with rips := s.rips.set rip st, req := setReq s.req r (.done k res) } := by
  have hip := i.own r k rip hown
  have hlt : rip < s.rips.length := (List.getElem?_eq_some_iff.mp hip).1
  have hset : (s.rips.set rip st)[rip]? = some st := by simp [hlt]
  have hset' : ∀ j, j ≠ rip → (s.rips.set rip st)[j]? = s.rips[j]? := by
    intro j hj; rw [List.getElem?_set_ne (fun h => hj h.symm)]
  refine ⟨i.cache, i.keys, ?_, ?_, ?_, ?_, i.notStored, ?_, ?_, ?_, ?_, ?_⟩
  · intro x k rip h
    by_cases hx : x = r
    · subst hx; simp only [setReq_self] at h; simp [registered] at h
    · simp only [setReq_ne _ _ hx] at h; exact i.reg x k rip h
  · intro k' p rip' h
    obtain ⟨x, hx⟩ := i.regC k' p rip' h
    have hxr : x ≠ r := by intro hxr; subst hxr; rw [hreg] at hx; simp at hx
    exact ⟨x, by simp only [setReq_ne _ _ hxr]; exact hx⟩
  · intro x k' rip' h
    by_cases hx : x = r
    · subst hx; simp only [setReq_self] at h; simp [owns] at h
    · simp only [setReq_ne _ _ hx] at h
      have : rip' ≠ rip := by
        intro hr; subst hr
        exact hx (i.ownU x r _ _ rip' h hown)
      simp only; rw [hset' _ this]; exact i.own x k' rip' h
  · intro x y k1 k2 rip' h1 h2
    by_cases hx : x = r
    · subst hx; simp only [setReq_self] at h1; simp [owns] at h1
    · by_cases hy : y = r
      · subst hy; simp only [setReq_self] at h2; simp [owns] at h2
      · simp only [setReq_ne _ _ hx] at h1
        simp only [setReq_ne _ _ hy] at h2
        exact i.ownU x y k1 k2 rip' h1 h2
  · intro k v h; exact (i.prov k v h).mono e
  · intro x k rip v h
    by_cases hx : x = r
    · subst hx; simp only [setReq_self] at h; simp at h
    · simp only [setReq_ne _ _ hx] at h; exact (i.val x k rip v h).mono e
  · intro x k' rip' h
    by_cases hx : x = r
    · subst hx; simp only [setReq_self] at h; simp at h
    · simp only [setReq_ne _ _ hx] at h
      by_cases hr : rip' = rip
      · subst hr
        simp only [hset]
        rcases i.wait x k' rip' h with ⟨_, y, h2⟩ | ⟨v, h1, _⟩ | h1
        · have : y = r := i.ownU y r _ _ rip' h2 hown
          subst this
          rw [hown] at h2; cases h2
          rcases hst with ⟨v, rfl, hv⟩ | rfl
          · exact .inr (.inl ⟨v, rfl, hv.mono e⟩)
          · exact .inr (.inr rfl)
        · rw [hip] at h1; cases h1
        · rw [hip] at h1; cases h1
      · simp only [hset' _ hr]
        rcases i.wait x k' rip' h with ⟨h1, y, h2⟩ | ⟨v, h1, h2⟩ | h1
        · have hy : y ≠ r := by
            intro hy; subst hy; rw [hown] at h2; cases h2; exact hr rfl
          exact .inl ⟨h1, y, by simp only [setReq_ne _ _ hy]; exact h2⟩
        · exact .inr (.inl ⟨v, h1, h2.mono e⟩)
        · exact .inr (.inr h1)
  · intro x k v b h
    by_cases hx : x = r
    · subst hx; simp only [setReq_self] at h; cases h; exact (hres v b rfl).mono e
    · simp only [setReq_ne _ _ hx] at h; exact (i.res x k v b h).mono e
  · intro x k h
    by_cases hx : x = r
    · subst hx; simp only [setReq_self] at h; cases h; exact hnull rfl
    · simp only [setReq_ne _ _ hx] at h; exact i.notNull x k h

theorem Inv.step {c : Cache.Config V} {es : List (Event K V)} {s s' : State K V} (i : Inv c es s) {e : Event K V}
    (h : Step c s e s') : Inv c (es ++ [e]) s' := by
  cases h with
  | startCached r k res c2 hr hc hl =>
    obtain ⟨_, _, hst⟩ := Cache.contains_stored hc i.cache
    obtain ⟨h1, h2⟩ := Cache.lookup_stored hl i.cache
    have hs2 : ∀ k v, Stored c2 k v → Stored s.cache k v := by
      intro k v h
      rcases Cache.stored_step hl i.cache h with h | h | h
      · exact h
      · cases h
      · cases h
    refine i.keep _ r _ c2 (by rw [hr]; rfl) (by rw [hr]; rfl) (Cache.step_inv hl i.cache) hs2 (by simp) (by simp) ?_ ?_
    · intro k' v b h
      cases res with
      | none => simp [ofLookup] at h
      | some v' => simp only [ofLookup] at h; cases h; exact (i.prov k v (h1 v rfl)).mono _
    · intro k' h
      cases res with
      | none => obtain ⟨v, hv⟩ := hst rfl; exact h2 rfl v hv
      | some v' => simp [ofLookup] at h
  | startCachedPin r k res c1 c2 hr hc hl =>
    obtain ⟨hst, _⟩ := Cache.makePinned_stored hc i.cache
    have i1 := Cache.step_inv hc i.cache
    obtain ⟨h1, h2⟩ := Cache.lookup_stored hl i1
    have hs1 : ∀ k v, Stored c1 k v → Stored s.cache k v := by
      intro k v h
      rcases Cache.stored_step hc i.cache h with h | h | h
      · exact h
      · cases h
      · cases h
    have hs2 : ∀ k v, Stored c2 k v → Stored s.cache k v := by
      intro k v h
      rcases Cache.stored_step hl i1 h with h | h | h
      · exact hs1 k v h
      · cases h
      · cases h
    refine i.keep _ r _ c2 (by rw [hr]; rfl) (by rw [hr]; rfl) (Cache.step_inv hl i1) hs2 (by simp) (by simp) ?_ ?_
    · intro k' v b h
      cases res with
      | none => simp [ofLookup] at h
      | some v' => simp only [ofLookup] at h; cases h; exact (i.prov k v (hs1 _ _ (h1 v rfl))).mono _
    · intro k' h
      cases res with
      | none => obtain ⟨v, _, hv⟩ := hst rfl; exact h2 rfl v hv
      | some v' => simp [ofLookup] at h
  | startWait r k pinned c1 p rip hr hc hp =>
    have hcc : c1 = s.cache := by
      cases pinned with
      | true => exact ((Cache.makePinned_stored hc i.cache).2 rfl).1
      | false => exact (Cache.contains_stored hc i.cache).1
    subst hcc
    have hf : ∀ k' p' rip', find (setKey s.inProg k (p || pinned, rip)) k' = some (p', rip') →
        ∃ p'', find s.inProg k' = some (p'', rip') := by
      intro k' p' rip' h
      by_cases hk : k' = k
      · subst hk; rw [find_setKey_self] at h; cases h; exact ⟨p, hp⟩
      · rw [find_setKey_ne hk] at h; exact ⟨p', h⟩
    have hne : ∀ x, x ≠ r → setReq s.req r (.waiting k rip) x = s.req x := fun x hx => setReq_ne _ _ hx
    refine ⟨i.cache, setKey_keys_nodup i.keys _ _, ?_, ?_, ?_, ?_, ?_, ?_, ?_, ?_, ?_, ?_⟩
    · intro x k' rip' h
      by_cases hx : x = r
      · subst hx; simp only [setReq_self] at h; simp [registered] at h
      · simp only [hne x hx] at h
        obtain ⟨p', hp'⟩ := i.reg x k' rip' h
        by_cases hk : k' = k
        · subst hk
          rw [hp] at hp'; cases hp'
          exact ⟨_, find_setKey_self _ _ _⟩
        · exact ⟨p', by simp only; rw [find_setKey_ne hk]; exact hp'⟩
    · intro k' p' rip' h
      obtain ⟨p'', h'⟩ := hf k' p' rip' h
      obtain ⟨x, hx⟩ := i.regC k' p'' rip' h'
      have hxr : x ≠ r := by intro hxr; subst hxr; rw [hr] at hx; simp [registered] at hx
      exact ⟨x, by simp only [hne x hxr]; exact hx⟩
    · intro x k' rip' h
      by_cases hx : x = r
      · subst hx; simp only [setReq_self] at h; simp [owns] at h
      · simp only [hne x hx] at h; exact i.own x k' rip' h
    · intro x y k1 k2 rip' h1 h2
      by_cases hx : x = r
      · subst hx; simp only [setReq_self] at h1; simp [owns] at h1
      · by_cases hy : y = r
        · subst hy; simp only [setReq_self] at h2; simp [owns] at h2
        · simp only [hne x hx] at h1
          simp only [hne y hy] at h2
          exact i.ownU x y k1 k2 rip' h1 h2
    · intro k' p' h
      obtain ⟨p'', h'⟩ := hf k' p'.1 p'.2 h
      exact i.notStored k' _ h'
    · intro k v h; exact (i.prov k v h).mono _
    · intro x k' rip' v h
      by_cases hx : x = r
      · subst hx; simp only [setReq_self] at h; simp at h
      · simp only [hne x hx] at h; exact (i.val x k' rip' v h).mono _
    · intro x k' rip' h
      by_cases hx : x = r
      · subst hx
        simp only [setReq_self] at h
        cases h
        obtain ⟨y, hy⟩ := i.regC k p rip hp
        have hyr : y ≠ x := by intro hyr; subst hyr; rw [hr] at hy; simp [registered] at hy
        exact .inl ⟨i.own y k rip (registered_owns hy), y, by simp only [hne y hyr]; exact registered_owns hy⟩
      · simp only [hne x hx] at h
        rcases i.wait x k' rip' h with ⟨h1, y, h2⟩ | ⟨v, h1, h2⟩ | h1
        · have hyr : y ≠ r := by intro hyr; subst hyr; rw [hr] at h2; simp [owns] at h2
          exact .inl ⟨h1, y, by simp only [hne y hyr]; exact h2⟩
        · exact .inr (.inl ⟨v, h1, h2.mono _⟩)
        · exact .inr (.inr h1)
    · intro x k' v b h
      by_cases hx : x = r
      · subst hx; simp only [setReq_self] at h; simp at h
      · simp only [hne x hx] at h; exact (i.res x k' v b h).mono _
    · intro x k' h
      by_cases hx : x = r
      · subst hx; simp only [setReq_self] at h; simp at h
      · simp only [hne x hx] at h; exact i.notNull x k' h
  | startCompute r k pinned c1 hr hc hp =>
    have hcc : c1 = s.cache ∧ ∀ v, ¬ Stored s.cache k v := by
      cases pinned with
      | true => exact (Cache.makePinned_stored hc i.cache).2 rfl
      | false =>
        obtain ⟨h1, h2, _⟩ := Cache.contains_stored hc i.cache
        exact ⟨h1, h2 rfl⟩
    obtain ⟨rfl, hns⟩ := hcc
    have hne : ∀ x, x ≠ r → setReq s.req r (.computing k s.rips.length) x = s.req x := fun x hx => setReq_ne _ _ hx
    have hold : ∀ (j : Nat) st, s.rips[j]? = some st → (s.rips ++ [Status.inProgress])[j]? = some st := by
      intro j st h
      have hlt := (List.getElem?_eq_some_iff.mp h).1
      rw [List.getElem?_append_left hlt]; exact h
    have hnew : (s.rips ++ [Status.inProgress])[s.rips.length]? = some Status.inProgress := by simp
    have hlt : ∀ x k' rip', owns (s.req x) = some (k', rip') → rip' < s.rips.length := by
      intro x k' rip' h
      exact (List.getElem?_eq_some_iff.mp (i.own x k' rip' h)).1
    refine ⟨i.cache, setKey_keys_nodup i.keys _ _, ?_, ?_, ?_, ?_, ?_, ?_, ?_, ?_, ?_, ?_⟩
    · intro x k' rip' h
      by_cases hx : x = r
      · subst hx; simp only [setReq_self, registered] at h; cases h; exact ⟨_, find_setKey_self _ _ _⟩
      · simp only [hne x hx] at h
        obtain ⟨p', hp'⟩ := i.reg x k' rip' h
        have hk : k' ≠ k := by intro hk; subst hk; rw [hp] at hp'; simp at hp'
        exact ⟨p', by simp only; rw [find_setKey_ne hk]; exact hp'⟩
    · intro k' p' rip' h
      simp only at h
      by_cases hk : k' = k
      · subst hk; rw [find_setKey_self] at h; cases h
        exact ⟨r, by simp only [setReq_self]; rfl⟩
      · rw [find_setKey_ne hk] at h
        obtain ⟨x, hx⟩ := i.regC k' p' rip' h
        have hxr : x ≠ r := by intro hxr; subst hxr; rw [hr] at hx; simp [registered] at hx
        exact ⟨x, by simp only [hne x hxr]; exact hx⟩
    · intro x k' rip' h
      by_cases hx : x = r
      · subst hx; simp only [setReq_self, owns] at h; cases h; exact hnew
      · simp only [hne x hx] at h; exact hold _ _ (i.own x k' rip' h)
    · intro x y k1 k2 rip' h1 h2
      by_cases hx : x = r
      · subst hx
        simp only [setReq_self, owns] at h1; cases h1
        by_cases hy : y = x
        · exact hy.symm
        · simp only [hne y hy] at h2
          exact absurd (hlt y _ _ h2) (by omega)
      · simp only [hne x hx] at h1
        by_cases hy : y = r
        · subst hy
          simp only [setReq_self, owns] at h2; cases h2
          exact absurd (hlt x _ _ h1) (by omega)
        · simp only [hne y hy] at h2
          exact i.ownU x y k1 k2 rip' h1 h2
    · intro k' p' h v hs
      simp only at h
      by_cases hk : k' = k
      · subst hk; exact hns v hs
      · rw [find_setKey_ne hk] at h; exact i.notStored k' p' h v hs
    · intro k v h; exact (i.prov k v h).mono _
    · intro x k' rip' v h
      by_cases hx : x = r
      · subst hx; simp only [setReq_self] at h; simp at h
      · simp only [hne x hx] at h; exact (i.val x k' rip' v h).mono _
    · intro x k' rip' h
      by_cases hx : x = r
      · subst hx; simp only [setReq_self] at h; simp at h
      · simp only [hne x hx] at h
        rcases i.wait x k' rip' h with ⟨h1, y, h2⟩ | ⟨v, h1, h2⟩ | h1
        · have hyr : y ≠ r := by intro hyr; subst hyr; rw [hr] at h2; simp [owns] at h2
          exact .inl ⟨hold _ _ h1, y, by simp only [hne y hyr]; exact h2⟩
        · exact .inr (.inl ⟨v, hold _ _ h1, h2.mono _⟩)
        · exact .inr (.inr (hold _ _ h1))
    · intro x k' v b h
      by_cases hx : x = r
      · subst hx; simp only [setReq_self] at h; simp at h
      · simp only [hne x hx] at h; exact (i.res x k' v b h).mono _
    · intro x k' h
      by_cases hx : x = r
      · subst hx; simp only [setReq_self] at h; simp at h
      · simp only [hne x hx] at h; exact i.notNull x k' h
  | computeOk r k rip v before after res hr hv =>
    refine i.keep _ r _ s.cache (by rw [hr]; rfl) (by rw [hr]; rfl) i.cache (fun _ _ h => h) ?_ (by simp) (by simp)
      (by simp)
    intro k' rip' v' h
    rcases h with h | h
    · cases h; exact ⟨r, before, res, after, by simp, hv⟩
    · cases h
  | computeThrow r k rip before after res hr hv =>
    exact i.keep _ r _ s.cache (by rw [hr]; rfl) (by rw [hr]; rfl) i.cache (fun _ _ h => h) (by simp) (by simp) (by simp)
      (by simp)
  | moveCheck r k rip v hr hp =>
    obtain ⟨p, h⟩ := i.reg r k rip (by rw [hr]; rfl)
    rw [hp] at h; simp at h
  | movePinned r k rip v rip' c1 hr hp hi =>
    have hcomp := i.val r k rip v (.inl hr)
    refine i.leave _ r k rip _ c1 rfl rfl (by rw [hr]; rfl) (Cache.step_inv hi i.cache) ?_ ?_
    · intro k' v' h
      rcases Cache.stored_step hi i.cache h with h | h | h
      · exact .inl h
      · cases h
      · cases h; exact .inr ⟨rfl, hcomp⟩
    · intro k' rip'' v' h
      rcases h with h | h
      · cases h
      · cases h; exact hcomp
  | movePinnedThrow r k rip v rip' c1 hr hp hi =>
    refine i.keep _ r _ c1 (by rw [hr]; rfl) (by rw [hr]; rfl) (Cache.step_inv hi i.cache) ?_ (by simp) (by simp) (by simp)
      (by simp)
    intro k' v' h
    rcases Cache.stored_step hi i.cache h with h | h | h
    · exact h
    · cases h
    · cases h
  | move r k rip v rip' c1 e' hr hp he hi =>
    have hcomp := i.val r k rip v (.inl hr)
    refine i.leave _ r k rip _ c1 rfl rfl (by rw [hr]; rfl) (Cache.step_inv hi i.cache) ?_ ?_
    · intro k' v' h
      rcases Cache.stored_step hi i.cache h with h | h | h
      · exact .inl h
      · rcases he with he | he
        · rw [he] at h; cases h; exact .inr ⟨rfl, hcomp⟩
        · rw [he] at h; cases h
      · rcases he with he | he
        · rw [he] at h; cases h
        · rw [he] at h; cases h
    · intro k' rip'' v' h
      rcases h with h | h
      · cases h
      · cases h; exact hcomp
  | moveThrow r k rip v rip' c1 hr hp hi =>
    refine i.keep _ r _ c1 (by rw [hr]; rfl) (by rw [hr]; rfl) (Cache.step_inv hi i.cache) ?_ (by simp) (by simp) (by simp)
      (by simp)
    intro k' v' h
    rcases Cache.stored_step hi i.cache h with h | h | h
    · exact h
    · cases h
    · cases h
  | finish r k rip v hr hs =>
    have hcomp := i.val r k rip v (.inr hr)
    refine i.settle _ r k rip _ _ (by rw [hr]; rfl) (by rw [hr]; rfl) (.inl ⟨v, rfl, hcomp⟩) ?_ (by simp)
    intro v' b h
    cases h; exact hcomp
  | finishCheck r k rip v hr hs =>
    exact absurd (i.own r k rip (by rw [hr]; rfl)) hs
  | unregister r k rip hr =>
    exact i.leave _ r k rip _ s.cache rfl rfl (by rw [hr]; rfl) i.cache (fun _ _ h => .inl h) (by simp)
  | abort r k rip hr =>
    have := i.settle (.abort r) r k rip .aborted .exception (by rw [hr]; rfl) (by rw [hr]; rfl) (.inr rfl) (by simp) (by simp)
    rw [if_pos (i.own r k rip (by rw [hr]; rfl))]
    exact this
  | wakeOk r k rip v hr hs =>
    have hcomp : Computed es k v := by
      rcases i.wait r k rip hr with ⟨h1, _⟩ | ⟨v', h1, h2⟩ | h1
      · rw [hs] at h1; cases h1
      · rw [hs] at h1; cases h1; exact h2
      · rw [hs] at h1; cases h1
    refine i.keep _ r _ s.cache (by rw [hr]; rfl) (by rw [hr]; rfl) i.cache (fun _ _ h => h) (by simp) (by simp) ?_
      (by simp)
    intro k' v' b h
    cases h; exact hcomp.mono _
  | wakeAborted r k rip hr hs =>
    exact i.keep _ r _ s.cache (by rw [hr]; rfl) (by rw [hr]; rfl) i.cache (fun _ _ h => h) (by simp) (by simp) (by simp)
      (by simp)
  | maintenance e' c1 he hs =>
    have hst : ∀ k v, Stored c1 k v → Stored s.cache k v := by
      intro k v h
      rcases Cache.stored_step hs i.cache h with h | h | h
      · exact h
      · rw [h] at he; simp [maintenanceOp] at he
      · rw [h] at he; simp [maintenanceOp] at he
    refine ⟨Cache.step_inv hs i.cache, i.keys, i.reg, i.regC, i.own, i.ownU, ?_, ?_, ?_, ?_, ?_, i.notNull⟩
    · intro k p h v hv; exact i.notStored k p h v (hst k v hv)
    · intro k v h; exact (i.prov k v (hst k v h)).mono _
    · intro x k rip v h; exact (i.val x k rip v h).mono _
    · intro x k rip h
      rcases i.wait x k rip h with h1 | ⟨v, h1, h2⟩ | h1
      · exact .inl h1
      · exact .inr (.inl ⟨v, h1, h2.mono _⟩)
      · exact .inr (.inr h1)
    · intro x k v b h; exact (i.res x k v b h).mono _

theorem Inv.init (c : Cache.Config V) (n : Nat) : Inv c ([] : List (Event K V)) { cache := Cache.init n } := by
  refine ⟨Cache.init_inv c n, ?_, ?_, ?_, ?_, ?_, ?_, ?_, ?_, ?_, ?_, ?_⟩ <;>
    simp [registered, owns, find, Stored, Cache.init]

theorem exec_inv {c : Cache.Config V} {n : Nat} {es : List (Event K V)} {s : State K V} (h : Exec c n es s) :
    Inv c es s := by
  induction h with
  | nil => exact Inv.init c n
  | snoc e h hs ih => exact ih.step hs

end Verif.ConcurrentCache
