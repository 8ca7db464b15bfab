import Verif.Model.Cache
/-
Invariant and simulation proofs for the cache model.
-/
namespace Verif.Cache
open CacheSpec (Ev)

set_option linter.unusedSectionVars false
variable {K V : Type} [DecidableEq K] [DecidableEq V]

theorem find_some {m : List (K × α)} {k : K} {v : α} (h : find m k = some v) : (k, v) ∈ m := by
  unfold find at h
  cases hf : m.find? (fun p => p.1 = k) with
  | none => rw [hf] at h; simp at h
  | some p =>
    rw [hf] at h
    have h1 := List.mem_of_find?_eq_some hf
    have h2 := List.find?_some hf
    simp at h h2
    rw [← h2, ← h]
    exact h1

theorem find_none {m : List (K × α)} {k : K} : find m k = none ↔ k ∉ m.map (·.1) := by
  unfold find
  rw [Option.map_eq_none_iff, List.find?_eq_none]
  simp only [decide_eq_true_eq, List.mem_map, not_exists, not_and]

theorem find_isSome {m : List (K × α)} {k : K} : (find m k).isSome = true ↔ k ∈ m.map (·.1) := by
  rw [← Decidable.not_iff_not, ← find_none]
  cases find m k <;> simp

theorem find_mem {m : List (K × α)} (hn : (m.map (·.1)).Nodup) {k : K} {v : α} (h : (k, v) ∈ m) :
    find m k = some v := by
  induction m with
  | nil => simp at h
  | cons p ps ih =>
    rw [List.map_cons, List.nodup_cons] at hn
    by_cases hp : p.1 = k
    · have : (k, v) = p := by
        rcases List.mem_cons.mp h with rfl | h
        · rfl
        · exact absurd (List.mem_map.mpr ⟨_, h, rfl⟩) (by rw [hp] at hn; exact hn.1)
      simp [find, ← this]
    · have h' : (k, v) ∈ ps := by
        rcases List.mem_cons.mp h with rfl | h
        · exact absurd rfl hp
        · exact h
      have := ih hn.2 h'
      unfold find at this ⊢
      rw [List.find?_cons_of_neg (by simp [hp])]
      exact this

theorem eraseKey_of_not_mem {m : List (K × α)} {k : K} (h : k ∉ m.map (·.1)) : eraseKey m k = m := by
  unfold eraseKey
  rw [List.filter_eq_self]
  intro p hp
  simp only [ne_eq, decide_eq_true_eq]
  intro h1
  exact h (List.mem_map.mpr ⟨p, hp, h1⟩)

theorem eraseKey_keys_nodup {m : List (K × α)} (h : (m.map (·.1)).Nodup) (k : K) :
    ((eraseKey m k).map (·.1)).Nodup := (List.filter_sublist.map _).nodup h

theorem mem_eraseKey {m : List (K × α)} {k : K} {p : K × α} : p ∈ eraseKey m k ↔ p ∈ m ∧ p.1 ≠ k := by
  simp [eraseKey]

def sumSize (c : Config V) (l : List V) : Nat := (l.map c.sizeOf).sum

theorem sumSize_cons (c : Config V) (v : V) (l : List V) : sumSize c (v :: l) = c.sizeOf v + sumSize c l := by
  simp [sumSize]

theorem sumSize_perm (c : Config V) {l l' : List V} (h : l.Perm l') : sumSize c l = sumSize c l' := by
  simpa [sumSize] using (h.map c.sizeOf).sum_nat

structure Inv (c : Config V) (s : State K V) : Prop where
  acc : s.accessMap.Perm (s.entries.map (fun e => (e.key, e.handle)))
  keys : (s.entries.map (·.key)).Nodup
  handles : (s.entries.map (·.handle)).Nodup
  hlt : ∀ e ∈ s.entries, e.handle < s.nextHandle
  pkeys : (s.pinnedMap.map (·.1)).Nodup
  disj : ∀ e ∈ s.entries, ∀ p ∈ s.pinnedMap, e.key ≠ p.1
  tnp : s.totalSizeNonPinned = sumSize c (s.entries.map (·.val))
  tp : s.totalSizePinned = sumSize c (s.pinnedMap.map (·.2))

/-- Connection with the specification state. -/
structure Link (s : State K V) (a : CacheSpec.State K V) : Prop where
  valE : ∀ e ∈ s.entries, a.val e.key = some e.val
  valP : ∀ p ∈ s.pinnedMap, a.val p.1 = some p.2
  pin : ∀ k, a.pin k = true ↔ k ∈ s.pinnedMap.map (·.1)

theorem Inv.acc_keys {c : Config V} {s : State K V} (i : Inv c s) (k : K) :
    k ∈ s.accessMap.map (·.1) ↔ ∃ e ∈ s.entries, e.key = k := by
  rw [(i.acc.map (·.1)).mem_iff]
  simp

theorem nodup_handle_unique {l : List (QNode K V)} (hn : (l.map (·.handle)).Nodup) {x y : QNode K V} (hx : x ∈ l)
    (hy : y ∈ l) (h : x.handle = y.handle) : x = y := by
  induction l with
  | nil => simp at hx
  | cons z zs ih =>
    rw [List.map_cons, List.nodup_cons] at hn
    rcases List.mem_cons.mp hx with rfl | hx' <;> rcases List.mem_cons.mp hy with rfl | hy'
    · rfl
    · exact absurd (List.mem_map.mpr ⟨y, hy', h.symm⟩) hn.1
    · exact absurd (List.mem_map.mpr ⟨x, hx', h⟩) hn.1
    · exact ih hn.2 hx' hy'

theorem Inv.deref {c : Config V} {s : State K V} (i : Inv c s) {k : K} {h : Nat}
    (hf : find s.accessMap k = some h) : ∃ e ∈ s.entries, deref s h = some e ∧ e.key = k ∧ e.handle = h := by
  have hm := i.acc.mem_iff.mp (find_some hf)
  rw [List.mem_map] at hm
  obtain ⟨e, he, heq⟩ := hm
  simp only [Prod.mk.injEq] at heq
  refine ⟨e, he, ?_, heq.1, heq.2⟩
  unfold Cache.deref
  cases hq : s.entries.find? (fun x => x.handle = h) with
  | none =>
    rw [List.find?_eq_none] at hq
    exact absurd heq.2 (by simpa using hq e he)
  | some e' =>
    have h1 := List.mem_of_find?_eq_some hq
    have h2 := List.find?_some hq
    simp at h2
    rw [nodup_handle_unique i.handles h1 he (by rw [h2, heq.2])]

/-- Removing a node from the queue and its key from the access map keeps the invariant (sizes adapted). -/
theorem Inv.remove {c : Config V} {s : State K V} (i : Inv c s) {e : QNode K V} (he : e ∈ s.entries) :
    Inv c { s with
      entries := s.entries.erase e
      totalSizeNonPinned := subWrap s.totalSizeNonPinned (c.sizeOf e.val)
      accessMap := eraseKey s.accessMap e.key } := by
  have hperm := List.perm_cons_erase he
  have hkeys : (e.key :: (s.entries.erase e).map (·.key)).Nodup := by
    have := (hperm.map (·.key)).nodup_iff.mp i.keys
    simpa using this
  have hsub : (s.entries.erase e).Sublist s.entries := List.erase_sublist
  refine ⟨?_, (hsub.map _).nodup i.keys, (hsub.map _).nodup i.handles, fun x hx => i.hlt x (List.mem_of_mem_erase hx),
    i.pkeys, fun x hx => i.disj x (List.mem_of_mem_erase hx), ?_, i.tp⟩
  · have h1 := i.acc.trans (hperm.map (fun e => (e.key, e.handle)))
    have h2 := h1.filter (fun p => decide (p.1 ≠ e.key))
    refine h2.trans ?_
    rw [List.map_cons, List.filter_cons_of_neg (by simp), List.filter_eq_self.mpr]
    intro p hp
    rw [List.mem_map] at hp
    obtain ⟨x, hx, rfl⟩ := hp
    simp only [ne_eq, decide_eq_true_eq]
    intro hk
    exact (List.nodup_cons.mp hkeys).1 (List.mem_map.mpr ⟨x, hx, hk⟩)
  · have := sumSize_perm c (hperm.map (·.val))
    rw [List.map_cons, sumSize_cons, ← i.tnp] at this
    simp only [subWrap]
    rw [if_pos (by omega)]
    omega

theorem Link.remove {s : State K V} {a : CacheSpec.State K V} (l : Link s a) {e : QNode K V} (n : Nat) (m) :
    Link { s with entries := s.entries.erase e, totalSizeNonPinned := n, accessMap := m } a :=
  ⟨fun x hx => l.valE x (List.mem_of_mem_erase hx), l.valP, l.pin⟩

theorem shrink_inv {c : Config V} {s s' : State K V} (h : Shrink c s s') :
    Inv c s → Inv c s' ∧ (s'.entries = [] ∨ ¬ over c s') ∧ s'.pinnedMap = s.pinnedMap ∧
      s'.entries.Sublist s.entries ∧ s'.maxNumEntries = s.maxNumEntries := by
  induction h with
  | done h => intro i; exact ⟨i, h, rfl, List.Sublist.refl _, rfl⟩
  | pop e ho he hmin _ ih =>
    intro i
    obtain ⟨h1, h2, h3, h4, h5⟩ := ih (i.remove he)
    exact ⟨h1, h2, h3, h4.trans List.erase_sublist, h5⟩

theorem Link.of_sublist {s s' : State K V} {a : CacheSpec.State K V} (l : Link s a)
    (hp : s'.pinnedMap = s.pinnedMap) (he : s'.entries.Sublist s.entries) : Link s' a :=
  ⟨fun x hx => l.valE x (he.subset hx), by rw [hp]; exact l.valP, by rw [hp]; exact l.pin⟩

/-- `shrinkToFit` terminates. -/
theorem shrink_total (c : Config V) : ∀ (n : Nat) (s : State K V), s.entries.length = n → ∃ s', Shrink c s s' := by
  intro n
  induction n with
  | zero => intro s hn; exact ⟨s, .done (.inl (List.length_eq_zero_iff.mp hn))⟩
  | succ n ih =>
    intro s hn
    by_cases ho : over c s
    · have hmin : ∀ l : List (QNode K V), l ≠ [] → ∃ e ∈ l, ∀ x ∈ l, e.score ≤ x.score := by
        intro l
        induction l with
        | nil => simp
        | cons x xs ihl =>
          intro _
          by_cases hx : xs = []
          · subst hx; exact ⟨x, by simp⟩
          · obtain ⟨e, he1, he2⟩ := ihl hx
            by_cases hle : x.score ≤ e.score
            · refine ⟨x, List.mem_cons_self, ?_⟩
              intro y hy
              rcases List.mem_cons.mp hy with rfl | hy
              · exact Nat.le_refl _
              · exact Nat.le_trans hle (he2 y hy)
            · refine ⟨e, List.mem_cons_of_mem _ he1, ?_⟩
              intro y hy
              rcases List.mem_cons.mp hy with rfl | hy
              · omega
              · exact he2 y hy
      obtain ⟨e, he, hm⟩ := hmin s.entries (by intro h0; rw [h0] at hn; simp at hn)
      obtain ⟨s', hs'⟩ := ih { s with
          entries := s.entries.erase e
          totalSizeNonPinned := subWrap s.totalSizeNonPinned (c.sizeOf e.val)
          accessMap := eraseKey s.accessMap e.key } (by simp only; rw [List.length_erase_of_mem he]; omega)
      exact ⟨s', .pop e ho he hm hs'⟩
    · exact ⟨s, .done (.inr ho)⟩

theorem contains_false {c : Config V} {s : State K V} (i : Inv c s) {k : K} (h : contains s k = false) :
    k ∉ s.pinnedMap.map (·.1) ∧ ∀ e ∈ s.entries, e.key ≠ k := by
  unfold contains at h
  rw [Bool.or_eq_false_iff] at h
  constructor
  · rw [← find_none]; cases hf : find s.pinnedMap k with
    | none => rfl
    | some v => rw [hf] at h; simp at h
  · intro e he hk
    have : k ∈ s.accessMap.map (·.1) := (i.acc_keys k).mpr ⟨e, he, hk⟩
    rw [← find_isSome, h.2] at this
    simp at this

theorem contains_true {c : Config V} {s : State K V} (i : Inv c s) {k : K} (h : contains s k = true) :
    k ∈ s.pinnedMap.map (·.1) ∨ ∃ e ∈ s.entries, e.key = k := by
  unfold contains at h
  rw [Bool.or_eq_true] at h
  rcases h with h | h
  · exact .inl (find_isSome.mp h)
  · exact .inr ((i.acc_keys k).mp (find_isSome.mp h))

theorem Inv.pushed {c : Config V} {s : State K V} (i : Inv c s) {k : K} (v : V) (score : Nat)
    (hc : contains s k = false) : Inv c (pushed c s k v score) := by
  obtain ⟨h1, h2⟩ := contains_false i hc
  have hk : k ∉ s.accessMap.map (·.1) := fun h => by
    obtain ⟨e, he, hk⟩ := (i.acc_keys k).mp h
    exact h2 e he hk
  refine ⟨?_, ?_, ?_, ?_, i.pkeys, ?_, ?_, i.tp⟩
  · simp only [Cache.pushed, setKey, eraseKey_of_not_mem hk, List.map_cons]
    exact i.acc.cons _
  · simp only [Cache.pushed, List.map_cons, List.nodup_cons]
    refine ⟨?_, i.keys⟩
    intro hm
    obtain ⟨e, he, hk'⟩ := List.mem_map.mp hm
    exact h2 e he hk'
  · simp only [Cache.pushed, List.map_cons, List.nodup_cons]
    refine ⟨?_, i.handles⟩
    intro hm
    obtain ⟨e, he, hk'⟩ := List.mem_map.mp hm
    have := i.hlt e he
    omega
  · intro e he
    simp only [Cache.pushed] at he ⊢
    rcases List.mem_cons.mp he with rfl | he
    · exact Nat.lt_succ_self _
    · have := i.hlt e he; omega
  · intro e he p hp
    rcases List.mem_cons.mp he with rfl | he
    · intro heq
      exact h1 (List.mem_map.mpr ⟨p, hp, heq.symm⟩)
    · exact i.disj e he p hp
  · simp only [Cache.pushed, List.map_cons, sumSize_cons, i.tnp]; omega

theorem Inv.pinnedPushed {c : Config V} {s : State K V} (i : Inv c s) {k : K} (v : V)
    (hc : contains s k = false) : Inv c (pinnedPushed c s k v) := by
  obtain ⟨h1, h2⟩ := contains_false i hc
  refine ⟨i.acc, i.keys, i.handles, i.hlt, ?_, ?_, i.tnp, ?_⟩
  · simp only [Cache.pinnedPushed, setKey, eraseKey_of_not_mem h1, List.map_cons]
    exact List.nodup_cons.mpr ⟨h1, i.pkeys⟩
  · intro e he p hp
    simp only [Cache.pinnedPushed, setKey, eraseKey_of_not_mem h1] at hp
    rcases List.mem_cons.mp hp with rfl | hp
    · exact h2 e he
    · exact i.disj e he p hp
  · simp only [Cache.pinnedPushed, setKey, eraseKey_of_not_mem h1, List.map_cons, sumSize_cons, i.tp]; omega

theorem eraseKey_perm {m : List (K × α)} (hn : (m.map (·.1)).Nodup) {k : K} {v : α} (h : (k, v) ∈ m) :
    ((k, v) :: eraseKey m k).Perm m := by
  induction m with
  | nil => simp at h
  | cons p ps ih =>
    rw [List.map_cons, List.nodup_cons] at hn
    by_cases hp : p.1 = k
    · have : (k, v) = p := by
        rcases List.mem_cons.mp h with rfl | h
        · rfl
        · exact absurd (List.mem_map.mpr ⟨_, h, rfl⟩) (by rw [hp] at hn; exact hn.1)
      subst this
      have hk : eraseKey ((k, v) :: ps) k = ps := by
        unfold eraseKey
        rw [List.filter_cons_of_neg (by simp)]
        exact eraseKey_of_not_mem hn.1
      rw [hk]
    · have h' : (k, v) ∈ ps := by
        rcases List.mem_cons.mp h with rfl | h
        · exact absurd rfl hp
        · exact h
      have : eraseKey (p :: ps) k = p :: eraseKey ps k := by
        unfold eraseKey
        rw [List.filter_cons_of_pos (by simp [hp])]
      rw [this]
      exact (List.Perm.swap _ _ _).trans ((ih hn.2 h').cons _)

omit [DecidableEq V] in
theorem map_score_eq {β : Type} (l : List (QNode K V)) (h n : Nat) (f : QNode K V → β)
    (hf : ∀ x, f { x with score := n } = f x) :
    (l.map (fun x => if x.handle = h then { x with score := n } else x)).map f = l.map f := by
  rw [List.map_map]
  apply List.map_congr_left
  intro x _
  by_cases hx : x.handle = h
  · simp only [Function.comp, if_pos hx]; exact hf x
  · simp only [Function.comp, if_neg hx]

/-- The limits hold. -/
def Within (c : Config V) (s : State K V) : Prop := s.entries = [] ∨ ¬ over c s

theorem sim {c : Config V} {s s' : State K V} {a : CacheSpec.State K V} {e : Ev K V} (i : Inv c s) (l : Link s a)
    (w : Within c s) (hs : Step c s e s') :
    CacheSpec.allowed a e ∧ Inv c s' ∧ Link s' (CacheSpec.next a e) ∧ Within c s' := by
  have pinFalse : ∀ {k}, contains s k = false → a.pin k = false := by
    intro k hc
    have := (contains_false i hc).1
    rw [← l.pin] at this
    simpa using this
  cases hs with
  | insert k v score hc hsz hr =>
    obtain ⟨h1, h2⟩ := contains_false i hc
    obtain ⟨i', w', hp, hsub, _⟩ := shrink_inv hr (i.pushed v score hc)
    refine ⟨pinFalse hc, i', Link.of_sublist (s := pushed c s k v score) ⟨?_, ?_, ?_⟩ hp hsub, w'⟩
    · intro e he
      simp only [CacheSpec.next]
      rcases List.mem_cons.mp he with rfl | he
      · simp
      · rw [if_neg (h2 e he)]; exact l.valE e he
    · intro p hp
      simp only [CacheSpec.next]
      rw [if_neg]
      · exact l.valP p hp
      · intro h; exact h1 (List.mem_map.mpr ⟨p, hp, h⟩)
    · exact l.pin
  | insertIgnored k v hc hsz =>
    obtain ⟨h1, h2⟩ := contains_false i hc
    refine ⟨pinFalse hc, i, ⟨?_, ?_, l.pin⟩, w⟩
    · intro e he
      simp only [CacheSpec.next]
      rw [if_neg (h2 e he)]; exact l.valE e he
    · intro p hp
      simp only [CacheSpec.next]
      rw [if_neg]
      · exact l.valP p hp
      · intro h; exact h1 (List.mem_map.mpr ⟨p, hp, h⟩)
  | insertRefused k v hc =>
    refine ⟨?_, i, l, w⟩
    simp only [CacheSpec.allowed]
    rcases contains_true i hc with h | ⟨e, he, hk⟩
    · obtain ⟨p, hp, hk⟩ := List.mem_map.mp h
      rw [← hk, l.valP p hp]; simp
    · rw [← hk, l.valE e he]; simp
  | insertPinned k v hc hsz hr =>
    obtain ⟨h1, h2⟩ := contains_false i hc
    obtain ⟨i', w', hp, hsub, _⟩ := shrink_inv hr (i.pinnedPushed v hc)
    refine ⟨pinFalse hc, i', Link.of_sublist (s := pinnedPushed c s k v) ⟨?_, ?_, ?_⟩ hp hsub, w'⟩
    · intro e he
      simp only [CacheSpec.next]
      rw [if_neg (h2 e he)]; exact l.valE e he
    · intro p hp
      simp only [CacheSpec.next]
      simp only [Cache.pinnedPushed, setKey, eraseKey_of_not_mem h1] at hp
      rcases List.mem_cons.mp hp with rfl | hp
      · simp
      · rw [if_neg]
        · exact l.valP p hp
        · intro h; exact h1 (List.mem_map.mpr ⟨p, hp, h⟩)
    · intro x
      simp only [CacheSpec.next, Cache.pinnedPushed, setKey, eraseKey_of_not_mem h1, List.map_cons, List.mem_cons]
      by_cases hx : x = k
      · simp [hx]
      · rw [if_neg hx, l.pin]; simp [hx]
  | insertPinnedRefused k v hc => exact ⟨trivial, i, l, w⟩
  | lookupPinned k v hf =>
    have hm := find_some hf
    have hv := l.valP _ hm
    refine ⟨⟨?_, ?_⟩, i, l, w⟩
    · intro v' hv'; rw [← hv', hv]
    · intro _; simp [hv]
  | lookupNone k hp ha =>
    have h1 := find_none.mp hp
    have h2 : ∀ e ∈ s.entries, e.key ≠ k := fun e he hk => find_none.mp ha ((i.acc_keys k).mpr ⟨e, he, hk⟩)
    refine ⟨⟨by simp, ?_⟩, i, ⟨?_, ?_, l.pin⟩, w⟩
    · intro hpin; exact absurd ((l.pin k).mp hpin) h1
    · intro e he
      simp only [CacheSpec.next]
      rw [if_neg (h2 e he)]; exact l.valE e he
    · intro p hp
      simp only [CacheSpec.next]
      rw [if_neg]
      · exact l.valP p hp
      · intro h; exact h1 (List.mem_map.mpr ⟨p, hp, h⟩)
  | lookup k h e newScore hp ha hd =>
    have h1 := find_none.mp hp
    obtain ⟨e', he', hd', hk, hh⟩ := i.deref ha
    have hee : e = e' := by rw [hd] at hd'; exact Option.some.inj hd'
    subst hee
    have hlen : (s.entries.map (fun x => if x.handle = h then { x with score := newScore } else x)).length
      = s.entries.length := by simp
    refine ⟨⟨?_, ?_⟩, ⟨?_, ?_, ?_, ?_, i.pkeys, ?_, ?_, i.tp⟩, ⟨?_, l.valP, l.pin⟩, ?_⟩
    · intro v hv
      rw [← hk, l.valE e he', ← hv]
    · intro hpin; exact absurd ((l.pin k).mp hpin) h1
    · simp only; rw [map_score_eq _ _ _ _ (fun _ => rfl)]; exact i.acc
    · simp only; rw [map_score_eq _ _ _ _ (fun _ => rfl)]; exact i.keys
    · simp only; rw [map_score_eq _ _ _ _ (fun _ => rfl)]; exact i.handles
    · intro x hx
      obtain ⟨y, hy, rfl⟩ := List.mem_map.mp hx
      have := i.hlt y hy
      split <;> exact this
    · intro x hx
      obtain ⟨y, hy, rfl⟩ := List.mem_map.mp hx
      have := i.disj y hy
      split <;> exact this
    · simp only; rw [map_score_eq _ _ _ _ (fun _ => rfl)]; exact i.tnp
    · intro x hx
      obtain ⟨y, hy, rfl⟩ := List.mem_map.mp hx
      have := l.valE y hy
      split <;> exact this
    · rcases w with w | w
      · left; simp [w]
      · right; simpa [over] using w
  | contains k =>
    refine ⟨⟨?_, ?_⟩, i, ?_, w⟩
    · intro hpin
      have := find_isSome.mpr ((l.pin k).mp hpin)
      simp [contains, this]
    · intro hv
      cases hc : contains s k with
      | false => rfl
      | true =>
        rcases contains_true i hc with h | ⟨e, he, hk⟩
        · obtain ⟨p, hp, hk⟩ := List.mem_map.mp h
          rw [← hk, l.valP p hp] at hv; simp at hv
        · rw [← hk, l.valE e he] at hv; simp at hv
    · cases hc : contains s k with
      | true => exact l
      | false =>
        obtain ⟨h1, h2⟩ := contains_false i hc
        refine ⟨?_, ?_, l.pin⟩
        · intro e he
          simp only [CacheSpec.next]
          rw [if_neg (h2 e he)]; exact l.valE e he
        · intro p hp
          simp only [CacheSpec.next]
          rw [if_neg]
          · exact l.valP p hp
          · intro h; exact h1 (List.mem_map.mpr ⟨p, hp, h⟩)
  | makePinnedAlready k v hf =>
    have hm := find_some hf
    have hv := l.valP _ hm
    refine ⟨⟨fun _ => rfl, ?_⟩, i, ⟨l.valE, l.valP, ?_⟩, w⟩
    · intro h; rw [hv] at h; simp at h
    · intro x
      simp only [CacheSpec.next]
      by_cases hx : x = k
      · rw [if_pos hx, hx]
        simp only [true_iff]
        exact List.mem_map.mpr ⟨_, hm, rfl⟩
      · rw [if_neg hx]; exact l.pin x
  | makePinnedAbsent k hp ha =>
    have h1 := find_none.mp hp
    have h2 : ∀ e ∈ s.entries, e.key ≠ k := fun e he hk => find_none.mp ha ((i.acc_keys k).mpr ⟨e, he, hk⟩)
    refine ⟨⟨?_, fun _ => rfl⟩, i, ⟨?_, ?_, l.pin⟩, w⟩
    · intro hpin; exact absurd ((l.pin k).mp hpin) h1
    · intro e he
      simp only [CacheSpec.next]
      rw [if_neg (h2 e he)]; exact l.valE e he
    · intro p hp
      simp only [CacheSpec.next]
      rw [if_neg]
      · exact l.valP p hp
      · intro h; exact h1 (List.mem_map.mpr ⟨p, hp, h⟩)
  | makePinned k h e hp ha hd =>
    have h1 := find_none.mp hp
    obtain ⟨e', he', hd', hk, hh⟩ := i.deref ha
    have hee : e = e' := by rw [hd] at hd'; exact Option.some.inj hd'
    subst hee
    have ir := i.remove he'
    have hperm := List.perm_cons_erase he'
    have hkeys : (e.key :: (s.entries.erase e).map (·.key)).Nodup := by
      have := (hperm.map (·.key)).nodup_iff.mp i.keys
      simpa using this
    have hset : setKey s.pinnedMap k e.val = (k, e.val) :: s.pinnedMap := by
      simp only [setKey, eraseKey_of_not_mem h1]
    refine ⟨⟨fun _ => rfl, ?_⟩, ⟨?_, ir.keys, ir.handles, ir.hlt, ?_, ?_, ir.tnp, ?_⟩, ⟨?_, ?_, ?_⟩, ?_⟩
    · intro hv; rw [← hk, l.valE e he'] at hv; simp at hv
    · have := ir.acc; simp only [hk] at this; exact this
    · simp only [hset, List.map_cons]; exact List.nodup_cons.mpr ⟨h1, i.pkeys⟩
    · intro x hx p hp
      simp only [hset] at hp
      rcases List.mem_cons.mp hp with rfl | hp
      · intro hxk
        simp only at hxk
        rw [← hk] at hxk
        exact (List.nodup_cons.mp hkeys).1 (List.mem_map.mpr ⟨x, hx, hxk⟩)
      · exact i.disj x (List.mem_of_mem_erase hx) p hp
    · simp only [hset, List.map_cons, sumSize_cons, i.tp]; omega
    · intro x hx; exact l.valE x (List.mem_of_mem_erase hx)
    · intro p hp
      simp only [hset] at hp
      rcases List.mem_cons.mp hp with rfl | hp
      · simp only [CacheSpec.next]; rw [← hk]; exact l.valE e he'
      · exact l.valP p hp
    · intro x
      simp only [CacheSpec.next, hset, List.map_cons, List.mem_cons]
      by_cases hx : x = k
      · simp [hx]
      · rw [if_neg hx, l.pin]; simp [hx]
    · rcases w with w | w
      · rw [w] at he'; simp at he'
      · right
        intro hov
        apply w
        have hl := List.length_erase_of_mem he'
        have hpos : 0 < s.entries.length := List.length_pos_of_mem he'
        have hsum := sumSize_perm c (hperm.map (·.val))
        rw [List.map_cons, sumSize_cons, ← i.tnp] at hsum
        unfold over at hov ⊢
        simp only [hset, List.length_cons, subWrap] at hov
        rw [if_pos (by omega)] at hov
        omega
  | erasePinned k v hf =>
    have hm := find_some hf
    have hperm := eraseKey_perm i.pkeys hm
    refine ⟨trivial, ⟨i.acc, i.keys, i.handles, i.hlt, eraseKey_keys_nodup i.pkeys k, ?_, i.tnp, ?_⟩,
      ⟨?_, ?_, ?_⟩, ?_⟩
    · intro e he p hp; exact i.disj e he p (mem_eraseKey.mp hp).1
    · have := sumSize_perm c (hperm.map (·.2))
      rw [List.map_cons, sumSize_cons, ← i.tp] at this
      simp only at this
      simp only [subWrap]
      rw [if_pos (by omega)]
      omega
    · intro e he
      simp only [CacheSpec.next]
      rw [if_neg (i.disj e he _ hm)]; exact l.valE e he
    · intro p hp
      have := mem_eraseKey.mp hp
      simp only [CacheSpec.next]
      rw [if_neg this.2]; exact l.valP p this.1
    · intro x
      simp only [CacheSpec.next]
      by_cases hx : x = k
      · rw [if_pos hx]
        simp only [Bool.false_eq_true, List.mem_map, false_iff, not_exists, not_and]
        intro p hp; rw [hx]; exact (mem_eraseKey.mp hp).2
      · rw [if_neg hx, l.pin]
        simp only [List.mem_map, mem_eraseKey]
        constructor
        · rintro ⟨p, hp, rfl⟩; exact ⟨p, ⟨hp, hx⟩, rfl⟩
        · rintro ⟨p, ⟨hp, _⟩, rfl⟩; exact ⟨p, hp, rfl⟩
    · rcases w with w | w
      · exact .inl w
      · right
        intro hov
        apply w
        have hl := hperm.length_eq
        have hsum := sumSize_perm c (hperm.map (·.2))
        rw [List.map_cons, sumSize_cons, ← i.tp] at hsum
        simp only at hsum
        unfold over at hov ⊢
        simp only [List.length_cons, subWrap] at hov hl
        rw [if_pos (by omega)] at hov
        omega
  | eraseAbsent k hp ha =>
    have h1 := find_none.mp hp
    have h2 : ∀ e ∈ s.entries, e.key ≠ k := fun e he hk => find_none.mp ha ((i.acc_keys k).mpr ⟨e, he, hk⟩)
    refine ⟨trivial, i, ⟨?_, ?_, ?_⟩, w⟩
    · intro e he
      simp only [CacheSpec.next]
      rw [if_neg (h2 e he)]; exact l.valE e he
    · intro p hp
      simp only [CacheSpec.next]
      rw [if_neg]
      · exact l.valP p hp
      · intro h; exact h1 (List.mem_map.mpr ⟨p, hp, h⟩)
    · intro x
      simp only [CacheSpec.next]
      by_cases hx : x = k
      · rw [if_pos hx, hx]; simpa using h1
      · rw [if_neg hx]; exact l.pin x
  | erase k h e hp ha hd =>
    have h1 := find_none.mp hp
    obtain ⟨e', he', hd', hk, hh⟩ := i.deref ha
    have hee : e = e' := by rw [hd] at hd'; exact Option.some.inj hd'
    subst hee
    have ir := i.remove he'
    have hperm := List.perm_cons_erase he'
    have hkeys : (e.key :: (s.entries.erase e).map (·.key)).Nodup := by
      have := (hperm.map (·.key)).nodup_iff.mp i.keys
      simpa using this
    refine ⟨trivial, by simp only [hk] at ir; exact ir, ⟨?_, ?_, ?_⟩, ?_⟩
    · intro x hx
      simp only [CacheSpec.next]
      rw [if_neg]
      · exact l.valE x (List.mem_of_mem_erase hx)
      · rw [← hk]; intro hxk
        exact (List.nodup_cons.mp hkeys).1 (List.mem_map.mpr ⟨x, hx, hxk⟩)
    · intro p hp
      simp only [CacheSpec.next]
      rw [if_neg]
      · exact l.valP p hp
      · intro h; exact h1 (List.mem_map.mpr ⟨p, hp, h⟩)
    · intro x
      simp only [CacheSpec.next]
      by_cases hx : x = k
      · rw [if_pos hx, hx]; simpa using h1
      · rw [if_neg hx]; exact l.pin x
    · rcases w with w | w
      · rw [w] at he'; simp at he'
      · right
        intro hov
        apply w
        have hl := List.length_erase_of_mem he'
        have hsum := sumSize_perm c (hperm.map (·.val))
        rw [List.map_cons, sumSize_cons, ← i.tnp] at hsum
        unfold over at hov ⊢
        simp only [subWrap] at hov
        rw [if_pos (by omega)] at hov
        omega
  | clearUnpinnedOnly =>
    refine ⟨trivial, ⟨by simp, by simp, by simp, by simp, i.pkeys, by simp, rfl, i.tp⟩, ⟨by simp, ?_, l.pin⟩, .inl rfl⟩
    intro p hp
    have : a.pin p.1 = true := (l.pin p.1).mpr (List.mem_map.mpr ⟨p, hp, rfl⟩)
    simp only [CacheSpec.next, this, if_true]
    exact l.valP p hp
  | clearAll =>
    refine ⟨trivial, ⟨by simp, by simp, by simp, by simp, by simp, by simp, rfl, rfl⟩, ⟨by simp, by simp, ?_⟩, .inl rfl⟩
    intro k; simp [CacheSpec.next]
  | setMaxNumEntries n hr =>
    obtain ⟨i', w', hp, hsub, _⟩ := shrink_inv hr ⟨i.acc, i.keys, i.handles, i.hlt, i.pkeys, i.disj, i.tnp, i.tp⟩
    exact ⟨trivial, i', Link.of_sublist l hp hsub, w'⟩

theorem init_inv (c : Config V) (n : Nat) : Inv c (init n : State K V) :=
  ⟨by simp [init], by simp [init], by simp [init], by simp [init], by simp [init], by simp [init], rfl, rfl⟩

theorem init_link (n : Nat) : Link (init n : State K V) {} :=
  ⟨by simp [init], by simp [init], by simp [init]⟩

/-- State of the specification after a history. -/
def specAfter (a : CacheSpec.State K V) : List (Ev K V) → CacheSpec.State K V
  | [] => a
  | e :: es => specAfter (CacheSpec.next a e) es

theorem run_sim {c : Config V} {s s' : State K V} {es : List (Ev K V)} (hr : Run c s es s') :
    ∀ {a}, Inv c s → Link s a → Within c s →
      CacheSpec.Correct a es ∧ Inv c s' ∧ Link s' (specAfter a es) ∧ Within c s' := by
  induction hr with
  | nil => intro a i l w; exact ⟨trivial, i, l, w⟩
  | cons hs _ ih =>
    intro a i l w
    obtain ⟨h1, i', l', w'⟩ := sim i l w hs
    obtain ⟨h2, i'', l'', w''⟩ := ih i' l' w'
    exact ⟨⟨h1, h2⟩, i'', l'', w''⟩

end Verif.Cache
