import Verif.Lemmas.Cache
/-
C07: the result cache respects its limits and never evicts pinned results.
C08: a lookup only returns what was inserted under that key.
-/
namespace Verif.Cache
open CacheSpec (Ev)

set_option linter.unusedSectionVars false
variable {K V : Type} [DecidableEq K] [DecidableEq V]

/-! ### Specification vocabulary: read off the history -/

/-- The entry-count limit in force after a history: the last one set. -/
def limitAfter (n : Nat) : List (Ev K V) → Nat
  | [] => n
  | .setMaxNumEntries m :: es => limitAfter m es
  | _ :: es => limitAfter n es

/-- Puts `v` under `k`. -/
def puts (k : K) (v : V) (e : Ev K V) : Prop := e = .insert k v ∨ e = .insertPinned k v

/-- Takes away whatever is under `k`. -/
def removes (k : K) (e : Ev K V) : Prop := e = .erase k ∨ e = .clearAll

/-! ### Lemmas -/

theorem specAfter_append (a : CacheSpec.State K V) (es fs : List (Ev K V)) :
    specAfter a (es ++ fs) = specAfter (specAfter a es) fs := by
  induction es generalizing a with
  | nil => rfl
  | cons e es ih => exact ih _

theorem run_append {c : Config V} {s s' : State K V} {es fs : List (Ev K V)} (h : Run c s (es ++ fs) s') :
    ∃ m, Run c s es m ∧ Run c m fs s' := by
  induction es generalizing s with
  | nil => exact ⟨s, .nil, h⟩
  | cons e es ih =>
    cases h with
    | cons hs hr =>
      obtain ⟨m, h1, h2⟩ := ih hr
      exact ⟨m, .cons hs h1, h2⟩

theorem correct_append {a : CacheSpec.State K V} {es fs : List (Ev K V)} (h : CacheSpec.Correct a (es ++ fs)) :
    CacheSpec.Correct a es ∧ CacheSpec.Correct (specAfter a es) fs := by
  induction es generalizing a with
  | nil => exact ⟨trivial, h⟩
  | cons e es ih => exact ⟨⟨h.1, (ih h.2).1⟩, (ih h.2).2⟩

theorem maxNum_step {c : Config V} {s s' : State K V} {e : Ev K V} (i : Inv c s) (h : Step c s e s') :
    s'.maxNumEntries = limitAfter s.maxNumEntries [e] := by
  cases h <;> try rfl
  case insert hc _ hr => exact (shrink_inv hr (i.pushed _ _ hc)).2.2.2.2
  case insertPinned hc _ hr => exact (shrink_inv hr (i.pinnedPushed _ hc)).2.2.2.2
  case setMaxNumEntries n hr =>
    exact (shrink_inv hr ⟨i.acc, i.keys, i.handles, i.hlt, i.pkeys, i.disj, i.tnp, i.tp⟩).2.2.2.2

theorem limitAfter_cons (n : Nat) (e : Ev K V) (es : List (Ev K V)) :
    limitAfter n (e :: es) = limitAfter (limitAfter n [e]) es := by
  cases e <;> rfl

theorem maxNum_run {c : Config V} {s s' : State K V} {es : List (Ev K V)} (h : Run c s es s') :
    ∀ {a}, Inv c s → Link s a → Within c s → s'.maxNumEntries = limitAfter s.maxNumEntries es := by
  induction h with
  | nil => intros; rfl
  | cons hs _ ih =>
    intro a i l w
    obtain ⟨_, i', l', w'⟩ := sim i l w hs
    rw [ih i' l' w', maxNum_step i hs, ← limitAfter_cons]

theorem nonPinnedSize_eq {c : Config V} {s : State K V} (i : Inv c s) :
    nonPinnedSize c s = some s.totalSizeNonPinned := by
  have key : ∀ (m : List (K × Nat)) (l : List (QNode K V)), m.Perm (l.map (fun e => (e.key, e.handle))) →
      (∀ e ∈ l, e ∈ s.entries) →
      ∃ ns, m.mapM (fun p => (deref s p.2).map (fun e => c.sizeOf e.val)) = some ns ∧
        ns.sum = sumSize c (l.map (·.val)) := by
    intro m
    induction m with
    | nil =>
      intro l hp _
      have : l = [] := by simpa using hp.symm.eq_nil
      subst this
      exact ⟨[], rfl, rfl⟩
    | cons p ps ih =>
      intro l hp hl
      have hm : p ∈ l.map (fun e => (e.key, e.handle)) := hp.mem_iff.mp List.mem_cons_self
      obtain ⟨e, he, rfl⟩ := List.mem_map.mp hm
      have hpe := List.perm_cons_erase he
      have h2 : ps.Perm ((l.erase e).map (fun e => (e.key, e.handle))) := by
        have := hp.trans (hpe.map _)
        exact this.cons_inv
      obtain ⟨ns, h3, h4⟩ := ih (l.erase e) h2 (fun x hx => hl x (List.mem_of_mem_erase hx))
      have hd : deref s e.handle = some e := by
        unfold deref
        cases hq : s.entries.find? (fun x => x.handle = e.handle) with
        | none =>
          rw [List.find?_eq_none] at hq
          have := hq e (hl e he); simp at this
        | some e' =>
          have h1 := List.mem_of_find?_eq_some hq
          have h2 := List.find?_some hq
          simp at h2
          rw [nodup_handle_unique i.handles h1 (hl e he) h2]
      refine ⟨c.sizeOf e.val :: ns, ?_, ?_⟩
      · simp [List.mapM_cons, hd, h3]
      · rw [sumSize_perm c (hpe.map (·.val)), List.map_cons, sumSize_cons, List.sum_cons, h4]
  obtain ⟨ns, h1, h2⟩ := key s.accessMap s.entries i.acc (fun _ h => h)
  unfold nonPinnedSize
  rw [h1]
  simp [h2, i.tnp]

/-! ### C07 -/

/-- **C07** (limits).  After every history, either no unpinned entry is left, or the numbers the cache reports are within
both limits. (The reported sizes are recomputed from the entries, not read from the running totals.) -/
theorem C07_limits {c : Config V} {n : Nat} {es : List (Ev K V)} {s : State K V} (h : Run c (init n) es s) :
    ∃ np, nonPinnedSize c s = some np ∧
      (numNonPinnedEntries s = 0 ∨
        (numNonPinnedEntries s + numPinnedEntries s ≤ limitAfter n es ∧ np + pinnedSize c s ≤ c.maxSize)) := by
  obtain ⟨_, i, _, w⟩ := run_sim h (init_inv c n) (init_link n) (.inl rfl)
  have hmax := maxNum_run h (init_inv c n) (init_link n) (.inl rfl)
  refine ⟨_, nonPinnedSize_eq i, ?_⟩
  have hlen : numNonPinnedEntries s = s.entries.length := by
    have := i.acc.length_eq
    simpa [numNonPinnedEntries] using this
  rcases w with w | w
  · left; rw [hlen, w]; rfl
  · right
    have hp : pinnedSize c s = s.totalSizePinned := by
      rw [i.tp]; simp [pinnedSize, sumSize, List.map_map, Function.comp_def]
    have hinit : (init n : State K V).maxNumEntries = n := rfl
    rw [hinit] at hmax
    rw [hlen, hp, ← hmax]
    unfold numPinnedEntries
    unfold over at w
    omega

/-- Pinned keys keep value and pin through every event that does not remove them. -/
theorem pinned_preserved {k : K} {v : V} {es : List (Ev K V)} (hno : ∀ e ∈ es, ¬ removes k e) :
    ∀ {a : CacheSpec.State K V}, a.pin k = true → a.val k = some v → CacheSpec.Correct a es →
      (specAfter a es).pin k = true ∧ (specAfter a es).val k = some v := by
  induction es with
  | nil => intro a h1 h2 _; exact ⟨h1, h2⟩
  | cons e es ih =>
    intro a h1 h2 hc
    have hne := hno e List.mem_cons_self
    obtain ⟨hal, hc'⟩ := hc
    apply ih (fun x hx => hno x (List.mem_cons_of_mem _ hx)) _ _ hc'
    · cases e <;> simp only [CacheSpec.next] <;> try exact h1
      case lookup x r => cases r <;> exact h1
      case contains x b => cases b <;> exact h1
      case makePinned x b => cases b <;> simp only <;> first | exact h1 | (split <;> simp_all)
      case insertPinned x w => split <;> simp_all
      case erase x =>
        by_cases hx : k = x
        · subst hx; exact absurd (.inl rfl) hne
        · rw [if_neg hx]; exact h1
      case clearAll => exact absurd (.inr rfl) hne
    · cases e <;> simp only [CacheSpec.next] <;> try exact h2
      case insert x w =>
        by_cases hx : k = x
        · subst hx; simp [CacheSpec.allowed, h1] at hal
        · rw [if_neg hx]; exact h2
      case insertPinned x w =>
        by_cases hx : k = x
        · subst hx; simp [CacheSpec.allowed, h1] at hal
        · rw [if_neg hx]; exact h2
      case insertIgnored x w =>
        by_cases hx : k = x
        · subst hx; simp [CacheSpec.allowed, h1] at hal
        · rw [if_neg hx]; exact h2
      case lookup x r =>
        cases r with
        | some w => exact h2
        | none =>
          by_cases hx : k = x
          · subst hx; simp [CacheSpec.allowed, h1] at hal
          · simp only; rw [if_neg hx]; exact h2
      case contains x b =>
        cases b with
        | true => exact h2
        | false =>
          by_cases hx : k = x
          · subst hx; simp [CacheSpec.allowed, h1] at hal
          · simp only; rw [if_neg hx]; exact h2
      case makePinned x b =>
        cases b with
        | true => exact h2
        | false =>
          by_cases hx : k = x
          · subst hx; simp [CacheSpec.allowed, h1] at hal
          · simp only; rw [if_neg hx]; exact h2
      case erase x =>
        by_cases hx : k = x
        · subst hx; exact absurd (.inl rfl) hne
        · rw [if_neg hx]; exact h2
      case clearUnpinnedOnly => simp [h1, h2]
      case clearAll => exact absurd (.inr rfl) hne

/-- **C07** (pinned results stay).  A value inserted as pinned is returned by every later lookup of its key, whatever
happens in between, until the key is erased or everything is cleared. -/
theorem C07_pinned_stays {c : Config V} {n : Nat} {es1 es2 : List (Ev K V)} {k : K} {v : V} {r : Option V}
    {s : State K V} (h : Run c (init n) (es1 ++ .insertPinned k v :: (es2 ++ [.lookup k r])) s)
    (hno : ∀ e ∈ es2, ¬ removes k e) : r = some v := by
  obtain ⟨hc, _⟩ := run_sim h (init_inv c n) (init_link n) (.inl rfl)
  have h1 := (correct_append hc).2
  obtain ⟨_, h2⟩ := h1
  obtain ⟨h3, h4⟩ := correct_append h2
  have := pinned_preserved hno (v := v) (a := CacheSpec.next (specAfter {} es1) (.insertPinned k v))
    (by simp [CacheSpec.next]) (by simp [CacheSpec.next]) h3
  have h5 := (h4.1).2 this.1
  rw [h5.1]; exact this.2

/-- **C07** (making pinned).  The same for an entry that was made pinned: whatever a lookup returned just before or
after, later lookups return the same. -/
theorem C07_made_pinned_stays {c : Config V} {n : Nat} {es1 es2 : List (Ev K V)} {k : K} {v : V} {r : Option V}
    {s : State K V}
    (h : Run c (init n) (es1 ++ .makePinned k true :: .lookup k (some v) :: (es2 ++ [.lookup k r])) s)
    (hno : ∀ e ∈ es2, ¬ removes k e) : r = some v := by
  obtain ⟨hc, _⟩ := run_sim h (init_inv c n) (init_link n) (.inl rfl)
  have h1 := (correct_append hc).2
  obtain ⟨_, hlk, h2⟩ := h1
  obtain ⟨h3, h4⟩ := correct_append h2
  have := pinned_preserved hno (v := v) (by simp [CacheSpec.next]) (hlk.1 v rfl) h3
  have h5 := (h4.1).2 this.1
  rw [h5.1]; exact this.2

/-- `makePinned` answering `true` really leaves the key in the cache: the next lookup finds a value. -/
theorem C07_made_pinned_found {c : Config V} {n : Nat} {es1 : List (Ev K V)} {k : K} {r : Option V}
    {s : State K V} (h : Run c (init n) (es1 ++ [.makePinned k true, .lookup k r]) s) : ∃ v, r = some v := by
  obtain ⟨hc, _⟩ := run_sim h (init_inv c n) (init_link n) (.inl rfl)
  have h1 := (correct_append hc).2
  obtain ⟨_, hlk, _⟩ := h1
  have := (hlk.2 (by simp [CacheSpec.next])).2
  exact Option.isSome_iff_exists.mp this

/-- **C07** (eviction only when needed).  If the new entry fits, nothing is evicted: every unpinned entry that was found
before is still stored. -/
theorem C07_no_needless_eviction {c : Config V} {s s' : State K V} {k : K} {v : V} {score : Nat}
    (h : Shrink c (pushed c s k v score) s')
    (hnum : s.entries.length + 1 + s.pinnedMap.length ≤ s.maxNumEntries)
    (hsize : s.totalSizeNonPinned + c.sizeOf v + s.totalSizePinned ≤ c.maxSize) : s' = pushed c s k v score := by
  cases h with
  | done _ => rfl
  | pop e ho _ _ _ =>
    exfalso
    simp only [over, pushed, List.length_cons] at ho
    omega

/-- **C07** (lowest score first).  Whatever `shrinkToFit` evicts has a score not larger than anything it keeps. -/
theorem C07_evicts_lowest {c : Config V} {s s' : State K V} (h : Shrink c s s')
    (hn : s.entries.Nodup) :
    ∀ x ∈ s.entries, x ∉ s'.entries → ∀ y ∈ s'.entries, x.score ≤ y.score := by
  induction h with
  | done _ => intro x hx hx'; exact absurd hx hx'
  | @pop s1 s2 e ho he hmin hr ih =>
    intro x hx hx' y hy
    by_cases hxe : x = e
    · subst hxe
      have hsub : ∀ z ∈ s2.entries, z ∈ s1.entries := by
        have : ∀ {a b : State K V}, Shrink c a b → ∀ z ∈ b.entries, z ∈ a.entries := by
          intro a b hab
          induction hab with
          | done _ => intro z hz; exact hz
          | pop e _ _ _ _ ih => intro z hz; exact List.mem_of_mem_erase (ih z hz)
        intro z hz
        exact List.mem_of_mem_erase (this hr z hz)
      exact hmin y (hsub y hy)
    · exact ih (hn.erase _) x ((List.mem_erase_of_ne hxe).mpr hx) hx' y hy

/-! ### C08 -/

/-- **C08** (refinement).  Every history of the cache is one the specification allows: all lookups and tests return what
the history demands. -/
theorem C08_refines {c : Config V} {n : Nat} {es : List (Ev K V)} {s : State K V} (h : Run c (init n) es s) :
    CacheSpec.Correct {} es := (run_sim h (init_inv c n) (init_link n) (.inl rfl)).1

theorem val_origin (k : K) (v : V) : ∀ (es : List (Ev K V)),
    (specAfter ({} : CacheSpec.State K V) es).val k = some v →
    ∃ es1 e es2, es = es1 ++ e :: es2 ∧ puts k v e ∧
      ∀ x ∈ es2, ¬ removes k x ∧ ∀ w, ¬ puts k w x := by
  intro es
  -- induction from the end of the history
  have key : ∀ n (es : List (Ev K V)), es.length = n →
      (specAfter ({} : CacheSpec.State K V) es).val k = some v →
      ∃ es1 e es2, es = es1 ++ e :: es2 ∧ puts k v e ∧
        ∀ x ∈ es2, ¬ removes k x ∧ ∀ w, ¬ puts k w x := by
    intro n
    induction n with
    | zero => intro es hn hv; rw [List.length_eq_zero_iff.mp hn] at hv; simp [specAfter] at hv
    | succ n ih =>
      intro es hn hv
      have hne : es ≠ [] := by intro h; rw [h] at hn; simp at hn
      rw [← List.dropLast_concat_getLast hne] at hv ⊢
      have hln : es.dropLast.length = n := by rw [List.length_dropLast]; omega
      generalize es.dropLast = ds at *
      generalize es.getLast hne = e at *
      rw [specAfter_append] at hv
      simp only [specAfter] at hv
      by_cases hp : puts k v e
      · exact ⟨ds, e, [], rfl, hp, by simp⟩
      · have hval : (specAfter ({} : CacheSpec.State K V) ds).val k = some v ∧ ¬ removes k e ∧ ∀ w, ¬ puts k w e := by
          cases e <;> simp only [CacheSpec.next, puts, removes] at hv hp ⊢
          case insert x w =>
            by_cases hx : k = x
            · subst hx; simp at hv; simp [hv] at hp
            · rw [if_neg hx] at hv; simp [hv]; intro h; exact absurd h.symm hx
          case insertPinned x w =>
            by_cases hx : k = x
            · subst hx; simp at hv; simp [hv] at hp
            · rw [if_neg hx] at hv; simp [hv]; intro h; exact absurd h.symm hx
          case erase x =>
            by_cases hx : k = x
            · subst hx; simp at hv
            · rw [if_neg hx] at hv; simp [hv]; exact fun h => hx h.symm
          case clearAll => simp at hv
          case clearUnpinnedOnly => split at hv <;> simp_all
          case insertIgnored x w => split at hv <;> simp_all
          case lookup x r => cases r <;> simp only at hv <;> first | (split at hv <;> simp_all) | simp_all
          case contains x b => cases b <;> simp only at hv <;> first | (split at hv <;> simp_all) | simp_all
          case makePinned x b => cases b <;> simp only at hv <;> first | (split at hv <;> simp_all) | simp_all
          all_goals simp_all
        obtain ⟨es1, e', es2, h1, h2, h3⟩ := ih ds hln hval.1
        refine ⟨es1, e', es2 ++ [e], by simp [h1], h2, ?_⟩
        intro x hx
        rcases List.mem_append.mp hx with hx | hx
        · exact h3 x hx
        · simp at hx; subst hx; exact hval.2
  exact key es.length es rfl

/-- **C08** (provenance).  If a lookup of `k` returns `v`, then the history contains an accepted insertion of `v` under
exactly `k`, after which nothing else was put under `k` and `k` was neither erased nor everything cleared. -/
theorem C08_lookup_provenance {c : Config V} {n : Nat} {es : List (Ev K V)} {k : K} {v : V} {s : State K V}
    (h : Run c (init n) (es ++ [.lookup k (some v)]) s) :
    ∃ es1 e es2, es = es1 ++ e :: es2 ∧ puts k v e ∧ ∀ x ∈ es2, ¬ removes k x ∧ ∀ w, ¬ puts k w x := by
  have hc := (correct_append (C08_refines h)).2
  exact val_origin k v es (hc.1.1 v rfl)

/-- **C08** (gone is gone).  After `erase(k)` or `clearAll`, lookups of `k` return null until something is put under `k`
again. -/
theorem C08_removed_not_found {c : Config V} {n : Nat} {es1 es2 : List (Ev K V)} {e : Ev K V} {k : K} {r : Option V}
    {s : State K V} (h : Run c (init n) (es1 ++ e :: (es2 ++ [.lookup k r])) s) (he : removes k e)
    (hno : ∀ x ∈ es2, ∀ w, ¬ puts k w x) : r = none := by
  cases r with
  | none => rfl
  | some v =>
    exfalso
    have h' : Run c (init n) ((es1 ++ e :: es2) ++ [.lookup k (some v)]) s := by simpa using h
    obtain ⟨fs1, f, fs2, heq, hf, hrest⟩ := C08_lookup_provenance h'
    rw [List.append_eq_append_iff] at heq
    rcases heq with ⟨ys, h1, h2⟩ | ⟨ys, h1, h2⟩
    · -- the insertion comes at or after `e`
      cases ys with
      | nil =>
        simp at h2
        obtain ⟨rfl, _⟩ := h2
        rcases he with rfl | rfl <;> rcases hf with hf | hf <;> cases hf
      | cons y ys =>
        simp at h2
        have : f ∈ es2 := by rw [h2.2]; simp
        exact hno f this v hf
    · -- the insertion comes before `e`
      cases ys with
      | nil =>
        simp at h2
        obtain ⟨rfl, _⟩ := h2
        rcases he with rfl | rfl <;> rcases hf with hf | hf <;> cases hf
      | cons y ys =>
        simp at h2
        have : e ∈ fs2 := by rw [h2.2]; simp
        exact (hrest e this).1 he

/-- **C08** (progress).  A lookup never gets stuck on a dangling handle: in every reachable state it returns something. -/
theorem C08_lookup_total {c : Config V} {n : Nat} {es : List (Ev K V)} {s : State K V} (h : Run c (init n) es s)
    (k : K) : ∃ r s', Step c s (.lookup k r) s' := by
  obtain ⟨_, i, _, _⟩ := run_sim h (init_inv c n) (init_link n) (.inl rfl)
  cases hp : find s.pinnedMap k with
  | some v => exact ⟨_, _, .lookupPinned k v hp⟩
  | none =>
    cases ha : find s.accessMap k with
    | none => exact ⟨_, _, .lookupNone k hp ha⟩
    | some hd =>
      obtain ⟨e, _, h1, _, _⟩ := i.deref ha
      exact ⟨_, _, .lookup k hd e 0 hp ha h1⟩

/-- Inserting terminates in every state. -/
theorem C08_insert_total {c : Config V} (s : State K V) (k : K) (v : V) (score : Nat)
    (hc : contains s k = false) (hs : c.sizeOf v ≤ c.maxSizeSingleEntry) : ∃ s', Step c s (.insert k v) s' := by
  obtain ⟨s', h⟩ := shrink_total c _ (pushed c s k v score) rfl
  exact ⟨s', .insert k v score hc hs h⟩

/-! ### Non-vacuity -/

/-- A cache of two entries: 1 pinned, then 2, then 3 (which evicts 2); lookups of 1 and 3 succeed, 2 is gone. -/
example : ∃ s, Run (K := Nat) (V := Nat) ⟨100, 50, id⟩ (init 2)
    ([] ++ .insertPinned 1 10 :: ([.insert 2 20, .insert 3 30, .lookup 2 none, .lookup 3 (some 30)] ++
      [.lookup 1 (some 10)])) s := by
  refine ⟨_, .cons (.insertPinned 1 10 ?_ ?_ (.done ?_)) (.cons (.insert 2 20 5 ?_ ?_ (.done ?_))
    (.cons (.insert 3 30 6 ?_ ?_ (.pop ⟨0, 5, 2, 20⟩ ?_ ?_ ?_ (.done ?_))) (.cons (.lookupNone 2 ?_ ?_)
    (.cons (.lookup 3 1 ⟨1, 6, 3, 30⟩ 7 ?_ ?_ ?_) (.cons (.lookupPinned 1 10 ?_) .nil)))))⟩ <;>
    simp [contains, find, init, pinnedPushed, pushed, setKey, eraseKey, over, deref, subWrap]

end Verif.Cache
