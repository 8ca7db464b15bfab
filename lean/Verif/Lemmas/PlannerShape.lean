import Verif.Lemmas.PlannerTable
/-
Queries for which the planner needs joins on one column only, and queries for which it finds plans.
-/
namespace Verif.Planner
open MultiJoin (VarMap)
open PlannerSpec

/-- Filters on top of a plan. -/
inductive Wrapped (q : Plan) : Plan → Prop
  | refl : Wrapped q q
  | add {p : Plan} (i : Nat) : Wrapped q p → Wrapped q (addFilter p i)

variable {P : Params} {data : Nat → Nat → Table → Prop} {vars : Nat → List Var} {bag : Nat → List Sol}
  {nodes : List Node} {children : List (List Alt)} {filters : List (List Var)}

theorem Wrapped.trans {a b c : Plan} (h1 : Wrapped a b) (h2 : Wrapped b c) : Wrapped a c := by
  induction h2 with
  | refl => exact h1
  | add i _ ih => exact .add i ih

theorem Wrapped.seedsOf {q p : Plan} (h : Wrapped q p) : p.tree.seedsOf = q.tree.seedsOf := by
  induction h with
  | refl => rfl
  | add i _ ih => exact ih

theorem Wrapped.nodes_eq {q p : Plan} (h : Wrapped q p) : p.nodes = q.nodes := by
  induction h with
  | refl => rfl
  | add i _ ih => exact ih

theorem Wrapped.simple {q p : Plan} (h : Wrapped q p) : p.tree.Simple ↔ q.tree.Simple := by
  induction h with
  | refl => exact Iff.rfl
  | add i _ ih => exact ih

theorem filtered_wrapped {p q : Plan} (h : p ∈ filtered P filters q) : Wrapped q p := by
  unfold filtered at h
  split at h
  · cases h
  · obtain ⟨f, _, hf⟩ := List.mem_filterMap.mp h
    split at hf
    · obtain rfl := Option.some.inj hf
      exact .add _ .refl
    · cases hf

theorem filteredAll_wrapped : ∀ (n : Nat) {row : List Plan}, ∀ p ∈ filteredAll P filters n row, ∃ q ∈ row, Wrapped q p
  | 0, _, p, hp => by cases hp
  | n + 1, row, p, hp => by
    rcases List.mem_append.mp hp with hp | hp
    · obtain ⟨q, hq, hp⟩ := List.mem_flatMap.mp hp
      exact ⟨q, hq, filtered_wrapped hp⟩
    · obtain ⟨q, hq, hw⟩ := filteredAll_wrapped n p hp
      obtain ⟨q', hq', hp'⟩ := List.mem_flatMap.mp hq
      exact ⟨q', hq', (filtered_wrapped hp').trans hw⟩

theorem replaced_wrapped (q : Plan) : Wrapped q (replaced P filters q) := by
  unfold replaced
  split
  · exact .refl
  · generalize filters.zipIdx = fs
    have : ∀ (fs : List (List Var × Nat)) (p : Plan), Wrapped q p →
        Wrapped q (fs.foldl (fun p f => if applicable P p f.2 f.1 then addFilter p f.2 else p) p) := by
      intro fs
      induction fs with
      | nil => exact fun _ h => h
      | cons f fs ih =>
        intro p h
        rw [List.foldl_cons]
        split
        · exact ih _ (.add _ h)
        · exact ih _ h
    exact this fs q .refl

theorem applyFilters_wrapped {b : Bool} {row : List Plan} : ∀ p ∈ applyFilters P filters b row, ∃ q ∈ row, Wrapped q p := by
  intro p hp
  unfold applyFilters at hp
  split at hp
  · obtain ⟨q, hq, rfl⟩ := List.mem_map.mp hp
    exact ⟨q, hq, replaced_wrapped q⟩
  · rcases List.mem_append.mp hp with hp | hp
    · exact ⟨p, hp, .refl⟩
    · exact filteredAll_wrapped _ p hp

theorem mem_applyFilters {b : Bool} {row : List Plan} {q : Plan} (h : q ∈ row) :
    ∃ p ∈ applyFilters P filters b row, Wrapped q p := by
  unfold applyFilters
  split
  · exact ⟨_, List.mem_map_of_mem h, replaced_wrapped q⟩
  · exact ⟨q, List.mem_append_left _ h, .refl⟩

/-! ### Queries in the shape of a tree -/

/-- The variables of a set of seeds. -/
def varsOf (vars : Nat → List Var) (A : Nat → Prop) (v : Var) : Prop := ∃ j, A j ∧ v ∈ vars j

/-- Every part of the set shares a variable with the rest. -/
def Conn (vars : Nat → List Var) (A : Nat → Prop) : Prop :=
  ∀ S : Nat → Prop, (∃ j, A j ∧ S j) → (∃ j, A j ∧ ¬ S j) →
    ∃ v, varsOf vars (fun j => A j ∧ S j) v ∧ varsOf vars (fun j => A j ∧ ¬ S j) v

theorem conn_singleton (i : Nat) : Conn vars (fun j => j = i) := by
  rintro S ⟨j, rfl, h1⟩ ⟨j', rfl, h2⟩
  exact absurd h1 h2

theorem conn_union {A B : Nat → Prop} (hA : Conn vars A) (hB : Conn vars B) {v : Var} (hva : varsOf vars A v)
    (hvb : varsOf vars B v) : Conn vars (fun j => A j ∨ B j) := by
  rintro S ⟨i, hi, hSi⟩ ⟨k, hk, hSk⟩
  by_cases h1 : ∃ j, A j ∧ S j
  · by_cases h2 : ∃ j, A j ∧ ¬ S j
    · obtain ⟨w, ⟨a, ha, haw⟩, ⟨b, hb, hbw⟩⟩ := hA S h1 h2
      exact ⟨w, ⟨a, ⟨.inl ha.1, ha.2⟩, haw⟩, ⟨b, ⟨.inl hb.1, hb.2⟩, hbw⟩⟩
    · have hAS : ∀ j, A j → S j := fun j hj => by_contra fun hn => h2 ⟨j, hj, hn⟩
      by_cases h3 : ∃ j, B j ∧ S j
      · have h4 : ∃ j, B j ∧ ¬ S j := by
          rcases hk with hk | hk
          · exact absurd (hAS k hk) hSk
          · exact ⟨k, hk, hSk⟩
        obtain ⟨w, ⟨a, ha, haw⟩, ⟨b, hb, hbw⟩⟩ := hB S h3 h4
        exact ⟨w, ⟨a, ⟨.inr ha.1, ha.2⟩, haw⟩, ⟨b, ⟨.inr hb.1, hb.2⟩, hbw⟩⟩
      · obtain ⟨a, ha, hav⟩ := hva
        obtain ⟨b, hb, hbv⟩ := hvb
        exact ⟨v, ⟨a, ⟨.inl ha, hAS a ha⟩, hav⟩, ⟨b, ⟨.inr hb, fun hs => h3 ⟨b, hb, hs⟩⟩, hbv⟩⟩
  · have hAS : ∀ j, A j → ¬ S j := fun j hj hs => h1 ⟨j, hj, hs⟩
    have h3 : ∃ j, B j ∧ S j := by
      rcases hi with hi | hi
      · exact absurd hSi (hAS i hi)
      · exact ⟨i, hi, hSi⟩
    by_cases h4 : ∃ j, B j ∧ ¬ S j
    · obtain ⟨w, ⟨a, ha, haw⟩, ⟨b, hb, hbw⟩⟩ := hB S h3 h4
      exact ⟨w, ⟨a, ⟨.inr ha.1, ha.2⟩, haw⟩, ⟨b, ⟨.inr hb.1, hb.2⟩, hbw⟩⟩
    · obtain ⟨a, ha, hav⟩ := hva
      obtain ⟨b, hb, hbv⟩ := hvb
      exact ⟨v, ⟨b, ⟨.inr hb, by_contra fun hn => h4 ⟨b, hb, hn⟩⟩, hbv⟩, ⟨a, ⟨.inl ha, hAS a ha⟩, hav⟩⟩

/-- There is an order of the seeds such that every seed shares at most one variable with all earlier ones together. -/
def TreeShaped (vars : Nat → List Var) (n : Nat) : Prop :=
  ∃ rank : Nat → Nat, (∀ i j, i < n → j < n → rank i = rank j → i = j) ∧
    ∀ j, j < n → ∀ v w, v ∈ vars j → w ∈ vars j → (∃ i, i < n ∧ rank i < rank j ∧ v ∈ vars i) →
      (∃ i, i < n ∧ rank i < rank j ∧ w ∈ vars i) → v = w

theorem shared_unique {n : Nat} {rank : Nat → Nat} (hinj : ∀ i j, i < n → j < n → rank i = rank j → i = j)
    (hone : ∀ j, j < n → ∀ v w, v ∈ vars j → w ∈ vars j → (∃ i, i < n ∧ rank i < rank j ∧ v ∈ vars i) →
      (∃ i, i < n ∧ rank i < rank j ∧ w ∈ vars i) → v = w) (r : Nat) :
    ∀ A B : Nat → Prop, (∀ j, A j → j < n ∧ rank j < r) → (∀ j, B j → j < n ∧ rank j < r) → (∀ j, A j → ¬ B j) →
      Conn vars A → Conn vars B → ∀ v w, varsOf vars A v → varsOf vars B v → varsOf vars A w → varsOf vars B w → v = w := by
  induction r with
  | zero =>
    rintro A B hA _ _ _ _ v w ⟨j, hj, _⟩
    exact absurd (hA j hj).2 (by omega)
  | succ r ih =>
    have step : ∀ A B : Nat → Prop, (∀ j, A j → j < n ∧ rank j < r + 1) → (∀ j, B j → j < n ∧ rank j < r + 1) →
        (∀ j, A j → ¬ B j) → Conn vars A → Conn vars B → (∃ m, A m ∧ rank m = r) → ∀ v w, varsOf vars A v → varsOf vars B v →
        varsOf vars A w → varsOf vars B w → v = w := by
      rintro A B hA hB hd cA cB ⟨m, hm, hmr⟩ v w vA vB wA wB
      have hlow : ∀ j, j < n → rank j < r + 1 → j ≠ m → rank j < rank m := by
        intro j hj hr hne
        have : rank j ≠ rank m := fun he => hne (hinj j m hj (hA m hm).1 he)
        omega
      have hBm : ∀ j, B j → rank j < rank m := fun j hj => hlow j (hB j hj).1 (hB j hj).2 fun he => hd m hm (he ▸ hj)
      by_cases hsingle : ∀ j, A j → j = m
      · obtain ⟨a, ha, hav⟩ := vA
        obtain ⟨b, hb, hbv⟩ := vB
        obtain ⟨a', ha', hav'⟩ := wA
        obtain ⟨b', hb', hbv'⟩ := wB
        rw [hsingle a ha] at hav
        rw [hsingle a' ha'] at hav'
        exact hone m (hA m hm).1 v w hav hav' ⟨b, (hB b hb).1, hBm b hb, hbv⟩ ⟨b', (hB b' hb').1, hBm b' hb', hbv'⟩
      · obtain ⟨a0, ha0, hne0⟩ : ∃ j, A j ∧ j ≠ m := by
          by_contra hn
          exact hsingle fun j hj => by_contra fun h => hn ⟨j, hj, h⟩
        obtain ⟨u, ⟨m', ⟨_, rfl⟩, hum⟩, ⟨a1, ⟨ha1, hne1⟩, hua1⟩⟩ := cA (fun j => j = m) ⟨m, hm, rfl⟩ ⟨a0, ha0, hne0⟩
        have hAlow : ∀ j, A j → j ≠ m' → rank j < rank m' := fun j hj hne => hlow j (hA j hj).1 (hA j hj).2 hne
        -- without the last seed
        have hsub : ∀ x, varsOf vars A x → varsOf vars B x → varsOf vars (fun j => A j ∧ j ≠ m') x := by
          rintro x ⟨a, ha, hax⟩ ⟨b, hb, hbx⟩
          by_cases he : a = m'
          · subst he
            have : x = u := hone a (hA a ha).1 x u hax hum ⟨b, (hB b hb).1, hBm b hb, hbx⟩
              ⟨a1, (hA a1 ha1).1, hAlow a1 ha1 hne1, hua1⟩
            subst this
            exact ⟨a1, ⟨ha1, hne1⟩, hua1⟩
          · exact ⟨a, ⟨ha, he⟩, hax⟩
        have cA' : Conn vars (fun j => A j ∧ j ≠ m') := by
          rintro S ⟨i, ⟨hi, hine⟩, hSi⟩ ⟨k, ⟨hk, hkne⟩, hSk⟩
          obtain ⟨x, ⟨p, ⟨hp, hpS⟩, hpx⟩, ⟨q, ⟨hq, hqS⟩, hqx⟩⟩ := cA (fun j => S j ∧ j ≠ m') ⟨i, hi, hSi, hine⟩ ⟨k, hk, fun h => hSk h.1⟩
          obtain ⟨y, ⟨p', ⟨hp', hpS'⟩, hpy⟩, ⟨q', ⟨hq', hqS'⟩, hqy⟩⟩ := cA (fun j => S j ∨ j = m') ⟨i, hi, .inl hSi⟩
            ⟨k, hk, fun h => h.elim hSk hkne⟩
          by_cases hqm : q = m'
          · by_cases hpm : p' = m'
            · subst hqm hpm
              have hq'ne : q' ≠ p' := fun h => hqS' (.inr h)
              have hxy : x = y := hone p' (hA p' hp').1 x y hqx hpy ⟨p, (hA p hp).1, hAlow p hp hpS.2, hpx⟩
                ⟨q', (hA q' hq').1, hAlow q' hq' hq'ne, hqy⟩
              subst hxy
              exact ⟨x, ⟨p, ⟨⟨hp, hpS.2⟩, hpS.1⟩, hpx⟩, ⟨q', ⟨⟨hq', hq'ne⟩, fun h => hqS' (.inl h)⟩, hqy⟩⟩
            · exact ⟨y, ⟨p', ⟨⟨hp', hpm⟩, hpS'.resolve_right hpm⟩, hpy⟩,
                ⟨q', ⟨⟨hq', fun h => hqS' (.inr h)⟩, fun h => hqS' (.inl h)⟩, hqy⟩⟩
          · exact ⟨x, ⟨p, ⟨⟨hp, hpS.2⟩, hpS.1⟩, hpx⟩, ⟨q, ⟨⟨hq, hqm⟩, fun h => hqS ⟨h, hqm⟩⟩, hqx⟩⟩
        refine ih (fun j => A j ∧ j ≠ m') B ?_ ?_ (fun j hj => hd j hj.1) cA' cB v w (hsub v vA vB) vB (hsub w wA wB) wB
        · intro j hj
          exact ⟨(hA j hj.1).1, hmr ▸ hAlow j hj.1 hj.2⟩
        · intro j hj
          exact ⟨(hB j hj).1, hmr ▸ hBm j hj⟩
    intro A B hA hB hd cA cB v w vA vB wA wB
    by_cases h1 : ∃ m, A m ∧ rank m = r
    · exact step A B hA hB hd cA cB h1 v w vA vB wA wB
    · by_cases h2 : ∃ m, B m ∧ rank m = r
      · exact step B A hB hA (fun j hj hj' => hd j hj' hj) cB cA h2 v w vB vA wB wA
      · refine ih A B ?_ ?_ hd cA cB v w vA vB wA wB
        · intro j hj
          have := (hA j hj).2
          have : rank j ≠ r := fun h => h1 ⟨j, hj, h⟩
          exact ⟨(hA j hj).1, by omega⟩
        · intro j hj
          have := (hB j hj).2
          have : rank j ≠ r := fun h => h2 ⟨j, hj, h⟩
          exact ⟨(hB j hj).1, by omega⟩

/-- Two join columns belong to two variables. -/
theorem getJoinColumns_two {a b : Tree} (ha : MapOk (a.cols P) a.width) {j1 j2 : Nat × Nat} {js : List (Nat × Nat)}
    (h : getJoinColumns P a b = j1 :: j2 :: js) :
    ∃ v w, v ≠ w ∧ v ∈ (a.cols P).map (·.1) ∧ v ∈ (b.cols P).map (·.1) ∧ w ∈ (a.cols P).map (·.1) ∧ w ∈ (b.cols P).map (·.1) := by
  unfold getJoinColumns at h
  have hk := ha.keys
  generalize a.cols P = m at h hk
  clear ha
  induction m with
  | nil => cases h
  | cons p m ih =>
    rw [List.map_cons, List.nodup_cons] at hk
    rw [List.filterMap_cons] at h
    cases hl : (b.cols P).lookup p.1 with
    | none =>
      rw [hl] at h
      obtain ⟨v, w, h1, h2, h3, h4, h5⟩ := ih h hk.2
      exact ⟨v, w, h1, List.mem_cons_of_mem _ h2, h3, List.mem_cons_of_mem _ h4, h5⟩
    | some c =>
      rw [hl] at h
      simp only [Option.map_some, List.cons.injEq] at h
      have hm : j2 ∈ m.filterMap fun p => ((b.cols P).lookup p.1).map fun c => (p.2, c) := by rw [h.2]; simp
      obtain ⟨q, hq, he⟩ := List.mem_filterMap.mp hm
      obtain ⟨d, hd, -⟩ := Option.map_eq_some_iff.mp he
      refine ⟨p.1, q.1, ?_, List.mem_cons_self, lookup_isSome.mp (by rw [hl]; rfl),
        List.mem_cons_of_mem _ (List.mem_map_of_mem hq), lookup_isSome.mp (by rw [hd]; rfl)⟩
      intro he'
      exact hk.1 (he' ▸ List.mem_map_of_mem hq)

/-- Plans for queries in the shape of a tree. -/
structure Shaped (P : Params) (data : Nat → Nat → Table → Prop) (vars : Nat → List Var) (bag : Nat → List Sol) (nodes : List Node)
    (children : List (List Alt)) (filters : List (List Var)) (k : Nat) (p : Plan) : Prop where
  inv : Inv P data vars bag nodes children filters k p
  simple : p.tree.Simple
  conn : Conn vars (fun j => j ∈ p.tree.seedsOf)

theorem join_shaped (hshuffle : ∀ m, (P.shuffle m).Perm m) (htree : TreeShaped vars (nodes.length + children.length)) {k k' : Nat}
    {a b p : Plan} (ha : Shaped P data vars bag nodes children filters k a) (hb : Shaped P data vars bag nodes children filters k' b)
    (hp : p ∈ createJoinCandidates P nodes a b) : Shaped P data vars bag nodes children filters (k + k') p := by
  have hinv := join_inv hshuffle ha.inv hb.inv hp
  have ma := sound_map hshuffle (ha.inv.sound ha.simple)
  have mb := sound_map hshuffle (hb.inv.sound hb.simple)
  unfold createJoinCandidates at hp
  by_cases hc : connected P nodes a b = true
  swap
  · simp [hc] at hp
  simp only [hc, if_true] at hp
  have hdisj := connected_disjoint hc
  have hd : ∀ j ∈ a.tree.seedsOf, j ∉ b.tree.seedsOf := by
    intro j h1 h2
    have : (a.nodes &&& b.nodes).testBit j = true := by
      rw [Nat.testBit_and, (ha.inv.bits j).mpr h1, (hb.inv.bits j).mpr h2]; rfl
    rw [hdisj] at this
    simp at this
  have hno : ∀ {j1 j2 js}, getJoinColumns P a.tree b.tree ≠ j1 :: j2 :: js := by
    intro j1 j2 js hj
    obtain ⟨v, w, hvw, h1, h2, h3, h4⟩ := getJoinColumns_two ma.1 hj
    obtain ⟨rank, hinj, hone⟩ := htree
    have hbnd : ∃ r, (∀ j ∈ a.tree.seedsOf, rank j < r) ∧ ∀ j ∈ b.tree.seedsOf, rank j < r := by
      have : ∀ l : List Nat, ∃ r, ∀ j ∈ l, rank j < r := by
        intro l
        induction l with
        | nil => exact ⟨0, by simp⟩
        | cons x l ih =>
          obtain ⟨r, hr⟩ := ih
          refine ⟨r + rank x + 1, ?_⟩
          intro j hj
          rcases List.mem_cons.mp hj with rfl | hj
          · omega
          · have := hr j hj; omega
      obtain ⟨r, hr⟩ := this (a.tree.seedsOf ++ b.tree.seedsOf)
      exact ⟨r, fun j hj => hr j (List.mem_append_left _ hj), fun j hj => hr j (List.mem_append_right _ hj)⟩
    obtain ⟨r, hra, hrb⟩ := hbnd
    exact hvw (shared_unique hinj hone r _ _ (fun j hj => ⟨ha.inv.lt j hj, hra j hj⟩) (fun j hj => ⟨hb.inv.lt j hj, hrb j hj⟩) hd
      ha.conn hb.conn v w ((ma.2 v).mp h1) ((mb.2 v).mp h2) ((ma.2 w).mp h3) ((mb.2 w).mp h4))
  match hj : getJoinColumns P a.tree b.tree with
  | [] => simp [hj] at hp
  | [jc] =>
    simp only [hj] at hp
    by_cases hdd : (a.tree.isDummy && b.tree.isDummy) = true
    · simp [hdd] at hp
    simp only [hdd] at hp
    cases hsl : sorted a.tree jc.1 with
    | none => simp [hsl] at hp
    | some l =>
      cases hsr : sorted b.tree jc.2 with
      | none => simp [hsl, hsr] at hp
      | some r =>
        simp only [hsl, hsr, Bool.false_eq_true, if_false, List.mem_singleton] at hp
        subst hp
        have hsim : ∀ {t l : Tree} {c : Nat}, sorted t c = some l → t.Simple → l.Simple := by
          intro t l c h hl
          rcases sorted_some h with ⟨rfl, _⟩ | ⟨rfl, _⟩ <;> exact hl
        obtain ⟨l1, l2⟩ := sorted_seedsOf hsl
        obtain ⟨r1, r2⟩ := sorted_seedsOf hsr
        refine ⟨hinv, ?_, ?_⟩
        · show (mkJoin P l r jc.1 jc.2).Simple
          unfold mkJoin
          split
          · exact ⟨hsim hsr hb.simple, hsim hsl ha.simple⟩
          · exact ⟨hsim hsl ha.simple, hsim hsr hb.simple⟩
        · obtain ⟨v, hv⟩ := getJoinColumns_shares ma.1 mb.1 hj
          have hu := conn_union ha.conn hb.conn ((ma.2 v).mp (mem_keys hv.left)) ((mb.2 v).mp (mem_keys hv.right))
          have he : (fun j => j ∈ (mkJoin P l r jc.1 jc.2).seedsOf) = fun j => j ∈ a.tree.seedsOf ∨ j ∈ b.tree.seedsOf := by
            funext j
            rw [← l1, ← r1]
            unfold mkJoin
            split
            · simp only [Tree.seedsOf, List.mem_append, eq_iff_iff]
              exact or_comm
            · simp only [Tree.seedsOf, List.mem_append]
          show Conn vars (fun j => j ∈ (mkJoin P l r jc.1 jc.2).seedsOf)
          rw [he]
          exact hu
  | j1 :: j2 :: js => exact absurd hj hno

theorem fillDpTab_shaped (horder : ∀ g, (P.order g).Perm g) (hshuffle : ∀ m, (P.shuffle m).Perm m)
    (hleaf : ∀ j k a, (altsOf nodes children j)[k]? = some a → LeafOk data vars bag j k a)
    (htree : TreeShaped vars (nodes.length + children.length)) {res : List (List Plan)}
    (h : fillDpTab P nodes filters children = .ok res) :
    Rows (Shaped P data vars bag nodes children filters) res := by
  refine (fillDpTab_rows horder (fun p hp => ?_) (fun _ _ _ _ _ ha hb hp => join_shaped hshuffle htree ha hb hp)
    (fun k row b hrow p hp => ?_) h).1
  · refine ⟨seeds_inv hleaf hp, ?_, ?_⟩
    · obtain ⟨j, hj, k, a, ha, rfl⟩ := mem_seeds hp
      trivial
    · obtain ⟨j, hj, k, a, ha, rfl⟩ := mem_seeds hp
      have : (fun i => i ∈ (Tree.leaf j k a.scan a.width a.sortedOn a.cols).seedsOf) = fun i => i = j := by
        funext i; simp [Tree.seedsOf]
      show Conn vars (fun i => i ∈ (Tree.leaf j k a.scan a.width a.sortedOn a.cols).seedsOf)
      rw [this]
      exact conn_singleton j
  · obtain ⟨q, hq, hw⟩ := applyFilters_wrapped p hp
    refine ⟨applyFilters_inv b (fun p hp => (hrow p hp).inv) p hp, hw.simple.mpr (hrow q hq).simple, ?_⟩
    rw [hw.seedsOf]
    exact (hrow q hq).conn

end Verif.Planner
