import Verif.Lemmas.PlannerShape
/-
The planner finds a plan.
-/
namespace Verif.Planner
open MultiJoin (VarMap)
open PlannerSpec

/-- There is an alternative that can be joined on `v`: it is sorted on `v`, or can be sorted because it is no scan. -/
def Joinable (alts : List Alt) (v : Var) : Prop :=
  ∃ a ∈ alts, a.scan = false ∨ ∃ c, (v, c) ∈ a.cols ∧ a.sortedOn.head? = some c

variable {P : Params} {data : Nat → Nat → Table → Prop} {vars : Nat → List Var} {bag : Nat → List Sol}
  {nodes : List Node} {children : List (List Alt)} {filters : List (List Var)}

theorem cheapest_isSome {ps : List Plan} (h : ps ≠ []) : ∃ p, cheapest P ps = some p := by
  cases ps with
  | nil => exact absurd rfl h
  | cons p ps => exact ⟨_, rfl⟩

theorem merge_ne (horder : ∀ g, (P.order g).Perm g) {a b : List Plan} {x y c : Plan} (hx : x ∈ a) (hy : y ∈ b)
    (hc : c ∈ createJoinCandidates P nodes x y) : (merge P nodes a b).length ≠ 0 := by
  intro h0
  have h0 := List.length_eq_zero_iff.mp h0
  have hmem : c ∈ a.flatMap fun ai => b.flatMap fun bj => createJoinCandidates P nodes ai bj :=
    List.mem_flatMap.mpr ⟨x, hx, List.mem_flatMap.mpr ⟨y, hy, hc⟩⟩
  unfold merge at h0
  generalize (a.flatMap fun ai => b.flatMap fun bj => createJoinCandidates P nodes ai bj) = cs at h0 hmem
  have hg : (cs.filter fun p => pruningKey P p = pruningKey P c) ∈ P.order (groups P cs) := by
    rw [(horder _).mem_iff]
    unfold groups
    exact List.mem_map.mpr ⟨pruningKey P c, by rw [List.mem_eraseDups]; exact List.mem_map_of_mem hmem, rfl⟩
  obtain ⟨p, hp⟩ := cheapest_isSome (P := P) (ps := cs.filter fun p => pruningKey P p = pruningKey P c)
    (List.ne_nil_of_mem (List.mem_filter.mpr ⟨hmem, by simp⟩))
  have : p ∈ (P.order (groups P cs)).filterMap (cheapest P) := List.mem_filterMap.mpr ⟨_, hg, hp⟩
  rw [h0] at this
  cases this

theorem applyFilters_ne {b : Bool} {row : List Plan} (h : row ≠ []) : applyFilters P filters b row ≠ [] := by
  obtain ⟨q, hq⟩ := List.exists_mem_of_ne_nil _ h
  obtain ⟨p, hp, _⟩ := mem_applyFilters (P := P) (filters := filters) (b := b) hq
  exact List.ne_nil_of_mem hp

theorem fillRow_ne {dpTab : List (List Plan)} {k : Nat} {last : Bool} : ∀ (is : List Nat) {row : List Plan}, row ≠ [] →
    fillRow P nodes filters dpTab k last is row ≠ []
  | [], _, h => h
  | i :: is, row, h => by
    unfold fillRow
    simp only
    split
    · exact fillRow_ne is h
    · refine fillRow_ne is (applyFilters_ne ?_)
      intro h'
      exact h (List.append_eq_nil_iff.mp h').1

theorem sorted_ok {t : Tree} {c : Nat} (h : t.isScan = false ∨ t.sortedOn.head? = some c) : ∃ l, sorted t c = some l := by
  unfold sorted
  by_cases h1 : t.sortedOn.head? = some c
  · exact ⟨_, if_pos h1⟩
  · rw [if_neg h1]
    rcases h with h | h
    · rw [h]; exact ⟨_, rfl⟩
    · exact absurd h h1

/-- A seed and a plan that share a variable are connected. -/
theorem connected_leaf {j k : Nat} {a : Alt} {q : Nat} {p : Plan} (hq : Inv P data vars bag nodes children filters q p)
    (hvars : ∀ i n, nodes[i]? = some n → ∀ v, v ∈ n.vars ↔ v ∈ vars i) (hj : j < nodes.length + children.length)
    (hnot : j ∉ p.tree.seedsOf) {v : Var} (hv : v ∈ vars j) {i : Nat} (hi : i ∈ p.tree.seedsOf) (hvi : v ∈ vars i)
    (hjc : (getJoinColumns P (.leaf j k a.scan a.width a.sortedOn a.cols) p.tree).length > 0) :
    connected P nodes ⟨.leaf j k a.scan a.width a.sortedOn a.cols, 1 <<< j, 0⟩ p = true := by
  have hand : 1 <<< j &&& p.nodes = 0 := by
    apply Nat.eq_of_testBit_eq
    intro b
    rw [Nat.testBit_and, testBit_one_shift, Nat.zero_testBit]
    by_cases hb : b = j
    · subst hb
      have : p.nodes.testBit b = false := by
        cases hbit : p.nodes.testBit b with
        | false => rfl
        | true => exact absurd ((hq.bits b).mp hbit) hnot
      rw [this, Bool.and_false]
    · simp [hb]
  unfold connected
  simp only
  rw [if_neg (by rw [hand]; exact fun h => h rfl)]
  by_cases hge : 1 <<< j ≥ 1 <<< nodes.length ∨ p.nodes ≥ 1 <<< nodes.length
  · rw [if_pos hge]
    simpa using hjc
  · rw [if_neg hge]
    have hjn : j < nodes.length := by
      by_contra hn
      exact hge (.inl (by simp only [Nat.one_shiftLeft]; exact Nat.pow_le_pow_right (by decide) (by omega)))
    have hin : i < nodes.length := by
      by_contra hn
      apply hge
      right
      rw [Nat.one_shiftLeft]
      exact (Nat.pow_le_pow_right (by decide) (show nodes.length ≤ i by omega)).trans (Nat.ge_two_pow_of_testBit ((hq.bits i).mpr hi))
    have hne : i ≠ j := fun he => hnot (he ▸ hi)
    rw [List.any_eq_true]
    refine ⟨j, List.mem_range.mpr hjn, ?_⟩
    rw [Bool.and_eq_true]
    refine ⟨?_, ?_⟩
    · rw [decide_eq_true_eq, ne_eq, and_one, testBit_one_shift]; simp
    · rw [List.any_eq_true]
      refine ⟨i, ?_, ?_⟩
      · unfold adjacent
        rw [List.mem_filter]
        refine ⟨List.mem_range.mpr hin, ?_⟩
        rw [decide_eq_true_eq]
        refine ⟨hne.symm, ?_⟩
        rw [List.any_eq_true, List.getElem?_eq_getElem hjn, List.getElem?_eq_getElem hin]
        refine ⟨v, ?_, ?_⟩
        · exact (hvars j _ (List.getElem?_eq_getElem hjn) v).mpr hv
        · rw [decide_eq_true_eq]; exact (hvars i _ (List.getElem?_eq_getElem hin) v).mpr hvi
      · rw [Bool.and_eq_true]
        refine ⟨?_, ?_⟩
        · rw [decide_eq_true_eq, and_one, testBit_one_shift]; simp [hne]
        · rw [decide_eq_true_eq, ne_eq, and_one, (hq.bits i).mpr hi]; simp

theorem exists_candidate (hshuffle : ∀ m, (P.shuffle m).Perm m)
    (hvars : ∀ i n, nodes[i]? = some n → ∀ v, v ∈ n.vars ↔ v ∈ vars i)
    (hleaf : ∀ j k a, (altsOf nodes children j)[k]? = some a → LeafOk data vars bag j k a)
    (hdummy : ∀ j, ∀ a ∈ altsOf nodes children j, ¬ (a.scan = true ∧ a.width = 3))
    (hjoinable : ∀ j, j < nodes.length + children.length → ∀ v ∈ vars j, Joinable (altsOf nodes children j) v) {q : Nat} {p : Plan}
    (hq : Shaped P data vars bag nodes children filters q p) {j i : Nat} (hj : j < nodes.length + children.length)
    (hnot : j ∉ p.tree.seedsOf) {v : Var} (hv : v ∈ vars j) (hi : i ∈ p.tree.seedsOf) (hvi : v ∈ vars i)
    (hp : p.tree.isScan = false ∨ ∃ c, (v, c) ∈ p.tree.cols P ∧ p.tree.sortedOn.head? = some c) :
    ∃ x ∈ seeds nodes children, ∃ c, c ∈ createJoinCandidates P nodes x p := by
  obtain ⟨a, ha, hflex⟩ := hjoinable j hj v hv
  obtain ⟨k, hk⟩ := List.mem_iff_getElem?.mp ha
  have hlk := hleaf j k a hk
  have hx := mem_seeds_of hj hk
  refine ⟨_, hx, ?_⟩
  have mp := sound_map hshuffle (hq.inv.sound hq.simple)
  have ml : MapOk ((Tree.leaf j k a.scan a.width a.sortedOn a.cols).cols P) (Tree.leaf j k a.scan a.width a.sortedOn a.cols).width :=
    hlk.map.perm (hshuffle _)
  have hvl : v ∈ ((Tree.leaf j k a.scan a.width a.sortedOn a.cols).cols P).map (·.1) := by
    simp only [Tree.cols]
    rw [((hshuffle _).map _).mem_iff]
    exact (hlk.vars v).mpr hv
  have hvp : v ∈ (p.tree.cols P).map (·.1) := (mp.2 v).mpr ⟨i, hi, hvi⟩
  obtain ⟨c1, hc1⟩ := mem_of_key hvl
  obtain ⟨c2, hc2⟩ := mem_of_key hvp
  have hmem : (c1, c2) ∈ getJoinColumns P (.leaf j k a.scan a.width a.sortedOn a.cols) p.tree := by
    unfold getJoinColumns
    exact List.mem_filterMap.mpr ⟨(v, c1), hc1, by simp [(lookup_some mp.1.keys).mpr hc2]⟩
  have hcon := connected_leaf (k := k) (a := a) hq.inv hvars hj hnot hv hi hvi (List.length_pos_of_mem hmem)
  have hnd : (Tree.leaf j k a.scan a.width a.sortedOn a.cols).isDummy = false := by
    cases hd : (Tree.leaf j k a.scan a.width a.sortedOn a.cols).isDummy with
    | false => rfl
    | true =>
      simp only [Tree.isDummy, Tree.isScan, Tree.width, Bool.and_eq_true, beq_iff_eq] at hd
      exact absurd hd (hdummy j a ha)
  unfold createJoinCandidates
  simp only [hcon, if_true, hnd, Bool.false_and]
  match hjc : getJoinColumns P (.leaf j k a.scan a.width a.sortedOn a.cols) p.tree with
  | [] => rw [hjc] at hmem; cases hmem
  | [jc] =>
    rw [hjc, List.mem_singleton] at hmem
    subst hmem
    obtain ⟨l, hl⟩ := sorted_ok (t := .leaf j k a.scan a.width a.sortedOn a.cols) (c := c1) (by
      rcases hflex with h | ⟨c, h1, h2⟩
      · exact .inl h
      · have : (v, c1) ∈ a.cols := (hshuffle _).subset hc1
        right
        rw [← col_of_key hlk.map h1 this]
        exact h2)
    obtain ⟨r, hr⟩ := sorted_ok (t := p.tree) (c := c2) (by
      rcases hp with h | ⟨c, h1, h2⟩
      · exact .inl h
      · right
        rw [← col_of_key mp.1 h1 hc2]
        exact h2)
    simp only [hl, hr, Bool.false_eq_true, if_false, List.mem_singleton, exists_eq]
  | [j1, j2] =>
    simp only [Bool.false_eq_true, if_false]
    exact ⟨_, List.mem_map_of_mem (a := 0) (by simp)⟩
  | j1 :: j2 :: j3 :: js => exact ⟨_, List.mem_singleton.mpr rfl⟩

theorem seedsOf_scan {t : Tree} (h : t.isScan = true) : t.seedsOf.length = 1 := by
  unfold Tree.isScan at h
  cases t with
  | leaf seed alt scan w s m => rfl
  | _ => simp at h

theorem fillRows_found (horder : ∀ g, (P.order g).Perm g) (hshuffle : ∀ m, (P.shuffle m).Perm m)
    (hvars : ∀ i n, nodes[i]? = some n → ∀ v, v ∈ n.vars ↔ v ∈ vars i)
    (hleaf : ∀ j k a, (altsOf nodes children j)[k]? = some a → LeafOk data vars bag j k a)
    (hdummy : ∀ j, ∀ a ∈ altsOf nodes children j, ¬ (a.scan = true ∧ a.width = 3))
    (hjoinable : ∀ j, j < nodes.length + children.length → ∀ v ∈ vars j, Joinable (altsOf nodes children j) v)
    (htree : TreeShaped vars (nodes.length + children.length))
    (hconn : Conn vars (fun j => j < nodes.length + children.length)) : ∀ (todo : Nat) {dpTab : List (List Plan)},
    Rows (Shaped P data vars bag nodes children filters) dpTab → dpTab ≠ [] → (∀ row ∈ dpTab, row ≠ []) →
    dpTab.length + todo = nodes.length + children.length → (∀ p ∈ seeds nodes children, 0 < todo → p ∈ dpTab.getD 0 []) →
    ∃ res, fillRows P nodes filters (nodes.length + children.length) todo dpTab = .ok res ∧ ∀ row ∈ res, row ≠ []
  | 0, dpTab, _, _, hne, _, _ => ⟨dpTab, rfl, hne⟩
  | todo + 1, dpTab, h, hd, hne, hlen, hseeds => by
    have hk : 0 < dpTab.length := List.length_pos_iff.mpr hd
    -- the plan that is joined with a seed
    have hex : ∃ p ∈ dpTab.getD (dpTab.length - 1) [], ∃ x ∈ seeds nodes children, ∃ c, c ∈ createJoinCandidates P nodes x p := by
      have hlast : dpTab[dpTab.length - 1]? = some (dpTab[dpTab.length - 1]'(by omega)) := List.getElem?_eq_getElem _
      have hgd : dpTab.getD (dpTab.length - 1) [] = dpTab[dpTab.length - 1]'(by omega) := by
        rw [List.getD_eq_getElem?_getD, hlast, Option.getD_some]
      obtain ⟨p, hp⟩ := List.exists_mem_of_ne_nil _ (hne _ (List.getElem_mem (show dpTab.length - 1 < dpTab.length by omega)))
      rw [← hgd] at hp
      have hq := rows_getD h hp
      -- a seed that is not in the plan
      have hmem : ∃ i, i ∈ p.tree.seedsOf := by
        have := hq.inv.len
        obtain ⟨i, hi⟩ := List.exists_mem_of_length_pos (show 0 < p.tree.seedsOf.length by omega)
        exact ⟨i, hi⟩
      obtain ⟨i0, hi0⟩ := hmem
      have hrest : ∃ j, j < nodes.length + children.length ∧ j ∉ p.tree.seedsOf := by
        by_contra hn
        have hsub : List.range (nodes.length + children.length) ⊆ p.tree.seedsOf := by
          intro j hj
          by_contra hnj
          exact hn ⟨j, List.mem_range.mp hj, hnj⟩
        have := (List.subperm_of_subset List.nodup_range hsub).length_le
        rw [List.length_range, hq.inv.len] at this
        omega
      obtain ⟨v, ⟨i, ⟨hi, hip⟩, hvi⟩, ⟨j, ⟨hj, hjp⟩, hvj⟩⟩ := hconn (fun j => j ∈ p.tree.seedsOf) ⟨i0, hq.inv.lt i0 hi0, hi0⟩ hrest
      by_cases hone : dpTab.length = 1
      · -- any alternative will do
        obtain ⟨a, ha, hflex⟩ := hjoinable i hi v hvi
        obtain ⟨k, hka⟩ := List.mem_iff_getElem?.mp ha
        have hlk := hleaf i k a hka
        have hx := hseeds _ (mem_seeds_of hi hka) (by omega)
        rw [hone] at hp ⊢
        have hq' := rows_getD h hx
        have hsi : p.tree.seedsOf = [i] := by
          have := hq.inv.len
          rw [hone] at this
          obtain ⟨b, hb⟩ := List.length_eq_one_iff.mp this
          rw [hb] at hip ⊢
          rw [List.mem_singleton.mp hip]
        refine ⟨_, hx, exists_candidate hshuffle hvars hleaf hdummy hjoinable hq' hj ?_ hvj (i := i) (by simp [Tree.seedsOf]) hvi ?_⟩
        · rw [hsi] at hjp
          exact hjp
        · rcases hflex with hf | ⟨c, h1, h2⟩
          · exact .inl hf
          · exact .inr ⟨c, (hshuffle _).symm.subset h1, h2⟩
      · refine ⟨p, hp, exists_candidate hshuffle hvars hleaf hdummy hjoinable hq hj hjp hvj hip hvi (.inl ?_)⟩
        cases hs : p.tree.isScan with
        | false => rfl
        | true =>
          have h1 := seedsOf_scan hs
          have h2 := hq.inv.len
          omega
    obtain ⟨p, hp, x, hx, c, hc⟩ := hex
    have hrow : fillRow P nodes filters dpTab (dpTab.length + 1) (nodes.length + children.length == dpTab.length + 1)
        (List.range' 1 ((dpTab.length + 1) / 2)) [] ≠ [] := by
      obtain ⟨m, hm⟩ : ∃ m, (dpTab.length + 1) / 2 = m + 1 := ⟨(dpTab.length + 1) / 2 - 1, by omega⟩
      rw [hm, List.range'_succ]
      unfold fillRow
      simp only [Nat.sub_self]
      have hmn := merge_ne horder (nodes := nodes) (hseeds x hx (by omega)) hp hc
      have he : dpTab.length + 1 - 1 - 1 = dpTab.length - 1 := by omega
      rw [he, if_neg hmn]
      refine fillRow_ne _ (applyFilters_ne ?_)
      intro h'
      exact hmn (by rw [(List.append_eq_nil_iff.mp h').2]; rfl)
    unfold fillRows
    simp only
    rw [if_neg (by rw [List.length_eq_zero_iff]; exact hrow)]
    refine fillRows_found horder hshuffle hvars hleaf hdummy hjoinable htree hconn todo ?_ (by simp) ?_ (by simp; omega) ?_
    · intro i row hi p hp
      rcases Nat.lt_trichotomy i dpTab.length with hlt | heq | hgt
      · rw [List.getElem?_append_left hlt] at hi
        exact h i row hi p hp
      · subst heq
        rw [List.getElem?_append_right (Nat.le_refl _)] at hi
        simp only [Nat.sub_self, List.getElem?_cons_zero, Option.some.injEq] at hi
        subst hi
        refine fillRow_rows horder (fun _ _ _ _ _ ha hb hp => join_shaped hshuffle htree ha hb hp) (fun k row b hrow p hp => ?_) h _
          (fun i hi => range'_mem hi) (by simp) p hp
        obtain ⟨q, hq, hw⟩ := applyFilters_wrapped p hp
        refine ⟨applyFilters_inv b (fun p hp => (hrow p hp).inv) p hp, hw.simple.mpr (hrow q hq).simple, ?_⟩
        rw [hw.seedsOf]
        exact (hrow q hq).conn
      · rw [List.getElem?_eq_none (by simp; omega)] at hi
        cases hi
    · intro row hr
      rcases List.mem_append.mp hr with hr | hr
      · exact hne row hr
      · rw [List.mem_singleton.mp hr]; exact hrow
    · intro p hp ht
      have := hseeds p hp (by omega)
      rw [List.getD_eq_getElem?_getD] at this ⊢
      rwa [List.getElem?_append_left hk]

theorem fillDpTab_found (horder : ∀ g, (P.order g).Perm g) (hshuffle : ∀ m, (P.shuffle m).Perm m)
    (hvars : ∀ i n, nodes[i]? = some n → ∀ v, v ∈ n.vars ↔ v ∈ vars i)
    (hleaf : ∀ j k a, (altsOf nodes children j)[k]? = some a → LeafOk data vars bag j k a)
    (hdummy : ∀ j, ∀ a ∈ altsOf nodes children j, ¬ (a.scan = true ∧ a.width = 3))
    (hjoinable : ∀ j, j < nodes.length + children.length → ∀ v ∈ vars j, Joinable (altsOf nodes children j) v)
    (hsome : seeds nodes children ≠ [])
    (htree : TreeShaped vars (nodes.length + children.length))
    (hconn : Conn vars (fun j => j < nodes.length + children.length)) (hn : 0 < nodes.length + children.length)
    (h1 : nodes.length < 64) (h2 : filters.length ≤ 64) (h3 : nodes.length + children.length ≤ 64) :
    ∃ res, fillDpTab P nodes filters children = .ok res ∧ ∀ row ∈ res, row ≠ [] := by
  unfold fillDpTab
  simp only
  rw [if_neg (by omega), if_neg (by omega), if_neg (by omega)]
  refine fillRows_found horder hshuffle hvars hleaf hdummy hjoinable htree hconn _ ?_ (by simp) ?_ (by simp; omega) ?_
  · intro i row hi p hp
    rcases Nat.eq_zero_or_pos i with rfl | hpos
    · simp only [List.getElem?_cons_zero, Option.some.injEq] at hi
      subst hi
      obtain ⟨q, hq, hw⟩ := applyFilters_wrapped p hp
      have hs : Shaped P data vars bag nodes children filters 1 q := by
        obtain ⟨j, hj, k, a, ha, rfl⟩ := mem_seeds hq
        refine ⟨seeds_inv hleaf hq, trivial, ?_⟩
        have : (fun i => i ∈ (Tree.leaf j k a.scan a.width a.sortedOn a.cols).seedsOf) = fun i => i = j := by
          funext i; simp [Tree.seedsOf]
        show Conn vars (fun i => i ∈ (Tree.leaf j k a.scan a.width a.sortedOn a.cols).seedsOf)
        rw [this]
        exact conn_singleton j
      refine ⟨applyFilters_inv _ (fun p hp => seeds_inv hleaf hp) p hp, hw.simple.mpr hs.simple, ?_⟩
      show Conn vars (fun j => j ∈ p.tree.seedsOf)
      rw [hw.seedsOf]
      exact hs.conn
    · rw [List.getElem?_eq_none (by simp; omega)] at hi
      cases hi
  · intro row hr
    rw [List.mem_singleton.mp hr]
    exact applyFilters_ne hsome
  · intro p hp ht
    have : (nodes.length + children.length == 1) = false := by rw [beq_eq_false_iff_ne]; omega
    rw [this]
    simp only [List.getD_cons_zero]
    unfold applyFilters
    rw [if_neg (by simp)]
    exact List.mem_append_left _ hp

end Verif.Planner
