import Verif.Lemmas.PlannerTree
/-
The plans in the table of the dynamic programming.
-/
namespace Verif.Planner
open MultiJoin (VarMap)
open PlannerSpec
open JoinSpec (SortedOn)

/-- The alternatives for a seed. -/
def altsOf (nodes : List Node) (children : List (List Alt)) (j : Nat) : List Alt :=
  if j < nodes.length then (nodes[j]?.map (·.alts)).getD [] else children.getD (j - nodes.length) []

variable {P : Params} {data : Nat → Nat → Table → Prop} {vars : Nat → List Var} {bag : Nat → List Sol}
  {nodes : List Node} {children : List (List Alt)} {filters : List (List Var)}

theorem and_one {a i : Nat} : (a >>> i) &&& 1 = 0 ↔ a.testBit i = false := by
  rw [Nat.testBit, Nat.and_comm]
  simp

theorem testBit_one_shift (j i : Nat) : (1 <<< j).testBit i = decide (i = j) := by
  rw [Nat.testBit_shiftLeft, Bool.eq_iff_iff]
  simp only [Bool.and_eq_true, decide_eq_true_eq, Nat.testBit_one_eq_true_iff_self_eq_zero]
  omega

variable (P data vars bag nodes children filters) in
/-- What holds for a plan in row `k`. -/
structure Inv (k : Nat) (p : Plan) : Prop where
  nodup : p.tree.seedsOf.Nodup
  len : p.tree.seedsOf.length = k
  lt : ∀ j ∈ p.tree.seedsOf, j < nodes.length + children.length
  bits : ∀ j, p.nodes.testBit j = true ↔ j ∈ p.tree.seedsOf
  fbits : ∀ i, p.filters.testBit i = true → i ∈ p.tree.filtersOf
  flt : ∀ i ∈ p.tree.filtersOf, i < filters.length
  sound : p.tree.Simple → Sound P data vars bag (fun i => filters.getD i []) p.tree

theorem mem_leaves {seed : Nat} {alts : List Alt} {p : Plan} (h : p ∈ leaves seed alts) :
    ∃ k a, alts[k]? = some a ∧ p = ⟨.leaf seed k a.scan a.width a.sortedOn a.cols, 1 <<< seed, 0⟩ := by
  unfold leaves at h
  obtain ⟨⟨a, k⟩, hm, rfl⟩ := List.mem_map.mp h
  exact ⟨k, a, List.mem_zipIdx_iff_getElem?.mp hm, rfl⟩

theorem mem_seeds {p : Plan} (h : p ∈ seeds nodes children) :
    ∃ j, j < nodes.length + children.length ∧ ∃ k a, (altsOf nodes children j)[k]? = some a ∧
      p = ⟨.leaf j k a.scan a.width a.sortedOn a.cols, 1 <<< j, 0⟩ := by
  unfold seeds at h
  rcases List.mem_append.mp h with h | h
  · obtain ⟨⟨alts, j⟩, hm, hp⟩ := List.mem_flatMap.mp h
    obtain ⟨h1, h2⟩ := List.mem_zipIdx_iff_le_and_getElem?_sub.mp hm
    simp only at h1 h2 hp
    have hlt := (List.getElem?_eq_some_iff.mp h2).1
    refine ⟨j, by omega, ?_⟩
    have : altsOf nodes children j = alts := by
      unfold altsOf
      rw [if_neg (by omega), List.getD_eq_getElem?_getD, h2, Option.getD_some]
    rw [this]
    exact mem_leaves hp
  · obtain ⟨⟨n, j⟩, hm, hp⟩ := List.mem_flatMap.mp h
    have h2 := List.mem_zipIdx_iff_getElem?.mp hm
    simp only at h2 hp
    have hlt := (List.getElem?_eq_some_iff.mp h2).1
    refine ⟨j, by omega, ?_⟩
    have : altsOf nodes children j = n.alts := by
      unfold altsOf
      rw [if_pos hlt, h2]; rfl
    rw [this]
    exact mem_leaves hp

theorem mem_seeds_of {j k : Nat} {a : Alt} (hj : j < nodes.length + children.length) (h : (altsOf nodes children j)[k]? = some a) :
    (⟨.leaf j k a.scan a.width a.sortedOn a.cols, 1 <<< j, 0⟩ : Plan) ∈ seeds nodes children := by
  have hl : ∀ {alts : List Alt}, alts[k]? = some a →
      (⟨.leaf j k a.scan a.width a.sortedOn a.cols, 1 <<< j, 0⟩ : Plan) ∈ leaves j alts := by
    intro alts h
    unfold leaves
    exact List.mem_map.mpr ⟨(a, k), List.mem_zipIdx_iff_getElem?.mpr h, rfl⟩
  unfold seeds
  rw [List.mem_append]
  unfold altsOf at h
  by_cases hn : j < nodes.length
  · right
    rw [if_pos hn, List.getElem?_eq_getElem hn] at h
    exact List.mem_flatMap.mpr ⟨(nodes[j], j), List.mem_zipIdx_iff_getElem?.mpr (List.getElem?_eq_getElem hn), hl h⟩
  · left
    have hc : j - nodes.length < children.length := by omega
    rw [if_neg hn, List.getD_eq_getElem?_getD, List.getElem?_eq_getElem hc] at h
    exact List.mem_flatMap.mpr ⟨(children[j - nodes.length], j),
      List.mem_zipIdx_iff_le_and_getElem?_sub.mpr ⟨by simpa using hn, List.getElem?_eq_getElem hc⟩, hl h⟩

theorem seeds_inv (hleaf : ∀ j k a, (altsOf nodes children j)[k]? = some a → LeafOk data vars bag j k a) {p : Plan}
    (h : p ∈ seeds nodes children) : Inv P data vars bag nodes children filters 1 p := by
  obtain ⟨j, hj, k, a, ha, rfl⟩ := mem_seeds h
  refine ⟨by simp [Tree.seedsOf], rfl, ?_, ?_, ?_, ?_, fun _ => hleaf j k a ha⟩
  · intro i hi
    rw [List.mem_singleton.mp hi]; exact hj
  · intro i
    show (1 <<< j).testBit i = true ↔ _
    rw [testBit_one_shift]
    simp [Tree.seedsOf]
  · intro i hi
    simp at hi
  · intro i hi
    simp [Tree.filtersOf] at hi

theorem covers_iff {t : Tree} {v : Var} : t.covers P v = true ↔ v ∈ (t.cols P).map (·.1) := lookup_isSome

theorem addFilter_inv {k : Nat} {p : Plan} (h : Inv P data vars bag nodes children filters k p) (hd : p.tree.isDummy = false)
    {i : Nat} {vs : List Var} (hi : filters[i]? = some vs) (ha : applicable P p i vs = true) :
    Inv P data vars bag nodes children filters k (addFilter p i) := by
  have hlt := (List.getElem?_eq_some_iff.mp hi).1
  refine ⟨h.nodup, h.len, h.lt, h.bits, ?_, ?_, fun hs => ⟨h.sound hs, hd, ?_⟩⟩
  · intro j hj
    simp only [addFilter, Nat.testBit_or, Bool.or_eq_true, testBit_one_shift, decide_eq_true_eq] at hj
    rcases hj with hj | rfl
    · exact List.mem_cons_of_mem _ (h.fbits j hj)
    · exact List.mem_cons_self
  · intro j hj
    rcases List.mem_cons.mp hj with rfl | hj
    · exact hlt
    · exact h.flt j hj
  · intro v hv
    simp only [List.getD_eq_getElem?_getD, hi, Option.getD_some] at hv
    unfold applicable at ha
    rw [Bool.and_eq_true, List.all_eq_true] at ha
    exact covers_iff.mp (ha.2 v hv)

theorem filtered_inv {k : Nat} {p q : Plan} (h : Inv P data vars bag nodes children filters k p) (hq : q ∈ filtered P filters p) :
    Inv P data vars bag nodes children filters k q := by
  unfold filtered at hq
  by_cases hd : p.tree.isDummy = true
  · rw [if_pos hd] at hq; cases hq
  · rw [if_neg hd] at hq
    obtain ⟨⟨vs, i⟩, hm, he⟩ := List.mem_filterMap.mp hq
    have hi := List.mem_zipIdx_iff_getElem?.mp hm
    simp only at he hi
    by_cases ha : applicable P p i vs = true
    · rw [if_pos ha] at he
      obtain rfl := Option.some.inj he
      exact addFilter_inv h (by simpa using hd) hi ha
    · rw [if_neg ha] at he; cases he

theorem filteredAll_inv {k : Nat} : ∀ (n : Nat) {row : List Plan}, (∀ p ∈ row, Inv P data vars bag nodes children filters k p) →
    ∀ p ∈ filteredAll P filters n row, Inv P data vars bag nodes children filters k p
  | 0, _, _, p, hp => by cases hp
  | n + 1, row, h, p, hp => by
    have h' : ∀ p ∈ row.flatMap (filtered P filters), Inv P data vars bag nodes children filters k p := by
      intro p hp
      obtain ⟨q, hq, hp⟩ := List.mem_flatMap.mp hp
      exact filtered_inv (h q hq) hp
    rcases List.mem_append.mp hp with hp | hp
    · exact h' p hp
    · exact filteredAll_inv n h' p hp

theorem foldl_inv {k : Nat} : ∀ (fs : List (List Var × Nat)) {p : Plan}, (∀ f ∈ fs, filters[f.2]? = some f.1) →
    Inv P data vars bag nodes children filters k p → p.tree.isDummy = false →
    Inv P data vars bag nodes children filters k
      (fs.foldl (fun p f => if applicable P p f.2 f.1 then addFilter p f.2 else p) p)
  | [], _, _, h, _ => h
  | f :: fs, p, hf, h, hd => by
    rw [List.foldl_cons]
    by_cases ha : applicable P p f.2 f.1 = true
    · rw [if_pos ha]
      exact foldl_inv fs (fun g hg => hf g (List.mem_cons_of_mem _ hg)) (addFilter_inv h hd (hf f List.mem_cons_self) ha) rfl
    · rw [if_neg ha]
      exact foldl_inv fs (fun g hg => hf g (List.mem_cons_of_mem _ hg)) h hd

theorem replaced_inv {k : Nat} {p : Plan} (h : Inv P data vars bag nodes children filters k p) :
    Inv P data vars bag nodes children filters k (replaced P filters p) := by
  unfold replaced
  by_cases hd : p.tree.isDummy = true
  · rw [if_pos hd]; exact h
  · rw [if_neg hd]
    exact foldl_inv _ (fun f hf => List.mem_zipIdx_iff_getElem?.mp hf) h (by simpa using hd)

theorem applyFilters_inv {k : Nat} {row : List Plan} (b : Bool) (h : ∀ p ∈ row, Inv P data vars bag nodes children filters k p) :
    ∀ p ∈ applyFilters P filters b row, Inv P data vars bag nodes children filters k p := by
  intro p hp
  unfold applyFilters at hp
  cases b with
  | true =>
    rw [if_pos rfl] at hp
    obtain ⟨q, hq, rfl⟩ := List.mem_map.mp hp
    exact replaced_inv (h q hq)
  | false =>
    rw [if_neg (by simp)] at hp
    rcases List.mem_append.mp hp with hp | hp
    · exact h p hp
    · exact filteredAll_inv _ h p hp

/-! ### Joins -/

theorem sorted_some {t l : Tree} {c : Nat} (h : sorted t c = some l) :
    (l = t ∧ t.sortedOn.head? = some c) ∨ (l = .sort t c ∧ t.isScan = false) := by
  unfold sorted at h
  by_cases h1 : t.sortedOn.head? = some c
  · rw [if_pos h1] at h; exact .inl ⟨(Option.some.inj h).symm, h1⟩
  · rw [if_neg h1] at h
    by_cases h2 : t.isScan = true
    · rw [if_pos h2] at h; cases h
    · rw [if_neg h2] at h; exact .inr ⟨(Option.some.inj h).symm, by simpa using h2⟩

theorem getJoinColumns_shares {a b : Tree} (ha : MapOk (a.cols P) a.width) (hb : MapOk (b.cols P) b.width) {jc : Nat × Nat}
    (h : getJoinColumns P a b = [jc]) : ∃ v, Shares (a.cols P) (b.cols P) v jc.1 jc.2 := by
  unfold getJoinColumns at h
  have hm : jc ∈ (a.cols P).filterMap fun p => ((b.cols P).lookup p.1).map fun c => (p.2, c) := by rw [h]; simp
  obtain ⟨⟨v, c⟩, hp, he⟩ := List.mem_filterMap.mp hm
  obtain ⟨d, hd, rfl⟩ := Option.map_eq_some_iff.mp he
  refine ⟨v, hp, (lookup_some hb.keys).mp hd, ?_⟩
  intro w hwa hwb
  obtain ⟨c', hc'⟩ := mem_of_key hwa
  obtain ⟨d', hd'⟩ := mem_of_key hwb
  have hm' : (c', d') ∈ (a.cols P).filterMap fun p => ((b.cols P).lookup p.1).map fun c => (p.2, c) :=
    List.mem_filterMap.mpr ⟨(w, c'), hc', by simp [(lookup_some hb.keys).mpr hd']⟩
  rw [h, List.mem_singleton, Prod.mk.injEq] at hm'
  obtain ⟨rfl, -⟩ := hm'
  exact key_of_col ha hc' hp

theorem connected_disjoint {a b : Plan} (h : connected P nodes a b = true) : a.nodes &&& b.nodes = 0 := by
  unfold connected at h
  by_contra hn
  rw [if_pos hn] at h
  cases h

/-- What a plan for the union of two plans has in common with all others. -/
theorem inv_union {k k' : Nat} {a b p : Plan} (ha : Inv P data vars bag nodes children filters k a)
    (hb : Inv P data vars bag nodes children filters k' b) (hc : a.nodes &&& b.nodes = 0)
    (hp : p.nodes = a.nodes ||| b.nodes) (hseeds : p.tree.seedsOf.Perm (a.tree.seedsOf ++ b.tree.seedsOf))
    (hf : p.tree.filtersOf.Perm (a.tree.filtersOf ++ b.tree.filtersOf))
    (hpf : ∀ i, p.filters.testBit i = true → a.filters.testBit i = true ∨ b.filters.testBit i = true)
    (hs : p.tree.Simple → Sound P data vars bag (fun i => filters.getD i []) p.tree) :
    Inv P data vars bag nodes children filters (k + k') p := by
  have hdis : ∀ j ∈ a.tree.seedsOf, j ∉ b.tree.seedsOf := by
    intro j h1 h2
    have : (a.nodes &&& b.nodes).testBit j = true := by
      rw [Nat.testBit_and, (ha.bits j).mpr h1, (hb.bits j).mpr h2]; rfl
    rw [hc] at this
    simp at this
  refine ⟨?_, ?_, ?_, ?_, ?_, ?_, hs⟩
  · rw [hseeds.nodup_iff, List.nodup_append]
    exact ⟨ha.nodup, hb.nodup, fun x hx y hy he => hdis x hx (he ▸ hy)⟩
  · rw [hseeds.length_eq, List.length_append, ha.len, hb.len]
  · intro j hj
    rcases List.mem_append.mp (hseeds.subset hj) with hj | hj
    · exact ha.lt j hj
    · exact hb.lt j hj
  · intro j
    rw [hp, Nat.testBit_or, Bool.or_eq_true, ha.bits, hb.bits, hseeds.mem_iff, List.mem_append]
  · intro i hi
    rw [hf.mem_iff, List.mem_append]
    exact (hpf i hi).imp (ha.fbits i) (hb.fbits i)
  · intro i hi
    rcases List.mem_append.mp (hf.subset hi) with hi | hi
    · exact ha.flt i hi
    · exact hb.flt i hi

theorem sorted_seedsOf {t l : Tree} {c : Nat} (h : sorted t c = some l) : l.seedsOf = t.seedsOf ∧ l.filtersOf = t.filtersOf := by
  rcases sorted_some h with ⟨rfl, _⟩ | ⟨rfl, _⟩ <;> exact ⟨rfl, rfl⟩

theorem mkMulti_seedsOf (t1 t2 : Tree) (jcs : List (Nat × Nat)) :
    (mkMulti P t1 t2 jcs).seedsOf.Perm (t1.seedsOf ++ t2.seedsOf) ∧
      (mkMulti P t1 t2 jcs).filtersOf.Perm (t1.filtersOf ++ t2.filtersOf) ∧ ¬ (mkMulti P t1 t2 jcs).Simple := by
  unfold mkMulti
  by_cases h : P.less t1 t2 = true
  · rw [if_pos h]; exact ⟨.refl _, .refl _, fun h => h⟩
  · rw [if_neg h]; exact ⟨List.perm_append_comm, List.perm_append_comm, fun h => h⟩

theorem mkTwoCol_seedsOf (t1 t2 : Tree) (j0 j1 : Nat × Nat) :
    (mkTwoCol P t1 t2 j0 j1).seedsOf.Perm (t1.seedsOf ++ t2.seedsOf) ∧
      (mkTwoCol P t1 t2 j0 j1).filtersOf.Perm (t1.filtersOf ++ t2.filtersOf) ∧ ¬ (mkTwoCol P t1 t2 j0 j1).Simple := by
  have key : ∀ (l r : Tree) (jc1 jc2 : Nat × Nat), ∃ j j', (if l.isScan && l.width == 2 then
      if jc1.1 > jc2.1 then Tree.twoCol l r jc2 jc1 else .twoCol l r jc1 jc2
      else if r.isScan && r.width == 2 then
        if jc1.2 > jc2.2 then .twoCol l r jc2 jc1 else .twoCol l r jc1 jc2
      else .twoCol l r jc1 jc2) = .twoCol l r j j' := by
    intro l r jc1 jc2
    split
    · split
      · exact ⟨_, _, rfl⟩
      · exact ⟨_, _, rfl⟩
    · split
      · split
        · exact ⟨_, _, rfl⟩
        · exact ⟨_, _, rfl⟩
      · exact ⟨_, _, rfl⟩
  unfold mkTwoCol
  by_cases h : P.less t1 t2 = true
  · simp only [h, if_true]
    obtain ⟨j, j', he⟩ := key t1 t2 j0 j1
    rw [he]; exact ⟨.refl _, .refl _, fun h => h⟩
  · simp only [h]
    obtain ⟨j, j', he⟩ := key t2 t1 j0.swap j1.swap
    simp only [Bool.false_eq_true, if_false]
    rw [he]; exact ⟨List.perm_append_comm, List.perm_append_comm, fun h => h⟩

theorem ite_orderBy_seedsOf (c : Prop) [Decidable c] (t : Tree) (cs : List Nat) :
    (if c then t else .orderBy t cs).seedsOf = t.seedsOf ∧ (if c then t else .orderBy t cs).filtersOf = t.filtersOf := by
  by_cases h : c
  · rw [if_pos h]; exact ⟨rfl, rfl⟩
  · rw [if_neg h]; exact ⟨rfl, rfl⟩

theorem twoColTree_seedsOf (a b : Tree) (jcs : List (Nat × Nat)) (n : Nat) :
    (twoColTree P a b jcs n).seedsOf.Perm (a.seedsOf ++ b.seedsOf) ∧
      (twoColTree P a b jcs n).filtersOf.Perm (a.filtersOf ++ b.filtersOf) ∧ ¬ (twoColTree P a b jcs n).Simple := by
  unfold twoColTree
  refine (mkTwoCol_seedsOf _ _ _ _).imp (fun h => ?_) (And.imp (fun h => ?_) id)
  · simpa only [(ite_orderBy_seedsOf _ _ _).1] using h
  · simpa only [(ite_orderBy_seedsOf _ _ _).2] using h

theorem multiTree_seedsOf (a b : Tree) :
    (multiTree P a b).seedsOf.Perm (a.seedsOf ++ b.seedsOf) ∧
      (multiTree P a b).filtersOf.Perm (a.filtersOf ++ b.filtersOf) ∧ ¬ (multiTree P a b).Simple := by
  unfold multiTree
  refine (mkMulti_seedsOf _ _ _).imp (fun h => ?_) (And.imp (fun h => ?_) id)
  · simpa only [(ite_orderBy_seedsOf _ _ _).1] using h
  · simpa only [(ite_orderBy_seedsOf _ _ _).2] using h

theorem sorted_sound (hshuffle : ∀ m, (P.shuffle m).Perm m) {t l : Tree} {c : Nat} (h : sorted t c = some l) {v : Var}
    {fvars : Nat → List Var} (hv : (v, c) ∈ t.cols P) (hs : Sound P data vars bag fvars t) :
    Sound P data vars bag fvars l ∧ l.sortedOn.head? = some c ∧ l.cols P = t.cols P := by
  rcases sorted_some h with ⟨rfl, h'⟩ | ⟨rfl, h'⟩
  · exact ⟨hs, h', rfl⟩
  · refine ⟨⟨hs, ?_, (sound_map hshuffle hs).1.lt _ hv⟩, rfl, rfl⟩
    unfold Tree.isDummy
    rw [h']; rfl

theorem sorted_dummy {t l : Tree} {c : Nat} (h : sorted t c = some l) (hl : l.isDummy = true) : t.isDummy = true := by
  rcases sorted_some h with ⟨rfl, _⟩ | ⟨rfl, _⟩
  · exact hl
  · cases hl

theorem join_inv (hshuffle : ∀ m, (P.shuffle m).Perm m) {k k' : Nat} {a b p : Plan}
    (ha : Inv P data vars bag nodes children filters k a) (hb : Inv P data vars bag nodes children filters k' b)
    (hp : p ∈ createJoinCandidates P nodes a b) : Inv P data vars bag nodes children filters (k + k') p := by
  unfold createJoinCandidates at hp
  by_cases hc : connected P nodes a b = true
  swap
  · simp [hc] at hp
  simp only [hc, if_true] at hp
  have hdisj := connected_disjoint hc
  match hj : getJoinColumns P a.tree b.tree with
  | [] => simp [hj] at hp
  | [jc] =>
    simp only [hj] at hp
    by_cases hd : (a.tree.isDummy && b.tree.isDummy) = true
    · simp [hd] at hp
    simp only [hd] at hp
    cases hsl : sorted a.tree jc.1 with
    | none => simp [hsl] at hp
    | some l =>
      cases hsr : sorted b.tree jc.2 with
      | none => simp [hsl, hsr] at hp
      | some r =>
        simp only [hsl, hsr, Bool.false_eq_true, if_false, List.mem_singleton] at hp
        subst hp
        obtain ⟨l1, l2⟩ := sorted_seedsOf hsl
        obtain ⟨r1, r2⟩ := sorted_seedsOf hsr
        have hsimple : (mkJoin P l r jc.1 jc.2).Simple → l.Simple ∧ r.Simple := by
          unfold mkJoin
          split
          · exact fun h => ⟨h.2, h.1⟩
          · exact id
        have hsim : ∀ {t l : Tree} {c : Nat}, sorted t c = some l → l.Simple → t.Simple := by
          intro t l c h hl
          rcases sorted_some h with ⟨rfl, _⟩ | ⟨rfl, _⟩ <;> exact hl
        refine inv_union ha hb hdisj rfl ?_ ?_ ?_ ?_
        · simp only
          rw [← l1, ← r1]
          unfold mkJoin
          split
          · exact List.perm_append_comm
          · exact .refl _
        · simp only
          rw [← l2, ← r2]
          unfold mkJoin
          split
          · exact List.perm_append_comm
          · exact .refl _
        · intro i hi
          simpa [Nat.testBit_or] using hi
        · intro hs
          obtain ⟨hls, hrs⟩ := hsimple hs
          have hsa := ha.sound (hsim hsl hls)
          have hsb := hb.sound (hsim hsr hrs)
          obtain ⟨v, hv⟩ := getJoinColumns_shares (sound_map hshuffle hsa).1 (sound_map hshuffle hsb).1 hj
          obtain ⟨sl1, sl2, sl3⟩ := sorted_sound hshuffle hsl hv.left hsa
          obtain ⟨sr1, sr2, sr3⟩ := sorted_sound hshuffle hsr hv.right hsb
          have hdis : ∀ j ∈ l.seedsOf, j ∉ r.seedsOf := by
            rw [l1, r1]
            intro j h1 h2
            have : (a.nodes &&& b.nodes).testBit j = true := by
              rw [Nat.testBit_and, (ha.bits j).mpr h1, (hb.bits j).mpr h2]; rfl
            rw [hdisj] at this
            simp at this
          have hdd : ¬ (l.isDummy = true ∧ r.isDummy = true) := by
            rintro ⟨h1, h2⟩
            exact hd (by rw [sorted_dummy hsl h1, sorted_dummy hsr h2]; rfl)
          have hv' : Shares (l.cols P) (r.cols P) v jc.1 jc.2 := by rw [sl3, sr3]; exact hv
          show Sound P data vars bag (fun i => filters.getD i []) (mkJoin P l r jc.1 jc.2)
          unfold mkJoin
          split
          · exact ⟨sr1, sl1, fun h => hdd ⟨h.2, h.1⟩, ⟨v, hv'.symm⟩, sr2, sl2, fun j h1 h2 => hdis j h2 h1⟩
          · exact ⟨sl1, sr1, hdd, ⟨v, hv'⟩, sl2, sr2, hdis⟩
  | [j1, j2] =>
    simp only [hj] at hp
    by_cases hd : (a.tree.isDummy && b.tree.isDummy) = true
    · simp [hd] at hp
    simp only [hd] at hp
    simp only [Bool.false_eq_true, if_false] at hp
    obtain ⟨n, _, rfl⟩ := List.mem_map.mp hp
    obtain ⟨h1, h2, h3⟩ := twoColTree_seedsOf (P := P) a.tree b.tree [j1, j2] n
    exact inv_union ha hb hdisj rfl h1 h2 (fun i hi => .inl hi) (fun hs => absurd hs h3)
  | j1 :: j2 :: j3 :: js =>
    simp only [hj, List.mem_singleton] at hp
    subst hp
    obtain ⟨h1, h2, h3⟩ := multiTree_seedsOf (P := P) a.tree b.tree
    refine inv_union ha hb hdisj rfl h1 h2 ?_ (fun hs => absurd hs h3)
    intro i hi
    simpa [Nat.testBit_or] using hi

/-! ### The table -/

theorem cheapest_mem : ∀ {ps : List Plan} {p : Plan}, cheapest P ps = some p → p ∈ ps := by
  have key : ∀ (ps : List Plan) (m : Plan),
      ps.foldl (fun m q => if P.cost q.tree < P.cost m.tree then q else m) m ∈ m :: ps := by
    intro ps
    induction ps with
    | nil => intro m; simp
    | cons q ps ih =>
      intro m
      rw [List.foldl_cons]
      by_cases h : P.cost q.tree < P.cost m.tree
      · rw [if_pos h]; exact List.mem_cons_of_mem _ (ih q)
      · rw [if_neg h]
        rcases List.mem_cons.mp (ih m) with h' | h'
        · rw [h']; exact List.mem_cons_self
        · exact List.mem_cons_of_mem _ (List.mem_cons_of_mem _ h')
  intro ps p h
  cases ps with
  | nil => cases h
  | cons q ps =>
    simp only [cheapest, Option.some.injEq] at h
    rw [← h]
    exact key ps q

theorem mem_merge (horder : ∀ g, (P.order g).Perm g) {a b : List Plan} {p : Plan} (hp : p ∈ merge P nodes a b) :
    ∃ x ∈ a, ∃ y ∈ b, p ∈ createJoinCandidates P nodes x y := by
  unfold merge at hp
  obtain ⟨g, hg, hgp⟩ := List.mem_filterMap.mp hp
  have hg := (horder _).subset hg
  unfold groups at hg
  obtain ⟨k, _, rfl⟩ := List.mem_map.mp hg
  have := (List.mem_filter.mp (cheapest_mem hgp)).1
  obtain ⟨x, hx, this⟩ := List.mem_flatMap.mp this
  obtain ⟨y, hy, this⟩ := List.mem_flatMap.mp this
  exact ⟨x, hx, y, hy, this⟩

/-- Something that holds for all plans of all rows. -/
def Rows (Q : Nat → Plan → Prop) (dpTab : List (List Plan)) : Prop := ∀ i row, dpTab[i]? = some row → ∀ p ∈ row, Q (i + 1) p

theorem rows_getD {Q : Nat → Plan → Prop} {dpTab : List (List Plan)} (h : Rows Q dpTab) {i : Nat} {p : Plan}
    (hp : p ∈ dpTab.getD i []) : Q (i + 1) p := by
  rw [List.getD_eq_getElem?_getD] at hp
  cases hr : dpTab[i]? with
  | none => rw [hr] at hp; cases hp
  | some row => rw [hr] at hp; exact h i row hr p hp

theorem fillRow_rows (horder : ∀ g, (P.order g).Perm g) {Q : Nat → Plan → Prop}
    (hjoin : ∀ k k' a b p, Q k a → Q k' b → p ∈ createJoinCandidates P nodes a b → Q (k + k') p)
    (hfilter : ∀ k row b, (∀ p ∈ row, Q k p) → ∀ p ∈ applyFilters P filters b row, Q k p) {dpTab : List (List Plan)}
    (h : Rows Q dpTab) {k : Nat} {last : Bool} : ∀ (is : List Nat) {row : List Plan}, (∀ i ∈ is, 1 ≤ i ∧ i < k) →
      (∀ p ∈ row, Q k p) → ∀ p ∈ fillRow P nodes filters dpTab k last is row, Q k p
  | [], _, _, hrow => hrow
  | i :: is, row, his, hrow => by
    unfold fillRow
    simp only
    have his' : ∀ j ∈ is, 1 ≤ j ∧ j < k := fun j hj => his j (List.mem_cons_of_mem _ hj)
    split
    · exact fillRow_rows horder hjoin hfilter h is his' hrow
    · refine fillRow_rows horder hjoin hfilter h is his' (hfilter k _ last ?_)
      intro p hp
      rcases List.mem_append.mp hp with hp | hp
      · exact hrow p hp
      · obtain ⟨a, ha, b, hb, hp⟩ := mem_merge horder hp
        have hi := his i List.mem_cons_self
        have := hjoin _ _ a b p (rows_getD h ha) (rows_getD h hb) hp
        have he : i - 1 + 1 + (k - i - 1 + 1) = k := by omega
        rw [he] at this
        exact this

theorem range'_mem {k i : Nat} (h : i ∈ List.range' 1 (k / 2)) : 1 ≤ i ∧ i < k := by
  rw [List.mem_range'_1] at h
  omega

theorem fillRows_rows (horder : ∀ g, (P.order g).Perm g) {Q : Nat → Plan → Prop}
    (hjoin : ∀ k k' a b p, Q k a → Q k' b → p ∈ createJoinCandidates P nodes a b → Q (k + k') p)
    (hfilter : ∀ k row b, (∀ p ∈ row, Q k p) → ∀ p ∈ applyFilters P filters b row, Q k p) {n : Nat} :
    ∀ (todo : Nat) {dpTab res : List (List Plan)}, Rows Q dpTab → fillRows P nodes filters n todo dpTab = .ok res →
      Rows Q res ∧ res.length = dpTab.length + todo
  | 0, dpTab, res, h, he => by
    simp only [fillRows] at he
    cases he
    exact ⟨h, rfl⟩
  | todo + 1, dpTab, res, h, he => by
    unfold fillRows at he
    simp only at he
    split at he
    · cases he
    · obtain ⟨h1, h2⟩ := fillRows_rows horder hjoin hfilter todo (dpTab := dpTab ++ [_]) (by
        intro i row hi p hp
        rcases Nat.lt_trichotomy i dpTab.length with hlt | heq | hgt
        · rw [List.getElem?_append_left hlt] at hi
          exact h i row hi p hp
        · subst heq
          rw [List.getElem?_append_right (Nat.le_refl _)] at hi
          simp only [Nat.sub_self, List.getElem?_cons_zero, Option.some.injEq] at hi
          subst hi
          exact fillRow_rows horder hjoin hfilter h _ (fun i hi => range'_mem hi) (by simp) p hp
        · rw [List.getElem?_eq_none (by simp; omega)] at hi
          cases hi) he
      refine ⟨h1, ?_⟩
      rw [h2, List.length_append, List.length_singleton]
      omega

theorem fillDpTab_rows (horder : ∀ g, (P.order g).Perm g) {Q : Nat → Plan → Prop} (hseeds : ∀ p ∈ seeds nodes children, Q 1 p)
    (hjoin : ∀ k k' a b p, Q k a → Q k' b → p ∈ createJoinCandidates P nodes a b → Q (k + k') p)
    (hfilter : ∀ k row b, (∀ p ∈ row, Q k p) → ∀ p ∈ applyFilters P filters b row, Q k p) {res : List (List Plan)}
    (h : fillDpTab P nodes filters children = .ok res) :
    Rows Q res ∧ res.length = 1 + (nodes.length + children.length - 1) := by
  unfold fillDpTab at h
  simp only at h
  split at h
  · cases h
  split at h
  · cases h
  split at h
  · cases h
  refine fillRows_rows horder hjoin hfilter _ ?_ h
  intro i row hi p hp
  rcases Nat.eq_zero_or_pos i with rfl | hpos
  · simp only [List.getElem?_cons_zero, Option.some.injEq] at hi
    subst hi
    exact hfilter 1 _ _ hseeds p hp
  · rw [List.getElem?_eq_none (by simp; omega)] at hi
    cases hi

theorem fillDpTab_inv (horder : ∀ g, (P.order g).Perm g) (hshuffle : ∀ m, (P.shuffle m).Perm m)
    (hleaf : ∀ j k a, (altsOf nodes children j)[k]? = some a → LeafOk data vars bag j k a) {res : List (List Plan)}
    (h : fillDpTab P nodes filters children = .ok res) :
    Rows (Inv P data vars bag nodes children filters) res ∧ res.length = 1 + (nodes.length + children.length - 1) :=
  fillDpTab_rows horder (fun _ hp => seeds_inv hleaf hp) (fun _ _ _ _ _ ha hb hp => join_inv hshuffle ha hb hp)
    (fun _ _ b h => applyFilters_inv b h) h

/-! ### The filters of the last row -/

theorem foldl_covers : ∀ (fs : List (List Var × Nat)) {p : Plan}, p.tree.isDummy = false →
    let q := fs.foldl (fun p f => if applicable P p f.2 f.1 then addFilter p f.2 else p) p
    q.tree.cols P = p.tree.cols P ∧ q.tree.isDummy = false ∧ (∀ i, p.filters.testBit i = true → q.filters.testBit i = true) ∧
      ∀ f ∈ fs, (∀ v ∈ f.1, q.tree.covers P v = true) → q.filters.testBit f.2 = true
  | [], p, hd => ⟨rfl, hd, fun _ h => h, by simp⟩
  | f :: fs, p, hd => by
    simp only [List.foldl_cons]
    by_cases ha : applicable P p f.2 f.1 = true
    · rw [if_pos ha]
      obtain ⟨h1, h2, h3, h4⟩ := foldl_covers fs (p := addFilter p f.2) rfl
      have hbit : (addFilter p f.2).filters.testBit f.2 = true := by
        simp [addFilter, Nat.testBit_or]
      refine ⟨h1, h2, fun i hi => h3 i ?_, ?_⟩
      · simp [addFilter, Nat.testBit_or, hi]
      · intro g hg hv
        rcases List.mem_cons.mp hg with rfl | hg
        · exact h3 _ hbit
        · exact h4 g hg hv
    · rw [if_neg ha]
      obtain ⟨h1, h2, h3, h4⟩ := foldl_covers fs (p := p) hd
      refine ⟨h1, h2, h3, ?_⟩
      intro g hg hv
      rcases List.mem_cons.mp hg with rfl | hg
      · apply h3
        unfold applicable at ha
        rw [Bool.and_eq_true, List.all_eq_true, not_and] at ha
        by_contra hn
        apply ha
        · rw [decide_eq_true_eq, and_one]; simpa using hn
        · intro v hv'
          have := hv v hv'
          rw [covers_iff] at this ⊢
          rw [← h1]; exact this
      · exact h4 g hg hv

/-- All filters that can be applied are applied. -/
def Complete (P : Params) (filters : List (List Var)) (p : Plan) : Prop :=
  p.tree.isDummy = false → ∀ i vs, filters[i]? = some vs → (∀ v ∈ vs, p.tree.covers P v = true) → p.filters.testBit i = true

theorem replaced_complete (p : Plan) : Complete P filters (replaced P filters p) := by
  intro hd i vs hi hv
  unfold replaced at hd hv ⊢
  by_cases hp : p.tree.isDummy = true
  · rw [if_pos hp] at hd; rw [hp] at hd; cases hd
  · rw [if_neg hp] at hv ⊢
    obtain ⟨_, _, _, h4⟩ := foldl_covers (P := P) filters.zipIdx (p := p) (by simpa using hp)
    exact h4 (vs, i) (List.mem_zipIdx_iff_getElem?.mpr hi) hv

theorem fillRow_complete {dpTab : List (List Plan)} {k : Nat} : ∀ (is : List Nat) {row : List Plan},
    (∀ p ∈ row, Complete P filters p) → ∀ p ∈ fillRow P nodes filters dpTab k true is row, Complete P filters p
  | [], _, h => h
  | i :: is, row, h => by
    unfold fillRow
    simp only
    split
    · exact fillRow_complete is h
    · refine fillRow_complete is ?_
      intro p hp
      unfold applyFilters at hp
      rw [if_pos rfl] at hp
      obtain ⟨q, _, rfl⟩ := List.mem_map.mp hp
      exact replaced_complete q

theorem fillRows_complete {n : Nat} : ∀ (todo : Nat) {dpTab res : List (List Plan)}, dpTab ≠ [] → dpTab.length + todo = n →
    (todo = 0 → ∀ row, dpTab.getLast? = some row → ∀ p ∈ row, Complete P filters p) →
    fillRows P nodes filters n todo dpTab = .ok res → ∀ row, res.getLast? = some row → ∀ p ∈ row, Complete P filters p
  | 0, dpTab, res, _, _, h, he => by
    simp only [fillRows] at he
    cases he
    exact h rfl
  | todo + 1, dpTab, res, hne, hn, h, he => by
    unfold fillRows at he
    simp only at he
    split at he
    · cases he
    · refine fillRows_complete todo (by simp) (by simp; omega) ?_ he
      intro h0 row hrow p hp
      rw [List.getLast?_concat, Option.some.injEq] at hrow
      subst hrow
      have : (n == dpTab.length + 1) = true := by rw [beq_iff_eq]; omega
      rw [this] at hp
      exact fillRow_complete _ (by simp) p hp

theorem fillDpTab_complete (hn : 0 < nodes.length + children.length) {res : List (List Plan)}
    (h : fillDpTab P nodes filters children = .ok res) :
    ∀ row, res.getLast? = some row → ∀ p ∈ row, Complete P filters p := by
  unfold fillDpTab at h
  simp only at h
  split at h
  · cases h
  split at h
  · cases h
  split at h
  · cases h
  refine fillRows_complete _ (by simp) (by simp; omega) ?_ h
  intro h0 row hrow p hp
  simp only [List.getLast?_singleton, Option.some.injEq] at hrow
  subst hrow
  have : (nodes.length + children.length == 1) = true := by rw [beq_iff_eq]; omega
  rw [this] at hp
  unfold applyFilters at hp
  rw [if_pos rfl] at hp
  obtain ⟨q, _, rfl⟩ := List.mem_map.mp hp
  exact replaced_complete q

end Verif.Planner
