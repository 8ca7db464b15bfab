import Verif.Props.C65_Planner
/-
Trees in which every column has a variable.
-/
namespace Verif.Planner
open MultiJoin (VarMap)
open PlannerSpec

variable {P : Params} {data : Nat → Nat → Table → Prop} {vars : Nat → List Var} {bag : Nat → List Sol}
  {nodes : List Node} {children : List (List Alt)} {filters : List (List Var)}

/-- Properties of trees that hold for a tree if they hold for its subtrees. -/
structure Closed (Q : Tree → Prop) : Prop where
  sort : ∀ t c, Q t → Q (.sort t c)
  orderBy : ∀ t cs, Q t → Q (.orderBy t cs)
  filter : ∀ t i, Q t → Q (.filter t i)
  join : ∀ l r lc rc, Q l → Q r → Q (.join l r lc rc)
  twoCol : ∀ l r j1 j2, Q l → Q r → Q (.twoCol l r j1 j2)
  multi : ∀ l r jcs, Q l → Q r → Q (.multi l r jcs)

theorem closed_sorted {Q : Tree → Prop} (hQ : Closed Q) {t l : Tree} {c : Nat} (h : sorted t c = some l) (ht : Q t) : Q l := by
  rcases sorted_some h with ⟨rfl, _⟩ | ⟨rfl, _⟩
  · exact ht
  · exact hQ.sort _ _ ht

theorem closed_ite {Q : Tree → Prop} (hQ : Closed Q) (c : Prop) [Decidable c] {t : Tree} (cs : List Nat) (ht : Q t) :
    Q (if c then t else .orderBy t cs) := by
  by_cases h : c
  · rw [if_pos h]; exact ht
  · rw [if_neg h]; exact hQ.orderBy _ _ ht

theorem closed_candidates {Q : Tree → Prop} (hQ : Closed Q) {a b p : Plan} (ha : Q a.tree) (hb : Q b.tree)
    (hp : p ∈ createJoinCandidates P nodes a b) : Q p.tree := by
  unfold createJoinCandidates at hp
  simp only at hp
  split at hp
  · simp at hp
  · split at hp
    · simp at hp
    · split at hp
      · rename_i l r hl hr
        rw [List.mem_singleton] at hp
        subst hp
        show Q (mkJoin P l r _ _)
        unfold mkJoin
        split
        · exact hQ.join _ _ _ _ (closed_sorted hQ hr hb) (closed_sorted hQ hl ha)
        · exact hQ.join _ _ _ _ (closed_sorted hQ hl ha) (closed_sorted hQ hr hb)
      · simp at hp
  · split at hp
    · simp at hp
    · obtain ⟨n, _, rfl⟩ := List.mem_map.mp hp
      show Q (twoColTree P a.tree b.tree _ n)
      unfold twoColTree
      simp only
      have key : ∀ t1 t2 j0 j1, Q t1 → Q t2 → Q (mkTwoCol P t1 t2 j0 j1) := by
        intro t1 t2 j0 j1 h1 h2
        unfold mkTwoCol
        by_cases hless : P.less t1 t2 = true
        · simp only [hless, if_true]
          split
          · split <;> exact hQ.twoCol _ _ _ _ h1 h2
          · split
            · split <;> exact hQ.twoCol _ _ _ _ h1 h2
            · exact hQ.twoCol _ _ _ _ h1 h2
        · simp only [hless, if_false, Bool.false_eq_true]
          split
          · split <;> exact hQ.twoCol _ _ _ _ h2 h1
          · split
            · split <;> exact hQ.twoCol _ _ _ _ h2 h1
            · exact hQ.twoCol _ _ _ _ h2 h1
      exact key _ _ _ _ (closed_ite hQ _ _ ha) (closed_ite hQ _ _ hb)
  · rw [List.mem_singleton] at hp
    subst hp
    show Q (multiTree P a.tree b.tree)
    unfold multiTree
    have key : ∀ t1 t2 jcs, Q t1 → Q t2 → Q (mkMulti P t1 t2 jcs) := by
      intro t1 t2 jcs h1 h2
      unfold mkMulti
      split
      · exact hQ.multi _ _ _ h1 h2
      · exact hQ.multi _ _ _ h2 h1
    exact key _ _ _ (closed_ite hQ _ _ ha) (closed_ite hQ _ _ hb)

theorem closed_wrapped {Q : Tree → Prop} (hQ : Closed Q) {q p : Plan} (h : Wrapped q p) (hq : Q q.tree) : Q p.tree := by
  induction h with
  | refl => exact hq
  | add i _ ih => exact hQ.filter _ _ ih

theorem closed_rows (horder : ∀ g, (P.order g).Perm g) {Q : Tree → Prop} (hQ : Closed Q)
    (hleaf : ∀ j k a, (altsOf nodes children j)[k]? = some a → Q (.leaf j k a.scan a.width a.sortedOn a.cols))
    {res : List (List Plan)} (h : fillDpTab P nodes filters children = .ok res) : Rows (fun _ p => Q p.tree) res := by
  refine (fillDpTab_rows horder (fun p hp => ?_) (fun _ _ _ _ _ ha hb hp => closed_candidates hQ ha hb hp)
    (fun k row b hrow p hp => ?_) h).1
  · obtain ⟨j, hj, k, a, ha, rfl⟩ := mem_seeds hp
    exact hleaf j k a ha
  · obtain ⟨q, hq, hw⟩ := applyFilters_wrapped p hp
    exact closed_wrapped hQ hw (hrow q hq)

/-- Every column of every leaf has a variable, and leaves are sorted by columns that exist. -/
def Exact : Tree → Prop
  | .leaf _ _ _ w s m => m.length = w ∧ ∀ c ∈ s, c < w
  | .sort t _ => Exact t
  | .orderBy t _ => Exact t
  | .filter t _ => Exact t
  | .join l r _ _ => Exact l ∧ Exact r
  | .twoCol l r _ _ => Exact l ∧ Exact r
  | .multi l r _ => Exact l ∧ Exact r

theorem closed_exact : Closed Exact :=
  ⟨fun _ _ h => h, fun _ _ h => h, fun _ _ h => h, fun _ _ _ _ h1 h2 => ⟨h1, h2⟩, fun _ _ _ _ h1 h2 => ⟨h1, h2⟩,
    fun _ _ _ h1 h2 => ⟨h1, h2⟩⟩

/-- Removing one column. -/
theorem filterMap_length {m : VarMap} (hc : (m.map (·.2)).Nodup) {v : Var} {c0 : Nat} (hm : (v, c0) ∈ m) {g : Nat → Option Nat}
    (hg : ∀ c, g c = none ↔ c = c0) : (m.filterMap fun p => (g p.2).map fun c => (p.1, c)).length + 1 = m.length := by
  induction m with
  | nil => cases hm
  | cons p m ih =>
    simp only [List.map_cons, List.nodup_cons] at hc
    rw [List.filterMap_cons]
    rcases List.mem_cons.mp hm with rfl | hm
    · simp only [(hg c0).mpr rfl, Option.map_none]
      have hall : ∀ q ∈ m, ((g q.2).map fun c => (q.1, c)).isSome = true := by
        intro q hq
        cases hgq : g q.2 with
        | none => exact absurd (List.mem_map.mpr ⟨q, hq, (hg _).mp hgq⟩) hc.1
        | some _ => rfl
      have : (m.filterMap fun p => (g p.2).map fun c => (p.1, c)).length = m.length := by
        clear ih hm hc
        induction m with
        | nil => rfl
        | cons q m ih =>
          rw [List.filterMap_cons]
          obtain ⟨d, hd⟩ := Option.isSome_iff_exists.mp (hall q List.mem_cons_self)
          rw [hd]
          simp only [List.length_cons]
          rw [ih fun r hr => hall r (List.mem_cons_of_mem _ hr)]
      rw [this]
      rfl
    · cases hgp : g p.2 with
      | none =>
        exfalso
        exact hc.1 ((hg _).mp hgp ▸ List.mem_map.mpr ⟨_, hm, rfl⟩)
      | some d =>
        simp only [Option.map_some, List.length_cons]
        rw [ih hc.2 hm]

theorem joinCols_length {ml mr : VarMap} {wl wr : Nat} (hr : MapOk mr wr) {v : Var} {rc : Nat} (hm : (v, rc) ∈ mr)
    (el : ml.length = wl) (er : mr.length = wr) : (joinCols ml mr wl rc).length = wl + wr - 1 := by
  rw [joinCols_eq, List.length_append, el]
  have := filterMap_length hr.cols hm (g := rightCol wl rc) (by
    intro c
    unfold rightCol
    by_cases h1 : c < rc
    · rw [if_pos h1]
      constructor
      · intro h; cases h
      · intro h; omega
    · rw [if_neg h1]
      by_cases h2 : rc < c
      · rw [if_pos h2]
        constructor
        · intro h; cases h
        · intro h; omega
      · rw [if_neg h2]
        constructor
        · intro _; omega
        · intro _; rfl)
  omega

theorem dummyLeftCols_length {ml mr : VarMap} {wr : Nat} (hl : MapOk ml 3) {v : Var} (hm : (v, 0) ∈ ml)
    (el : ml.length = 3) (er : mr.length = wr) : (dummyLeftCols ml mr).length = 3 + wr - 1 := by
  have hmr : (mr.filterMap fun p => (some (2 + p.2)).map fun c => (p.1, c)).length = wr := by
    rw [← er]
    simp
  rw [dummyLeftCols_eq, List.length_append, hmr]
  have := filterMap_length hl.cols hm (g := leftCol) (by
    intro c
    unfold leftCol
    by_cases h1 : c ≠ 0
    · rw [if_pos h1]
      constructor
      · intro h; cases h
      · intro h; exact absurd h h1
    · rw [if_neg h1]
      constructor
      · intro _; omega
      · intro _; rfl)
  omega

theorem sound_exact (hshuffle : ∀ m, (P.shuffle m).Perm m) {fvars : Nat → List Var} :
    ∀ {t : Tree}, Sound P data vars bag fvars t → Exact t → (t.cols P).length = t.width
  | .leaf seed alt scan w s m, _, he => by
    simp only [Tree.cols, Tree.width]
    rw [(hshuffle m).length_eq]
    exact he.1
  | .sort t c, h, he => sound_exact hshuffle (t := t) h.1 he
  | .filter t i, h, he => sound_exact hshuffle (t := t) h.1 he
  | .join l r lc rc, h, he => by
    obtain ⟨hl, hr, hd, ⟨v, hs⟩, hlc, hrc, _⟩ := h
    have el := sound_exact hshuffle hl he.1
    have er := sound_exact hshuffle hr he.2
    have l1 := (sound_map hshuffle hl).1
    have r1 := (sound_map hshuffle hr).1
    simp only [Tree.cols, Tree.width]
    rw [(hshuffle _).length_eq]
    by_cases hdl : l.isDummy = true
    · have hdr : r.isDummy = false := by
        cases hr' : r.isDummy with
        | true => exact absurd ⟨hdl, hr'⟩ hd
        | false => rfl
      have h0 := dummy_sortedOn hdl hl
      rw [hlc] at h0
      obtain rfl := Option.some.inj h0
      have hw : l.width = 3 := by obtain ⟨_, _, _, _, rfl⟩ := dummy_shape hdl; rfl
      simp only [hdl, hdr, Bool.not_true, Bool.false_and, Bool.false_eq_true, if_false]
      rw [hw] at l1 el ⊢
      exact dummyLeftCols_length l1 hs.left el er
    · have hdl : l.isDummy = false := by simpa using hdl
      by_cases hdr : r.isDummy = true
      · have h0 := dummy_sortedOn hdr hr
        rw [hrc] at h0
        obtain rfl := Option.some.inj h0
        simp only [hdl, hdr, Bool.not_true, Bool.and_false, Bool.false_eq_true, if_false, if_true, dummyRightCols_eq]
        exact joinCols_length r1 hs.right el er
      · have hdr : r.isDummy = false := by simpa using hdr
        simp only [hdl, hdr, Bool.not_false, Bool.and_self, if_true]
        exact joinCols_length r1 hs.right el er

theorem sound_sortedOn (hshuffle : ∀ m, (P.shuffle m).Perm m) {fvars : Nat → List Var} :
    ∀ {t : Tree}, Sound P data vars bag fvars t → Exact t → ∀ c ∈ t.sortedOn, c < t.width
  | .leaf seed alt scan w s m, _, he => he.2
  | .sort t c, h, _ => by
    intro d hd
    simp only [Tree.sortedOn, Modifiers.sortSortedOn, List.mem_singleton] at hd
    subst hd
    exact h.2.2
  | .filter t i, h, he => sound_sortedOn hshuffle (t := t) h.1 he
  | .join l r lc rc, h, he => by
    obtain ⟨hl, hr, hd, ⟨v, hs⟩, hlc, hrc, _⟩ := h
    have l1 := (sound_map hshuffle hl).1.lt _ hs.left
    have r1 := (sound_map hshuffle hr).1.lt _ hs.right
    simp only at l1 r1
    intro c hc
    simp only [Tree.sortedOn, Tree.width] at hc ⊢
    by_cases hdl : l.isDummy = true
    · have hw : l.width = 3 := by obtain ⟨_, _, _, _, rfl⟩ := dummy_shape hdl; rfl
      rw [if_pos hdl, List.mem_singleton] at hc
      omega
    · rw [if_neg hdl, List.mem_singleton] at hc
      omega

end Verif.Planner
