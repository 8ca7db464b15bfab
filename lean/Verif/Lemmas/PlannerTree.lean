import Verif.Lemmas.PlannerRows
/-
What execution trees return.
-/
namespace Verif.Planner
open MultiJoin (VarMap)
open PlannerSpec
open JoinSpec (SortedOn SortedOnCols)

namespace Tree

/-- The seeds in a tree. -/
def seedsOf : Tree → List Nat
  | leaf seed _ _ _ _ _ => [seed]
  | sort t _ => t.seedsOf
  | orderBy t _ => t.seedsOf
  | filter t _ => t.seedsOf
  | join l r _ _ => l.seedsOf ++ r.seedsOf
  | twoCol l r _ _ => l.seedsOf ++ r.seedsOf
  | multi l r _ => l.seedsOf ++ r.seedsOf

/-- The filters in a tree. -/
def filtersOf : Tree → List Nat
  | leaf _ _ _ _ _ _ => []
  | sort t _ => t.filtersOf
  | orderBy t _ => t.filtersOf
  | filter t i => i :: t.filtersOf
  | join l r _ _ => l.filtersOf ++ r.filtersOf
  | twoCol l r _ _ => l.filtersOf ++ r.filtersOf
  | multi l r _ => l.filtersOf ++ r.filtersOf

/-- All joins are on one column. -/
def Simple : Tree → Prop
  | leaf _ _ _ _ _ _ => True
  | sort t _ => t.Simple
  | orderBy _ _ => False
  | filter t _ => t.Simple
  | join l r _ _ => l.Simple ∧ r.Simple
  | twoCol _ _ _ _ => False
  | multi _ _ _ => False

end Tree

/-- What is known about an alternative for a seed: it returns the solutions of the seed, and its declarations are true. -/
structure LeafOk (data : Nat → Nat → Table → Prop) (vars : Nat → List Var) (bag : Nat → List Sol) (seed alt : Nat) (a : Alt) : Prop where
  map : MapOk a.cols a.width
  unbound : ∀ s ∈ bag seed, ∀ v, v ∉ vars seed → s v = none
  vars : ∀ v, v ∈ a.cols.map (·.1) ↔ v ∈ vars seed
  wf : ∀ x, data seed alt x → x.WF a.width
  sorted : ∀ x, data seed alt x → SortedOnCols a.sortedOn x
  sols : ∀ x, data seed alt x → (x.map (solution a.cols)).Perm (bag seed)
  /-- scans of all triples are sorted by their first column -/
  full : a.scan = true → a.width = 3 → a.sortedOn.head? = some 0

/-- Leaves that return one table each. -/
def returns (f : Nat → Nat → Table) (seed alt : Nat) (x : Table) : Prop := x = f seed alt

theorem LeafOk.of_table {f : Nat → Nat → Table} {vars : Nat → List Var} {bag : Nat → List Sol} {seed alt : Nat} {a : Alt}
    (map : MapOk a.cols a.width) (hvars : ∀ v, v ∈ a.cols.map (·.1) ↔ v ∈ vars seed) (wf : (f seed alt).WF a.width)
    (sorted : SortedOnCols a.sortedOn (f seed alt)) (sols : ((f seed alt).map (solution a.cols)).Perm (bag seed))
    (full : a.scan = true → a.width = 3 → a.sortedOn.head? = some 0) : LeafOk (returns f) vars bag seed alt a := by
  refine ⟨map, ?_, hvars, ?_, ?_, ?_, full⟩
  · intro s hs v hv
    obtain ⟨r, _, rfl⟩ := List.mem_map.mp (sols.symm.subset hs)
    exact solution_not_mem (fun h' => hv ((hvars v).mp h')) r
  all_goals
    rintro x rfl
    assumption

section
variable (P : Params) (data : Nat → Nat → Table → Prop) (vars : Nat → List Var) (bag : Nat → List Sol) (fvars : Nat → List Var)

/-- Trees in which all joins get what they need. -/
def Sound : Tree → Prop
  | .leaf seed alt scan w s m => LeafOk data vars bag seed alt ⟨scan, w, s, m⟩
  | .sort t c => Sound t ∧ t.isDummy = false ∧ c < t.width
  | .filter t i => Sound t ∧ t.isDummy = false ∧ ∀ v ∈ fvars i, v ∈ (t.cols P).map (·.1)
  | .join l r lc rc => Sound l ∧ Sound r ∧ ¬ (l.isDummy = true ∧ r.isDummy = true) ∧
    (∃ v, Shares (l.cols P) (r.cols P) v lc rc) ∧ l.sortedOn.head? = some lc ∧ r.sortedOn.head? = some rc ∧
    ∀ j ∈ l.seedsOf, j ∉ r.seedsOf
  | _ => False

end

theorem dummy_shape {t : Tree} (h : t.isDummy = true) : ∃ seed alt s m, t = .leaf seed alt true 3 s m := by
  unfold Tree.isDummy Tree.isScan at h
  cases t with
  | leaf seed alt scan w s m =>
    simp only [Tree.width, Bool.and_eq_true, beq_iff_eq] at h
    obtain ⟨rfl, rfl⟩ := h
    exact ⟨seed, alt, s, m, rfl⟩
  | _ => simp at h

variable {P : Params} {data : Nat → Nat → Table → Prop} {vars : Nat → List Var} {bag : Nat → List Sol} {fvars : Nat → List Var}
  {keep : Nat → Sol → Bool}

theorem dummy_sortedOn {t : Tree} (h : t.isDummy = true) (hs : Sound P data vars bag fvars t) : t.sortedOn.head? = some 0 := by
  obtain ⟨seed, alt, s, m, rfl⟩ := dummy_shape h
  exact LeafOk.full hs rfl rfl

theorem sound_map (hshuffle : ∀ m, (P.shuffle m).Perm m) :
    ∀ {t : Tree}, Sound P data vars bag fvars t →
      MapOk (t.cols P) t.width ∧ ∀ v, v ∈ (t.cols P).map (·.1) ↔ ∃ j ∈ t.seedsOf, v ∈ vars j
  | .leaf seed alt scan w s m, h => by
    refine ⟨(LeafOk.map h).perm (hshuffle m), fun v => ?_⟩
    have := LeafOk.vars h v
    simp only [Tree.cols, Tree.seedsOf, List.mem_singleton, exists_eq_left]
    rw [((hshuffle m).map _).mem_iff]
    exact this
  | .sort t c, h => sound_map hshuffle (t := t) h.1
  | .filter t i, h => sound_map hshuffle (t := t) h.1
  | .join l r lc rc, h => by
    obtain ⟨hl, hr, hd, ⟨v, hs⟩, hlc, hrc, _⟩ := h
    obtain ⟨l1, l2⟩ := sound_map hshuffle hl
    obtain ⟨r1, r2⟩ := sound_map hshuffle hr
    have fin : ∀ {m : VarMap}, (MapOk m (l.width + r.width - 1) ∧
        ∀ w, w ∈ m.map (·.1) ↔ w ∈ (l.cols P).map (·.1) ∨ w ∈ (r.cols P).map (·.1)) →
        MapOk (P.shuffle m) (l.width + r.width - 1) ∧
          ∀ v, v ∈ (P.shuffle m).map (·.1) ↔ ∃ j ∈ (Tree.join l r lc rc).seedsOf, v ∈ vars j := by
      rintro m ⟨h1, h2⟩
      refine ⟨h1.perm (hshuffle m), fun w => ?_⟩
      rw [((hshuffle m).map _).mem_iff, h2, l2, r2]
      simp only [Tree.seedsOf, List.mem_append]
      constructor
      · rintro (⟨j, hj, hw⟩ | ⟨j, hj, hw⟩)
        · exact ⟨j, .inl hj, hw⟩
        · exact ⟨j, .inr hj, hw⟩
      · rintro ⟨j, hj | hj, hw⟩
        · exact .inl ⟨j, hj, hw⟩
        · exact .inr ⟨j, hj, hw⟩
    by_cases hdl : l.isDummy = true
    · have hdr : r.isDummy = false := by
        cases hr' : r.isDummy with
        | true => exact absurd ⟨hdl, hr'⟩ hd
        | false => rfl
      have h0 := dummy_sortedOn hdl hl
      rw [hlc] at h0
      obtain rfl := Option.some.inj h0
      have hw : l.width = 3 := by obtain ⟨_, _, _, _, rfl⟩ := dummy_shape hdl; rfl
      simp only [Tree.cols, Tree.width, hdl, hdr]
      rw [hw] at l1 fin ⊢
      exact fin (dummyLeftCols_ok l1 r1 hs)
    · have hdl : l.isDummy = false := by simpa using hdl
      by_cases hdr : r.isDummy = true
      · have h0 := dummy_sortedOn hdr hr
        rw [hrc] at h0
        obtain rfl := Option.some.inj h0
        simp only [Tree.cols, Tree.width, hdl, hdr]
        simp only [dummyRightCols_eq]
        exact fin (joinCols_ok l1 r1 hs)
      · have hdr : r.isDummy = false := by simpa using hdr
        simp only [Tree.cols, Tree.width, hdl, hdr]
        exact fin (joinCols_ok l1 r1 hs)

theorem sound_filters (hshuffle : ∀ m, (P.shuffle m).Perm m) :
    ∀ {t : Tree}, Sound P data vars bag fvars t → ∀ i ∈ t.filtersOf, ∀ v ∈ fvars i, ∃ j ∈ t.seedsOf, v ∈ vars j
  | .leaf seed alt scan w s m, _, i, hi => by simp [Tree.filtersOf] at hi
  | .sort t c, h, i, hi => sound_filters hshuffle (t := t) h.1 i hi
  | .filter t k, h, i, hi => by
    rcases List.mem_cons.mp hi with rfl | hi
    · intro v hv
      exact ((sound_map hshuffle h.1).2 v).mp (h.2.2 v hv)
    · exact sound_filters hshuffle (t := t) h.1 i hi
  | .join l r lc rc, h, i, hi => by
    intro v hv
    rcases List.mem_append.mp hi with hi | hi
    · obtain ⟨j, hj, hjv⟩ := sound_filters hshuffle h.1 i hi v hv
      exact ⟨j, List.mem_append_left _ hj, hjv⟩
    · obtain ⟨j, hj, hjv⟩ := sound_filters hshuffle h.2.1 i hi v hv
      exact ⟨j, List.mem_append_right _ hj, hjv⟩

theorem sound_bag : ∀ {t : Tree}, Sound P data vars bag fvars t → ∀ j ∈ t.seedsOf, ∀ s ∈ bag j, ∀ v, v ∉ vars j → s v = none
  | .leaf seed alt scan w s m, h, j, hj => by
    obtain rfl := List.mem_singleton.mp hj
    exact LeafOk.unbound h
  | .sort t c, h, j, hj => sound_bag (t := t) h.1 j hj
  | .filter t i, h, j, hj => sound_bag (t := t) h.1 j hj
  | .join l r lc rc, h, j, hj => by
    rcases List.mem_append.mp hj with hj | hj
    · exact sound_bag h.1 j hj
    · exact sound_bag h.2.1 j hj

theorem joinAll_unbound {bags : List (List Sol)} {v : String} (hv : ∀ b ∈ bags, ∀ s ∈ b, s v = none) {s : Sol}
    (hs : s ∈ joinAll bags) : s v = none := by
  unfold joinAll at hs
  obtain ⟨ss, hss, rfl⟩ := List.mem_map.mp hs
  obtain ⟨h1, -⟩ := List.mem_filter.mp hss
  have h3 := mem_choices h1
  cases hu : union ss v with
  | none => rfl
  | some x =>
    obtain ⟨t, ht, htx⟩ := mem_of_union hu
    exfalso
    have : ∃ b ∈ bags, t ∈ b := by
      clear hs hss h1 hu hv
      induction h3 with
      | nil => simp at ht
      | @cons s b ss bags hsb _ ih =>
        rcases List.mem_cons.mp ht with rfl | ht
        · exact ⟨b, List.mem_cons_self, hsb⟩
        · obtain ⟨b', hb', htb⟩ := ih ht
          exact ⟨b', List.mem_cons_of_mem _ hb', htb⟩
    obtain ⟨b, hb, htb⟩ := this
    rw [hv b hb t htb] at htx
    cases htx

variable (P bag keep) in
/-- What a table has to be for a tree. -/
structure Sem (t : Tree) (x : Table) : Prop where
  wf : x.WF t.width
  sorted : SortedOnCols t.sortedOn x
  sols : (x.map (solution (t.cols P))).Perm ((joinAll (t.seedsOf.map bag)).filter fun s => t.filtersOf.all fun i => keep i s)

theorem sortedOn_head {cs : List Nat} {x : Table} (h : SortedOnCols cs x) {c : Nat} (hc : cs.head? = some c) : SortedOn c x := by
  cases cs with
  | nil => cases hc
  | cons d cs =>
    cases hc
    refine List.Pairwise.imp (fun {a b} hab => ?_) h
    by_contra hn
    apply hab
    unfold JoinSpec.key
    rw [List.map_cons, List.map_cons, List.cons_lt_cons_iff]
    left; omega

theorem sortedOnCols_single {c : Nat} {x : Table} (h : SortedOn c x) : SortedOnCols [c] x := by
  refine List.Pairwise.imp (fun {a b} hab => ?_) h
  unfold JoinSpec.key
  rw [List.map_cons, List.map_cons, List.cons_lt_cons_iff]
  simp only [List.map_nil, List.not_lt_nil, and_false, or_false]
  omega

theorem Sem.head {t : Tree} {x : Table} (h : Sem P bag keep t x) {c : Nat} (hc : t.sortedOn.head? = some c) : SortedOn c x :=
  sortedOn_head h.sorted hc

theorem sem_leaf (hshuffle : ∀ m, (P.shuffle m).Perm m) {seed alt : Nat} {scan : Bool} {w : Nat} {s : List Nat} {m : VarMap}
    (h : Sound P data vars bag fvars (.leaf seed alt scan w s m)) {x : Table} (hx : data seed alt x) :
    Sem P bag keep (.leaf seed alt scan w s m) x := by
  refine ⟨LeafOk.wf h x hx, LeafOk.sorted h x hx, ?_⟩
  simp only [Tree.cols, Tree.seedsOf, Tree.filtersOf, List.map_cons, List.map_nil, joinAll_singleton, List.all_nil]
  rw [List.filter_eq_self.mpr (by simp)]
  have : solution (P.shuffle m) = solution m := by
    funext r
    exact solution_perm (LeafOk.map h).keys (hshuffle m) r
  rw [this]
  exact LeafOk.sols h x hx

/-- The rows of a side of a join bind the shared variable. -/
theorem sem_bound (hshuffle : ∀ m, (P.shuffle m).Perm m)
    (hbound : ∀ i j, i ≠ j → ∀ v ∈ vars i, v ∈ vars j → ∀ s ∈ bag i, s v ≠ none) {l r : Tree}
    (hl : Sound P data vars bag fvars l) (hr : Sound P data vars bag fvars r) (hd : ∀ j ∈ l.seedsOf, j ∉ r.seedsOf) {v : Var}
    (h1 : v ∈ (l.cols P).map (·.1)) (h2 : v ∈ (r.cols P).map (·.1)) : ∀ s ∈ joinAll (l.seedsOf.map bag), s v ≠ none := by
  obtain ⟨i, hi, hvi⟩ := ((sound_map hshuffle hl).2 v).mp h1
  obtain ⟨j, hj, hvj⟩ := ((sound_map hshuffle hr).2 v).mp h2
  intro s hs
  refine joinAll_bound (List.mem_map_of_mem hi) (fun t ht => ?_) hs
  exact hbound i j (fun he => hd i hi (he ▸ hj)) v hvi hvj t ht

theorem filter_left (hkeep : ∀ i s t, (∀ v ∈ fvars i, s v = t v) → keep i s = keep i t)
    (hshuffle : ∀ m, (P.shuffle m).Perm m)
    (hbound : ∀ i j, i ≠ j → ∀ v ∈ vars i, v ∈ vars j → ∀ s ∈ bag i, s v ≠ none) {l r : Tree}
    (hl : Sound P data vars bag fvars l) (hr : Sound P data vars bag fvars r) (hd : ∀ j ∈ l.seedsOf, j ∉ r.seedsOf) :
    ∀ s ∈ joinAll (l.seedsOf.map bag), ∀ t ∈ joinAll (r.seedsOf.map bag),
      (l.filtersOf.all fun i => keep i (union2 s t)) = l.filtersOf.all fun i => keep i s := by
  intro s hs t ht
  rw [Bool.eq_iff_iff, List.all_eq_true, List.all_eq_true]
  refine forall_congr' fun i => forall_congr' fun hi => ?_
  rw [hkeep i (union2 s t) s]
  intro v hv
  unfold union2
  cases hsv : s v with
  | some x => rfl
  | none =>
    rw [Option.none_or]
    obtain ⟨j, hj, hjv⟩ := sound_filters hshuffle hl i hi v hv
    refine joinAll_unbound ?_ ht
    intro b hb u hu
    obtain ⟨k, hk, rfl⟩ := List.mem_map.mp hb
    by_cases hvk : v ∈ vars k
    · exact absurd hsv (sem_bound hshuffle hbound hl hr hd (((sound_map hshuffle hl).2 v).mpr ⟨j, hj, hjv⟩)
        (((sound_map hshuffle hr).2 v).mpr ⟨k, hk, hvk⟩) s hs)
    · exact sound_bag hr k hk u hu v hvk

/-- The solutions of a join, given those of the sides. -/
theorem join_perm (hkeep : ∀ i s t, (∀ v ∈ fvars i, s v = t v) → keep i s = keep i t)
    (hshuffle : ∀ m, (P.shuffle m).Perm m)
    (hbound : ∀ i j, i ≠ j → ∀ v ∈ vars i, v ∈ vars j → ∀ s ∈ bag i, s v ≠ none) {l r : Tree}
    (hl : Sound P data vars bag fvars l) (hr : Sound P data vars bag fvars r) (hd : ∀ j ∈ l.seedsOf, j ∉ r.seedsOf)
    {x y : List Sol} (hx : x.Perm ((joinAll (l.seedsOf.map bag)).filter fun s => l.filtersOf.all fun i => keep i s))
    (hy : y.Perm ((joinAll (r.seedsOf.map bag)).filter fun s => r.filtersOf.all fun i => keep i s)) :
    (bagJoin x y).Perm ((joinAll ((l.seedsOf ++ r.seedsOf).map bag)).filter fun s =>
      (l.filtersOf ++ r.filtersOf).all fun i => keep i s) := by
  refine (bagJoin_perm hx hy).trans ?_
  rw [bagJoin_filter, List.map_append, joinAll_append]
  · refine List.Perm.of_eq (List.filter_congr fun s _ => ?_)
    rw [List.all_append]
  · intro s hs t ht _
    exact filter_left hkeep hshuffle hbound hl hr hd s hs t ht
  · intro s hs t ht hc
    rw [union2_comm hc]
    exact filter_left hkeep hshuffle hbound hr hl (fun j hj hj' => hd j hj' hj) t ht s hs

theorem sem_eval (hkeep : ∀ i s t, (∀ v ∈ fvars i, s v = t v) → keep i s = keep i t)
    (hshuffle : ∀ m, (P.shuffle m).Perm m)
    (hbound : ∀ i j, i ≠ j → ∀ v ∈ vars i, v ∈ vars j → ∀ s ∈ bag i, s v ≠ none) {t : Tree} {x : Table}
    (he : Eval P data keep t x) : Sound P data vars bag fvars t → Sem P bag keep t x := by
  induction he with
  | leaf _ hx => exact fun h => sem_leaf hshuffle h hx
  | @sort t c x y _ hop ih =>
    intro h
    have hx := ih h.1
    obtain ⟨y', h1, h2, h3⟩ := Modifiers.sorts_spec (fun r : Row => r.getD c 0) (Modifiers.lessColumn_eq hx.wf h.2.2) hop
    cases h1
    refine ⟨fun r hr => hx.wf r (h2.subset hr), ?_, (h2.map _).trans hx.sols⟩
    exact sortedOnCols_single h3
  | orderBy _ _ _ => exact fun h => h.elim
  | @filter t i x _ ih =>
    intro h
    have hx := ih h.1
    refine ⟨fun r hr => hx.wf r (List.mem_filter.mp hr).1, List.Pairwise.sublist List.filter_sublist hx.sorted, ?_⟩
    have h1 : (x.filter fun r => keep i (solution (t.cols P) r)).map (solution (t.cols P)) =
        (x.map (solution (t.cols P))).filter (keep i) := by
      rw [List.filter_map]; rfl
    simp only [Tree.cols, Tree.seedsOf, Tree.filtersOf]
    rw [h1]
    refine (hx.sols.filter _).trans (List.Perm.of_eq ?_)
    rw [List.filter_filter]
    rfl
  | @join l r lc rc x y z fuel hdl hdr _ _ hf hj ihl ihr =>
    intro h
    obtain ⟨hl, hr, _, ⟨v, hs⟩, hlc, hrc, hd⟩ := h
    have hx := ihl hl
    have hy := ihr hr
    have ml := (sound_map hshuffle hl).1
    have mr := (sound_map hshuffle hr).1
    have hlt := ml.lt _ hs.left
    have hrt := mr.lt _ hs.right
    have hok : Join.Ok x lc y rc := ⟨fun r' h' => by rw [hx.wf r' h']; exact hlt, fun r' h' => by rw [hy.wf r' h']; exact hrt,
      hx.head hlc, hy.head hrc⟩
    have hz := join_eq hok hf hj
    subst hz
    refine ⟨Join.C12_width hx.wf hy.wf hrt, ?_, ?_⟩
    · simp only [Tree.sortedOn, hdl, Bool.false_eq_true, if_false]
      exact sortedOnCols_single (Join.C12_result_sorted hok)
    · have hb1 : ∀ r' ∈ x, solution (l.cols P) r' v ≠ none := fun r' hr' =>
        sem_bound hshuffle hbound hl hr hd (mem_keys hs.left) (mem_keys hs.right) _
          (List.mem_filter.mp (hx.sols.subset (List.mem_map_of_mem hr'))).1
      have hb2 : ∀ r' ∈ y, solution (r.cols P) r' v ≠ none := fun r' hr' =>
        sem_bound hshuffle hbound hr hl (fun j hj hj' => hd j hj' hj) (mem_keys hs.right) (mem_keys hs.left) _
          (List.mem_filter.mp (hy.sols.subset (List.mem_map_of_mem hr'))).1
      have hsol : solution ((Tree.join l r lc rc).cols P) = solution (joinCols (l.cols P) (r.cols P) l.width rc) := by
        funext r'
        simp only [Tree.cols, hdl, hdr]
        exact solution_perm (joinCols_ok ml mr hs).1.keys (hshuffle _) r'
      rw [hsol, join_solutions ml mr hs hx.wf hb1 hb2]
      exact join_perm hkeep hshuffle hbound hl hr hd hx.sols hy.sols
  | @dummyLeft l r lc rc x y z hdl hdr hx _ hj ihr =>
    intro h
    obtain ⟨hl, hr, _, ⟨v, hs⟩, hlc, hrc, hd⟩ := h
    have hy := ihr hr
    have hfull : Sem P bag keep l x := by
      obtain ⟨_, _, _, _, rfl⟩ := dummy_shape hdl
      exact sem_leaf hshuffle hl hx
    have hw : l.width = 3 := by obtain ⟨_, _, _, _, rfl⟩ := dummy_shape hdl; rfl
    have h0 := dummy_sortedOn hdl hl
    rw [hlc] at h0
    obtain rfl := Option.some.inj h0
    have ml := (sound_map hshuffle hl).1
    have mr := (sound_map hshuffle hr).1
    have hwf := hfull.wf
    rw [hw] at ml hwf
    have hrt := mr.lt _ hs.right
    obtain ⟨hp, hso⟩ := dummyJoin_left hwf (hy.head hrc) hj
    have hb1 : ∀ r' ∈ x, solution (l.cols P) r' v ≠ none := fun r' hr' =>
      sem_bound hshuffle hbound hl hr hd (mem_keys hs.left) (mem_keys hs.right) _
        (List.mem_filter.mp (hfull.sols.subset (List.mem_map_of_mem hr'))).1
    have hb2 : ∀ r' ∈ y, solution (r.cols P) r' v ≠ none := fun r' hr' =>
      sem_bound hshuffle hbound hr hl (fun j hj hj' => hd j hj' hj) (mem_keys hs.right) (mem_keys hs.left) _
        (List.mem_filter.mp (hy.sols.subset (List.mem_map_of_mem hr'))).1
    refine ⟨?_, ?_, ?_⟩
    · intro r' hr'
      obtain ⟨y', hy', hr'⟩ := List.mem_flatMap.mp (hp.subset hr')
      obtain ⟨f, hf, rfl⟩ := List.mem_map.mp hr'
      have h3 := hwf f (List.mem_filter.mp hf).1
      have h4 := hy.wf y' hy'
      simp only [Tree.width, List.length_append, List.length_tail]
      omega
    · simp only [Tree.sortedOn, hdl, if_true]
      exact sortedOnCols_single hso
    · have hsol : solution ((Tree.join l r 0 rc).cols P) = solution (dummyLeftCols (l.cols P) (r.cols P)) := by
        funext r'
        simp only [Tree.cols, hdl, hdr]
        exact solution_perm (dummyLeftCols_ok ml mr hs).1.keys (hshuffle _) r'
      rw [hsol]
      refine (hp.map _).trans ?_
      rw [dummyRows_solutions ml mr hs hwf hb1 hb2]
      exact (bagJoin_comm _ _).trans (join_perm hkeep hshuffle hbound hl hr hd hfull.sols hy.sols)
  | @dummyRight l r lc rc x y z hdl hdr _ hy hj ihl =>
    intro h
    obtain ⟨hl, hr, _, ⟨v, hs⟩, hlc, hrc, hd⟩ := h
    have hx := ihl hl
    have hfull : Sem P bag keep r y := by
      obtain ⟨_, _, _, _, rfl⟩ := dummy_shape hdr
      exact sem_leaf hshuffle hr hy
    have h0 := dummy_sortedOn hdr hr
    rw [hrc] at h0
    obtain rfl := Option.some.inj h0
    have ml := (sound_map hshuffle hl).1
    have mr := (sound_map hshuffle hr).1
    have hlt := ml.lt _ hs.left
    have hrt := mr.lt _ hs.right
    have hz := dummyJoin_right hj
    subst hz
    have hok : Join.Ok x lc y 0 := ⟨fun r' h' => by rw [hx.wf r' h']; exact hlt,
      fun r' h' => by rw [hfull.wf r' h']; exact hrt, hx.head hlc, hfull.head hrc⟩
    refine ⟨Join.C12_width hx.wf hfull.wf hrt, ?_, ?_⟩
    · simp only [Tree.sortedOn, hdl, Bool.false_eq_true, if_false]
      exact sortedOnCols_single (Join.C12_result_sorted hok)
    · have hb1 : ∀ r' ∈ x, solution (l.cols P) r' v ≠ none := fun r' hr' =>
        sem_bound hshuffle hbound hl hr hd (mem_keys hs.left) (mem_keys hs.right) _
          (List.mem_filter.mp (hx.sols.subset (List.mem_map_of_mem hr'))).1
      have hb2 : ∀ r' ∈ y, solution (r.cols P) r' v ≠ none := fun r' hr' =>
        sem_bound hshuffle hbound hr hl (fun j hj hj' => hd j hj' hj) (mem_keys hs.right) (mem_keys hs.left) _
          (List.mem_filter.mp (hfull.sols.subset (List.mem_map_of_mem hr'))).1
      have hsol : solution ((Tree.join l r lc 0).cols P) = solution (joinCols (l.cols P) (r.cols P) l.width 0) := by
        funext r'
        simp only [Tree.cols, hdl, hdr]
        simp only [dummyRightCols_eq]
        exact solution_perm (joinCols_ok ml mr hs).1.keys (hshuffle _) r'
      rw [hsol, join_solutions ml mr hs hx.wf hb1 hb2]
      exact join_perm hkeep hshuffle hbound hl hr hd hx.sols hfull.sols
  | twoCol _ _ _ _ _ _ => exact fun h => h.elim
  | multi _ _ _ _ _ _ => exact fun h => h.elim

end Verif.Planner
