import Verif.Props.C17_Union
import Verif.Lemmas.PlannerExact
import Verif.Lemmas.GroupSpec
import Verif.Spec.GroupQuery
/-
What execution trees for groups return.
-/
namespace Verif.GroupPlanner
open MultiJoin (VarMap JoinCols)
open Planner (Var MapOk solution lookup_some mem_keys mem_of_key SharesAll)
open PlannerSpec
open JoinSpec (SortedOnCols key)

variable {G : GParams} {W : World} {M : Meaning}

variable (G W) in
/-- A tree with the variables `V` that returns the bag `B`. -/
structure GOk (V : List Var) (B : List Sol) (t : GTree) : Prop where
  map : MapOk (t.cols G) t.width
  exact : (t.cols G).length = t.width
  vars : ∀ v, v ∈ (t.cols G).map (·.1) ↔ v ∈ V
  sortedOn : ∀ c ∈ t.sortedOn, c < t.width
  full : t.isScan = true → t.width = 3 → t.sortedOn.head? = some 0
  runs : ∀ x, GEval G W t x → t.isDummy = false
  wf : ∀ x, GEval G W t x → x.WF t.width
  sorted : ∀ x, GEval G W t x → SortedOnCols t.sortedOn x
  sols : ∀ x, GEval G W t x → (x.map (solution (t.cols G))).Perm B

theorem GOk.perm {V : List Var} {B B' : List Sol} {t : GTree} (h : GOk G W V B t) (hp : B.Perm B') : GOk G W V B' t :=
  ⟨h.map, h.exact, h.vars, h.sortedOn, h.full, h.runs, h.wf, h.sorted, fun x hx => (h.sols x hx).trans hp⟩

theorem GOk.width_le {V : List Var} {B : List Sol} {t : GTree} (h : GOk G W V B t) : t.width ≤ V.dedup.length := by
  rw [← h.exact, ← List.length_map (·.1)]
  exact (List.subperm_of_subset h.map.keys fun v hv => List.mem_dedup.mpr ((h.vars v).mp hv)).length_le

theorem key_lt_append {cs ds : List Nat} {x y : Row} (h : key cs x < key cs y) : key (cs ++ ds) x < key (cs ++ ds) y := by
  unfold key at *
  induction cs with
  | nil => simp at h
  | cons c cs ih =>
    rw [List.map_cons, List.map_cons, List.cons_lt_cons_iff] at h
    rw [List.cons_append, List.map_cons, List.map_cons, List.cons_lt_cons_iff]
    rcases h with h | ⟨h1, h2⟩
    · exact .inl h
    · exact .inr ⟨h1, ih h2⟩

theorem sortedOnCols_prefix {cs ds : List Nat} {x : Table} (h : SortedOnCols ds x) (hp : cs.isPrefixOf ds = true) :
    SortedOnCols cs x := by
  obtain ⟨r, rfl⟩ := List.isPrefixOf_iff_prefix.mp hp
  exact h.imp fun hab hlt => hab (key_lt_append hlt)

theorem orderBySortedOn_asc (cs : List Nat) : Modifiers.orderBySortedOn (cs.map fun c => (c, false)) = cs := by
  unfold Modifiers.orderBySortedOn
  induction cs with
  | nil => rfl
  | cons c cs ih =>
    rw [List.map_cons, List.filter_cons]
    simp only [Bool.not_false, if_true, List.map_cons]
    rw [ih]

theorem orderBy_ok {V : List Var} {B : List Sol} {t : GTree} (h : GOk G W V B t) {cs : List Nat} (hne : cs ≠ [])
    (hc : ∀ c ∈ cs, c < t.width) : GOk G W V B (.orderBy t cs) := by
  have key : ∀ y, GEval G W (.orderBy t cs) y → ∃ x, GEval G W t x ∧ y.Perm x ∧ SortedOnCols cs y := by
    intro y hy
    cases hy with
    | @orderBy _ _ x _ hx hop =>
      have hwf := h.wf x hx
      have hk : ∀ k ∈ cs.map fun c => (c, false), k.1 < t.width := by
        intro k hk
        obtain ⟨c, hc', rfl⟩ := List.mem_map.mp hk
        exact hc c hc'
      have hs := SortedOn.C54_orderBy_partial (asc := cs.map fun c => (c, false)) (desc := []) hwf (by simpa using hne)
        (by simpa using hk) (by simp) (by simp) (by simpa using hop)
      rw [List.append_nil, orderBySortedOn_asc] at hs
      refine ⟨x, hx, ?_, hs⟩
      unfold Modifiers.OrderByOp at hop
      rw [if_neg (by simpa using hne)] at hop
      obtain ⟨c, hcm⟩ := List.exists_mem_of_ne_nil _ hne
      have := hc c hcm
      obtain ⟨y', h1, h2, _⟩ := Modifiers.sorts_spec _ (Modifiers.lessKeys_eq hwf (by omega) hk) hop
      cases h1
      exact h2
  refine ⟨h.map, h.exact, h.vars, ?_, ?_, ?_, ?_, ?_, ?_⟩
  · intro c hc'
    simp only [GTree.sortedOn, orderBySortedOn_asc] at hc'
    exact hc c hc'
  · intro h'; cases h'
  · intro x _; rfl
  · intro y hy
    obtain ⟨x, hx, hp, _⟩ := key y hy
    exact fun r hr => h.wf x hx r (hp.subset hr)
  · intro y hy
    obtain ⟨x, hx, hp, hs⟩ := key y hy
    simp only [GTree.sortedOn, orderBySortedOn_asc]
    exact hs
  · intro y hy
    obtain ⟨x, hx, hp, _⟩ := key y hy
    exact (hp.map _).trans (h.sols x hx)

theorem ordered_ok {V : List Var} {B : List Sol} {t : GTree} (h : GOk G W V B t) {cs : List Nat} (hne : cs ≠ [])
    (hc : ∀ c ∈ cs, c < t.width) : GOk G W V B (ordered t cs) ∧ (∀ x, GEval G W (ordered t cs) x → SortedOnCols cs x) ∧
      (ordered t cs).cols G = t.cols G ∧ (ordered t cs).width = t.width := by
  unfold ordered
  by_cases hp : cs.isPrefixOf t.sortedOn = true
  · rw [if_pos hp]
    exact ⟨h, fun x hx => sortedOnCols_prefix (h.sorted x hx) hp, rfl, rfl⟩
  · rw [if_neg hp]
    have ho := orderBy_ok h hne hc
    refine ⟨ho, fun x hx => ?_, rfl, rfl⟩
    have := ho.sorted x hx
    simp only [GTree.sortedOn, orderBySortedOn_asc] at this
    exact this

/-- Shared variables are bound in a bag. -/
def BindsShared (V V' : List Var) (B : List Sol) : Prop := ∀ s ∈ B, ∀ v ∈ V, v ∈ V' → s v ≠ none

theorem rows_bound {V V' : List Var} {B : List Sol} {t t' : GTree} {B' : List Sol} (h : GOk G W V B t) (h' : GOk G W V' B' t')
    (hb : BindsShared V V' B) {x : Table} (hx : GEval G W t x) :
    ∀ r ∈ x, ∀ v, v ∈ (t.cols G).map (·.1) → v ∈ (t'.cols G).map (·.1) → solution (t.cols G) r v ≠ none :=
  fun _ hr v h1 h2 => hb _ ((h.sols x hx).subset (List.mem_map_of_mem hr)) v ((h.vars v).mp h1) ((h'.vars v).mp h2)

theorem optional_ok (ho : Orders G) {V V' : List Var} {A B : List Sol} {l r : GTree} (hl : GOk G W V A l) (hr : GOk G W V' B r)
    (hA : BindsShared V V' A) (hB : BindsShared V' V B) {jcs : JoinCols} (hs : SharesAll (l.cols G) (r.cols G) jcs) (hne : jcs ≠ [])
    (sl : ∀ x, GEval G W l x → SortedOnCols (jcs.map (·.1)) x) (sr : ∀ x, GEval G W r x → SortedOnCols (jcs.map (·.2)) x)
    (wl : l.width ≤ 32) (wr : r.width ≤ 32) :
    (GOk G W (V ++ V') (lj A B) (.optional l r false true jcs)) ∧ GOk G W (V ++ V') (lj B A) (.optional l r true false jcs) := by
  have hm := Planner.optionalCols_ok hl.map hr.map hs
  have hlt := Planner.jcs_lt hl.map hr.map hs
  have hsol : ∀ lOpt rOpt, solution ((GTree.optional l r lOpt rOpt jcs).cols G) =
      solution (MultiJoin.optionalVariableColumns (l.cols G) (r.cols G) l.width jcs) := by
    intro lOpt rOpt
    funext r'
    exact Planner.solution_perm hm.1.keys (ho.shuffle _) r'
  have hval : ∀ x y, GEval G W l x → GEval G W r y → MultiJoin.Valid x y l.width r.width jcs := fun x y hx hy =>
    ⟨hl.wf x hx, hr.wf y hy, hne, hlt.1, hlt.2, hs.left, hs.right, wl, wr, sl x hx, sr y hy⟩
  have hcols : ∀ lOpt rOpt, MapOk ((GTree.optional l r lOpt rOpt jcs).cols G) (l.width + r.width - jcs.length) ∧
      ((GTree.optional l r lOpt rOpt jcs).cols G).length = l.width + r.width - jcs.length ∧
      ∀ v, v ∈ ((GTree.optional l r lOpt rOpt jcs).cols G).map (·.1) ↔ v ∈ V ++ V' := by
    intro lOpt rOpt
    refine ⟨hm.1.perm (ho.shuffle _), ?_, fun v => ?_⟩
    · simp only [GTree.cols]
      rw [(ho.shuffle _).length_eq, Planner.optionalCols_length hr.map hs hl.exact hr.exact]
    · simp only [GTree.cols]
      rw [((ho.shuffle _).map _).mem_iff, hm.2, hl.vars, hr.vars, List.mem_append]
  have hsorted : ∀ c ∈ jcs.map (·.1), c < l.width + r.width - jcs.length := by
    intro c hc
    obtain ⟨jc, hjc, rfl⟩ := List.mem_map.mp hc
    have h1 := hlt.1 jc hjc
    have h2 : jcs.length ≤ r.width := by
      have := MultiJoin.kept_length (n := r.width) hs.right (by
        intro c hc
        obtain ⟨jc, hm, rfl⟩ := List.mem_map.mp hc
        exact hlt.2 jc hm)
      rw [List.length_map] at this
      omega
    omega
  have hev : ∀ lOpt rOpt z, GEval G W (.optional l r lOpt rOpt jcs) z → ∃ x y, GEval G W l x ∧ GEval G W r y ∧
      SortedOnCols (jcs.map (·.1)) z ∧
      z.Perm (JoinSpec.outerLeft jcs (l.width + r.width - jcs.length) rOpt x y ++ JoinSpec.outerRight jcs l.width lOpt x y) := by
    intro lOpt rOpt z hz
    cases hz with
    | @optional _ _ _ _ _ x y _ fuel hx hy hf hj =>
      obtain ⟨r', h1, h2, h3⟩ := MultiJoin.C15_optional_join (hval x y hx hy) lOpt rOpt hf
      simp only [GTree.width] at hj
      rw [hj] at h1
      cases h1
      exact ⟨x, y, hx, hy, h3, h2.perm⟩
  have hwf : ∀ lOpt rOpt z, GEval G W (.optional l r lOpt rOpt jcs) z → z.WF (l.width + r.width - jcs.length) := by
    intro lOpt rOpt z hz r' hr'
    obtain ⟨x, y, hx, hy, _, hp⟩ := hev lOpt rOpt z hz
    have hle : jcs.length ≤ r.width := by
      have := MultiJoin.kept_length (n := r.width) hs.right (by
        intro c hc
        obtain ⟨jc, hm, rfl⟩ := List.mem_map.mp hc
        exact hlt.2 jc hm)
      rw [List.length_map] at this
      omega
    have hwo : ∀ y' ∈ y, (JoinSpec.without (jcs.map (·.2)) y').length = r.width - jcs.length := by
      intro y' hy'
      rw [MultiJoin.without_length hs.right, List.length_map, hr.wf y hy y' hy']
      intro c hc
      obtain ⟨jc, hm, rfl⟩ := List.mem_map.mp hc
      rw [hr.wf y hy y' hy']
      exact hlt.2 jc hm
    rcases List.mem_append.mp (hp.subset hr') with h | h
    · obtain ⟨x', hx', h⟩ := List.mem_flatMap.mp h
      have hlx := hl.wf x hx x' hx'
      split at h
      · obtain ⟨y', hy', rfl⟩ := List.mem_map.mp h
        rw [List.length_append, hlx, hwo y' (List.mem_filter.mp hy').1]
        omega
      · split at h
        · rw [List.mem_singleton] at h
          subst h
          unfold JoinSpec.padRight
          rw [List.length_append, List.length_replicate]
          omega
        · cases h
    · unfold JoinSpec.outerRight at h
      split at h
      · obtain ⟨y', hy', rfl⟩ := List.mem_map.mp h
        unfold JoinSpec.padLeft
        rw [List.length_append, List.length_map, List.length_range, hwo y' (List.mem_filter.mp hy').1]
        omega
      · cases h
  refine ⟨⟨(hcols _ _).1, (hcols _ _).2.1, (hcols _ _).2.2, hsorted, fun h => (by cases h), fun _ _ => rfl, hwf _ _, ?_, ?_⟩,
    ⟨(hcols _ _).1, (hcols _ _).2.1, fun v => (hcols _ _).2.2 v, hsorted, fun h => (by cases h), fun _ _ => rfl, hwf _ _, ?_, ?_⟩⟩
  · intro z hz
    obtain ⟨_, _, _, _, h, _⟩ := hev _ _ z hz
    exact h
  · intro z hz
    obtain ⟨x, y, hx, hy, _, hp⟩ := hev _ _ z hz
    rw [hsol]
    have hor : JoinSpec.outerRight jcs l.width false x y = [] := rfl
    rw [hor, List.append_nil] at hp
    refine (hp.map _).trans ((Planner.outerLeft_solutions hl.map hr.map hs (hl.wf x hx) (hr.wf y hy) (rows_bound hl hr hA hx)
      (fun r' hr' v h1 h2 => rows_bound hr hl hB hy r' hr' v h2 h1) _).trans ?_)
    exact lj_perm (hl.sols x hx) (hr.sols y hy)
  · intro z hz
    obtain ⟨_, _, _, _, h, _⟩ := hev _ _ z hz
    exact h
  · intro z hz
    obtain ⟨x, y, hx, hy, _, hp⟩ := hev _ _ z hz
    rw [hsol]
    refine (hp.map _).trans ((Planner.outerRight_solutions hl.map hr.map hs (hl.wf x hx) (hr.wf y hy) (rows_bound hl hr hA hx)
      (fun r' hr' v h1 h2 => rows_bound hr hl hB hy r' hr' v h2 h1) _).trans ?_)
    exact lj_perm (hr.sols y hy) (hl.sols x hx)

theorem minus_ok {V V' : List Var} {A B : List Sol} {l r : GTree} (hl : GOk G W V A l) (hr : GOk G W V' B r)
    (hA : BindsShared V V' A) (hB : BindsShared V' V B) {jcs : JoinCols} (hs : SharesAll (l.cols G) (r.cols G) jcs) (hne : jcs ≠ [])
    (sl : ∀ x, GEval G W l x → SortedOnCols (jcs.map (·.1)) x) (sr : ∀ x, GEval G W r x → SortedOnCols (jcs.map (·.2)) x) :
    GOk G W V (minus A B) (.minus l r jcs) := by
  have hlt := Planner.jcs_lt hl.map hr.map hs
  have hev : ∀ z, GEval G W (.minus l r jcs) z → ∃ x y, GEval G W l x ∧ GEval G W r y ∧ z = JoinSpec.minus jcs x y := by
    intro z hz
    cases hz with
    | @minus _ _ _ x y _ fuel hx hy hf hj =>
      rw [Minus.C16_minus (hl.wf x hx) (hr.wf y hy) hlt.1 hlt.2 (sl x hx) (sr y hy) hf] at hj
      cases hj
      exact ⟨x, y, hx, hy, rfl⟩
  refine ⟨hl.map, hl.exact, hl.vars, hl.sortedOn, fun h => (by cases h), fun _ _ => rfl, ?_, ?_, ?_⟩
  · intro z hz r' hr'
    obtain ⟨x, y, hx, hy, rfl⟩ := hev z hz
    unfold JoinSpec.minus at hr'
    rw [if_neg hne] at hr'
    exact hl.wf x hx r' (List.mem_filter.mp hr').1
  · intro z hz
    obtain ⟨x, y, hx, hy, rfl⟩ := hev z hz
    unfold JoinSpec.minus
    rw [if_neg hne]
    exact (hl.sorted x hx).sublist List.filter_sublist
  · intro z hz
    obtain ⟨x, y, hx, hy, rfl⟩ := hev z hz
    show ((JoinSpec.minus jcs x y).map (solution (l.cols G))).Perm _
    rw [Planner.minus_solutions hl.map hr.map hs (rows_bound hl hr hA hx)
      (fun r' hr' v h1 h2 => rows_bound hr hl hB hy r' hr' v h2 h1) hne]
    exact minus_perm (hl.sols x hx) (hr.sols y hy)

theorem filter_ok {V : List Var} {B : List Sol} {t : GTree} (h : GOk G W V B t) (f : Flt) :
    GOk G W V (B.filter (W.keep f.id)) (.filter t f) := by
  refine ⟨h.map, h.exact, h.vars, h.sortedOn, fun h => (by cases h), fun _ _ => rfl, ?_, ?_, ?_⟩
  · intro x hx
    cases hx with
    | @filter _ _ y hy => exact fun r hr => h.wf y hy r (List.mem_filter.mp hr).1
  · intro x hx
    cases hx with
    | @filter _ _ y hy => exact (h.sorted y hy).sublist List.filter_sublist
  · intro x hx
    cases hx with
    | @filter _ _ y hy =>
      show ((y.filter fun r => W.keep f.id (solution (t.cols G) r)).map (solution (t.cols G))).Perm _
      have : (y.filter fun r => W.keep f.id (solution (t.cols G) r)).map (solution (t.cols G)) =
          (y.map (solution (t.cols G))).filter (W.keep f.id) := by
        rw [List.filter_map]; rfl
      rw [this]
      exact (h.sols y hy).filter _

theorem bind_ok (ho : Orders G) {V : List Var} {B : List Sol} {t : GTree} (h : GOk G W V B t) {v : Var} (hv : v ∉ V) (e : Nat) :
    GOk G W (V ++ [v]) (extend B v (valueOf W e)) (.bind t v e) := by
  have hv' : v ∉ (t.cols G).map (·.1) := fun h' => hv ((h.vars v).mp h')
  have hmap : MapOk (t.cols G ++ [(v, t.width)]) (t.width + 1) := by
    refine ⟨?_, ?_, ?_⟩
    · rw [List.map_append]
      refine List.nodup_append.mpr ⟨h.map.keys, by simp, ?_⟩
      rintro a ha b hb rfl
      simp only [List.map_cons, List.map_nil, List.mem_singleton] at hb
      exact hv' (hb ▸ ha)
    · rw [List.map_append]
      refine List.nodup_append.mpr ⟨h.map.cols, by simp, ?_⟩
      rintro a ha b hb rfl
      simp only [List.map_cons, List.map_nil, List.mem_singleton] at hb
      obtain ⟨p, hp, rfl⟩ := List.mem_map.mp ha
      have := h.map.lt p hp
      omega
    · intro p hp
      rcases List.mem_append.mp hp with hp | hp
      · have := h.map.lt p hp; omega
      · rw [List.mem_singleton] at hp; subst hp; simp
  refine ⟨hmap.perm (ho.shuffle _), ?_, ?_, ?_, fun h => (by cases h), fun _ _ => rfl, ?_, ?_, ?_⟩
  · simp only [GTree.cols, GTree.width]
    rw [(ho.shuffle _).length_eq, List.length_append, h.exact]
    rfl
  · intro w
    simp only [GTree.cols]
    rw [((ho.shuffle _).map _).mem_iff, List.map_append, List.mem_append, List.mem_append, h.vars]
    rfl
  · intro c hc
    have := h.sortedOn c hc
    simp only [GTree.width]
    omega
  · intro x hx
    cases hx with
    | @bind _ _ _ y hy =>
      intro r hr
      obtain ⟨r', hr', rfl⟩ := List.mem_map.mp hr
      rw [List.length_append, h.wf y hy r' hr']
      rfl
  · intro x hx
    cases hx with
    | @bind _ _ _ y hy =>
      have hs := h.sorted y hy
      show SortedOnCols t.sortedOn _
      unfold SortedOnCols at hs ⊢
      rw [List.pairwise_map]
      refine (List.Pairwise.and_mem.mp hs).imp ?_
      rintro a b ⟨ha, hb, hab⟩
      have hkey : ∀ r ∈ y, ∀ c, key t.sortedOn (r ++ [c]) = key t.sortedOn r := by
        intro r hr c
        unfold key
        apply List.map_congr_left
        intro d hd
        have := h.sortedOn d hd
        have hlen := h.wf y hy r hr
        rw [List.getD_eq_getElem?_getD, List.getD_eq_getElem?_getD, List.getElem?_append_left (by omega)]
      rw [hkey a ha, hkey b hb]
      exact hab
  · intro x hx
    cases hx with
    | @bind _ _ _ y hy =>
      refine List.Perm.trans (List.Perm.of_eq ?_) (extend_perm (h.sols y hy) v (valueOf W e))
      unfold extend
      rw [List.map_map, List.map_map]
      apply List.map_congr_left
      intro r hr
      simp only [Function.comp]
      have hlen := h.wf y hy r hr
      funext w
      show solution (G.shuffle (t.cols G ++ [(v, t.width)])) _ w = _
      rw [Planner.solution_perm hmap.keys (ho.shuffle _)]
      by_cases hw : w = v
      · subst hw
        rw [if_pos rfl, Planner.solution_mem hmap (c := t.width) (by simp)]
        unfold Planner.cell valueOf
        rw [List.getD_eq_getElem?_getD, List.getElem?_append_right (by omega), hlen, Nat.sub_self]
        rfl
      · rw [if_neg hw]
        by_cases hwm : w ∈ (t.cols G).map (·.1)
        · obtain ⟨c, hc⟩ := mem_of_key hwm
          rw [Planner.solution_mem hmap (List.mem_append_left _ hc), Planner.solution_mem h.map hc]
          have := h.map.lt _ hc
          simp only at this
          exact Planner.cell_congr (List.getElem?_append_left (by omega))
        · rw [Planner.solution_not_mem hwm, Planner.solution_not_mem]
          rw [List.map_append, List.mem_append]
          rintro (h' | h')
          · exact hwm h'
          · simp only [List.map_cons, List.map_nil, List.mem_singleton] at h'
            exact hw h'

theorem op_ok (ho : Orders G) {id : Nat} {a : Planner.Alt} (h : OpOk W M id a) : GOk G W (a.cols.map (·.1)) (M.op id) (.op id a) := by
  refine ⟨h.leaf.map.perm (ho.shuffle _), ?_, ?_, h.sorted, ?_, ?_, ?_, ?_, ?_⟩
  · simp only [GTree.cols, GTree.width]
    rw [(ho.shuffle _).length_eq]
    exact h.exact
  · intro v
    simp only [GTree.cols]
    rw [((ho.shuffle _).map _).mem_iff]
  · intro h'
    simp only [GTree.isScan, h.scan] at h'
    cases h'
  · intro x _
    unfold GTree.isDummy GTree.isScan
    simp [h.scan]
  · intro x hx
    cases hx with
    | op hx => exact h.leaf.wf x hx
  · intro x hx
    cases hx with
    | op hx => exact h.leaf.sorted x hx
  · intro x hx
    cases hx with
    | op hx =>
      have : solution ((GTree.op id a).cols G) = solution a.cols := by
        funext r
        exact Planner.solution_perm h.leaf.map.keys (ho.shuffle _) r
      rw [this]
      exact h.leaf.sols x hx

theorem covers_of_map {m : VarMap} {w : Nat} (h : MapOk m w) (hl : m.length = w) : UnionSpec.Covers m w := by
  refine ⟨h.keys, ?_⟩
  refine (List.subperm_of_subset h.cols fun c hc => ?_).perm_of_length_le (by simp [hl])
  obtain ⟨p, hp, rfl⟩ := List.mem_map.mp hc
  exact List.mem_range.mpr (h.lt p hp)

theorem solution_eq_value (m : VarMap) (r : Row) (v : Var) : solution m r v =
    (let x := (UnionSpec.value m r v).getD ID_NO_VALUE; if x = ID_NO_VALUE then none else some x) := by
  unfold solution UnionSpec.value
  induction m with
  | nil => rfl
  | cons p m ih =>
    rw [List.find?_cons, List.lookup_cons]
    by_cases h : p.1 = v
    · subst h
      simp only [beq_self_eq_true, decide_true, Option.bind_some, List.getD_eq_getElem?_getD]
    · have h1 : (v == p.1) = false := by simpa using fun h' => h h'.symm
      simp only [h1, h, decide_false]
      exact ih

theorem map_solution {m m' : VarMap} {a b : Table}
    (h : List.Forall₂ (fun r r' => ∀ v, UnionSpec.value m' r' v = UnionSpec.value m r v) a b) :
    b.map (solution m') = a.map (solution m) := by
  induction h with
  | nil => rfl
  | cons h _ ih =>
    rw [List.map_cons, List.map_cons, ih]
    congr 1
    funext v
    rw [solution_eq_value, solution_eq_value, h v]

theorem union_ok (ho : Orders G) {V V' : List Var} {X Y : List Sol} {l r : GTree} (hl : GOk G W V X l) (hr : GOk G W V' Y r)
    (hw : (V ++ V').dedup.length ≤ 100000) {t : GTree} (ht : mkUnion G l r = .ok t) : GOk G W (V ++ V') (X ++ Y) t := by
  unfold mkUnion at ht
  have hcl := covers_of_map hl.map hl.exact
  obtain ⟨hn, hv⟩ := Union.variableColumns_names (l.cols G) (r.cols G) hl.map.keys hr.map.keys
  have hl2 : ((l.cols G).map (·.2)).Perm (List.range (l.cols G).length) := by rw [hl.exact]; exact hcl.2
  obtain ⟨o, h1, h2, _⟩ := Union.columnOrigins_spec (right := r.cols G) hl2
  have hc := Union.variableColumns_cols (l.cols G) (r.cols G) hl2
  rw [h1] at ht
  simp only [Outcome.map, Outcome.ok.injEq] at ht
  subst ht
  have hmax : (Union.variableColumns (l.cols G) (r.cols G)).length ≤ 100000 := by
    refine Nat.le_trans ?_ hw
    rw [← List.length_map (·.1)]
    refine (List.subperm_of_subset hn fun v hv' => List.mem_dedup.mpr ?_).length_le
    rw [List.mem_append, ← hl.vars, ← hr.vars]
    exact (hv v).mp hv'
  have hmap : MapOk (Union.variableColumns (l.cols G) (r.cols G)) o.length := by
    refine ⟨hn, hc.nodup_iff.mpr List.nodup_range, fun p hp => ?_⟩
    rw [h2]
    exact List.mem_range.mp (hc.subset (List.mem_map.mpr ⟨p, hp, rfl⟩))
  have hev : ∀ z, GEval G W (.union l r o) z → z.WF o.length ∧
      (z.map (solution (Union.variableColumns (l.cols G) (r.cols G)))).Perm (X ++ Y) := by
    intro z hz
    cases hz with
    | @union _ _ _ x y _ hx hy hz =>
      by_cases h0 : Union.variableColumns (l.cols G) (r.cols G) = []
      · rw [h0] at h2
        unfold Union.computeUnion at hz
        rw [if_pos (by simpa using h2)] at hz
        cases hz
      · obtain ⟨o', z', e1, e2, _, _, e3, ta, tb, e4, e5, e6⟩ := Union.C17_union hcl hr.map.keys hr.map.lt (hl.wf x hx) (hr.wf y hy) h0 hmax
        rw [h1] at e1
        cases e1
        rw [hz] at e2
        cases e2
        refine ⟨e3, ?_⟩
        rw [e4, List.map_append, map_solution e5, map_solution e6]
        exact (hl.sols x hx).append (hr.sols y hy)
  refine ⟨hmap.perm (ho.shuffle _), ?_, ?_, fun c hc => (by cases hc), fun h' => (by cases h'), fun _ _ => rfl,
    fun z hz => (hev z hz).1, ?_, ?_⟩
  · simp only [GTree.cols, GTree.width]
    rw [(ho.shuffle _).length_eq, h2]
  · intro v
    simp only [GTree.cols]
    rw [((ho.shuffle _).map _).mem_iff, hv, hl.vars, hr.vars, List.mem_append]
  · intro z hz
    have : ∀ x y : Row, ¬ key ([] : List Nat) y < key [] x := by
      intro x y
      simp [key]
    exact List.pairwise_of_forall this
  · intro z hz
    have : solution ((GTree.union l r o).cols G) = solution (Union.variableColumns (l.cols G) (r.cols G)) := by
      funext x
      exact Planner.solution_perm hn (ho.shuffle _) x
    rw [this]
    exact (hev z hz).2

end Verif.GroupPlanner
