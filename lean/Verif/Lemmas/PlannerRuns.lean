import Verif.Lemmas.PlannerTable
/-
Execution trees return tables, unless a join searches its left side for the rows of the right one.
-/
namespace Verif.Planner
open PlannerSpec
open JoinSpec (SortedOn SortedOnCols)

/-- All leaves of a tree (seed, alternative, whether it is a scan, and width) have a property. -/
def Tree.Leaves (Q : Nat → Nat → Bool → Nat → Prop) : Tree → Prop
  | .leaf seed alt scan w _ _ => Q seed alt scan w
  | .sort t _ => t.Leaves Q
  | .orderBy t _ => t.Leaves Q
  | .filter t _ => t.Leaves Q
  | .join l r _ _ => l.Leaves Q ∧ r.Leaves Q
  | .twoCol l r _ _ => l.Leaves Q ∧ r.Leaves Q
  | .multi l r _ => l.Leaves Q ∧ r.Leaves Q

/-- The leaf returns a table. -/
def Fed (data : Nat → Nat → Table → Prop) (seed alt : Nat) (_ : Bool) (_ : Nat) : Prop := ∃ x, data seed alt x

/-- Somewhere in the tree two tables are joined the left one of which is more than 1000 times as long as the right one, which is not
empty (see C13). -/
inductive Lopsided (P : Params) (data : Nat → Nat → Table → Prop) (keep : Nat → (Var → Option Nat) → Bool) : Tree → Prop
  | here {l r lc rc x y} : Eval P data keep l x → Eval P data keep r y → y ≠ [] → 1000 < x.length / y.length →
    Lopsided P data keep (.join l r lc rc)
  | left {l r lc rc} : Lopsided P data keep l → Lopsided P data keep (.join l r lc rc)
  | right {l r lc rc} : Lopsided P data keep r → Lopsided P data keep (.join l r lc rc)
  | sort {t c} : Lopsided P data keep t → Lopsided P data keep (.sort t c)
  | filter {t i} : Lopsided P data keep t → Lopsided P data keep (.filter t i)

section
variable {P : Params} {data : Nat → Nat → Table → Prop} {vars : Nat → List Var} {bag : Nat → List Sol} {fvars : Nat → List Var}
  {keep : Nat → Sol → Bool}

theorem dummyLoop_total (emit : Nat → Table → Table) {c : Nat} : ∀ {rs : Table}, (∀ r ∈ rs, c < r.length) → ∀ (cur : Nat) (run : Table),
    ∃ z, dummyLoop emit c cur run rs = .ok z
  | [], _, cur, run => ⟨_, rfl⟩
  | r :: rs, h, cur, run => by
    rw [dummyLoop, Outcome.read_lt r c (h r List.mem_cons_self), Outcome.bind]
    by_cases hv : r[c]'(h r List.mem_cons_self) = cur
    · rw [if_pos hv]
      exact dummyLoop_total emit (fun r' hr' => h r' (List.mem_cons_of_mem _ hr')) _ _
    · rw [if_neg hv]
      obtain ⟨z, hz⟩ := dummyLoop_total emit (fun r' hr' => h r' (List.mem_cons_of_mem _ hr')) (r[c]'(h r List.mem_cons_self)) [r]
      exact ⟨_, by rw [hz]; rfl⟩

theorem dummyJoin_total (full : Table) (left : Bool) {other : Table} {c : Nat} (h : ∀ r ∈ other, c < r.length) :
    ∃ z, dummyJoin full left other c = .ok z := by
  cases other with
  | nil => exact ⟨_, rfl⟩
  | cons r rs =>
    rw [dummyJoin, Outcome.read_lt r c (h r List.mem_cons_self), Outcome.bind]
    exact dummyLoop_total _ h _ _

theorem full_of_fed {t : Tree} (hd : t.isDummy = true) (h : t.Leaves (Fed data)) : ∃ x, t.full data x := by
  obtain ⟨seed, alt, s, m, rfl⟩ := dummy_shape hd
  exact h

theorem seedsOf_pos : ∀ t : Tree, 0 < t.seedsOf.length
  | .leaf _ _ _ _ _ _ => Nat.one_pos
  | .sort t _ => seedsOf_pos t
  | .orderBy t _ => seedsOf_pos t
  | .filter t _ => seedsOf_pos t
  | .join l r _ _ => by have := seedsOf_pos l; simp only [Tree.seedsOf, List.length_append]; omega
  | .twoCol l r _ _ => by have := seedsOf_pos l; simp only [Tree.seedsOf, List.length_append]; omega
  | .multi l r _ => by have := seedsOf_pos l; simp only [Tree.seedsOf, List.length_append]; omega

/-- Then some of the patterns, but not all, have more than 1000 solutions together. -/
theorem Lopsided.large (hkeep : ∀ i s t, (∀ v ∈ fvars i, s v = t v) → keep i s = keep i t) (hshuffle : ∀ m, (P.shuffle m).Perm m)
    (hbound : ∀ i j, i ≠ j → ∀ v ∈ vars i, v ∈ vars j → ∀ s ∈ bag i, s v ≠ none) {t : Tree} (h : Lopsided P data keep t) :
    Sound P data vars bag fvars t →
      ∃ js : List Nat, js.Sublist t.seedsOf ∧ js.length < t.seedsOf.length ∧ 1000 < (joinAll (js.map bag)).length := by
  induction h with
  | @here l r lc rc x y hx hy hne hlop =>
    intro h
    have hx' := (sem_eval hkeep hshuffle hbound hx h.1).sols.length_eq
    rw [List.length_map] at hx'
    refine ⟨l.seedsOf, List.sublist_append_left _ _, ?_, ?_⟩
    · have := seedsOf_pos r
      simp only [Tree.seedsOf, List.length_append]
      omega
    · exact hlop.trans_le ((Nat.div_le_self _ _).trans (hx'.le.trans (List.length_filter_le _ _)))
  | @left l r lc rc _ ih =>
    intro h
    obtain ⟨js, h1, h2, h3⟩ := ih h.1
    refine ⟨js, h1.trans (List.sublist_append_left _ _), ?_, h3⟩
    simp only [Tree.seedsOf, List.length_append]
    omega
  | @right l r lc rc _ ih =>
    intro h
    obtain ⟨js, h1, h2, h3⟩ := ih h.2.1
    refine ⟨js, h1.trans (List.sublist_append_right _ _), ?_, h3⟩
    simp only [Tree.seedsOf, List.length_append]
    omega
  | sort _ ih => exact fun h => ih h.1
  | filter _ ih => exact fun h => ih h.1

theorem runs (hkeep : ∀ i s t, (∀ v ∈ fvars i, s v = t v) → keep i s = keep i t) (hshuffle : ∀ m, (P.shuffle m).Perm m)
    (hbound : ∀ i j, i ≠ j → ∀ v ∈ vars i, v ∈ vars j → ∀ s ∈ bag i, s v ≠ none) :
    ∀ {t : Tree}, Sound P data vars bag fvars t → t.Leaves (Fed data) → t.isDummy = false →
      (∃ x, Eval P data keep t x) ∨ Lopsided P data keep t
  | .leaf seed alt scan w s m, _, hf, hd => by
    obtain ⟨x, hx⟩ := hf
    exact .inl ⟨x, .leaf hd hx⟩
  | .sort t c, h, hf, _ => by
    rcases runs hkeep hshuffle hbound h.1 hf h.2.1 with ⟨x, hx⟩ | hl
    · have hs := sem_eval hkeep hshuffle hbound hx h.1
      obtain ⟨y, hy⟩ := Modifiers.sorts_exists (fun r : Row => r.getD c 0) (Modifiers.lessColumn_eq hs.wf h.2.2)
      exact .inl ⟨y, .sort hx hy⟩
    · exact .inr (.sort hl)
  | .filter t i, h, hf, _ => by
    rcases runs hkeep hshuffle hbound h.1 hf h.2.1 with ⟨x, hx⟩ | hl
    · exact .inl ⟨_, .filter hx⟩
    · exact .inr (.filter hl)
  | .join l r lc rc, h, hf, _ => by
    obtain ⟨hl, hr, hdd, ⟨v, hs⟩, hlc, hrc, hd⟩ := h
    have hlt := (sound_map hshuffle hl).1.lt _ hs.left
    have hrt := (sound_map hshuffle hr).1.lt _ hs.right
    cases hdl : l.isDummy with
    | true =>
      have hdr : r.isDummy = false := by
        cases hdr : r.isDummy with
        | false => rfl
        | true => exact absurd ⟨hdl, hdr⟩ hdd
      rcases runs hkeep hshuffle hbound hr hf.2 hdr with ⟨y, hy⟩ | hlop
      · obtain ⟨x, hx⟩ := full_of_fed hdl hf.1
        have hy' := sem_eval hkeep hshuffle hbound hy hr
        obtain ⟨z, hz⟩ := dummyJoin_total x true (other := y) (c := rc) fun r' h' => by rw [hy'.wf r' h']; exact hrt
        exact .inl ⟨z, .dummyLeft hdl hdr hx hy hz⟩
      · exact .inr (.right hlop)
    | false =>
      rcases runs hkeep hshuffle hbound hl hf.1 hdl with ⟨x, hx⟩ | hlop
      swap
      · exact .inr (.left hlop)
      have hx' := sem_eval hkeep hshuffle hbound hx hl
      cases hdr : r.isDummy with
      | true =>
        obtain ⟨y, hy⟩ := full_of_fed hdr hf.2
        obtain ⟨z, hz⟩ := dummyJoin_total y false (other := x) (c := lc) fun r' h' => by rw [hx'.wf r' h']; exact hlt
        exact .inl ⟨z, .dummyRight hdl hdr hx hy hz⟩
      | false =>
        rcases runs hkeep hshuffle hbound hr hf.2 hdr with ⟨y, hy⟩ | hlop
        swap
        · exact .inr (.right hlop)
        have hy' := sem_eval hkeep hshuffle hbound hy hr
        have hok : Join.Ok x lc y rc := ⟨fun r' h' => by rw [hx'.wf r' h']; exact hlt, fun r' h' => by rw [hy'.wf r' h']; exact hrt,
          hx'.head hlc, hy'.head hrc⟩
        by_cases hlop : y ≠ [] ∧ 1000 < x.length / y.length
        · exact .inr (.here hx hy hlop.1 hlop.2)
        have h1 : x.length / y.length ≤ 1000 := by
          by_cases he : y = []
          · rw [he]; simp
          · by_contra hn
            exact hlop ⟨he, by omega⟩
        by_cases h2 : y.length / x.length ≤ 1000
        · exact .inl ⟨_, .join hdl hdr hx hy (Nat.lt_succ_self _) (Join.C12_merge_join hok h1 h2 (Nat.lt_succ_self _))⟩
        · refine .inl ⟨_, .join hdl hdr hx hy (Nat.lt_succ_self _) (Join.C13_right_larger hok ?_ (by omega) (Nat.lt_succ_self _))⟩
          rintro rfl
          simp at h2
  | .orderBy _ _, h, _, _ => h.elim
  | .twoCol _ _ _ _, h, _, _ => h.elim
  | .multi _ _ _, h, _, _ => h.elim

end

section
variable {P : Params} {Q : Nat → Nat → Bool → Nat → Prop} {nodes : List Node} {children : List (List Alt)} {filters : List (List Var)}

/-- What holds for all plans. -/
def PlanLeaves (Q : Nat → Nat → Bool → Nat → Prop) (p : Plan) : Prop := p.tree.Simple → p.tree.Leaves Q

theorem foldl_leaves : ∀ (fs : List (List Var × Nat)) {p : Plan}, PlanLeaves Q p →
    PlanLeaves Q (fs.foldl (fun p f => if applicable P p f.2 f.1 then addFilter p f.2 else p) p)
  | [], _, h => h
  | f :: fs, p, h => by
    rw [List.foldl_cons]
    by_cases ha : applicable P p f.2 f.1 = true
    · rw [if_pos ha]
      exact foldl_leaves fs (p := addFilter p f.2) h
    · rw [if_neg ha]
      exact foldl_leaves fs h

theorem filteredAll_leaves : ∀ (n : Nat) {row : List Plan}, (∀ p ∈ row, PlanLeaves Q p) → ∀ p ∈ filteredAll P filters n row, PlanLeaves Q p
  | 0, _, _, p, hp => by cases hp
  | n + 1, row, h, p, hp => by
    have h' : ∀ p ∈ row.flatMap (filtered P filters), PlanLeaves Q p := by
      intro p hp
      obtain ⟨q, hq, hp⟩ := List.mem_flatMap.mp hp
      unfold filtered at hp
      by_cases hd : q.tree.isDummy = true
      · rw [if_pos hd] at hp; cases hp
      · rw [if_neg hd] at hp
        obtain ⟨f, _, hf⟩ := List.mem_filterMap.mp hp
        by_cases ha : applicable P q f.2 f.1 = true
        · rw [if_pos ha] at hf
          cases hf
          exact h q hq
        · rw [if_neg ha] at hf
          cases hf
    rw [filteredAll] at hp
    rcases List.mem_append.mp hp with hp | hp
    · exact h' p hp
    · exact filteredAll_leaves n h' p hp

theorem applyFilters_leaves {row : List Plan} (b : Bool) (h : ∀ p ∈ row, PlanLeaves Q p) : ∀ p ∈ applyFilters P filters b row, PlanLeaves Q p := by
  intro p hp
  unfold applyFilters at hp
  cases b with
  | true =>
    rw [if_pos rfl] at hp
    obtain ⟨q, hq, rfl⟩ := List.mem_map.mp hp
    unfold replaced
    by_cases hd : q.tree.isDummy = true
    · rw [if_pos hd]; exact h q hq
    · rw [if_neg hd]; exact foldl_leaves _ (h q hq)
  | false =>
    rw [if_neg (by simp)] at hp
    rcases List.mem_append.mp hp with hp | hp
    · exact h p hp
    · exact filteredAll_leaves _ h p hp

theorem sorted_leaves {t l : Tree} {c : Nat} (h : sorted t c = some l) (hs : l.Simple) : t.Simple ∧ (t.Leaves Q → l.Leaves Q) := by
  rcases sorted_some h with ⟨rfl, _⟩ | ⟨rfl, _⟩
  · exact ⟨hs, id⟩
  · exact ⟨hs, id⟩

theorem join_leaves {a b p : Plan} (ha : PlanLeaves Q a) (hb : PlanLeaves Q b) (hp : p ∈ createJoinCandidates P nodes a b) : PlanLeaves Q p := by
  unfold createJoinCandidates at hp
  by_cases hc : connected P nodes a b = true
  swap
  · simp [hc] at hp
  simp only [hc, if_true] at hp
  match hj : getJoinColumns P a.tree b.tree with
  | [] => simp [hj] at hp
  | [jc] =>
    simp only [hj] at hp
    by_cases hd : (a.tree.isDummy && b.tree.isDummy) = true
    · simp [hd] at hp
    simp only [hd] at hp
    cases hsl : sorted a.tree jc.1 with
    | none => simp [hsl] at hp
    | some l =>
      cases hsr : sorted b.tree jc.2 with
      | none => simp [hsl, hsr] at hp
      | some r =>
        simp only [hsl, hsr, Bool.false_eq_true, if_false, List.mem_singleton] at hp
        subst hp
        have key : l.Simple → r.Simple → l.Leaves Q ∧ r.Leaves Q := fun hls hrs =>
          ⟨(sorted_leaves hsl hls).2 (ha (sorted_leaves (Q := Q) hsl hls).1), (sorted_leaves hsr hrs).2 (hb (sorted_leaves (Q := Q) hsr hrs).1)⟩
        show (mkJoin P l r jc.1 jc.2).Simple → (mkJoin P l r jc.1 jc.2).Leaves Q
        unfold mkJoin
        split
        · exact fun h => ⟨(key h.2 h.1).2, (key h.2 h.1).1⟩
        · exact fun h => key h.1 h.2
  | [j1, j2] =>
    simp only [hj] at hp
    by_cases hd : (a.tree.isDummy && b.tree.isDummy) = true
    · simp [hd] at hp
    simp only [hd] at hp
    simp only [Bool.false_eq_true, if_false] at hp
    obtain ⟨n, _, rfl⟩ := List.mem_map.mp hp
    exact fun hs => absurd hs (twoColTree_seedsOf (P := P) a.tree b.tree [j1, j2] n).2.2
  | j1 :: j2 :: j3 :: js =>
    simp only [hj, List.mem_singleton] at hp
    subst hp
    exact fun hs => absurd hs (multiTree_seedsOf (P := P) a.tree b.tree).2.2

theorem fillDpTab_leaves (horder : ∀ g, (P.order g).Perm g)
    (hleaf : ∀ j k a, (altsOf nodes children j)[k]? = some a → Q j k a.scan a.width) {res : List (List Plan)}
    (h : fillDpTab P nodes filters children = .ok res) : Rows (fun _ => PlanLeaves Q) res := by
  refine (fillDpTab_rows horder ?_ (fun _ _ _ _ _ ha hb hp => join_leaves ha hb hp) (fun _ _ b h => applyFilters_leaves b h) h).1
  intro p hp
  obtain ⟨j, _, k, a, ha, rfl⟩ := mem_seeds hp
  exact fun _ => hleaf j k a ha

end

end Verif.Planner
