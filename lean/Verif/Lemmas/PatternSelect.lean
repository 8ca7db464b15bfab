import Verif.Model.Patterns
import Verif.Lemmas.Filter
/-
The selection of the most frequent patterns.
-/
namespace Verif.Patterns

abbrev PC := Pattern × Nat

/-- The first predicate plus one, 0 for the empty pattern. -/
def key : Pattern → Nat
  | [] => 0
  | a :: _ => a + 1

/-- The order behind `comparePatternCounts`. -/
def before (a b : PC) : Prop := a.2 > b.2 ∨ (a.2 = b.2 ∧ key a.1 > key b.1)

theorem compareCounts_iff (a b : PC) (h : a.1 ≠ b.1) : compareCounts a b = true ↔ before a b := by
  have hg : Pattern.gt a.1 b.1 = true ↔ key a.1 > key b.1 := by
    cases ha : a.1 with
    | nil =>
      cases hb : b.1 with
      | nil => exact absurd (ha.trans hb.symm) h
      | cons y ys => simp [Pattern.gt, key]
    | cons x xs =>
      cases hb : b.1 with
      | nil => simp [Pattern.gt, key]
      | cons y ys => simp [Pattern.gt, key]
  unfold compareCounts before
  simp [hg]

theorem compareCounts_false (a b : PC) (h : a.1 ≠ b.1) : compareCounts a b = false ↔ ¬ before a b := by
  rw [← compareCounts_iff a b h]; simp

/-- Keys are distinct. -/
def Keys (l : List PC) : Prop := (l.map Prod.fst).Nodup

theorem Keys.ne {l : List PC} (h : Keys l) : l.Pairwise fun a b => a.1 ≠ b.1 := List.pairwise_map.mp h

/-- Sorted by `before`. -/
def SortedBy (l : List PC) : Prop := l.Pairwise fun a b => ¬ before b a

theorem sorted_iff {l : List PC} (h : Keys l) : (l.Pairwise fun a b => compareCounts b a = false) ↔ SortedBy l := by
  unfold SortedBy
  constructor
  · intro h2
    exact (h2.and h.ne).imp fun ⟨h3, h4⟩ => (compareCounts_false _ _ (Ne.symm h4)).mp h3
  · intro h2
    exact (h2.and h.ne).imp fun ⟨h3, h4⟩ => (compareCounts_false _ _ (Ne.symm h4)).mpr h3

theorem sort_exists (l : List PC) (h : Keys l) : ∃ l', SortedCounts l l' := by
  have key : ∃ l', l'.Perm l ∧ SortedBy l' := by
    clear h
    induction l with
    | nil => exact ⟨[], .nil, .nil⟩
    | cons a l ih =>
      obtain ⟨q, h1, h2⟩ := ih
      have hins : ∀ q : List PC, SortedBy q → ∃ q' : List PC, q'.Perm (a :: q) ∧ SortedBy q' := by
        intro q
        induction q with
        | nil => intro _; exact ⟨[a], .refl _, by simp [SortedBy]⟩
        | cons b q ih =>
          intro hs
          unfold SortedBy at hs ⊢
          rw [List.pairwise_cons] at hs
          by_cases hc : before b a
          · obtain ⟨q', h3, h4⟩ := ih hs.2
            refine ⟨b :: q', (h3.cons b).trans (.swap ..), List.pairwise_cons.mpr ⟨fun x hx => ?_, h4⟩⟩
            rcases List.mem_cons.mp (h3.mem_iff.mp hx) with rfl | hx
            · unfold before at *; omega
            · exact hs.1 x hx
          · refine ⟨a :: b :: q, .refl _, List.pairwise_cons.mpr ⟨fun x hx => ?_, List.pairwise_cons.mpr hs⟩⟩
            rcases List.mem_cons.mp hx with rfl | hx
            · exact hc
            · have := hs.1 x hx
              unfold before at *; omega
      obtain ⟨q', h3, h4⟩ := hins q h2
      exact ⟨q', h3.trans (h1.cons a), h4⟩
  obtain ⟨l', h1, h2⟩ := key
  refine ⟨l', h1, (sorted_iff ?_).mpr h2⟩
  exact (h1.map Prod.fst).nodup_iff.mpr h

/-- Invariant of the selection: `sorted` and `dropped` are the entries seen. -/
structure SelInv (maxNum : Nat) (sorted dropped : List PC) : Prop where
  keys : Keys (sorted ++ dropped)
  small : sorted.length < maxNum → dropped = []
  full : ¬ sorted.length < maxNum → sorted.length = maxNum ∧ SortedBy sorted
  best : ∀ y ∈ dropped, ∀ x ∈ sorted, ¬ before y x

theorem part_sorted {l : List PC} {it : PC} (hs : SortedBy l) (hk : ∀ x ∈ l, x.1 ≠ it.1) :
    Filter.Part (fun x => compareCounts x it) l := by
  unfold Filter.Part
  refine hs.imp_of_mem fun {a b} ha hb hab h => ?_
  rw [compareCounts_iff _ _ (hk b hb)] at h
  rw [compareCounts_iff _ _ (hk a ha)]
  unfold before at *; omega

theorem insert_spec {sorted dropped counts : List PC} {it last : PC} {maxNum pos : Nat} (hi : SelInv maxNum sorted dropped)
    (hk : Keys (sorted ++ dropped ++ it :: counts)) (hl : ¬ sorted.length < maxNum) (hlast : sorted.getLast? = some last)
    (hc : compareCounts it last = true)
    (hp : Filter.partitionPoint (fun x => compareCounts x it) sorted.dropLast = .ok pos) :
    SelInv maxNum (sorted.dropLast.take pos ++ it :: sorted.dropLast.drop pos) (last :: dropped) ∧
    (sorted.dropLast.take pos ++ it :: sorted.dropLast.drop pos ++ last :: dropped).Perm (sorted ++ dropped ++ [it]) := by
  obtain ⟨hlen, hs⟩ := hi.full hl
  obtain ⟨ys, rfl⟩ := List.getLast?_eq_some_iff.mp hlast
  rw [List.dropLast_concat] at hp ⊢
  have hperm : (ys.take pos ++ it :: ys.drop pos ++ last :: dropped).Perm (ys ++ [last] ++ dropped ++ [it]) := by
    have h1 : (ys.take pos ++ it :: ys.drop pos).Perm (it :: ys) :=
      List.perm_middle.trans (by rw [List.take_append_drop])
    refine (h1.append_right _).trans ?_
    rw [List.append_assoc, List.append_assoc]
    simp only [List.cons_append, List.nil_append]
    have h2 : (it :: (ys ++ last :: dropped)).Perm ((ys ++ last :: dropped) ++ [it]) := by
      have := (List.perm_append_comm (l₁ := [it]) (l₂ := ys ++ last :: dropped))
      simpa using this
    refine h2.trans (by simp)
  have hne : ∀ x ∈ ys ++ [last] ++ dropped, x.1 ≠ it.1 := by
    intro x hx
    have := hk.ne
    exact (List.pairwise_append.mp this).2.2 x hx it (List.mem_cons_self ..)
  have hsy : SortedBy ys := (List.pairwise_append.mp hs).1
  have hly : ∀ x ∈ ys, ¬ before last x := fun x hx => (List.pairwise_append.mp hs).2.2 x hx last (by simp)
  have hney : ∀ x ∈ ys, x.1 ≠ it.1 := fun x hx => hne x (by simp [hx])
  have hnel : it.1 ≠ last.1 := fun h => hne last (by simp) h.symm
  rw [compareCounts_iff _ _ hnel] at hc
  have hpart := part_sorted hsy hney
  rw [Filter.partitionPoint_ok hpart] at hp
  cases hp
  obtain ⟨ht, hd⟩ := Filter.part_filter hpart
  have hl1 : (ys.take (ys.takeWhile fun x => compareCounts x it).length ++ it :: ys.drop (ys.takeWhile fun x => compareCounts x it).length).length
      = maxNum := by
    rw [List.length_append, List.length_cons]
    simp only [List.length_append, List.length_cons, List.length_nil] at hlen
    have := congrArg List.length (List.take_append_drop (ys.takeWhile fun x => compareCounts x it).length ys)
    rw [List.length_append] at this
    omega
  refine ⟨⟨?_, fun h => by omega, fun _ => ⟨hl1, ?_⟩, ?_⟩, hperm⟩
  · have h1 : Keys (ys ++ [last] ++ dropped ++ [it]) := by
      have h2 : (ys ++ [last] ++ dropped ++ [it]).Sublist (ys ++ [last] ++ dropped ++ it :: counts) :=
        List.Sublist.append_left (by simp) _
      exact List.Nodup.sublist (h2.map Prod.fst) hk
    exact (hperm.map Prod.fst).nodup_iff.mpr h1
  · rw [ht, hd]
    refine List.pairwise_append.mpr ⟨List.Pairwise.sublist List.filter_sublist hsy, List.pairwise_cons.mpr ⟨?_, List.Pairwise.sublist List.filter_sublist hsy⟩, ?_⟩
    · intro x hx
      have hx' := List.mem_filter.mp hx
      have h1 : compareCounts x it = false := by simpa using hx'.2
      exact (compareCounts_false _ _ (hney x hx'.1)).mp h1
    · intro a ha b hb
      have ha' := List.mem_filter.mp ha
      have h1 := (compareCounts_iff _ _ (hney a ha'.1)).mp ha'.2
      rcases List.mem_cons.mp hb with rfl | hb
      · unfold before at *; omega
      · have hb' := List.mem_filter.mp hb
        have h2 : compareCounts b it = false := by simpa using hb'.2
        have h3 := (compareCounts_false _ _ (hney b hb'.1)).mp h2
        unfold before at *; omega
  · intro y hy x hx
    have hx1 : x = it ∨ x ∈ ys := by
      have : x ∈ it :: ys := (List.perm_middle.trans (by rw [List.take_append_drop])).mem_iff.mp hx
      simpa using this
    rcases List.mem_cons.mp hy with rfl | hy
    · rcases hx1 with rfl | hx1
      · unfold before at *; omega
      · exact hly x hx1
    · rcases hx1 with rfl | hx1
      · have := hi.best y hy last (by simp)
        unfold before at *; omega
      · exact hi.best y hy x (by simp [hx1])

theorem select_spec {maxNum : Nat} (hm : 0 < maxNum) {sorted counts : List PC} {o : Outcome (List PC)} (h : Select maxNum sorted counts o) :
    ∀ dropped, SelInv maxNum sorted dropped → Keys (sorted ++ dropped ++ counts) →
      ∃ sorted' dropped', o = .ok sorted' ∧ SelInv maxNum sorted' dropped' ∧
        (sorted' ++ dropped').Perm (sorted ++ dropped ++ counts) := by
  induction h with
  | done sorted => intro dropped hi _; exact ⟨sorted, dropped, rfl, hi, by simp⟩
  | @push sorted it counts r h1 h2 _ ih =>
    intro dropped hi hk
    have hd := hi.small h1
    subst hd
    obtain ⟨s', d', e1, e2, e3⟩ := ih [] ⟨by
        have : Keys (sorted ++ [] ++ it :: counts) := hk
        have h3 : (sorted ++ [it]).Sublist (sorted ++ [] ++ it :: counts) := by simp
        rw [List.append_nil]; exact List.Nodup.sublist (h3.map Prod.fst) this, fun _ => rfl, fun h => by simp at h; omega, by simp⟩
      (by simpa using hk)
    exact ⟨s', d', e1, e2, by simpa using e3⟩
  | @pushSort sorted sorted' it counts r h1 h2 h3 _ ih =>
    intro dropped hi hk
    have hd := hi.small h1
    subst hd
    have hlen : sorted'.length = maxNum := by rw [h3.1.length_eq]; simpa using h2
    have hk1 : Keys (sorted ++ [it]) := by
      have h4 : (sorted ++ [it]).Sublist (sorted ++ [] ++ it :: counts) := by simp
      exact List.Nodup.sublist (h4.map Prod.fst) hk
    have hk2 : Keys sorted' := (h3.1.map Prod.fst).nodup_iff.mpr hk1
    have hp : (sorted' ++ [] ++ counts).Perm (sorted ++ [] ++ it :: counts) := by
      have := h3.1.append_right counts
      simpa using this
    obtain ⟨s', d', e1, e2, e3⟩ := ih [] ⟨by simpa using hk2, fun _ => rfl, fun _ => ⟨hlen, (sorted_iff hk2).mp h3.2⟩, by simp⟩
      ((hp.map Prod.fst).nodup_iff.mpr hk)
    exact ⟨s', d', e1, e2, e3.trans hp⟩
  | empty h => exact absurd hm h
  | @skip sorted last it counts r h1 h2 h3 _ ih =>
    intro dropped hi hk
    obtain ⟨hlen, hs⟩ := hi.full h1
    have hne : ∀ x ∈ sorted, it.1 ≠ x.1 := by
      intro x hx h
      exact (List.pairwise_append.mp hk.ne).2.2 x (List.mem_append_left _ hx) it (List.mem_cons_self ..) h.symm
    have hb := (compareCounts_false _ _ (hne last (List.mem_of_getLast? h2))).mp h3
    obtain ⟨ys, rfl⟩ := List.getLast?_eq_some_iff.mp h2
    have hit : ∀ x ∈ ys ++ [last], ¬ before it x := by
      intro x hx
      rcases List.mem_append.mp hx with hx | hx
      · have := (List.pairwise_append.mp hs).2.2 x hx last (by simp)
        unfold before at *; omega
      · simp at hx; rw [hx]; exact hb
    have hp : (ys ++ [last] ++ (dropped ++ [it]) ++ counts).Perm (ys ++ [last] ++ dropped ++ it :: counts) := by simp
    obtain ⟨s', d', e1, e2, e3⟩ := ih (dropped ++ [it]) ⟨by
        have h4 : (ys ++ [last] ++ (dropped ++ [it])).Sublist (ys ++ [last] ++ dropped ++ it :: counts) := by
          simp
        exact List.Nodup.sublist (h4.map Prod.fst) hk, fun h => absurd h h1, fun _ => ⟨hlen, hs⟩, by
        intro y hy x hx
        rcases List.mem_append.mp hy with hy | hy
        · exact hi.best y hy x hx
        · simp at hy; rw [hy]; exact hit x hx⟩ (by simpa using hk)
    exact ⟨s', d', e1, e2, e3.trans hp⟩
  | @insert sorted last it counts pos r h1 h2 h3 h4 _ ih =>
    intro dropped hi hk
    obtain ⟨g1, g2⟩ := insert_spec hi hk h1 h2 h3 h4
    have hp : (sorted.dropLast.take pos ++ it :: sorted.dropLast.drop pos ++ last :: dropped ++ counts).Perm (sorted ++ dropped ++ it :: counts) := by
      have := g2.append_right counts
      simpa using this
    obtain ⟨s', d', e1, e2, e3⟩ := ih (last :: dropped) g1 ((hp.map Prod.fst).nodup_iff.mpr hk)
    exact ⟨s', d', e1, e2, e3.trans hp⟩
  | @insertUb sorted last it counts h1 h2 h3 h4 =>
    intro dropped hi hk
    obtain ⟨hlen, hs⟩ := hi.full h1
    obtain ⟨ys, rfl⟩ := List.getLast?_eq_some_iff.mp h2
    rw [List.dropLast_concat, Filter.partitionPoint_ok (part_sorted (List.pairwise_append.mp hs).1 (fun x hx => ?_))] at h4
    · cases h4
    · exact (List.pairwise_append.mp hk.ne).2.2 x (by simp [hx]) it (List.mem_cons_self ..)

theorem select_total {maxNum : Nat} (hm : 0 < maxNum) (counts : List PC) : ∀ sorted dropped, SelInv maxNum sorted dropped →
    Keys (sorted ++ dropped ++ counts) → ∃ o, Select maxNum sorted counts o := by
  induction counts with
  | nil => intro sorted _ _ _; exact ⟨_, .done sorted⟩
  | cons it counts ih =>
    intro sorted dropped hi hk
    by_cases h1 : sorted.length < maxNum
    · have hd := hi.small h1
      subst hd
      have hk1 : Keys (sorted ++ [it]) := by
        have h4 : (sorted ++ [it]).Sublist (sorted ++ [] ++ it :: counts) := by simp
        exact List.Nodup.sublist (h4.map Prod.fst) hk
      by_cases h2 : sorted.length + 1 = maxNum
      · obtain ⟨sorted', h3⟩ := sort_exists _ hk1
        have hlen : sorted'.length = maxNum := by rw [h3.1.length_eq]; simpa using h2
        have hk2 : Keys sorted' := (h3.1.map Prod.fst).nodup_iff.mpr hk1
        have hp : (sorted' ++ [] ++ counts).Perm (sorted ++ [] ++ it :: counts) := by
          have := h3.1.append_right counts
          simpa using this
        obtain ⟨o, ho⟩ := ih sorted' [] ⟨by simpa using hk2, fun _ => rfl, fun _ => ⟨hlen, (sorted_iff hk2).mp h3.2⟩, by simp⟩
          ((hp.map Prod.fst).nodup_iff.mpr hk)
        exact ⟨o, .pushSort h1 h2 h3 ho⟩
      · obtain ⟨o, ho⟩ := ih (sorted ++ [it]) [] ⟨by simpa using hk1, fun _ => rfl, fun h => by simp at h; omega, by simp⟩ (by simpa using hk)
        exact ⟨o, .push h1 h2 ho⟩
    · obtain ⟨hlen, hs⟩ := hi.full h1
      cases hl : sorted.getLast? with
      | none =>
        rw [List.getLast?_eq_none_iff] at hl
        subst hl
        simp at hlen; omega
      | some last =>
        cases hc : compareCounts it last with
        | false =>
          have hne : ∀ x ∈ sorted, it.1 ≠ x.1 := by
            intro x hx h
            exact (List.pairwise_append.mp hk.ne).2.2 x (List.mem_append_left _ hx) it (List.mem_cons_self ..) h.symm
          have hb := (compareCounts_false _ _ (hne last (List.mem_of_getLast? hl))).mp hc
          obtain ⟨ys, rfl⟩ := List.getLast?_eq_some_iff.mp hl
          have hit : ∀ x ∈ ys ++ [last], ¬ before it x := by
            intro x hx
            rcases List.mem_append.mp hx with hx | hx
            · have := (List.pairwise_append.mp hs).2.2 x hx last (by simp)
              unfold before at *; omega
            · simp at hx; rw [hx]; exact hb
          obtain ⟨o, ho⟩ := ih (ys ++ [last]) (dropped ++ [it]) ⟨by
              have h4 : (ys ++ [last] ++ (dropped ++ [it])).Sublist (ys ++ [last] ++ dropped ++ it :: counts) := by
                simp
              exact List.Nodup.sublist (h4.map Prod.fst) hk, fun h => absurd h h1, fun _ => ⟨hlen, hs⟩, by
              intro y hy x hx
              rcases List.mem_append.mp hy with hy | hy
              · exact hi.best y hy x hx
              · simp at hy; rw [hy]; exact hit x hx⟩ (by simpa using hk)
          exact ⟨o, .skip h1 hl hc ho⟩
        | true =>
          have hpp : ∃ pos, Filter.partitionPoint (fun x => compareCounts x it) sorted.dropLast = .ok pos := by
            obtain ⟨ys, rfl⟩ := List.getLast?_eq_some_iff.mp hl
            rw [List.dropLast_concat]
            exact ⟨_, Filter.partitionPoint_ok (part_sorted (List.pairwise_append.mp hs).1 fun x hx =>
              (List.pairwise_append.mp hk.ne).2.2 x (by simp [hx]) it (List.mem_cons_self ..))⟩
          obtain ⟨pos, hp⟩ := hpp
          obtain ⟨g1, g2⟩ := insert_spec hi hk h1 hl hc hp
          have hp' : (sorted.dropLast.take pos ++ it :: sorted.dropLast.drop pos ++ last :: dropped ++ counts).Perm (sorted ++ dropped ++ it :: counts) := by
            have := g2.append_right counts
            simpa using this
          obtain ⟨o, ho⟩ := ih _ (last :: dropped) g1 ((hp'.map Prod.fst).nodup_iff.mpr hk)
          exact ⟨o, .insert h1 hl hc hp ho⟩

theorem selInv_init (maxNum : Nat) (hm : 0 < maxNum) : SelInv maxNum [] [] :=
  ⟨by simp [Keys], fun _ => rfl, fun h => by simp at h; omega, by simp⟩

/-- The selection keeps the patterns with the highest counts, all of them if there are at most `maxNum`. -/
theorem selected_spec {maxNum : Nat} (hm : 0 < maxNum) {counts : List PC} (hk : Keys counts) {o : Outcome (List PC)}
    (h : Selected maxNum counts o) :
    ∃ sel dropped, o = .ok sel ∧ (sel ++ dropped).Perm counts ∧ sel.length = min counts.length maxNum ∧
      (∀ y ∈ dropped, ∀ x ∈ sel, y.2 ≤ x.2) ∧ sel.Pairwise fun a b => b.2 ≤ a.2 := by
  have main : ∀ order o', order.Perm counts → Select maxNum [] order o' → ∃ sorted dropped, o' = .ok sorted ∧
      SelInv maxNum sorted dropped ∧ (sorted ++ dropped).Perm counts := by
    intro order o' h1 h2
    obtain ⟨s, d, e1, e2, e3⟩ := select_spec hm h2 [] (selInv_init maxNum hm) (show Keys order from (h1.map Prod.fst).nodup_iff.mpr hk)
    exact ⟨s, d, e1, e2, (by simpa using e3 : (s ++ d).Perm order).trans h1⟩
  cases h with
  | @full order sorted h1 h2 h3 =>
    obtain ⟨s, d, e1, e2, e3⟩ := main _ _ h1 h2
    cases e1
    obtain ⟨h4, h5⟩ := e2.full h3
    refine ⟨sorted, d, rfl, e3, ?_, fun y hy x hx => ?_, h5.imp fun h => ?_⟩
    · have := e3.length_eq
      rw [List.length_append] at this
      omega
    · have := e2.best y hy x hx
      unfold before at this; omega
    · unfold before at h; omega
  | @sort order sorted sorted' h1 h2 h3 h4 =>
    obtain ⟨s, d, e1, e2, e3⟩ := main _ _ h1 h2
    cases e1
    have hd := e2.small h3
    subst hd
    have hks : Keys sorted' := (h4.1.map Prod.fst).nodup_iff.mpr (show Keys sorted by simpa using e2.keys)
    refine ⟨sorted', [], rfl, by simpa using h4.1.trans (by simpa using e3), ?_, by simp, ((sorted_iff hks).mp h4.2).imp fun h => ?_⟩
    · have h5 := e3.length_eq
      have h6 := h4.1.length_eq
      simp at h5
      omega
    · unfold before at h; omega
  | @ub order h1 h2 =>
    obtain ⟨s, d, e1, _⟩ := main _ _ h1 h2
    cases e1

theorem selected_total {maxNum : Nat} (hm : 0 < maxNum) {counts : List PC} (hk : Keys counts) : ∃ o, Selected maxNum counts o := by
  obtain ⟨o, ho⟩ := select_total hm counts [] [] (selInv_init maxNum hm) (by simpa using hk)
  obtain ⟨s, d, e1, e2, e3⟩ := select_spec hm ho [] (selInv_init maxNum hm) (by simpa using hk)
  subst e1
  by_cases h : s.length < maxNum
  · have hd := e2.small h
    subst hd
    obtain ⟨s', h'⟩ := sort_exists s (by simpa using e2.keys)
    exact ⟨_, .sort (.refl _) ho h h'⟩
  · exact ⟨_, .full (.refl _) ho h⟩

end Verif.Patterns
