import Verif.Lemmas.FTSKWayMain
/-
C35: intersecting two posting lists is exact.  C36: intersecting k posting lists is exact.

`Score` has 16 bits, so sums of scores are taken modulo 65536; the specification says so explicitly.
-/
namespace Verif.FTS
open Outcome Verif.Spec.Text

/-- C35: filtering a block by an id range returns exactly the postings whose word id is in the (inclusive) range, in
order. -/
theorem C35_filterByRange (first last : Nat) (block : List Posting) (fuel : Nat) (hf : block.length + 1 < fuel) :
    filterByRange fuel first last (block.map (·.cid)) (block.map (·.eid)) (block.map (·.score)) =
      .ok ((block.filter fun p => first ≤ p.eid ∧ p.eid ≤ last).map (·.cid),
        (block.filter fun p => first ≤ p.eid ∧ p.eid ≤ last).map (·.score)) :=
  filterByRange_spec first last block fuel hf

example : filterByRange 10 5 7 [1, 2, 2, 4] [5, 8, 7, 4] [10, 20, 30, 40] = .ok ([1, 2], [10, 30]) := by decide

/-- C35: intersecting contexts with entity postings returns exactly the entity postings whose context occurs among the
contexts, in order. -/
theorem C35_intersect (matching : List Nat) (es : List Posting) (hm : matching.Pairwise (· ≤ ·)) (hs : Sorted es)
    (fuel : Nat) (hf : matching.length + es.length + 1 < fuel) :
    intersect fuel matching (es.map (·.cid)) (es.map (·.eid)) (es.map (·.score)) ⟨[], [], []⟩ =
      .ok ⟨(es.filter (·.cid ∈ matching)).map (·.cid), (es.filter (·.cid ∈ matching)).map (·.eid),
        (es.filter (·.cid ∈ matching)).map (·.score)⟩ := by
  by_cases h : matching ≠ [] ∧ es ≠ []
  · exact intersect_spec matching es hm hs h _ fuel hf
  · have he : es.filter (·.cid ∈ matching) = [] := by
      by_cases h1 : matching = []
      · subst h1; simp
      · have : es = [] := by
          apply Classical.byContradiction
          intro h2
          exact h ⟨h1, h2⟩
        subst this; rfl
    rw [he]
    unfold intersect
    rw [if_pos]
    · rfl
    · by_cases h1 : matching = []
      · exact .inl h1
      · right
        have : es = [] := by
          apply Classical.byContradiction
          intro h2
          exact h ⟨h1, h2⟩
        simp [this]

example : intersect 20 [1, 3, 3, 4] [1, 2, 3, 3, 5] [11, 12, 13, 14, 15] [1, 1, 1, 2, 1] ⟨[], [], []⟩ =
    .ok ⟨[1, 3, 3], [11, 13, 14], [1, 1, 2]⟩ := by decide
example : [1, 3, 3, 4].Pairwise (· ≤ ·) ∧ Sorted [⟨1, 11, 1⟩, ⟨2, 12, 1⟩, ⟨3, 13, 1⟩, ⟨3, 14, 2⟩, ⟨5, 15, 1⟩] := by
  unfold Sorted; decide

/-- C35: the result vectors need not be empty before the call, unless one of the lists is empty. -/
theorem C35_intersect_reused (matching : List Nat) (es : List Posting) (hm : matching.Pairwise (· ≤ ·)) (hs : Sorted es)
    (hne : matching ≠ [] ∧ es ≠ []) (old : Triple) (fuel : Nat) (hf : matching.length + es.length + 1 < fuel) :
    intersect fuel matching (es.map (·.cid)) (es.map (·.eid)) (es.map (·.score)) old =
      .ok ⟨(es.filter (·.cid ∈ matching)).map (·.cid), (es.filter (·.cid ∈ matching)).map (·.eid),
        (es.filter (·.cid ∈ matching)).map (·.score)⟩ :=
  intersect_spec matching es hm hs hne old fuel hf

/-- With an empty list, result vectors that are reused keep their old content. -/
theorem C35_intersect_reused_violated : intersect 20 [] [1] [11] [1] ⟨[7], [8], [9]⟩ = .ok ⟨[7], [8], [9]⟩ := by decide

/-- The scores of a context in a list of contexts and a parallel list of scores. -/
def scores (cids scores : List Nat) (c : Nat) : List Nat := ((cids.zip scores).filter (·.1 = c)).map (·.2)

theorem pairs_map (l : List Posting) (f : Posting → Nat) :
    (l.map fun p => (p.cid, f p)).map (·.1) = l.map (·.cid) ∧ (l.map fun p => (p.cid, f p)).map (·.2) = l.map f := by
  simp

theorem zip_unzip' (l : List (Nat × Nat)) : (l.map (·.1)).zip (l.map (·.2)) = l := by
  induction l with
  | nil => rfl
  | cons a l ih => simp [ih]

/-- C35: intersecting two word posting lists returns the common contexts in order; for each context, the scores in the
result are the sums of the scores in the lists (for a context that occurs several times in both lists: of the first
occurrences, of the second occurrences, ...). -/
theorem C35_intersectTwo (l1 l2 : List Posting) (h1 : Sorted l1) (h2 : Sorted l2) (fuel : Nat)
    (hf : l1.length + l2.length + 1 < fuel) :
    ∃ rc rs, intersectTwo fuel (l1.map (·.cid)) (l1.map (·.score)) (l2.map (·.cid)) (l2.map (·.score)) ([], []) =
        .ok (rc, rs) ∧ rc.length = rs.length ∧ rc.Pairwise (· ≤ ·) ∧
      ∀ c, scores rc rs c = List.zipWith (fun x y => (x + y) % 65536)
        ((l1.filter (·.cid = c)).map (·.score)) ((l2.filter (·.cid = c)).map (·.score)) := by
  by_cases hne : l1 ≠ [] ∧ l2 ≠ []
  · let p1 := l1.map fun p => (p.cid, p.score)
    let p2 := l2.map fun p => (p.cid, p.score)
    have hs1 : p1.Pairwise (·.1 ≤ ·.1) := List.pairwise_map.2 h1
    have hs2 : p2.Pairwise (·.1 ≤ ·.1) := List.pairwise_map.2 h2
    have key := intersectTwo_spec p1 p2 (by simpa [p1, p2] using hne) (p1.map (·.2)) (by
      intro a h
      rw [read_lt _ _ (by simpa using h), List.getElem_map]) ([], []) fuel (by simpa [p1, p2] using hf)
    rw [(pairs_map l1 (·.score)).1, (pairs_map l1 (·.score)).2, (pairs_map l2 (·.score)).1,
      (pairs_map l2 (·.score)).2] at key
    refine ⟨_, _, key, by simp, List.pairwise_map.2 (inter2_sorted p1 p2 hs2), ?_⟩
    intro c
    unfold scores
    rw [zip_unzip']
    have := inter2_scores p1 p2 hs1 hs2 c
    unfold scoresOf at this
    rw [this]
    simp only [p1, p2, List.filter_map, List.map_map]
    rfl
  · refine ⟨[], [], ?_, rfl, .nil, ?_⟩
    · unfold intersectTwo
      rw [if_pos]
      by_cases h : l1 = []
      · exact .inl (by simp [h])
      · right
        have : l2 = [] := by
          apply Classical.byContradiction
          intro h2
          exact hne ⟨h, h2⟩
        simp [this]
    · intro c
      by_cases h : l1 = []
      · subst h; rfl
      · have : l2 = [] := by
          apply Classical.byContradiction
          intro h2
          exact hne ⟨h, h2⟩
        subst this
        simp [scores]

theorem filter_strict {l : List Posting} (h : StrictSorted l) {p : Posting} (hp : p ∈ l) :
    l.filter (·.cid = p.cid) = [p] := by
  induction l with
  | nil => simp at hp
  | cons q l ih =>
    obtain ⟨h1, h2⟩ := List.pairwise_cons.1 h
    rcases List.mem_cons.1 hp with rfl | hp
    · rw [List.filter_cons_of_pos (by simp)]
      congr 1
      rw [List.filter_eq_nil_iff]
      intro a ha
      have := h1 a ha
      simp only [decide_eq_true_eq]
      omega
    · have := h1 p hp
      rw [List.filter_cons_of_neg (by simp; omega)]
      exact ih h2 hp

/-- C35 for lists in which each context occurs once: the result consists of exactly the common contexts, each with the
sum of its scores. -/
theorem C35_intersectTwo_distinct (l1 l2 : List Posting) (h1 : StrictSorted l1) (h2 : StrictSorted l2) (fuel : Nat)
    (hf : l1.length + l2.length + 1 < fuel) :
    ∃ rc rs, intersectTwo fuel (l1.map (·.cid)) (l1.map (·.score)) (l2.map (·.cid)) (l2.map (·.score)) ([], []) =
        .ok (rc, rs) ∧ rc.length = rs.length ∧ rc.Pairwise (· < ·) ∧
      ∀ c s, (c, s) ∈ rc.zip rs ↔ ∃ p ∈ l1, ∃ q ∈ l2, p.cid = c ∧ q.cid = c ∧ s = (p.score + q.score) % 65536 := by
  obtain ⟨rc, rs, hr, hlen, hsorted, hsc⟩ := C35_intersectTwo l1 l2 (h1.imp fun h => Nat.le_of_lt h)
    (h2.imp fun h => Nat.le_of_lt h) fuel hf
  have hmem : ∀ c s, (c, s) ∈ rc.zip rs ↔ s ∈ scores rc rs c := by
    intro c s
    unfold scores
    constructor
    · intro h
      exact List.mem_map.2 ⟨(c, s), List.mem_filter.2 ⟨h, by simp⟩, rfl⟩
    · intro h
      obtain ⟨⟨c', s'⟩, h', rfl⟩ := List.mem_map.1 h
      obtain ⟨h3, h4⟩ := List.mem_filter.1 h'
      simp only [decide_eq_true_eq] at h4
      subst h4
      exact h3
  have hchar : ∀ c s, s ∈ scores rc rs c ↔ ∃ p ∈ l1, ∃ q ∈ l2, p.cid = c ∧ q.cid = c ∧ s = (p.score + q.score) % 65536 := by
    intro c s
    rw [hsc]
    constructor
    · intro h
      have hlen1 : (l1.filter (·.cid = c)) ≠ [] := by intro e; simp [e] at h
      have hlen2 : (l2.filter (·.cid = c)) ≠ [] := by intro e; simp [e] at h
      obtain ⟨p, hp⟩ := List.exists_mem_of_ne_nil _ hlen1
      obtain ⟨q, hq⟩ := List.exists_mem_of_ne_nil _ hlen2
      obtain ⟨hp1, hp2⟩ := List.mem_filter.1 hp
      obtain ⟨hq1, hq2⟩ := List.mem_filter.1 hq
      simp only [decide_eq_true_eq] at hp2 hq2
      rw [← hp2, filter_strict h1 hp1, hp2, ← hq2, filter_strict h2 hq1] at h
      exact ⟨p, hp1, q, hq1, hp2, hq2, by simpa using h⟩
    · rintro ⟨p, hp, q, hq, e1, e2, rfl⟩
      rw [← e1, filter_strict h1 hp, e1, ← e2, filter_strict h2 hq]
      simp
  refine ⟨rc, rs, hr, hlen, ?_, fun c s => (hmem c s).trans (hchar c s)⟩
  rw [List.pairwise_iff_getElem]
  intro i j hi hj hij
  have hle := (List.pairwise_iff_getElem.1 hsorted) i j hi hj hij
  rcases Nat.lt_or_ge rc[i] rc[j] with h | h
  · exact h
  exfalso
  have heq : rc[j] = rc[i] := by omega
  have hl1 : (scores rc rs rc[i]).length ≤ 1 := by
    rw [hsc, List.length_zipWith]
    by_cases hp : ∃ p ∈ l1, p.cid = rc[i]
    · obtain ⟨p, hp, e⟩ := hp
      rw [← e, filter_strict h1 hp]
      simp
      omega
    · have : l1.filter (·.cid = rc[i]) = [] := by
        rw [List.filter_eq_nil_iff]
        intro p hpl
        simp only [decide_eq_true_eq]
        exact fun e => hp ⟨p, hpl, e⟩
      simp [this]
  have hl2 : 2 ≤ (scores rc rs rc[i]).length := by
    unfold scores
    rw [List.length_map]
    have hz : (rc.zip rs).length = rc.length := by rw [List.length_zip]; omega
    have hsub : [(rc.zip rs)[i]'(by omega), (rc.zip rs)[j]'(by omega)].Sublist (rc.zip rs) := by
      have e1 : rc.zip rs = (rc.zip rs).take (i + 1) ++ (rc.zip rs).drop (i + 1) := (List.take_append_drop _ _).symm
      have s1 : [(rc.zip rs)[i]'(by omega)].Sublist ((rc.zip rs).take (i + 1)) :=
        List.singleton_sublist.2 (by
          rw [List.mem_take_iff_getElem]
          exact ⟨i, by omega, rfl⟩)
      have s2 : [(rc.zip rs)[j]'(by omega)].Sublist ((rc.zip rs).drop (i + 1)) :=
        List.singleton_sublist.2 (by
          rw [List.mem_drop_iff_getElem]
          exact ⟨j - (i + 1), by omega, by congr 1; omega⟩)
      have := s1.append s2
      rwa [← e1] at this
    have hfs := (hsub.filter (fun p => decide (p.1 = rc[i]))).length_le
    simpa [heq] using hfs
  omega

example : intersectTwo 20 [1, 3, 4] [1, 2, 3] [3, 4, 9] [10, 20, 30] ([], []) = .ok ([3, 4], [12, 23]) := by decide
example : StrictSorted [⟨1, 0, 1⟩, ⟨3, 0, 2⟩, ⟨4, 0, 3⟩] := by unfold StrictSorted; decide

/-- The query interface for two words does not add up the scores of the two words: it uses those of the second word
twice. -/
theorem C35_two_words_violated :
    contextListForWords 20 [([1], [5]), ([1], [7])] = .ok ([1], [14]) := by decide

/-- If the list of the first word is longer than that of the second, the scores are read behind the end of the vector. -/
theorem C35_two_words_ub :
    contextListForWords 20 [([1, 2], [5, 5]), ([2], [7])] = .ub := by decide

/-- What holds for two words: if the first list is not longer than the second, the contexts are the right ones. The full
statement (scores are the sums of the scores of both words, and no condition on the lengths) is false, see the two theorems
above. -/
theorem C35_two_words_partial (l1 l2 : List Posting) (h1 : StrictSorted l1) (h2 : StrictSorted l2)
    (hlen : l1.length ≤ l2.length) (fuel : Nat) (hf : l1.length + l2.length + 1 < fuel) :
    ∃ rc rs, contextListForWords fuel [(l1.map (·.cid), l1.map (·.score)), (l2.map (·.cid), l2.map (·.score))] =
        .ok (rc, rs) ∧ rc.length = rs.length ∧ rc.Pairwise (· ≤ ·) ∧
      ∀ c, c ∈ rc ↔ Occurs l1 c ∧ Occurs l2 c := by
  by_cases hne : l1 ≠ [] ∧ l2 ≠ []
  · -- the list that the code takes for the first one
    let p1 := (l1.map (·.cid)).zip (l2.map (·.score))
    let p2 := l2.map fun p => (p.cid, p.score)
    have hp1 : p1.map (·.1) = l1.map (·.cid) := by
      simp only [p1]
      rw [List.map_fst_zip (by simpa using hlen)]
    have hlp1 : p1.length = l1.length := by simp [p1]; omega
    have hs1 : p1.Pairwise (·.1 ≤ ·.1) := by
      rw [← List.pairwise_map (f := fun p : Nat × Nat => p.1) (R := (· ≤ ·)), hp1, List.pairwise_map]
      exact h1.imp fun h => Nat.le_of_lt h
    have hs2 : p2.Pairwise (·.1 ≤ ·.1) := List.pairwise_map.2 (h2.imp fun h => Nat.le_of_lt h)
    have hne1 : p1 ≠ [] := by
      intro e
      rw [e] at hlp1
      exact hne.1 (List.length_eq_zero_iff.1 hlp1.symm)
    have key := intersectTwo_spec p1 p2 ⟨hne1, by simpa [p2] using hne.2⟩ (l2.map (·.score)) (by
      intro a h
      rw [read_lt _ _ (by simp; omega)]
      simp [p1]) ([], []) fuel (by simp [p2, hlp1]; omega)
    rw [hp1, (pairs_map l2 (·.score)).1, (pairs_map l2 (·.score)).2] at key
    refine ⟨_, _, key, by simp, List.pairwise_map.2 (inter2_sorted p1 p2 hs2), ?_⟩
    intro c
    have hocc : ∀ (l : List (Nat × Nat)), c ∈ l.map (·.1) ↔ scoresOf l c ≠ [] := by
      intro l
      unfold scoresOf
      rw [ne_eq, List.map_eq_nil_iff, List.filter_eq_nil_iff]
      simp
    rw [hocc, inter2_scores p1 p2 hs1 hs2 c, ne_eq, List.zipWith_eq_nil_iff, not_or, ← ne_eq, ← ne_eq, ← hocc, ← hocc,
      hp1, (pairs_map l2 (·.score)).1]
    simp only [List.mem_map, Occurs]
  · refine ⟨[], [], ?_, rfl, .nil, ?_⟩
    · show intersectTwo fuel _ _ _ _ _ = _
      unfold intersectTwo
      rw [if_pos]
      by_cases h : l1 = []
      · exact .inl (by simp [h])
      · right
        have : l2 = [] := by
          apply Classical.byContradiction
          intro h2
          exact hne ⟨h, h2⟩
        simp [this]
    · intro c
      by_cases h : l1 = []
      · subst h; simp [Occurs]
      · have : l2 = [] := by
          apply Classical.byContradiction
          intro h2
          exact hne ⟨h, h2⟩
        subst this
        simp [Occurs]

example : contextListForWords 20 [([1, 3], [5, 6]), ([2, 3, 4], [7, 8, 9])] = .ok ([3], [16]) := by decide

/-! ### C36 -/

theorem le_sum_of_mem {l : List Nat} {a : Nat} (h : a ∈ l) : a ≤ l.sum := by
  induction l with
  | nil => simp at h
  | cons b l ih =>
    rw [List.sum_cons]
    rcases List.mem_cons.1 h with rfl | h
    · omega
    · have := ih h; omega

/-- C36 without entities: for two or more lists the result consists of exactly the contexts that occur in all lists, in
increasing order, each with the sum of its scores. (For a context that occurs several times in a list, its first score
counts.) The full statement is about any number of lists; for one list it is false, see `C36_single_violated`. -/
theorem C36_contexts_partial (ls : List (List Posting)) (hk : 2 ≤ ls.length) (hs : ∀ l ∈ ls, Sorted l)
    (hsize : ∀ l ∈ ls, l.length < 2 ^ 64) (fuel : Nat) (hf : ∀ l ∈ ls, l.length + 1 < fuel)
    (hf' : 2 * (ls.map List.length).sum + 2 < fuel) :
    ∃ r, intersectKWay fuel (ls.map fun l => l.map (·.cid)) (ls.map fun l => l.map (·.score)) none ⟨[], [], []⟩ = .ok r ∧
      r.cids.Pairwise (· < ·) ∧ (∀ c, c ∈ r.cids ↔ ∀ l ∈ ls, Occurs l c) ∧
      r.scores = r.cids.map fun c => sumIn ls c % 65536 := by
  by_cases hne : [] ∈ ls
  · refine ⟨⟨[], [], []⟩, ?_, .nil, ?_, rfl⟩
    · have hmem : [] ∈ ls.map fun l => l.map (·.cid) := List.mem_map.2 ⟨[], hne, rfl⟩
      unfold intersectKWay
      simp only [List.length_map, read_map ls (by omega : ls.length - 1 < ls.length), Outcome.bind]
      rw [if_neg (by omega)]
      split
      · rfl
      · rw [if_pos ⟨trivial, hmem⟩]
    · intro c
      constructor
      · simp
      · intro h
        obtain ⟨p, hp, _⟩ := h [] hne
        simp at hp
  · have hkl : ls.length - 1 < ls.length := by omega
    have key := kWay_spec ls false hk hs hsize (by
      intro e
      exact hne (e ▸ lst_mem ls hkl)) (fun _ => hne) ⟨[], [], []⟩ fuel hf hf'
    have hsl := hs _ (lst_mem ls hkl)
    refine ⟨_, key, ?_, ?_, ?_⟩
    · exact List.pairwise_map.2 ((firsts_strict hsl).filter _)
    · intro c
      simp only [emitted, final, cand, List.mem_map, List.mem_filter, decide_eq_true_eq]
      constructor
      · rintro ⟨p, ⟨_, h⟩, rfl⟩
        exact h
      · intro h
        obtain ⟨p, hp, rfl⟩ := firsts_occurs (h _ (lst_mem ls hkl))
        exact ⟨p, ⟨by simpa using hp, h⟩, rfl⟩
    · simp only [emitted, List.map_map]
      apply List.map_congr_left
      intro p hp
      have hp' : p ∈ firsts (lastList ls) := by
        have := (List.mem_filter.1 hp).1
        simpa [cand] using this
      rw [(firsts_mem hp').2]
      have hsplit : ls = ls.take (ls.length - 1) ++ [lastList ls] := by
        conv => lhs; rw [← List.take_append_drop (ls.length - 1) ls]
        congr 1
        rw [List.drop_eq_getElem_cons hkl, List.drop_eq_nil_of_le (by omega)]
        show _ = [lst ls (ls.length - 1)]
        rw [lst_eq ls hkl]
      have : sumIn ls p.cid = sumIn (ls.take (ls.length - 1)) p.cid + scoreIn (lastList ls) p.cid := by
        conv => lhs; rw [hsplit]
        simp [sumIn]
      simp only [Function.comp, this, toScore]

/-- C36 with entities: the result consists of exactly the postings of the last list whose context occurs in all lists,
in order, with the scores of the contexts in the other lists added to theirs. -/
theorem C36_entities_partial (words : List (List Posting)) (es : List Posting) (hk : words ≠ [])
    (hs : ∀ l ∈ words, Sorted l) (hes : Sorted es) (hsize : ∀ l ∈ words, l.length < 2 ^ 64) (hsize' : es.length < 2 ^ 64)
    (fuel : Nat) (hf : 2 * ((words.map List.length).sum + es.length) + 2 < fuel) :
    intersectKWay fuel (words.map (fun l => l.map (·.cid)) ++ [es.map (·.cid)])
        (words.map (fun l => l.map (·.score)) ++ [es.map (·.score)]) (some (es.map (·.eid))) ⟨[], [], []⟩ =
      .ok ⟨(es.filter fun e => ∀ l ∈ words, Occurs l e.cid).map (·.cid),
        (es.filter fun e => ∀ l ∈ words, Occurs l e.cid).map (·.eid),
        (es.filter fun e => ∀ l ∈ words, Occurs l e.cid).map fun e => (sumIn words e.cid + e.score) % 65536⟩ := by
  have hwl : 0 < words.length := List.length_pos_of_ne_nil hk
  let ls := words ++ [es]
  have hlast : lastList ls = es := by
    show (words ++ [es]).getD ((words ++ [es]).length - 1) [] = es
    simp [List.getD_eq_getElem?_getD]
  have hc : words.map (fun l => l.map (·.cid)) ++ [es.map (·.cid)] = ls.map fun l => l.map (·.cid) := by simp [ls]
  have hsc : words.map (fun l => l.map (·.score)) ++ [es.map (·.score)] = ls.map fun l => l.map (·.score) := by simp [ls]
  rw [hc, hsc]
  by_cases he : es = []
  · subst he
    unfold intersectKWay
    have hkl : ls.length - 1 < ls.length := by simp [ls]
    simp only [List.length_map, read_map ls hkl, Outcome.bind]
    rw [if_neg (by simp [ls]), if_pos (by rw [List.length_eq_zero_iff]; exact hlast)]
    rfl
  · have hsum : (ls.map List.length).sum = (words.map List.length).sum + es.length := by simp [ls]
    have hbound : ∀ l ∈ ls, l.length ≤ (ls.map List.length).sum := by
      intro l hl
      exact le_sum_of_mem (List.mem_map.2 ⟨l, hl, rfl⟩)
    have hpos : 0 < es.length := List.length_pos_of_ne_nil he
    have key := kWay_spec ls true (by simp [ls]; omega) (by
      intro l hl
      rcases List.mem_append.1 hl with h | h
      · exact hs l h
      · rw [List.mem_singleton.1 h]; exact hes) (by
      intro l hl
      rcases List.mem_append.1 hl with h | h
      · exact hsize l h
      · rw [List.mem_singleton.1 h]; exact hsize') (by rw [hlast]; exact he) (by simp) ⟨[], [], []⟩ fuel (by
      intro l hl
      have := hbound l hl
      omega) (by omega)
    have hlast' : (lastList ls).map (·.eid) = es.map (·.eid) := by rw [hlast]
    rw [if_pos rfl, hlast'] at key
    rw [key]
    have hfin : final ls true = es.filter fun e => ∀ l ∈ words, Occurs l e.cid := by
      unfold final cand
      rw [if_pos rfl, hlast]
      apply List.filter_congr
      intro e hemem
      have : InAll ls e.cid ↔ ∀ l ∈ words, Occurs l e.cid := by
        unfold InAll
        constructor
        · exact fun h l hl => h l (List.mem_append_left _ hl)
        · intro h l hl
          rcases List.mem_append.1 hl with h' | h'
          · exact h l h'
          · rw [List.mem_singleton.1 h']
            exact ⟨e, hemem, rfl⟩
      simp only [this]
    have htake : ls.take (ls.length - 1) = words := by simp [ls]
    simp only [emitted, hfin, htake, if_true, toScore]

example : intersectKWay 100 [[1, 3, 4, 7], [3, 7, 8], [2, 3, 3, 7]] [[1, 2, 3, 4], [10, 20, 30], [100, 200, 300, 400]]
    (some [21, 22, 23, 24]) ⟨[], [], []⟩ = .ok ⟨[3, 3, 7], [22, 23, 24], [212, 312, 424]⟩ := by decide +kernel
example : intersectKWay 100 [[1, 3, 4, 7], [3, 7, 8], [2, 3, 3, 7]] [[1, 2, 3, 4], [10, 20, 30], [100, 200, 300, 400]]
    none ⟨[], [], []⟩ = .ok ⟨[3, 7], [], [212, 424]⟩ := by decide +kernel

/-- With a single list only the first context is returned. -/
theorem C36_single_violated : intersectKWay 100 [[1, 3, 4]] [[10, 20, 30]] none ⟨[], [], []⟩ = .ok ⟨[1], [], [10]⟩ ∧
    intersectKWay 100 [[1, 1, 3, 4]] [[10, 20, 30, 40]] (some [21, 22, 23, 24]) ⟨[], [], []⟩ =
      .ok ⟨[1, 1], [21, 22], [10, 20]⟩ := by decide +kernel

/-- Sums of scores are taken modulo 2^16. -/
theorem C36_overflow_violated :
    intersectKWay 100 [[1], [1], [1]] [[30000], [30000], [30000]] none ⟨[], [], []⟩ = .ok ⟨[1], [], [24464]⟩ := by
  decide +kernel

/-- C36 at the query interface: for three or more words it returns the contexts that contain all of them, with the sums of
their scores. -/
theorem C36_words (ls : List (List Posting)) (hk : 3 ≤ ls.length) (hs : ∀ l ∈ ls, Sorted l)
    (hsize : ∀ l ∈ ls, l.length < 2 ^ 64) (fuel : Nat) (hf : 2 * (ls.map List.length).sum + 2 < fuel) :
    ∃ rc rs, contextListForWords fuel (ls.map fun l => (l.map (·.cid), l.map (·.score))) = .ok (rc, rs) ∧
      rc.Pairwise (· < ·) ∧ (∀ c, c ∈ rc ↔ ∀ l ∈ ls, Occurs l c) ∧ rs = rc.map fun c => sumIn ls c % 65536 := by
  by_cases hz : (ls.map List.length).sum = 0
  · -- all lists are empty
    have hall : ∀ l ∈ ls, l = [] := by
      intro l hl
      have : l.length ≤ (ls.map List.length).sum := le_sum_of_mem (List.mem_map.2 ⟨l, hl, rfl⟩)
      exact List.length_eq_zero_iff.1 (by omega)
    obtain ⟨r, hr, h⟩ := C36_contexts_partial ls (by omega) hs hsize fuel (by
      intro l hl
      rw [hall l hl]
      simp
      omega) hf
    refine ⟨r.cids, r.scores, ?_, h⟩
    match ls, hk with
    | a :: b :: c :: rest, _ =>
      simp only [contextListForWords, List.map_cons, List.map_map] at hr ⊢
      simp only [Function.comp_def]
      rw [hr]
      rfl
  · obtain ⟨r, hr, h⟩ := C36_contexts_partial ls (by omega) hs hsize fuel (by
      intro l hl
      have : l.length ≤ (ls.map List.length).sum := le_sum_of_mem (List.mem_map.2 ⟨l, hl, rfl⟩)
      omega) hf
    refine ⟨r.cids, r.scores, ?_, h⟩
    match ls, hk with
    | a :: b :: c :: rest, _ =>
      simp only [contextListForWords, List.map_cons, List.map_map] at hr ⊢
      simp only [Function.comp_def]
      rw [hr]
      rfl

/-- The entity postings for a query with any number of words are exactly those whose context contains all words.
(The scores depend on the number of words: with two words the score of the other word is not added.) -/
theorem C36_query_entities (words : List (List Posting)) (es : List Posting) (hs : ∀ l ∈ words, Sorted l) (hes : Sorted es)
    (hsize : ∀ l ∈ words, l.length < 2 ^ 64) (hsize' : es.length < 2 ^ 64) (fuel : Nat)
    (hf : 2 * ((words.map List.length).sum + es.length) + 2 < fuel) :
    contextEntityScoreLists fuel (words.map fun l => (l.map (·.cid), l.map (·.score)))
        ⟨es.map (·.cid), es.map (·.eid), es.map (·.score)⟩ =
      .ok ⟨(es.filter fun e => ∀ l ∈ words, Occurs l e.cid).map (·.cid),
        (es.filter fun e => ∀ l ∈ words, Occurs l e.cid).map (·.eid),
        (es.filter fun e => ∀ l ∈ words, Occurs l e.cid).map fun e =>
          if words.length ≤ 1 then e.score else (sumIn words e.cid + e.score) % 65536⟩ := by
  match words with
  | [] =>
    simp [contextEntityScoreLists]
  | [w] =>
    have key := C35_intersect (w.map (·.cid)) es (by
      rw [List.pairwise_map]; exact hs w (by simp)) hes fuel (by
      simp only [List.map_cons, List.map_nil, List.sum_cons, List.sum_nil, List.length_map] at hf ⊢
      omega)
    have hfil : (es.filter (·.cid ∈ w.map (·.cid))) = es.filter fun e => ∀ l ∈ [w], Occurs l e.cid := by
      apply List.filter_congr
      intro e _
      simp [Occurs]
    rw [← hfil]
    exact key
  | a :: b :: rest =>
    have key := C36_entities_partial (a :: b :: rest) es (by simp) hs hes hsize hsize' fuel hf
    have hlen : ¬ (a :: b :: rest).length ≤ 1 := by simp
    simp only [if_neg hlen]
    rw [← key]
    simp only [contextEntityScoreLists, List.map_cons, List.map_map]
    rfl

example : contextEntityScoreLists 100 [([1, 3], [5, 6]), ([3], [7])] ⟨[1, 3, 3], [21, 22, 23], [1, 2, 3]⟩ =
    .ok ⟨[3, 3], [22, 23], [15, 16]⟩ ∧
  contextEntityScoreLists 100 [([1, 3], [5, 6])] ⟨[1, 3, 3], [21, 22, 23], [1, 2, 3]⟩ =
    .ok ⟨[1, 3, 3], [21, 22, 23], [1, 2, 3]⟩ := by decide +kernel

end Verif.FTS
