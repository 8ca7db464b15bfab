import Verif.Lemmas.TextMultVars
namespace Verif.FTS
open Outcome Verif.Spec.Text

/-! C37: aggregating entity postings returns for each entity at most `k` contexts, those with highest score, together with
the entity's aggregated score (the number of its contexts). -/

/-- The iteration orders of hash maps: any. -/
def AnyOrder (o : Orders κ) : Prop := (∀ m, (o.sets m).Perm m) ∧ ∀ m, (o.bests m).Perm m

/-- For every `k ≥ 1`, every list of postings in which no entity is listed twice for a context and all iteration orders of
the hash maps, the result has the `k` best contexts of each entity and nothing else. Missing: `k = 0` and repeated
postings, for which the claim is false, see below; the aggregated score is only a 16-bit number. -/
theorem C37_partial (o : Orders Nat) (ho : AnyOrder o) (ps : List Posting) (hd : Distinct ps) (k : Nat) (hk : 1 ≤ k) :
    ∃ out, aggScores o (ps.map (·.cid)) (ps.map (·.eid)) (ps.map (·.score)) k = .ok out ∧
      IsTopK k (contextsOf ps) (fun c n e => [[c, n, e]]) out := by
  unfold aggScores
  rw [if_neg (by simp), if_neg (by simp), oneVarItems_map]
  have hocc : occ (ps.map fun p => (p.eid, p.cid, p.score)) = contextsOf ps := funext (occ_oneVar ps)
  split
  · rename_i h1
    obtain ⟨out, h1', h2⟩ := aggTop1_spec o.bests ho.2 oneVarRow (ps.map fun p => (p.eid, p.cid, p.score))
    rw [hocc] at h2
    exact ⟨out, h1', h1 ▸ h2⟩
  · obtain ⟨out, h1, h2⟩ := aggTopK_spec o.sets ho.1 oneVarRow k hk (ps.map fun p => (p.eid, p.cid, p.score))
      (fun e => by rw [hocc]; exact distinct_contexts hd e)
    rw [hocc] at h2
    exact ⟨out, h1, h2⟩

/-- For `k = 1`, QLever's default, postings may be repeated. -/
theorem C37_one (o : Orders Nat) (ho : AnyOrder o) (ps : List Posting) :
    ∃ out, aggScores o (ps.map (·.cid)) (ps.map (·.eid)) (ps.map (·.score)) 1 = .ok out ∧
      IsTopK 1 (contextsOf ps) (fun c n e => [[c, n, e]]) out := by
  unfold aggScores
  rw [if_neg (by simp), if_neg (by simp), oneVarItems_map, if_pos rfl]
  obtain ⟨out, h1, h2⟩ := aggTop1_spec o.bests ho.2 oneVarRow (ps.map fun p => (p.eid, p.cid, p.score))
  rw [show occ (ps.map fun p => (p.eid, p.cid, p.score)) = contextsOf ps from funext (occ_oneVar ps)] at h2
  exact ⟨out, h1, h2⟩

/-- Lists of different length are refused. -/
theorem C37_sizes (o : Orders Nat) (cids eids scores : List Nat) (k : Nat)
    (h : ¬(cids.length = eids.length ∧ cids.length = scores.length)) : aggScores o cids eids scores k = .throw := by
  unfold aggScores
  by_cases h1 : cids.length = eids.length
  · rw [if_neg (by simpa using h1), if_pos (fun h2 => h ⟨h1, h2⟩)]
  · rw [if_pos h1]

example : aggScores ⟨id, id⟩ [0, 1, 1, 2, 2] [7, 7, 8, 7, 8] [1, 3, 4, 2, 1] 2 =
    .ok [[1, 2, 8], [2, 2, 8], [1, 3, 7], [2, 3, 7]] := by decide
example : Distinct [⟨0, 7, 1⟩, ⟨1, 7, 3⟩, ⟨1, 8, 4⟩, ⟨2, 7, 2⟩, ⟨2, 8, 1⟩] ∧ AnyOrder (⟨id, id⟩ : Orders Nat) :=
  ⟨by unfold Distinct; decide, fun m => .refl m, fun m => .refl m⟩

/-- What the result looks like to a user: each row is a posting, and an entity has `min k n` rows if it has `n`
contexts. -/
theorem C37_rows_of_entity {k : Nat} {ps : List Posting} {out : List (List Nat)}
    (h : IsTopK k (contextsOf ps) (fun c n e => [[c, n, e]]) out) (e : Nat) :
    (out.filter fun r => r[2]? = some e).length = min k (contextsOf ps e).length ∧
    (∀ r ∈ out, ∃ p ∈ ps, r = [p.cid, (contextsOf ps p.eid).length % 65536, p.eid]) := by
  obtain ⟨keys, hn, hk, best, hb, rfl⟩ := h
  have hrow : ∀ key (l : List (Nat × Nat)), (l.flatMap fun c => [[c.1, (contextsOf ps key).length % 65536, key]]) =
      l.map fun c => [c.1, (contextsOf ps key).length % 65536, key] := by
    intro key l
    induction l with
    | nil => rfl
    | cons c l ih => rw [List.flatMap_cons, ih]; rfl
  constructor
  · by_cases he : e ∈ keys
    · have : (List.filter (fun r => decide (r[2]? = some e)) (keys.flatMap fun key =>
          (best key).flatMap fun c => [[c.1, (contextsOf ps key).length % 65536, key]])).length = (best e).length := by
        clear hk
        induction keys with
        | nil => cases he
        | cons key keys ih =>
          obtain ⟨hnk, hn'⟩ := List.nodup_cons.mp hn
          rw [List.flatMap_cons, hrow, List.filter_append, List.length_append]
          by_cases hke : key = e
          · subst hke
            have h0 : List.filter (fun r => decide (r[2]? = some key)) (keys.flatMap fun key =>
                (best key).flatMap fun c => [[c.1, (contextsOf ps key).length % 65536, key]]) = [] := by
              rw [List.filter_eq_nil_iff]
              intro r hr
              obtain ⟨k', hk', hr⟩ := List.mem_flatMap.mp hr
              obtain ⟨c, _, hr⟩ := List.mem_flatMap.mp hr
              rw [List.mem_singleton] at hr
              subst hr
              simp only [List.getElem?_cons_succ, List.getElem?_cons_zero, Option.some.injEq, decide_eq_true_eq]
              rintro rfl
              exact hnk hk'
            rw [h0, List.filter_eq_self.mpr]
            · simp
            · intro r hr
              obtain ⟨c, _, rfl⟩ := List.mem_map.mp hr
              simp
          · rw [List.filter_eq_nil_iff.mpr, ih hn' ((List.mem_cons.mp he).resolve_left (Ne.symm hke))]
            · simp
            · intro r hr
              obtain ⟨c, _, rfl⟩ := List.mem_map.mp hr
              simp [hke]
      rw [this]
      obtain ⟨_, _, hl, _⟩ := hb e
      exact hl
    · have hempty : contextsOf ps e = [] := by
        by_contra hne
        exact he ((hk e).mpr hne)
      rw [hempty, List.filter_eq_nil_iff.mpr]
      · simp
      · intro r hr
        obtain ⟨k', hk', hr⟩ := List.mem_flatMap.mp hr
        obtain ⟨c, _, hr⟩ := List.mem_flatMap.mp hr
        rw [List.mem_singleton] at hr
        subst hr
        simp only [List.getElem?_cons_succ, List.getElem?_cons_zero, Option.some.injEq, decide_eq_true_eq]
        rintro rfl
        exact he hk'
  · intro r hr
    obtain ⟨key, hk', hr⟩ := List.mem_flatMap.mp hr
    obtain ⟨c, hc, hr⟩ := List.mem_flatMap.mp hr
    rw [List.mem_singleton] at hr
    subst hr
    obtain ⟨rest, hp, _⟩ := hb key
    have hm : c ∈ contextsOf ps key := hp.mem_iff.mpr (List.mem_append_left _ hc)
    obtain ⟨p, hp, rfl⟩ := List.mem_map.mp hm
    obtain ⟨hp1, hp2⟩ := List.mem_filter.mp hp
    simp only [decide_eq_true_eq] at hp2
    exact ⟨p, hp1, by rw [hp2]⟩

/-- A text limit of 0 is not respected: the entity keeps a context, here even two. -/
theorem C37_zero_violated : aggScores ⟨id, id⟩ [1, 2] [7, 7] [1, 2] 0 = .ok [[2, 2, 7], [1, 2, 7]] := by decide

/-- A posting that occurs twice replaces another context: only one of the two contexts is returned. -/
theorem C37_repeated_violated : aggScores ⟨id, id⟩ [1, 2, 2] [7, 7, 7] [3, 4, 4] 2 = .ok [[2, 3, 7]] ∧
    ¬IsTopK 2 (contextsOf [⟨1, 7, 3⟩, ⟨2, 7, 4⟩, ⟨2, 7, 4⟩]) (fun c n e => [[c, n, e]]) [[2, 3, 7]] := by
  refine ⟨by decide, fun h => ?_⟩
  have := (C37_rows_of_entity h 7).1
  revert this
  decide

theorem length_contextsOf_range (n : Nat) :
    (contextsOf ((List.range n).map fun c => (⟨c, 7, 1⟩ : Posting)) 7).length = n := by
  unfold contextsOf
  rw [List.length_map, List.filter_eq_self.mpr]
  · simp
  · intro p hp
    obtain ⟨c, _, rfl⟩ := List.mem_map.mp hp
    simp

/-- An entity with 65536 contexts gets the aggregated score 0. -/
theorem C37_overflow_violated (o : Orders Nat) (ho : AnyOrder o) :
    ∃ ps : List Posting, (contextsOf ps 7).length = 65536 ∧
      ∃ out, aggScores o (ps.map (·.cid)) (ps.map (·.eid)) (ps.map (·.score)) 1 = .ok out ∧ out ≠ [] ∧
        ∀ r ∈ out, r[1]? = some 0 ∧ r[2]? = some 7 := by
  refine ⟨(List.range 65536).map fun c => ⟨c, 7, 1⟩, ?_, ?_⟩
  · exact length_contextsOf_range _
  · obtain ⟨out, h1, h2⟩ := C37_one o ho ((List.range 65536).map fun c => ⟨c, 7, 1⟩)
    have hlen : (contextsOf ((List.range 65536).map fun c => (⟨c, 7, 1⟩ : Posting)) 7).length = 65536 :=
      length_contextsOf_range _
    obtain ⟨h3, h4⟩ := C37_rows_of_entity h2 7
    refine ⟨out, h1, ?_, ?_⟩
    · rintro rfl
      rw [hlen] at h3; simp at h3
    · intro r hr
      obtain ⟨p, hp, rfl⟩ := h4 r hr
      obtain ⟨c, _, rfl⟩ := List.mem_map.mp hp
      exact ⟨by simp only [List.getElem?_cons_succ, List.getElem?_cons_zero]; rw [hlen], rfl⟩

/-! ### Contexts without entities -/

theorem readAll_spec (cids : List Nat) (is : List Nat) (h : ∀ i ∈ is, i < cids.length) :
    readAll cids is = .ok (is.map fun i => (cids[i]?).getD 0) := by
  induction is with
  | nil => rfl
  | cons i is ih =>
    unfold readAll
    rw [Outcome.read_lt cids i (h i (by simp)), ih fun j hj => h j (List.mem_cons_of_mem _ hj)]
    simp [Outcome.bind, Outcome.map, List.getElem?_eq_getElem (h i (by simp))]

theorem map_range_getElem (l : List (Nat × Nat)) : ((List.range l.length).map fun i => (l[i]?).getD (0, 0)) = l := by
  apply List.ext_getElem
  · simp
  · intro i h1 h2
    simp [List.getElem?_eq_getElem h2]

/-- `getTopKByScores` returns the `k` best contexts, best first, whatever `std::partial_sort` does with equal scores. -/
theorem C37_topKByScores (l : List (Nat × Nat)) (k : Nat) (indices : List Nat)
    (hi : PartialSorted (scoreGt (l.map (·.2))) (min k l.length) (List.range l.length) indices) :
    ∃ best, BestK k l best ∧ topKByScores indices (l.map (·.1)) (l.map (·.2)) k = .ok (best.map (·.1)) := by
  obtain ⟨hp, hs, hr⟩ := hi
  have hlt : ∀ i ∈ indices, i < l.length := fun i h => List.mem_range.mp (hp.mem_iff.mp h)
  have hlen : indices.length = l.length := by rw [hp.length_eq, List.length_range]
  have hsc : ∀ i : Nat, ((l.map (·.2))[i]?).getD 0 = ((l[i]?).getD (0, 0)).2 := by
    intro i
    rw [List.getElem?_map]
    cases l[i]? <;> rfl
  refine ⟨(indices.take (min k l.length)).map fun i : Nat => (l[i]?).getD (0, 0),
    ⟨(indices.drop (min k l.length)).map fun i : Nat => (l[i]?).getD (0, 0), ?_, ?_, ?_, ?_⟩, ?_⟩
  · rw [← List.map_append, List.take_append_drop]
    have := hp.map fun i : Nat => (l[i]?).getD (0, 0)
    rw [map_range_getElem] at this
    exact this.symm
  · rw [List.length_map, List.length_take, hlen]; omega
  · rw [List.pairwise_map]
    refine hs.imp ?_
    intro a b hab
    unfold scoreGt at hab
    rw [hsc, hsc] at hab
    simpa using hab
  · intro x hx y hy
    obtain ⟨i, hi, rfl⟩ := List.mem_map.mp hx
    obtain ⟨j, hj, rfl⟩ := List.mem_map.mp hy
    have := hr i hi j hj
    unfold scoreGt at this
    rw [hsc, hsc] at this
    simpa using this
  · unfold topKByScores
    rw [if_neg (by simp), readAll_spec, List.map_map, List.length_map]
    · congr 1
      apply List.map_congr_left
      intro i hi
      have := hlt i (List.mem_of_mem_take hi)
      simp [List.getElem?_eq_getElem this]
    · intro i hi
      rw [List.length_map]; exact hlt i (List.mem_of_mem_take hi)

/-- `std::partial_sort` can be implemented. -/
theorem C37_partialSort_exists (scores : List Nat) (k n : Nat) :
    ∃ indices, PartialSorted (scoreGt scores) k (List.range n) indices := by
  refine ⟨(List.range n).mergeSort fun a b => !scoreGt scores b a, List.mergeSort_perm _ _, ?_, ?_⟩ <;>
    have hs := List.pairwise_mergeSort (le := fun a b => !scoreGt scores b a)
      (fun a b c h1 h2 => by simp only [scoreGt, Bool.not_eq_true', decide_eq_false_iff_not, Nat.not_lt] at *; omega)
      (fun a b => by simp only [scoreGt, Bool.or_eq_true, Bool.not_eq_true', decide_eq_false_iff_not, Nat.not_lt]; omega)
      (List.range n)
  · exact (hs.sublist (List.take_sublist _ _)).imp (by simp)
  · intro a ha b hb
    rw [← List.take_append_drop k (List.mergeSort _ _), List.pairwise_append] at hs
    simpa using hs.2.2 a ha b hb

example : topKByScores [2, 0, 1] [10, 11, 12] [5, 1, 9] 2 = .ok [12, 10] := by decide
example : PartialSorted (scoreGt [5, 1, 9]) 2 (List.range 3) [2, 0, 1] := by unfold PartialSorted; decide

/-! ### Aggregation of rows -/

/-- A list of rows that is divided into groups with equal entity and further columns. -/
def Groups (gs : List (List (List Nat))) : Prop :=
  (∀ g ∈ gs, g ≠ [] ∧ ∀ r ∈ g, ∀ s ∈ g, rowKey r = rowKey s) ∧
  gs.Pairwise fun g h => ∀ r ∈ g, ∀ s ∈ h, rowKey r ≠ rowKey s

theorem rowsLoop_same (k : Nat) (hk : 1 ≤ k) (rs : List (List Nat)) : ∀ (pre g : List (List Nat)) (rest : List (List Nat)),
    g ≠ [] → (∀ r ∈ g ++ rs, ∀ s ∈ g ++ rs, rowKey r = rowKey s) →
    rowsLoop k (pre ++ g.take k) g.length (rs ++ rest) = rowsLoop k (pre ++ (g ++ rs).take k) (g ++ rs).length rest := by
  induction rs with
  | nil => intro pre g rest _ _; simp
  | cons r rs ih =>
    intro pre g rest hne hkey
    have htake : g.take k ≠ [] := by
      cases g with
      | nil => exact absurd rfl hne
      | cons a g => cases k with
        | zero => omega
        | succ k => simp
    rw [List.cons_append]
    conv => lhs; unfold rowsLoop
    rw [List.getLast?_append_of_ne_nil _ htake, List.getLast?_eq_getLast_of_ne_nil htake]
    simp only
    rw [if_pos (hkey _ (by simp) _ (List.mem_append_left _ (List.mem_of_mem_take (List.getLast_mem htake))))]
    have hstep : (if g.length + 1 ≤ k then pre ++ g.take k ++ [r] else pre ++ g.take k) = pre ++ (g ++ [r]).take k := by
      split
      · rename_i h
        rw [List.take_of_length_le (by omega), List.take_of_length_le (by simp; omega), List.append_assoc]
      · rename_i h
        rw [List.take_append_of_le_length (by omega)]
    rw [hstep]
    have := ih pre (g ++ [r]) rest (by simp) (by simpa using hkey)
    rw [List.length_append, List.length_singleton] at this
    rw [this]
    simp

theorem rowsLoop_groups (k : Nat) (hk : 1 ≤ k) (gs : List (List (List Nat))) : ∀ (pre g : List (List Nat)),
    Groups (g :: gs) →
    rowsLoop k (pre ++ g.take k) g.length gs.flatten =
      .ok (pre ++ ((g :: gs).dropLast.flatMap fun g => (g.take k).map fun r => r.set 1 g.length) ++
        ((g :: gs).getLastD []).take k) := by
  induction gs with
  | nil =>
    intro pre g _
    simp [rowsLoop]
  | cons h gs ih =>
    intro pre g hG
    obtain ⟨hG1, hG2⟩ := hG
    have hgne := (hG1 g (by simp)).1
    have hhne := (hG1 h (by simp)).1
    obtain ⟨r, h', rfl⟩ := List.exists_cons_of_ne_nil hhne
    have htake : g.take k ≠ [] := by
      cases g with
      | nil => exact absurd rfl hgne
      | cons a g => cases k with
        | zero => omega
        | succ k => simp
    rw [List.flatten_cons, List.cons_append]
    conv => lhs; unfold rowsLoop
    rw [List.getLast?_append_of_ne_nil _ htake, List.getLast?_eq_getLast_of_ne_nil htake]
    simp only
    have hdiff : rowKey r ≠ rowKey ((g.take k).getLast htake) := fun he =>
      (List.pairwise_cons.mp hG2).1 (r :: h') (by simp) _ (List.mem_of_mem_take (List.getLast_mem htake)) r (by simp) he.symm
    rw [if_neg hdiff]
    have hfrom : (pre ++ g.take k).length - min g.length k = pre.length := by
      rw [List.length_append, List.length_take]; omega
    rw [hfrom, List.take_left', List.drop_left' rfl]
    · have hsame := rowsLoop_same k hk h' (pre ++ (g.take k).map fun x => x.set 1 g.length) [r] gs.flatten (by simp)
        (by simpa using (hG1 (r :: h') (by simp)).2)
      rw [List.take_of_length_le (l := [r]) (by simpa using hk), List.length_singleton] at hsame
      rw [hsame, List.singleton_append]
      have := ih (pre ++ (g.take k).map fun x => x.set 1 g.length) (r :: h')
        ⟨fun x hx => hG1 x (List.mem_cons_of_mem _ hx), (List.pairwise_cons.mp hG2).2⟩
      rw [this]
      simp [List.append_assoc]
    · rfl

/-- What the aggregation of rows returns: the first `k` rows of each group in the order of the sort, with the size of the
group as score, except that the last group keeps its scores. -/
theorem C37_rows_exact (k : Nat) (hk : 1 ≤ k) (gs : List (List (List Nat))) (hne : gs ≠ []) (hG : Groups gs) :
    aggRows k gs.flatten =
      .ok ((gs.dropLast.flatMap fun g => (g.take k).map fun r => r.set 1 g.length) ++ (gs.getLastD []).take k) := by
  obtain ⟨g, gs, rfl⟩ := List.exists_cons_of_ne_nil hne
  obtain ⟨r, g', hg⟩ := List.exists_cons_of_ne_nil ((hG.1 g (by simp)).1)
  subst hg
  have hsame := rowsLoop_same k hk g' [] [r] gs.flatten (by simp) (by simpa using (hG.1 (r :: g') (by simp)).2)
  rw [List.take_of_length_le (by simpa using hk), List.length_singleton, List.nil_append, List.nil_append,
    List.singleton_append] at hsame
  have := rowsLoop_groups k hk gs [] (r :: g') hG
  rw [List.nil_append, List.nil_append] at this
  rw [List.flatten_cons, List.cons_append]
  unfold aggRows
  simp only
  rw [hsame, this]

example : Groups [[[7, 1, 10], [7, 5, 11]], [[8, 2, 10]]] := by
  refine ⟨by decide, by decide⟩

/-- The rows are sorted by ascending score, so that the worst contexts are kept, and the last entity keeps the score of
its context. -/
theorem C37_rows_violated : aggRows 1 [[7, 1, 10], [7, 5, 11], [8, 2, 10], [8, 3, 12]] = .ok [[7, 2, 10], [8, 2, 10]] ∧
    aggRows 2 [[7, 1, 10], [7, 5, 11]] = .ok [[7, 1, 10], [7, 5, 11]] ∧
    [[7, 1, 10], [7, 5, 11], [8, 2, 10], [8, 3, 12]].Pairwise (fun a b => rowLt b a = false) := by decide

end Verif.FTS
