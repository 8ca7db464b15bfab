import Verif.Props.C37_TopContexts
namespace Verif.FTS
open Outcome Verif.Spec.Text

/-! C57: a text query with several entity variables returns exactly the tuples of entities that occur together in a
matching context, each with its `k` best contexts; with a subquery for one variable, exactly those whose entity is in the
subquery's result, combined with its rows. -/

theorem isTopK_nil {κ ρ : Type} (k : Nat) (occ : κ → List (Nat × Nat)) (rows : Nat → Nat → κ → List ρ)
    (h : ∀ key, occ key = []) : IsTopK k occ rows [] :=
  ⟨[], List.nodup_nil, fun key => by simp [h key], fun _ => [], fun key => by rw [h key]; exact ⟨[], by simp⟩, rfl⟩

theorem map_cid_eq_nil {ps : List Posting} : ps.map (·.cid) = [] ↔ ps = [] := List.map_eq_nil_iff

theorem contextsOfTuple_nil (v : Nat) (key : List Nat) : contextsOfTuple [] v key = [] := by
  unfold contextsOfTuple; split <;> rfl

theorem occ_crossProduct {ps : List Posting} (hd : Distinct ps) (v : Nat) :
    occ (groupItems (crossProduct v) ps) = contextsOfTuple ps v := by
  funext key
  rw [occ_groupItems _ _ fun c => crossProduct_nodup (distinct_entities hd c) v]
  unfold contextsOfTuple
  by_cases h : key.length = v
  · rw [if_pos h]
    congr 1
    apply List.filter_congr
    intro c _
    rw [decide_eq_decide, mem_crossProduct]
    simp [h]
  · rw [if_neg h, List.map_eq_nil_iff, List.filter_eq_nil_iff]
    intro c _
    rw [decide_eq_true_eq, mem_crossProduct]
    simp [h]

/-- Several variables without subquery: for every number of variables, every sorted posting list without repetitions, every
`k ≥ 1` and every iteration order of the hash maps. The score of a context is the one of its first posting; aggregated
scores are 16-bit numbers. -/
theorem C57_variables (o : Orders (List Nat)) (ho : AnyOrder o) (ps : List Posting) (hs : Sorted ps) (hd : Distinct ps)
    (v k : Nat) (hk : 1 ≤ k) :
    ∃ out, multVarsAgg o (ps.map (·.cid)) (ps.map (·.eid)) (ps.map (·.score)) v k = .ok out ∧
      IsTopK k (contextsOfTuple ps v) (fun c n key => [c :: n :: key]) out := by
  unfold multVarsAgg
  split
  · rename_i h
    rw [map_cid_eq_nil] at h
    subst h
    exact ⟨[], rfl, isTopK_nil _ _ _ (contextsOfTuple_nil v)⟩
  · rw [postings_map]
    simp only [Outcome.bind]
    rw [multVarItems_spec _ _ hs]
    split
    · rename_i h1
      obtain ⟨out, h1', h2⟩ := aggTop1_spec o.bests ho.2 multVarRow (groupItems (crossProduct v) ps)
      rw [occ_crossProduct hd] at h2
      exact ⟨out, h1', h1 ▸ h2⟩
    · obtain ⟨out, h1', h2⟩ := aggTopK_spec o.sets ho.1 multVarRow k hk (groupItems (crossProduct v) ps)
        (occ_groupItems_distinct _ _ fun c => crossProduct_nodup (distinct_entities hd c) v)
      rw [occ_crossProduct hd] at h2
      exact ⟨out, h1', h2⟩

example : multVarsAgg ⟨id, id⟩ [0, 0, 1, 1] [7, 8, 7, 8] [1, 1, 3, 2] 2 1 =
    .ok [[1, 2, 8, 8], [1, 2, 7, 8], [1, 2, 8, 7], [1, 2, 7, 7]] := by decide
example : Sorted [⟨0, 7, 1⟩, ⟨0, 8, 1⟩, ⟨1, 7, 3⟩, ⟨1, 8, 2⟩] ∧ Distinct [⟨0, 7, 1⟩, ⟨0, 8, 1⟩, ⟨1, 7, 3⟩, ⟨1, 8, 2⟩] := by
  unfold Sorted Distinct; decide

/-- A list that is too short is not refused, as it is for one variable, but read behind its end. -/
theorem C57_sizes_ub (o : Orders (List Nat)) (cids eids scores : List Nat) (v k : Nat) (hne : cids ≠ [])
    (h : eids.length < cids.length ∨ scores.length < cids.length) : multVarsAgg o cids eids scores v k = .ub := by
  unfold multVarsAgg postings
  rw [if_neg hne, if_neg (by omega)]
  rfl

/-! ### One variable with a subquery -/

/-- Rows of a table with an entity in column `col`. -/
def withEntity (table : List (List Nat)) (col e : Nat) : List (List Nat) := table.filter fun r => r[col]? = some e

theorem filterRows_eq {table : List (List Nat)} {col : Nat} (h : ∀ r ∈ table, col < r.length) (e : Nat) :
    filterRows table col e = withEntity table col e := by
  unfold filterRows withEntity
  apply List.filter_congr
  intro r hr
  rw [decide_eq_decide, List.getElem?_eq_getElem (h r hr)]
  simp

/-- A subquery with one column: the entities of the text query that are in its result. -/
theorem C57_filter_set (o : Orders Nat) (ho : AnyOrder o) (ps : List Posting) (hd : Distinct ps) (filter : List Nat)
    (k : Nat) (hk : 1 ≤ k) :
    ∃ out, oneVarFilterSet o (ps.map (·.cid)) (ps.map (·.eid)) (ps.map (·.score)) filter k = .ok out ∧
      IsTopK k (fun e => if e ∈ filter then contextsOf ps e else []) (fun c n e => [[c, n, e]]) out := by
  unfold oneVarFilterSet
  rw [if_neg (by simp), if_neg (by simp), oneVarItems_map]
  split
  · rename_i h
    refine ⟨[], rfl, isTopK_nil _ _ _ fun e => ?_⟩
    rcases h with h | h
    · rw [map_cid_eq_nil] at h; subst h; simp [contextsOf]
    · subst h; simp
  · have hocc : occ ((ps.map fun p => (p.eid, p.cid, p.score)).filter fun i => decide (i.1 ∈ filter)) =
        fun e => if e ∈ filter then contextsOf ps e else [] := by
      funext e
      rw [occ_filter (fun e => decide (e ∈ filter)), occ_oneVar]
      simp only [decide_eq_true_eq]
    obtain ⟨out, h1, h2⟩ := aggTopK_spec o.sets ho.1 oneVarRow k hk
      ((ps.map fun p => (p.eid, p.cid, p.score)).filter fun i => decide (i.1 ∈ filter))
      (fun e => by
        rw [hocc]
        dsimp only
        split
        · exact distinct_contexts hd e
        · simp)
    rw [hocc] at h2
    exact ⟨out, h1, h2⟩

/-- A subquery with several columns: each of its rows with the entity in column `col` is combined with the contexts of the
entity. -/
theorem C57_filter_map (o : Orders Nat) (ho : AnyOrder o) (ps : List Posting) (hd : Distinct ps) (table : List (List Nat))
    (col : Nat) (hc : ∀ r ∈ table, col < r.length) (k : Nat) (hk : 1 ≤ k) :
    ∃ out, oneVarFilterMap o (ps.map (·.cid)) (ps.map (·.eid)) (ps.map (·.score)) table col k = .ok out ∧
      IsTopK k (fun e => if withEntity table col e ≠ [] then contextsOf ps e else [])
        (fun c n e => (withEntity table col e).map fun r => c :: n :: r) out := by
  unfold oneVarFilterMap
  rw [if_neg (by simp), if_neg (by simp), oneVarItems_map]
  simp only [filterRows_eq hc]
  split
  · rename_i h
    refine ⟨[], rfl, isTopK_nil _ _ _ fun e => ?_⟩
    rcases h with h | h
    · rw [map_cid_eq_nil] at h; subst h; simp [contextsOf]
    · subst h; simp [withEntity]
  · have hocc : occ ((ps.map fun p => (p.eid, p.cid, p.score)).filter fun i => decide (withEntity table col i.1 ≠ [])) =
        fun e => if withEntity table col e ≠ [] then contextsOf ps e else [] := by
      funext e
      rw [occ_filter (fun e => decide (withEntity table col e ≠ [])), occ_oneVar]
      simp only [decide_eq_true_eq]
    obtain ⟨out, h1, h2⟩ := aggTopK_spec o.sets ho.1 (fun c n e => (withEntity table col e).map fun r => c :: n :: r) k hk
      ((ps.map fun p => (p.eid, p.cid, p.score)).filter fun i => decide (withEntity table col i.1 ≠ []))
      (fun e => by
        rw [hocc]
        dsimp only
        split
        · exact distinct_contexts hd e
        · simp)
    rw [hocc] at h2
    exact ⟨out, h1, h2⟩

example : oneVarFilterSet ⟨id, id⟩ [0, 0, 1] [7, 8, 7] [1, 1, 3] [7, 9] 2 = .ok [[1, 2, 7], [0, 2, 7]] := by decide
example : oneVarFilterMap ⟨id, id⟩ [0, 0, 1] [7, 8, 7] [1, 1, 3] [[7, 20], [9, 21], [7, 22]] 0 1 =
    .ok [[1, 2, 7, 20], [1, 2, 7, 22]] := by decide

/-! ### Several variables with a subquery -/

theorem occ_filteredProduct {ps : List Posting} (hd : Distinct ps) (pass : Nat → Bool) {v : Nat} (hv : 1 ≤ v) :
    occ (groupItems (filteredProduct pass v) ps) =
      fun key => if pass (key.headD 0) then contextsOfTuple ps v key else [] := by
  funext key
  rw [occ_groupItems _ _ fun c => filteredProduct_nodup (distinct_entities hd c) pass v]
  unfold contextsOfTuple
  by_cases hp : pass (key.headD 0) = true
  · rw [if_pos hp]
    by_cases h : key.length = v
    · rw [if_pos h]
      congr 1
      apply List.filter_congr
      intro c _
      rw [decide_eq_decide, mem_filteredProduct pass hv]
      simp only [h, true_and, and_iff_left hp]
    · rw [if_neg h, List.map_eq_nil_iff, List.filter_eq_nil_iff]
      intro c _
      rw [decide_eq_true_eq, mem_filteredProduct pass hv]
      simp [h]
  · rw [if_neg hp, List.map_eq_nil_iff, List.filter_eq_nil_iff]
    intro c _
    rw [decide_eq_true_eq, mem_filteredProduct pass hv]
    exact fun h => hp h.2.2

/-- A subquery with several columns for the first of `v ≥ 1` variables: the result has the other variables and then the
columns of the subquery. -/
theorem C57_variables_filter_map (o : Orders (List Nat)) (ho : AnyOrder o) (ps : List Posting) (hs : Sorted ps)
    (hd : Distinct ps) (table : List (List Nat)) (col : Nat) (hc : ∀ r ∈ table, col < r.length) (v k : Nat) (hv : 1 ≤ v)
    (hk : 1 ≤ k) :
    ∃ out, multVarsFilterMap o (ps.map (·.cid)) (ps.map (·.eid)) (ps.map (·.score)) table col v k = .ok out ∧
      IsTopK k (fun key => if withEntity table col (key.headD 0) ≠ [] then contextsOfTuple ps v key else [])
        (fun c n key => (withEntity table col (key.headD 0)).map fun r => c :: n :: key.tail ++ r) out := by
  unfold multVarsFilterMap
  simp only [filterRows_eq hc]
  split
  · rename_i h
    refine ⟨[], rfl, isTopK_nil _ _ _ fun e => ?_⟩
    rcases h with h | h
    · rw [map_cid_eq_nil] at h; subst h; simp [contextsOfTuple_nil]
    · subst h; simp [withEntity]
  · rw [postings_map]
    simp only [Outcome.bind]
    rw [multVarItems_spec _ _ hs]
    obtain ⟨out, h1, h2⟩ := aggTopK_spec o.sets ho.1
      (fun c n (key : List Nat) => (withEntity table col (key.headD 0)).map fun r => c :: n :: key.tail ++ r) k hk
      (groupItems (filteredProduct (fun e => decide (withEntity table col e ≠ [])) v) ps)
      (occ_groupItems_distinct _ _ fun c => filteredProduct_nodup (distinct_entities hd c) _ v)
    rw [occ_filteredProduct hd _ hv] at h2
    simp only [decide_eq_true_eq] at h2
    exact ⟨out, h1, h2⟩

example : multVarsFilterMap ⟨id, id⟩ [0, 0] [7, 8] [1, 1] [[20, 7], [21, 9], [22, 7]] 1 2 1 =
    .ok [[0, 1, 8, 20, 7], [0, 1, 8, 22, 7], [0, 1, 7, 20, 7], [0, 1, 7, 22, 7]] := by decide

/-- The cells written for a tuple of at least two entities: the last entity is overwritten and one cell is never written. -/
theorem setVersionRow_eq (c n a b : Nat) (rest : List Nat) :
    setVersionRow c n (a :: b :: rest) = [some c, some n, none] ++ ((b :: rest).dropLast.map some) ++ [some a] := by
  have hfold : ∀ (l pre : List (Option Nat)) (key : List Nat) (s : Nat), key.length = s + l.length →
      pre.length = 2 + s →
      (List.range' s l.length).foldl (fun row i => row.set (2 + i) key[i]?) (pre ++ l) = pre ++ (key.drop s).map some := by
    intro l
    induction l with
    | nil =>
      intro pre key s h1 h2
      rw [List.drop_of_length_le (by simpa using Nat.le_of_eq h1)]
      simp
    | cons x l ih =>
      intro pre key s h1 h2
      rw [List.length_cons, List.range'_succ, List.foldl_cons]
      have hset : (pre ++ x :: l).set (2 + s) key[s]? = (pre ++ [key[s]?]) ++ l := by
        rw [← h2, List.set_append_right _ _ (Nat.le_refl _)]
        simp
      rw [hset, ih (pre ++ [key[s]?]) key (s + 1) (by simp at h1; omega) (by simp; omega)]
      have hs : s < key.length := by simp at h1; omega
      rw [List.getElem?_eq_getElem hs, List.append_assoc, List.drop_eq_getElem_cons hs]
      rfl
  have h := hfold (List.replicate (rest.length + 1) none) [some c, some n, none] (a :: b :: rest) 1
    (by simp; omega) rfl
  unfold setVersionRow
  have hrow : ((List.replicate (2 + (a :: b :: rest).length) none).set 0 (some c)).set 1 (some n) =
      [some c, some n, none] ++ List.replicate (rest.length + 1) none := by
    have : 2 + (a :: b :: rest).length = rest.length + 1 + 1 + 1 + 1 := by simp; omega
    rw [this]
    rfl
  rw [hrow]
  simp only [List.length_replicate] at h
  rw [show (a :: b :: rest).length - 1 = rest.length + 1 by simp]
  refine (congrArg (fun row => List.set row (2 + (rest.length + 1)) (some a)) h).trans ?_
  have hlast : b :: rest = (b :: rest).dropLast ++ [(b :: rest).getLast (by simp)] := (List.dropLast_append_getLast _).symm
  have hd : (a :: b :: rest).drop 1 = b :: rest := rfl
  rw [hd]
  conv => lhs; rw [hlast]
  rw [List.map_append, ← List.append_assoc]
  have hlen : ([some c, some n, none] ++ (b :: rest).dropLast.map some).length = 2 + (rest.length + 1) := by
    simp; omega
  rw [← hlen, List.set_append_right _ _ (Nat.le_refl _)]
  simp

/-- A subquery with one column for the first of at least two variables: what is returned instead. The last variable's
entity is missing, the entities are shifted by one column and the first of these columns is never written. -/
theorem C57_variables_filter_set_exact (o : Orders (List Nat)) (ho : AnyOrder o) (ps : List Posting) (hs : Sorted ps)
    (hd : Distinct ps) (filter : List Nat) (v k : Nat) (hv : 2 ≤ v) (hk : 1 ≤ k) :
    ∃ out, multVarsFilterSet o (ps.map (·.cid)) (ps.map (·.eid)) (ps.map (·.score)) filter v k = .ok out ∧
      IsTopK k (fun key => if key.headD 0 ∈ filter then contextsOfTuple ps v key else [])
        (fun c n key => [[some c, some n, none] ++ (key.tail.dropLast.map some) ++ [key.head?]]) out := by
  unfold multVarsFilterSet
  split
  · rename_i h
    refine ⟨[], rfl, isTopK_nil _ _ _ fun e => ?_⟩
    rcases h with h | h
    · rw [map_cid_eq_nil] at h; subst h; simp [contextsOfTuple_nil]
    · subst h; simp
  · rw [postings_map]
    simp only [Outcome.bind]
    rw [multVarItems_spec _ _ hs]
    obtain ⟨out, h1, keys, hn, hkeys, best, hb, hout⟩ := aggTopK_spec o.sets ho.1
      (fun c n (key : List Nat) => [setVersionRow c n key]) k hk
      (groupItems (filteredProduct (fun e => decide (e ∈ filter)) v) ps)
      (occ_groupItems_distinct _ _ fun c => filteredProduct_nodup (distinct_entities hd c) _ v)
    rw [occ_filteredProduct hd _ (by omega)] at hkeys hb hout
    simp only [decide_eq_true_eq] at hkeys hb hout
    refine ⟨out, h1, keys, hn, hkeys, best, hb, hout.trans ?_⟩
    apply List.flatMap_congr
    intro key hkey
    have hne := (hkeys key).mp hkey
    have hlen : key.length = v := by
      by_contra hl
      apply hne
      unfold contextsOfTuple
      rw [if_neg hl]; simp
    obtain ⟨a, t, rfl⟩ := List.exists_cons_of_ne_nil (show key ≠ [] by rintro rfl; simp at hlen; omega)
    obtain ⟨b, t, rfl⟩ := List.exists_cons_of_ne_nil (show t ≠ [] by rintro rfl; simp at hlen; omega)
    simp only [setVersionRow_eq, List.tail_cons, List.head?_cons]

/-- The expected result for entities 7 and 8 in a context and a subquery that returns 7 has the rows (7, 7) and (8, 7): the
code returns two rows with an unwritten cell and 7. -/
theorem C57_variables_filter_set_violated : multVarsFilterSet ⟨id, id⟩ [0, 0] [7, 8] [1, 1] [7] 2 1 =
    .ok [[some 0, some 1, none, some 7], [some 0, some 1, none, some 7]] := by decide

end Verif.FTS
