import Verif.Lemmas.TextAggregate
import Mathlib.Data.List.Dedup
namespace Verif.FTS
open Outcome Verif.Spec.Text

/-! ### The postings as items -/

theorem oneVarItems_map (ps : List Posting) :
    oneVarItems (ps.map (·.cid)) (ps.map (·.eid)) (ps.map (·.score)) = ps.map fun p => (p.eid, p.cid, p.score) := by
  unfold oneVarItems
  induction ps with
  | nil => rfl
  | cons p ps ih => simp only [List.map_cons, List.zip_cons_cons, ih]

theorem occ_oneVar (ps : List Posting) (e : Nat) : occ (ps.map fun p => (p.eid, p.cid, p.score)) e = contextsOf ps e := by
  unfold occ contextsOf
  rw [List.filter_map, List.map_map]
  rfl

theorem occ_filter [DecidableEq κ] (f : κ → Bool) (items : List (κ × Nat × Nat)) (key : κ) :
    occ (items.filter fun i => f i.1) key = if f key then occ items key else [] := by
  unfold occ
  rw [List.filter_filter]
  by_cases h : f key
  · rw [if_pos h]
    congr 1
    apply List.filter_congr
    intro i _
    by_cases hi : i.1 = key
    · simp [hi, h]
    · simp [hi]
  · rw [if_neg h]
    rw [List.map_eq_nil_iff, List.filter_eq_nil_iff]
    intro i _
    by_cases hi : i.1 = key
    · simp [hi, h]
    · simp [hi]

theorem distinct_contexts {ps : List Posting} (h : Distinct ps) (e : Nat) : ((contextsOf ps e).map Prod.fst).Nodup := by
  unfold contextsOf
  rw [List.map_map]
  unfold Distinct at h
  have h' : ((ps.filter (·.eid = e)).map fun p => (p.cid, p.eid)).Nodup := h.sublist (List.filter_sublist.map _)
  rw [List.nodup_map_iff_inj_on h'.of_map]
  intro a ha b hb hab
  exact List.inj_on_of_nodup_map h' ha hb (by
    have h1 := (List.mem_filter.mp ha).2
    have h2 := (List.mem_filter.mp hb).2
    simp only [decide_eq_true_eq] at h1 h2
    simp only [Function.comp_apply] at hab
    rw [h1, h2, hab])

theorem distinct_entities {ps : List Posting} (h : Distinct ps) (c : Nat) : (entitiesIn ps c).Nodup := by
  unfold entitiesIn
  unfold Distinct at h
  have h' : ((ps.filter (·.cid = c)).map fun p => (p.cid, p.eid)).Nodup := h.sublist (List.filter_sublist.map _)
  rw [List.nodup_map_iff_inj_on h'.of_map]
  intro a ha b hb hab
  exact List.inj_on_of_nodup_map h' ha hb (by
    have h1 := (List.mem_filter.mp ha).2
    have h2 := (List.mem_filter.mp hb).2
    simp only [decide_eq_true_eq] at h1 h2
    rw [h1, h2, hab])

theorem postings_map (ps : List Posting) : postings (ps.map (·.cid)) (ps.map (·.eid)) (ps.map (·.score)) =
    .ok (ps.map fun p => (p.cid, p.eid, p.score)) := by
  unfold postings
  rw [if_pos (by simp)]
  congr 1
  induction ps with
  | nil => rfl
  | cons p ps ih => simp only [List.map_cons, List.zip_cons_cons, ih]

/-! ### Cross products -/

theorem tupleKey_length (ents : List Nat) (v j : Nat) : (tupleKey ents v j).length = v := by
  induction v generalizing j with
  | zero => rfl
  | succ v ih => simp [tupleKey, ih]

theorem getD_mem {l : List Nat} {i : Nat} (h : i < l.length) : (l[i]?).getD 0 ∈ l := by
  rw [List.getElem?_eq_getElem h]; exact List.getElem_mem h

theorem tupleKey_mem {ents : List Nat} (hne : ents ≠ []) (v j : Nat) : ∀ e ∈ tupleKey ents v j, e ∈ ents := by
  induction v generalizing j with
  | zero => simp [tupleKey]
  | succ v ih =>
    intro e he
    rcases List.mem_cons.mp he with rfl | he
    · exact getD_mem (Nat.mod_lt _ (List.length_pos_iff.mpr hne))
    · exact ih _ e he

theorem getD_inj {l : List Nat} (hn : l.Nodup) {i j : Nat} (hi : i < l.length) (hj : j < l.length)
    (h : (l[i]?).getD 0 = (l[j]?).getD 0) : i = j := by
  rw [List.getElem?_eq_getElem hi, List.getElem?_eq_getElem hj] at h
  exact (hn.getElem_inj_iff).mp h

theorem tupleKey_inj {ents : List Nat} (hn : ents.Nodup) (v : Nat) {i j : Nat} (hi : i < ents.length ^ v)
    (hj : j < ents.length ^ v) (h : tupleKey ents v i = tupleKey ents v j) : i = j := by
  induction v generalizing i j with
  | zero => simp at hi hj; omega
  | succ v ih =>
    have hpos : 0 < ents.length := by
      rcases Nat.eq_zero_or_pos ents.length with h0 | h0
      · rw [h0, Nat.zero_pow (Nat.succ_pos v)] at hi; omega
      · exact h0
    unfold tupleKey at h
    injection h with h1 h2
    have e1 := getD_inj hn (Nat.mod_lt _ hpos) (Nat.mod_lt _ hpos) h1
    have e2 := ih (Nat.div_lt_of_lt_mul (by rwa [Nat.mul_comm, ← Nat.pow_succ]))
      (Nat.div_lt_of_lt_mul (by rwa [Nat.mul_comm, ← Nat.pow_succ])) h2
    rw [← Nat.div_add_mod i ents.length, ← Nat.div_add_mod j ents.length, e1, e2]

theorem tupleKey_surj {ents : List Nat} (key : List Nat) (h : ∀ e ∈ key, e ∈ ents) :
    ∃ j < ents.length ^ key.length, tupleKey ents key.length j = key := by
  induction key with
  | nil => exact ⟨0, by simp, rfl⟩
  | cons e key ih =>
    obtain ⟨j, hj, hk⟩ := ih fun x hx => h x (List.mem_cons_of_mem _ hx)
    obtain ⟨i, hi, he⟩ := List.mem_iff_getElem.mp (h e (by simp))
    refine ⟨i + ents.length * j, ?_, ?_⟩
    · rw [List.length_cons, Nat.pow_succ, Nat.mul_comm (ents.length ^ _)]
      calc i + ents.length * j < ents.length + ents.length * j := by omega
        _ = ents.length * (j + 1) := by rw [Nat.mul_add, Nat.mul_one, Nat.add_comm]
        _ ≤ _ := Nat.mul_le_mul_left _ hj
    · rw [List.length_cons]
      unfold tupleKey
      rw [Nat.add_mul_mod_self_left, Nat.mod_eq_of_lt hi, Nat.add_mul_div_left _ _ (by omega), Nat.div_eq_of_lt hi,
        Nat.zero_add, hk, List.getElem?_eq_getElem hi, Option.getD_some, he]

theorem crossProduct_nodup {ents : List Nat} (hn : ents.Nodup) (v : Nat) : (crossProduct v ents).Nodup := by
  unfold crossProduct
  rw [List.nodup_map_iff_inj_on List.nodup_range]
  intro i hi j hj h
  exact tupleKey_inj hn v (List.mem_range.mp hi) (List.mem_range.mp hj) h

theorem mem_crossProduct {ents : List Nat} (v : Nat) (key : List Nat) :
    key ∈ crossProduct v ents ↔ key.length = v ∧ ∀ e ∈ key, e ∈ ents := by
  unfold crossProduct
  rw [List.mem_map]
  constructor
  · rintro ⟨j, hj, rfl⟩
    refine ⟨tupleKey_length _ _ _, ?_⟩
    rw [List.mem_range] at hj
    cases v with
    | zero => simp [tupleKey]
    | succ v =>
      apply tupleKey_mem
      rintro rfl
      rw [List.length_nil, Nat.zero_pow (Nat.succ_pos v)] at hj; omega
  · rintro ⟨rfl, h⟩
    obtain ⟨j, hj, hk⟩ := tupleKey_surj key h
    exact ⟨j, List.mem_range.mpr hj, hk⟩

theorem filteredProduct_nodup {ents : List Nat} (hn : ents.Nodup) (pass : Nat → Bool) (v : Nat) :
    (filteredProduct pass v ents).Nodup := by
  unfold filteredProduct
  simp only
  split
  · exact List.nodup_nil
  · rename_i hne
    rw [List.nodup_map_iff_inj_on List.nodup_range]
    intro i hi j hj h
    rw [List.mem_range] at hi hj
    have hpos : 0 < (ents.filter pass).length := List.length_pos_iff.mpr hne
    injection h with h1 h2
    have e1 := getD_inj (hn.filter _) (Nat.mod_lt _ hpos) (Nat.mod_lt _ hpos) h1
    have e2 := tupleKey_inj hn (v - 1) (Nat.div_lt_of_lt_mul hi) (Nat.div_lt_of_lt_mul hj) h2
    rw [← Nat.div_add_mod i (ents.filter pass).length, ← Nat.div_add_mod j (ents.filter pass).length, e1, e2]

theorem mem_filteredProduct {ents : List Nat} (pass : Nat → Bool) {v : Nat} (hv : 1 ≤ v) (key : List Nat) :
    key ∈ filteredProduct pass v ents ↔ key.length = v ∧ (∀ e ∈ key, e ∈ ents) ∧ pass (key.headD 0) = true := by
  unfold filteredProduct
  simp only
  split
  · rename_i hne
    simp only [List.not_mem_nil, false_iff, not_and]
    rintro rfl h
    cases key with
    | nil => simp at hv
    | cons e key =>
      intro hp
      have : e ∈ ents.filter pass := List.mem_filter.mpr ⟨h e (by simp), hp⟩
      rw [hne] at this
      cases this
  · rename_i hne
    have hpos : 0 < (ents.filter pass).length := List.length_pos_iff.mpr hne
    have hents : ents ≠ [] := by rintro rfl; exact hne rfl
    rw [List.mem_map]
    constructor
    · rintro ⟨j, hj, rfl⟩
      have hm := getD_mem (Nat.mod_lt j hpos)
      refine ⟨by simp [tupleKey_length]; omega, ?_, ?_⟩
      · intro e he
        rcases List.mem_cons.mp he with rfl | he
        · exact (List.mem_filter.mp hm).1
        · exact tupleKey_mem hents _ _ e he
      · exact (List.mem_filter.mp hm).2
    · rintro ⟨rfl, h, hp⟩
      cases key with
      | nil => simp at hv
      | cons e key =>
        obtain ⟨j, hj, hk⟩ := tupleKey_surj key fun x hx => h x (List.mem_cons_of_mem _ hx)
        have hmem : e ∈ ents.filter pass := List.mem_filter.mpr ⟨h e (by simp), hp⟩
        obtain ⟨i, hi, he⟩ := List.mem_iff_getElem.mp hmem
        refine ⟨i + (ents.filter pass).length * j, List.mem_range.mpr ?_, ?_⟩
        · rw [List.length_cons, Nat.add_sub_cancel]
          calc i + (ents.filter pass).length * j < (ents.filter pass).length + (ents.filter pass).length * j := by omega
            _ = (ents.filter pass).length * (j + 1) := by rw [Nat.mul_add, Nat.mul_one, Nat.add_comm]
            _ ≤ _ := Nat.mul_le_mul_left _ hj
        · rw [List.length_cons, Nat.add_sub_cancel, Nat.add_mul_mod_self_left, Nat.mod_eq_of_lt hi,
            Nat.add_mul_div_left _ _ hpos, Nat.div_eq_of_lt hi, Nat.zero_add, hk, List.getElem?_eq_getElem hi,
            Option.getD_some, he]

/-! ### The loop over the contexts -/

/-- The items of a posting list, context by context. -/
def groupItems (product : List Nat → List (List Nat)) (ps : List Posting) : List (List Nat × Nat × Nat) :=
  (contexts ps).flatMap fun c => (product (entitiesIn ps c)).map fun key => (key, c, scoreIn ps c)

theorem contexts_cons (p : Posting) (ps : List Posting) :
    contexts (p :: ps) = p.cid :: contexts (ps.filter fun q => q.cid ≠ p.cid) := by
  unfold contexts
  rw [List.map_cons, List.eraseDups_cons, List.filter_map]
  congr 4
  funext q
  simp [beq_eq_decide]

theorem mem_contexts {ps : List Posting} {c : Nat} : c ∈ contexts ps ↔ ∃ p ∈ ps, p.cid = c := by
  unfold contexts; rw [List.mem_eraseDups, List.mem_map]

theorem contexts_nodup (ps : List Posting) : (contexts ps).Nodup := by
  unfold contexts
  generalize ps.map (·.cid) = l
  induction hn : l.length using Nat.strongRecOn generalizing l with
  | _ n ih =>
    cases l with
    | nil => simp
    | cons a l =>
      rw [List.eraseDups_cons, List.nodup_cons]
      refine ⟨?_, ih _ ?_ _ rfl⟩
      · rw [List.mem_eraseDups]; simp
      · have := List.length_filter_le (fun b => !b == a) l
        simp only [List.length_cons] at hn
        omega

theorem groupItems_cons (product : List Nat → List (List Nat)) (p : Posting) (ps : List Posting) :
    groupItems product (p :: ps) =
      (product (p.eid :: entitiesIn ps p.cid)).map (fun key => (key, p.cid, p.score)) ++
        groupItems product (ps.filter fun q => q.cid ≠ p.cid) := by
  unfold groupItems
  rw [contexts_cons, List.flatMap_cons]
  congr 1
  · simp [entitiesIn, scoreIn]
  · apply List.flatMap_congr
    intro c hc
    obtain ⟨q, hq, rfl⟩ := mem_contexts.mp hc
    have hne : q.cid ≠ p.cid := by simpa using (List.mem_filter.mp hq).2
    have e1 : entitiesIn (p :: ps) q.cid = entitiesIn (ps.filter fun q => q.cid ≠ p.cid) q.cid := by
      unfold entitiesIn
      rw [List.filter_cons_of_neg (by simpa using Ne.symm hne), List.filter_filter]
      congr 1
      apply List.filter_congr
      intro x _
      by_cases hx : x.cid = q.cid
      · simp [hx, hne]
      · simp [hx]
    have e2 : scoreIn (p :: ps) q.cid = scoreIn (ps.filter fun q => q.cid ≠ p.cid) q.cid := by
      unfold scoreIn
      rw [List.find?_cons_of_neg (by simpa using Ne.symm hne), List.find?_filter]
      have : (fun x : Posting => decide (decide (x.cid ≠ p.cid) = true ∧ decide (x.cid = q.cid) = true)) =
          fun x => decide (x.cid = q.cid) := by
        funext x
        by_cases hx : x.cid = q.cid
        · simp [hx, hne]
        · simp [hx]
      rw [this]
    rw [e1, e2]

theorem contextItems_spec (product : List Nat → List (List Nat)) (ps : List Posting) :
    ∀ cid score ents, (∀ p ∈ ps, cid ≤ p.cid) → Sorted ps →
      contextItems product cid score ents (ps.map fun p => (p.cid, p.eid, p.score)) =
        (product (ents ++ entitiesIn ps cid)).map (fun key => (key, cid, score)) ++
          groupItems product (ps.filter fun q => q.cid ≠ cid) := by
  induction ps with
  | nil => intro cid score ents _ _; simp [contextItems, entitiesIn, groupItems, contexts]
  | cons p ps ih =>
    intro cid score ents hle hs
    obtain ⟨hp, hs'⟩ := List.pairwise_cons.mp hs
    rw [List.map_cons]
    unfold contextItems
    by_cases h : p.cid = cid
    · subst h
      rw [if_pos rfl, ih _ _ _ hp hs']
      simp [entitiesIn]
    · rw [if_neg h, ih _ _ _ hp hs']
      have hlt : cid < p.cid := by have := hle p (by simp); omega
      have hall : ∀ q ∈ p :: ps, q.cid ≠ cid := by
        intro q hq
        rcases List.mem_cons.mp hq with rfl | hq
        · exact h
        · have := hp q hq; omega
      have e1 : entitiesIn (p :: ps) cid = [] := by
        unfold entitiesIn
        rw [List.map_eq_nil_iff, List.filter_eq_nil_iff]
        intro q hq; simpa using hall q hq
      have e2 : (p :: ps).filter (fun q => decide (q.cid ≠ cid)) = p :: ps := by
        rw [List.filter_eq_self]; intro q hq; simpa using hall q hq
      rw [e1, e2, groupItems_cons, List.append_nil, List.singleton_append]

theorem multVarItems_spec (product : List Nat → List (List Nat)) (ps : List Posting) (hs : Sorted ps) :
    multVarItems product (ps.map fun p => (p.cid, p.eid, p.score)) = groupItems product ps := by
  cases ps with
  | nil => rfl
  | cons p ps =>
    obtain ⟨hp, hs'⟩ := List.pairwise_cons.mp hs
    unfold multVarItems
    rw [List.map_cons]
    dsimp only
    rw [contextItems_spec _ _ _ _ _ hp hs', groupItems_cons, List.singleton_append]

theorem occ_groupItems (product : List Nat → List (List Nat)) (ps : List Posting)
    (hn : ∀ c, (product (entitiesIn ps c)).Nodup) (key : List Nat) :
    occ (groupItems product ps) key =
      ((contexts ps).filter fun c => key ∈ product (entitiesIn ps c)).map fun c => (c, scoreIn ps c) := by
  unfold groupItems
  induction contexts ps with
  | nil => rfl
  | cons c cs ih =>
    rw [List.flatMap_cons, occ_append, ih]
    have : occ ((product (entitiesIn ps c)).map fun key => (key, c, scoreIn ps c)) key =
        if key ∈ product (entitiesIn ps c) then [(c, scoreIn ps c)] else [] := by
      unfold occ
      rw [List.filter_map, List.map_map]
      have hf : (product (entitiesIn ps c)).filter ((fun i : List Nat × Nat × Nat => decide (i.1 = key)) ∘
          fun key => (key, c, scoreIn ps c)) = if key ∈ product (entitiesIn ps c) then [key] else [] := by
        have h1 : ((fun i : List Nat × Nat × Nat => decide (i.1 = key)) ∘ fun key => (key, c, scoreIn ps c)) =
          fun k => k == key := by
          funext k
          simp [beq_eq_decide]
        rw [h1, List.filter_beq]
        split
        · rename_i hm; rw [List.count_eq_one_of_mem (hn c) hm]; rfl
        · rename_i hm; rw [List.count_eq_zero_of_not_mem hm]; rfl
      rw [hf]
      split <;> rfl
    rw [this]
    by_cases h : key ∈ product (entitiesIn ps c)
    · rw [if_pos h, List.filter_cons_of_pos (by simpa using h)]; rfl
    · rw [if_neg h, List.filter_cons_of_neg (by simpa using h)]; rfl

theorem occ_groupItems_distinct (product : List Nat → List (List Nat)) (ps : List Posting)
    (hn : ∀ c, (product (entitiesIn ps c)).Nodup) (key : List Nat) :
    ((occ (groupItems product ps) key).map Prod.fst).Nodup := by
  rw [occ_groupItems _ _ hn, List.map_map]
  have : (Prod.fst ∘ fun c => (c, scoreIn ps c)) = id := rfl
  rw [this, List.map_id]
  exact (contexts_nodup ps).filter _

end Verif.FTS
