import Verif.Lemmas.PlannerRows
import Verif.Lemmas.MultiJoinRows
import Verif.Spec.Group
/-
Rows of OPTIONAL and MINUS as solutions.
-/
namespace Verif.Planner
open MultiJoin (VarMap JoinCols optionalVariableColumns optionalColumn)
open PlannerSpec
open JoinSpec (agree without)

/-- The pairs of columns of the variables in both maps. -/
structure SharesAll (ml mr : VarMap) (jcs : JoinCols) : Prop where
  left : (jcs.map (·.1)).Nodup
  right : (jcs.map (·.2)).Nodup
  mem : ∀ a b, (a, b) ∈ jcs ↔ ∃ v, (v, a) ∈ ml ∧ (v, b) ∈ mr

theorem SharesAll.swap {ml mr : VarMap} {jcs : JoinCols} (h : SharesAll ml mr jcs) : SharesAll mr ml (jcs.map Prod.swap) := by
  refine ⟨?_, ?_, ?_⟩
  · rw [List.map_map]; exact h.right
  · rw [List.map_map]; exact h.left
  · intro a b
    have h1 : (a, b) ∈ jcs.map Prod.swap ↔ (b, a) ∈ jcs := by
      rw [List.mem_map]
      constructor
      · rintro ⟨⟨c, d⟩, hm, he⟩
        cases he
        exact hm
      · intro hm
        exact ⟨_, hm, rfl⟩
    rw [h1, h.mem]
    exact ⟨fun ⟨v, h1, h2⟩ => ⟨v, h2, h1⟩, fun ⟨v, h1, h2⟩ => ⟨v, h2, h1⟩⟩

theorem sharesAll_join {ml mr : VarMap} {wl wr : Nat} (hl : MapOk ml wl) (hr : MapOk mr wr) :
    SharesAll ml mr (ml.filterMap fun p => (mr.lookup p.1).map fun c => (p.2, c)) := by
  have hmem : ∀ a b, (a, b) ∈ (ml.filterMap fun p => (mr.lookup p.1).map fun c => (p.2, c)) ↔ ∃ v, (v, a) ∈ ml ∧ (v, b) ∈ mr := by
    intro a b
    rw [List.mem_filterMap]
    constructor
    · rintro ⟨⟨v, c⟩, hm, he⟩
      obtain ⟨d, hd, he⟩ := Option.map_eq_some_iff.mp he
      cases he
      exact ⟨v, hm, (lookup_some hr.keys).mp hd⟩
    · rintro ⟨v, h1, h2⟩
      exact ⟨(v, a), h1, by simp [(lookup_some hr.keys).mpr h2]⟩
  have key : ∀ m : VarMap, (∀ p ∈ m, p ∈ ml) → (m.map (·.1)).Nodup → (m.map (·.2)).Nodup →
      ((m.filterMap fun p => (mr.lookup p.1).map fun c => (p.2, c)).map (·.1)).Nodup ∧
      ((m.filterMap fun p => (mr.lookup p.1).map fun c => (p.2, c)).map (·.2)).Nodup := by
    intro m
    induction m with
    | nil => intro _ _ _; exact ⟨List.nodup_nil, List.nodup_nil⟩
    | cons p m ih =>
      intro hm h1 h2
      simp only [List.map_cons, List.nodup_cons] at h1 h2
      obtain ⟨i1, i2⟩ := ih (fun q hq => hm q (List.mem_cons_of_mem _ hq)) h1.2 h2.2
      rw [List.filterMap_cons]
      cases hlk : mr.lookup p.1 with
      | none => exact ⟨i1, i2⟩
      | some d =>
        simp only [Option.map_some, List.map_cons, List.nodup_cons]
        refine ⟨⟨fun hx => ?_, i1⟩, ⟨fun hx => ?_, i2⟩⟩
        · obtain ⟨⟨a, b⟩, hq, he⟩ := List.mem_map.mp hx
          obtain ⟨⟨v, c⟩, hq', he'⟩ := List.mem_filterMap.mp hq
          obtain ⟨d', _, he'⟩ := Option.map_eq_some_iff.mp he'
          cases he'
          exact h2.1 (he ▸ List.mem_map_of_mem hq')
        · obtain ⟨⟨a, b⟩, hq, he⟩ := List.mem_map.mp hx
          obtain ⟨⟨v, c⟩, hq', he'⟩ := List.mem_filterMap.mp hq
          obtain ⟨d', hd', he'⟩ := Option.map_eq_some_iff.mp he'
          cases he'
          simp only at he
          subst he
          have := key_of_col hr ((lookup_some hr.keys).mp hd') ((lookup_some hr.keys).mp hlk)
          exact h1.1 (this ▸ mem_keys hq')
  obtain ⟨k1, k2⟩ := key ml (fun _ h => h) hl.keys hl.cols
  exact ⟨k1, k2, hmem⟩

section
variable {ml mr : VarMap} {wl wr : Nat} (hl : MapOk ml wl) (hr : MapOk mr wr) {jcs : JoinCols} (hs : SharesAll ml mr jcs)
include hl hr hs

/-- Rows that bind the shared variables are compatible iff they agree on the join columns. -/
theorem compatible_agree {x y : Row}
    (hx : ∀ v, v ∈ ml.map (·.1) → v ∈ mr.map (·.1) → solution ml x v ≠ none)
    (hy : ∀ v, v ∈ ml.map (·.1) → v ∈ mr.map (·.1) → solution mr y v ≠ none) :
    Compatible (solution ml x) (solution mr y) ↔ agree jcs x y = true := by
  have hpair : ∀ v a b, (v, a) ∈ ml → (v, b) ∈ mr →
      (solution ml x v = solution mr y v ↔ x.getD a 0 = y.getD b 0) := by
    intro v a b ha hb
    have h1 := hx v (mem_keys ha) (mem_keys hb)
    have h2 := hy v (mem_keys ha) (mem_keys hb)
    rw [solution_mem hl ha] at h1 ⊢
    rw [solution_mem hr hb] at h2 ⊢
    rw [cell_eq h1 h2]
    have l1 := cell_lt h1
    have l2 := cell_lt h2
    simp [List.getD_eq_getElem?_getD, List.getElem?_eq_getElem l1, List.getElem?_eq_getElem l2]
  unfold agree
  rw [List.all_eq_true]
  constructor
  · rintro hc ⟨a, b⟩ hm
    obtain ⟨v, ha, hb⟩ := (hs.mem a b).mp hm
    rw [decide_eq_true_eq, ← hpair v a b ha hb]
    rcases hc v with h | h | h
    · exact absurd h (hx v (mem_keys ha) (mem_keys hb))
    · exact absurd h (hy v (mem_keys ha) (mem_keys hb))
    · exact h
  · intro hj v
    by_cases h1 : v ∈ ml.map (·.1)
    · by_cases h2 : v ∈ mr.map (·.1)
      · obtain ⟨a, ha⟩ := mem_of_key h1
        obtain ⟨b, hb⟩ := mem_of_key h2
        have := hj (a, b) ((hs.mem a b).mpr ⟨v, ha, hb⟩)
        rw [decide_eq_true_eq, ← hpair v a b ha hb] at this
        exact .inr (.inr this)
      · exact .inr (.inl (solution_not_mem h2 y))
    · exact .inl (solution_not_mem h1 x)

omit hl in
/-- The column of a variable of the right side only. -/
theorem optionalColumn_some {v : Var} {c : Nat} (hv : (v, c) ∈ mr) (hn : v ∉ ml.map (·.1)) (wl' : Nat) :
    optionalColumn c jcs (wl' + c) = some (wl' + c - ((jcs.map (·.2)).filter fun d => d < c).length) := by
  rw [MultiJoin.optionalColumn_spec, if_neg]
  intro hc
  obtain ⟨⟨a, b⟩, hm, he⟩ := List.mem_map.mp hc
  simp only at he
  subst he
  obtain ⟨w, hw1, hw2⟩ := (hs.mem a b).mp hm
  exact hn (key_of_col hr hw2 hv ▸ mem_keys hw1)

omit hl hr in
theorem optionalColumn_none {v : Var} {c : Nat} (hv : (v, c) ∈ mr) (hn : v ∈ ml.map (·.1)) (wl' : Nat) :
    optionalColumn c jcs (wl' + c) = none := by
  rw [MultiJoin.optionalColumn_spec, if_pos]
  obtain ⟨a, ha⟩ := mem_of_key hn
  exact List.mem_map.mpr ⟨(a, c), (hs.mem a c).mpr ⟨v, ha, hv⟩, rfl⟩

theorem jcs_lt : (∀ jc ∈ jcs, jc.1 < wl) ∧ ∀ jc ∈ jcs, jc.2 < wr := by
  refine ⟨?_, ?_⟩
  · rintro ⟨a, b⟩ hm
    obtain ⟨v, h1, h2⟩ := (hs.mem a b).mp hm
    exact hl.lt _ h1
  · rintro ⟨a, b⟩ hm
    obtain ⟨v, h1, h2⟩ := (hs.mem a b).mp hm
    exact hr.lt _ h2

omit hl hr in
/-- How many join columns are left of another column. -/
theorem smaller_le (c : Nat) : ((jcs.map (·.2)).filter fun d => d < c).length ≤ c := by
  have := MultiJoin.kept_length (n := c) (List.Pairwise.filter (fun d => decide (d < c)) hs.right)
    (by intro d hd; simpa using (List.mem_filter.mp hd).2)
  omega

omit hl in
/-- Columns of the right side only are where they are expected. -/
theorem right_cell {v : Var} {c : Nat} (hv : (v, c) ∈ mr) (hn : v ∉ ml.map (·.1)) {x y : Row} (hx : x.length = wl)
    (hy : y.length = wr) :
    cell (x ++ without (jcs.map (·.2)) y) (wl + c - ((jcs.map (·.2)).filter fun d => d < c).length) = cell y c := by
  have hle := smaller_le hs c
  have hc : c ∉ jcs.map (·.2) := by
    intro hc
    obtain ⟨⟨a, b⟩, hm, he⟩ := List.mem_map.mp hc
    simp only at he
    subst he
    obtain ⟨w, hw1, hw2⟩ := (hs.mem a b).mp hm
    exact hn (key_of_col hr hw2 hv ▸ mem_keys hw1)
  have hlt := hr.lt _ hv
  apply cell_congr
  rw [List.getElem?_append_right (by omega), MultiJoin.without_eq, List.getElem?_map]
  have he : wl + c - ((jcs.map (·.2)).filter fun d => d < c).length - x.length =
      c - ((jcs.map (·.2)).filter fun d => d < c).length := by omega
  rw [he, MultiJoin.kept_index hs.right hc (by omega)]
  simp [List.getD_eq_getElem?_getD, show c < y.length by omega]

omit hl hs in
/-- The variables of an OPTIONAL. -/
theorem optionalCols_lookup (v : Var) :
    (optionalVariableColumns ml mr wl jcs).lookup v =
      (ml.lookup v).or ((mr.lookup v).bind fun c => optionalColumn c jcs (wl + c)) := by
  unfold optionalVariableColumns
  rw [lookup_append, lookup_filterMap hr.keys (fun c => optionalColumn c jcs (wl + c))]

/-- A combined row is the union of the solutions. -/
theorem solution_optional {x y : Row} (hwx : x.length = wl) (hwy : y.length = wr)
    (hx : ∀ v, v ∈ ml.map (·.1) → v ∈ mr.map (·.1) → solution ml x v ≠ none) :
    solution (optionalVariableColumns ml mr wl jcs) (x ++ without (jcs.map (·.2)) y) = union2 (solution ml x) (solution mr y) := by
  funext v
  rw [solution_def, optionalCols_lookup hr]
  unfold union2
  by_cases h1 : v ∈ ml.map (·.1)
  · obtain ⟨a, ha⟩ := mem_of_key h1
    rw [(lookup_some hl.keys).mpr ha, Option.some_or, Option.bind_some, solution_mem hl ha]
    have hcell : cell (x ++ without (jcs.map (·.2)) y) a = cell x a := by
      apply cell_congr
      exact List.getElem?_append_left (by rw [hwx]; exact hl.lt _ ha)
    rw [hcell]
    by_cases h2 : v ∈ mr.map (·.1)
    · have := hx v h1 h2
      rw [solution_mem hl ha] at this
      cases h : cell x a with
      | none => exact absurd h this
      | some _ => rfl
    · rw [solution_not_mem h2, Option.or_none]
  · rw [lookup_none.mpr h1, Option.none_or, solution_not_mem h1, Option.none_or]
    by_cases h2 : v ∈ mr.map (·.1)
    · obtain ⟨c, hc⟩ := mem_of_key h2
      rw [(lookup_some hr.keys).mpr hc, solution_mem hr hc, Option.bind_some, optionalColumn_some hr hs hc h1,
        Option.bind_some]
      exact right_cell hr hs hc h1 hwx hwy
    · rw [lookup_none.mpr h2, solution_not_mem h2]; rfl

/-- A padded left row is the solution itself. -/
theorem solution_padRight {x : Row} (hwx : x.length = wl) (w : Nat) :
    solution (optionalVariableColumns ml mr wl jcs) (JoinSpec.padRight w x) = solution ml x := by
  funext v
  rw [solution_def, optionalCols_lookup hr]
  unfold JoinSpec.padRight
  by_cases h1 : v ∈ ml.map (·.1)
  · obtain ⟨a, ha⟩ := mem_of_key h1
    rw [(lookup_some hl.keys).mpr ha, Option.some_or, Option.bind_some, solution_mem hl ha]
    apply cell_congr
    exact List.getElem?_append_left (by rw [hwx]; exact hl.lt _ ha)
  · rw [lookup_none.mpr h1, Option.none_or, solution_not_mem h1]
    by_cases h2 : v ∈ mr.map (·.1)
    · obtain ⟨c, hc⟩ := mem_of_key h2
      have hle := smaller_le hs c
      rw [(lookup_some hr.keys).mpr hc, Option.bind_some, optionalColumn_some hr hs hc h1, Option.bind_some]
      unfold cell
      rw [List.getD_eq_getElem?_getD, List.getElem?_append_right (by omega), List.getElem?_replicate]
      split <;> simp
    · rw [lookup_none.mpr h2]; rfl

/-- A padded right row is the solution itself. -/
theorem solution_padLeft {y : Row} (hwy : y.length = wr)
    (hy : ∀ v, v ∈ ml.map (·.1) → v ∈ mr.map (·.1) → solution mr y v ≠ none) :
    solution (optionalVariableColumns ml mr wl jcs) (JoinSpec.padLeft jcs wl y) = solution mr y := by
  unfold JoinSpec.padLeft
  generalize hx : ((List.range wl).map fun c =>
    match jcs.find? fun jc => jc.1 = c with
    | some jc => y.getD jc.2 0
    | none => ID_NO_VALUE) = x
  have hlen : x.length = wl := by rw [← hx]; simp
  have hcell : ∀ v a, (v, a) ∈ ml → solution ml x v = solution mr y v := by
    intro v a ha
    rw [solution_mem hl ha]
    have hxa : x[a]? = some (match jcs.find? fun jc => jc.1 = a with
        | some jc => y.getD jc.2 0
        | none => ID_NO_VALUE) := by
      rw [← hx, List.getElem?_map, List.getElem?_range (hl.lt _ ha), Option.map_some]
    cases hf : jcs.find? fun jc => jc.1 = a with
    | none =>
      rw [hf] at hxa
      have hn : v ∉ mr.map (·.1) := by
        intro hv
        obtain ⟨b, hb⟩ := mem_of_key hv
        have := List.find?_eq_none.mp hf (a, b) ((hs.mem a b).mpr ⟨v, ha, hb⟩)
        simp at this
      rw [solution_not_mem hn]
      unfold cell
      rw [List.getD_eq_getElem?_getD, hxa]
      simp
    | some jc =>
      rw [hf] at hxa
      obtain ⟨a', b⟩ := jc
      have h1 := List.find?_some hf
      simp only [decide_eq_true_eq] at h1
      subst h1
      have h2 := List.mem_of_find?_eq_some hf
      obtain ⟨w, hw1, hw2⟩ := (hs.mem a' b).mp h2
      obtain rfl := key_of_col hl hw1 ha
      rw [solution_mem hr hw2]
      apply cell_congr
      have hlt : b < y.length := by rw [hwy]; exact hr.lt _ hw2
      rw [hxa]
      simp [List.getD_eq_getElem?_getD, List.getElem?_eq_getElem hlt]
  rw [solution_optional hl hr hs hlen hwy]
  · funext v
    unfold union2
    by_cases h1 : v ∈ ml.map (·.1)
    · obtain ⟨a, ha⟩ := mem_of_key h1
      rw [hcell v a ha]
      cases solution mr y v <;> rfl
    · rw [solution_not_mem h1, Option.none_or]
  · intro v h1 h2
    obtain ⟨a, ha⟩ := mem_of_key h1
    rw [hcell v a ha]
    exact hy v h1 h2

/-- The map of an OPTIONAL. -/
theorem optionalCols_ok : MapOk (optionalVariableColumns ml mr wl jcs) (wl + wr - jcs.length) ∧
    (∀ v, v ∈ (optionalVariableColumns ml mr wl jcs).map (·.1) ↔ v ∈ ml.map (·.1) ∨ v ∈ mr.map (·.1)) := by
  have hmem : ∀ v d, (v, d) ∈ (mr.filterMap fun p => (optionalColumn p.2 jcs (wl + p.2)).map fun c => (p.1, c)) →
      ∃ c, (v, c) ∈ mr ∧ v ∉ ml.map (·.1) ∧ d = wl + c - ((jcs.map (·.2)).filter fun d => d < c).length := by
    intro v d hm
    obtain ⟨⟨w, c⟩, hq, he⟩ := List.mem_filterMap.mp hm
    obtain ⟨d', hd', he⟩ := Option.map_eq_some_iff.mp he
    cases he
    have hn : w ∉ ml.map (·.1) := by
      intro hv
      rw [optionalColumn_none hs hq hv] at hd'
      cases hd'
    rw [optionalColumn_some hr hs hq hn] at hd'
    exact ⟨c, hq, hn, (Option.some.inj hd').symm⟩
  have hlt := (jcs_lt hl hr hs).2
  have hbound : ∀ v c, (v, c) ∈ mr → v ∉ ml.map (·.1) →
      (MultiJoin.kept wr (jcs.map (·.2)))[c - ((jcs.map (·.2)).filter fun d => d < c).length]? = some c := by
    intro v c hv hn
    apply MultiJoin.kept_index hs.right _ (hr.lt _ hv)
    intro hc
    obtain ⟨⟨a, b⟩, hm, he⟩ := List.mem_map.mp hc
    simp only at he
    subst he
    obtain ⟨w, hw1, hw2⟩ := (hs.mem a b).mp hm
    exact hn (key_of_col hr hw2 hv ▸ mem_keys hw1)
  have hkept := MultiJoin.kept_length (n := wr) hs.right (by
    intro c hc
    obtain ⟨jc, hm, rfl⟩ := List.mem_map.mp hc
    exact hlt jc hm)
  rw [List.length_map] at hkept
  refine ⟨⟨?_, ?_, ?_⟩, ?_⟩
  · unfold optionalVariableColumns
    rw [List.map_append]
    refine List.nodup_append.mpr ⟨hl.keys, nodup_keys_filterMap hr.keys (fun c => optionalColumn c jcs (wl + c)), ?_⟩
    rintro v h1 w h2 rfl
    obtain ⟨⟨u, d⟩, hm, he⟩ := List.mem_map.mp h2
    simp only at he
    subst he
    obtain ⟨c, _, hn, _⟩ := hmem _ _ hm
    exact hn h1
  · unfold optionalVariableColumns
    rw [List.map_append]
    refine List.nodup_append.mpr ⟨hl.cols, nodup_cols_filterMap hr.cols (g := fun c => optionalColumn c jcs (wl + c)) ?_, ?_⟩
    · intro c c' d hd hd'
      rw [MultiJoin.optionalColumn_spec] at hd hd'
      by_cases hn : c ∈ jcs.map (·.2)
      · rw [if_pos hn] at hd; cases hd
      by_cases hn' : c' ∈ jcs.map (·.2)
      · rw [if_pos hn'] at hd'; cases hd'
      rw [if_neg hn] at hd
      rw [if_neg hn'] at hd'
      have e1 := Option.some.inj hd
      have e2 := Option.some.inj hd'
      have l1 := smaller_le hs c
      have l2 := smaller_le hs c'
      have b1 := MultiJoin.kept_index hs.right hn (show c < c + c' + 1 by omega)
      have b2 := MultiJoin.kept_index hs.right hn' (show c' < c + c' + 1 by omega)
      rw [show c - ((jcs.map (·.2)).filter fun d => d < c).length = c' - ((jcs.map (·.2)).filter fun d => d < c').length by omega]
        at b1
      rw [b1] at b2
      exact Option.some.inj b2
    · rintro c h1 d h2 rfl
      obtain ⟨⟨u, a⟩, hm, rfl⟩ := List.mem_map.mp h1
      obtain ⟨⟨u', d⟩, hm', he⟩ := List.mem_map.mp h2
      simp only at he
      subst he
      obtain ⟨c, hc, hn, he⟩ := hmem _ _ hm'
      have := smaller_le hs c
      have := hl.lt _ hm
      simp only at this
      omega
  · rintro ⟨v, d⟩ hm
    unfold optionalVariableColumns at hm
    rcases List.mem_append.mp hm with hm | hm
    · have := hl.lt _ hm
      simp only at this ⊢
      omega
    · obtain ⟨c, hc, hn, rfl⟩ := hmem _ _ hm
      have h1 := (List.getElem?_eq_some_iff.mp (hbound v c hc hn)).1
      have h2 := smaller_le hs c
      simp only
      omega
  · intro v
    unfold optionalVariableColumns
    rw [List.map_append, List.mem_append]
    constructor
    · rintro (h | h)
      · exact .inl h
      · obtain ⟨⟨u, d⟩, hm, he⟩ := List.mem_map.mp h
        simp only at he
        subst he
        obtain ⟨c, hc, _, _⟩ := hmem _ _ hm
        exact .inr (mem_keys hc)
    · rintro (h | h)
      · exact .inl h
      · by_cases h1 : v ∈ ml.map (·.1)
        · exact .inl h1
        · obtain ⟨c, hc⟩ := mem_of_key h
          exact .inr (List.mem_map.mpr ⟨(v, _), List.mem_filterMap.mpr ⟨_, hc, by rw [optionalColumn_some hr hs hc h1]; rfl⟩, rfl⟩)

omit hl in
/-- Every column has a variable if it is so on both sides. -/
theorem optionalCols_length (el : ml.length = wl) (er : mr.length = wr) :
    (optionalVariableColumns ml mr wl jcs).length = wl + wr - jcs.length := by
  unfold optionalVariableColumns
  rw [List.length_append, el]
  have hcount : ∀ m : VarMap, (m.filterMap fun p => (optionalColumn p.2 jcs (wl + p.2)).map fun c => (p.1, c)).length =
      (m.filter fun p => p.2 ∉ jcs.map (·.2)).length := by
    intro m
    induction m with
    | nil => rfl
    | cons p m ih =>
      rw [List.filterMap_cons, List.filter_cons]
      simp only [MultiJoin.optionalColumn_spec] at ih ⊢
      by_cases hp : p.2 ∈ jcs.map (·.2)
      · simp only [hp, if_true, Option.map_none, not_true, decide_false, Bool.false_eq_true, if_false]
        exact ih
      · simp only [hp, if_false, Option.map_some, not_false_iff, decide_true, if_true, List.length_cons]
        rw [ih]
  rw [hcount]
  have h1 : ((mr.filter fun p => decide (p.2 ∈ jcs.map (·.2))).map (·.2)).Perm (jcs.map (·.2)) := by
    rw [List.perm_ext_iff_of_nodup (hr.cols.sublist (List.filter_sublist.map _)) hs.right]
    intro c
    constructor
    · intro h
      obtain ⟨p, hp, rfl⟩ := List.mem_map.mp h
      simpa using (List.mem_filter.mp hp).2
    · intro h
      obtain ⟨⟨a, b⟩, hm, rfl⟩ := List.mem_map.mp h
      obtain ⟨v, h1, h2⟩ := (hs.mem a b).mp hm
      exact List.mem_map.mpr ⟨(v, b), List.mem_filter.mpr ⟨h2, by simpa using ⟨a, hm⟩⟩, rfl⟩
  have h2 := h1.length_eq
  rw [List.length_map, List.length_map] at h2
  have h3 := List.length_eq_length_filter_add (l := mr) (fun p => decide (p.2 ∈ jcs.map (·.2)))
  have h4 : (mr.filter fun p => p.2 ∉ jcs.map (·.2)) = mr.filter fun p => !decide (p.2 ∈ jcs.map (·.2)) := by
    apply List.filter_congr
    intro p _
    simp
  rw [h4]
  omega

end

end Verif.Planner
