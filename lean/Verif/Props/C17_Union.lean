import Verif.Lemmas.Union
import Mathlib.Data.List.Forall2
/-
C17: UNION is the bag union of its two sides.
-/
namespace Verif.Union
open MultiJoin (VarMap)
open UnionSpec

theorem find_of_value_def (m : VarMap) (row : Row) (v : String) :
    value m row v = match find m v with | some c => row[c]? | none => some ID_NO_VALUE := by
  unfold value find
  cases m.find? fun p => decide (p.1 = v) <;> rfl

/-- C17: for all inputs the union is defined; its columns are exactly the variables of the two sides; its rows are the rows of the
left side followed by those of the right side, each once; and every row assigns to every variable what the input row assigned
to it, where a variable that the side does not have is unbound. -/
theorem C17_union {left right : VarMap} {wl wr : Nat} {a b : Table} (hl : Covers left wl) (hr : (right.map (·.1)).Nodup)
    (hrc : ∀ p ∈ right, p.2 < wr) (ha : a.WF wl) (hb : b.WF wr) (h0 : variableColumns left right ≠ [])
    (hmax : (variableColumns left right).length ≤ 100000) :
    ∃ o t, columnOrigins left right = .ok o ∧ computeUnion wl wr a b o = .ok t ∧
      Covers (variableColumns left right) o.length ∧
      (∀ v, v ∈ (variableColumns left right).map (·.1) ↔ v ∈ left.map (·.1) ∨ v ∈ right.map (·.1)) ∧
      t.WF o.length ∧
      ∃ ta tb, t = ta ++ tb ∧
        List.Forall₂ (fun r r' => ∀ v, value (variableColumns left right) r' v = value left r v) a ta ∧
        List.Forall₂ (fun r r' => ∀ v, value (variableColumns left right) r' v = value right r v) b tb := by
  have hlen : left.length = wl := by simpa using hl.2.length_eq
  have hl2 : (left.map (·.2)).Perm (List.range left.length) := by rw [hlen]; exact hl.2
  obtain ⟨hn, hv⟩ := variableColumns_names left right hl.1 hr
  obtain ⟨o, h1, h2, h3⟩ := columnOrigins_spec (right := right) hl2
  have hc := variableColumns_cols left right hl2
  rw [← h2] at hc
  have hpos : 0 < (variableColumns left right).length := List.length_pos_iff.mpr h0
  have hlc : ∀ v c, find left v = some c → c < wl := by
    intro v c h
    have := (find_eq_some hl.1).mp h
    exact List.mem_range.mp (hl.2.subset (List.mem_map.mpr ⟨_, this, rfl⟩))
  have hrc' : ∀ v c, find right v = some c → c < wr := fun v c h => hrc _ ((find_eq_some hr).mp h)
  -- every cell of `o` belongs to a variable
  have hcell : ∀ i, i < o.length → ∃ v, (v, i) ∈ variableColumns left right ∧ o[i]? = some (find left v, find right v) := by
    intro i hi
    have : i ∈ (variableColumns left right).map (·.2) := hc.symm.subset (List.mem_range.mpr hi)
    obtain ⟨⟨v, j⟩, hp, hj⟩ := List.mem_map.mp this
    simp only at hj
    subst hj
    exact ⟨v, hp, h3 _ hp⟩
  have hol : ∀ c, some c ∈ o.map (·.1) → c < wl := by
    intro c h
    obtain ⟨x, hx, hxc⟩ := List.mem_map.mp h
    obtain ⟨i, hi, hix⟩ := List.getElem_of_mem hx
    obtain ⟨v, _, hv⟩ := hcell i hi
    rw [List.getElem?_eq_getElem hi, hix] at hv
    simp only [Option.some.injEq] at hv
    rw [hv] at hxc
    exact hlc v c hxc
  have hor : ∀ c, some c ∈ o.map (·.2) → c < wr := by
    intro c h
    obtain ⟨x, hx, hxc⟩ := List.mem_map.mp h
    obtain ⟨i, hi, hix⟩ := List.getElem_of_mem hx
    obtain ⟨v, _, hv⟩ := hcell i hi
    rw [List.getElem?_eq_getElem hi, hix] at hv
    simp only [Option.some.injEq] at hv
    rw [hv] at hxc
    exact hrc' v c hxc
  have hk : 100000 / o.length ≠ 0 := by
    have : 0 < 100000 / o.length := Nat.div_pos (by omega) (by omega)
    omega
  refine ⟨o, a.map (outRow (o.map (·.1))) ++ b.map (outRow (o.map (·.2))), h1, ?_, ⟨hn, hc⟩, hv, ?_, _, _, rfl, ?_, ?_⟩
  · unfold computeUnion
    rw [if_neg (by omega)]
    simp only [side_spec hk ha hol, side_spec hk hb hor, Outcome.bind, Outcome.map]
  · intro r hr
    rcases List.mem_append.mp hr with hr | hr <;> obtain ⟨x, _, rfl⟩ := List.mem_map.mp hr <;> simp [outRow]
  · rw [List.forall₂_map_right_iff, List.forall₂_same]
    intro r hr v
    rw [find_of_value_def, find_of_value_def]
    cases hf : find (variableColumns left right) v with
    | none =>
      have : find left v = none := find_eq_none.mpr fun h => find_eq_none.mp hf ((hv v).mpr (.inl h))
      rw [this]
    | some i =>
      have hp := (find_eq_some hn).mp hf
      have hoi := h3 _ hp
      simp only [outRow, List.getElem?_map, hoi, Option.map_some]
      cases hfl : find left v with
      | none => rfl
      | some c =>
        have : c < r.length := by rw [ha r hr]; exact hlc v c hfl
        simp [this]
  · rw [List.forall₂_map_right_iff, List.forall₂_same]
    intro r hr' v
    rw [find_of_value_def, find_of_value_def]
    cases hf : find (variableColumns left right) v with
    | none =>
      have : find right v = none := find_eq_none.mpr fun h => find_eq_none.mp hf ((hv v).mpr (.inr h))
      rw [this]
    | some i =>
      have hp := (find_eq_some hn).mp hf
      have hoi := h3 _ hp
      simp only [outRow, List.getElem?_map, hoi, Option.map_some]
      cases hfl : find right v with
      | none => rfl
      | some c =>
        have : c < r.length := by rw [hb r hr']; exact hrc' v c hfl
        simp [this]

/-- The hypotheses of `C17_union` are met by `{?a, ?b} UNION {?c, ?b}` with a hidden column on the right. -/
example : ∃ o t, columnOrigins [("?b", 1), ("?a", 0)] [("?c", 2), ("?b", 0)] = .ok o ∧
    computeUnion 2 3 [[1, 2], [1, 2]] [[3, 4, 5]] o = .ok t :=
  let ⟨o, t, h1, h2, _⟩ := C17_union (left := [("?b", 1), ("?a", 0)]) (right := [("?c", 2), ("?b", 0)]) (wl := 2) (wr := 3)
    (a := [[1, 2], [1, 2]]) (b := [[3, 4, 5]])
    ⟨by decide, by decide⟩ (by decide) (by decide) (by unfold Table.WF; decide) (by unfold Table.WF; decide)
    (by decide) (by decide)
  ⟨o, t, h1, h2⟩

/-- A test of what the result looks like. -/
example : (columnOrigins [("?b", 1), ("?a", 0)] [("?c", 2), ("?b", 0)]).bind
    (computeUnion 2 3 [[1, 2], [1, 2]] [[3, 4, 5]]) =
    .ok [[1, 2, ID_NO_VALUE], [1, 2, ID_NO_VALUE], [ID_NO_VALUE, 3, 5]] := by decide

/-- C17, result types: a result column that the left side feeds has the type that the left side declares.
Missing: columns that only the right side feeds, see `C17_types_violated`. -/
theorem C17_types_partial {T : Type} {kb : T} {types1 types2 : List T} {o : List (Option Nat × Option Nat)} {i c : Nat}
    {x : Option Nat} (h : o[i]? = some (some c, x)) :
    (resultTypes kb types1 types2 o)[i]? = some (types1.getD c kb) := by
  simp [resultTypes, h, getResultType]

example : (resultTypes 0 [7, 8] [9] [(some 1, some 0), (none, some 0)])[0]? = some 8 :=
  C17_types_partial (kb := 0) (types1 := [7, 8]) (types2 := [9]) (o := [(some 1, some 0), (none, some 0)]) (i := 0) (c := 1)
    (x := some 0) rfl

/-- C17 is violated for the types: a column that only the right side feeds gets the type of a column of the left side.  Here `1`
stands for `ResultType::VERBATIM` (the right side counts something) and `0` for `KB`: the result declares `KB`. -/
theorem C17_types_violated : ∃ o, columnOrigins [("?a", 0)] [("?n", 0)] = .ok o ∧
    o[1]? = some (none, some 0) ∧ (resultTypes 0 [0] [1] o)[1]? = some 0 := ⟨[(some 0, none), (none, some 0)], by decide⟩

/-- C17 needs the columns of the left variables to be all columns of the left table: with a hidden column on the left the
constructor writes beyond `_columnOrigins`. -/
theorem C17_hidden_left_column : columnOrigins [("?a", 1)] [("?a", 0)] = .ub := by decide

/-- C17 needs at least one variable: without variables `computeUnion` divides by zero. -/
theorem C17_no_variable : (columnOrigins [] []).bind (computeUnion 0 0 [[]] []) = .ub := by decide

end Verif.Union
