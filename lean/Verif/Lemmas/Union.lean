import Verif.Model.Union
import Verif.Spec.Union
/-
Lemmas about the model of `Union`.
-/
namespace Verif.Union
open MultiJoin (VarMap)
open UnionSpec

theorem appendChunked_eq {n : Nat} (h : n ≠ 0) (t : Table) : appendChunked n t = .ok t := by
  unfold appendChunked
  rw [if_neg h]
  simp only [Outcome.ok.injEq]
  have key : ∀ m, m ≤ t.length / n →
      (List.range m).flatMap (fun i => (t.drop (i * n)).take ((i + 1) * n - i * n)) = t.take (m * n) := by
    intro m
    induction m with
    | zero => intro _; simp
    | succ m ih =>
      intro hm
      rw [List.range_succ, List.flatMap_append, ih (by omega)]
      have h1 : (m + 1) * n - m * n = n := by rw [Nat.add_mul]; omega
      simp only [List.flatMap_cons, List.flatMap_nil, List.append_nil, h1]
      rw [Nat.add_mul, Nat.one_mul, List.take_add]
  rw [key _ (Nat.le_refl _), List.take_append_drop]

/-- The row that `mapRow` builds from a wide enough row. -/
def outRow (os : List (Option Nat)) (row : Row) : Row :=
  os.map fun o => match o with | none => ID_NO_VALUE | some c => row.getD c 0

theorem mapRow_spec (row : Row) (os : List (Option Nat)) (h : ∀ c, some c ∈ os → c < row.length) :
    mapRow row os = .ok (outRow os row) := by
  induction os with
  | nil => rfl
  | cons o os ih =>
    have ih := ih (fun c hc => h c (List.mem_cons_of_mem _ hc))
    cases o with
    | none => simp [mapRow, ih, outRow]
    | some c =>
      have hc := h c List.mem_cons_self
      simp [mapRow, ih, Outcome.read, hc, outRow]

theorem mapRows_spec (os : List (Option Nat)) (t : Table) (h : ∀ r ∈ t, ∀ c, some c ∈ os → c < r.length) :
    mapRows os t = .ok (t.map (outRow os)) := by
  induction t with
  | nil => rfl
  | cons r t ih =>
    rw [mapRows, mapRow_spec r os (h r List.mem_cons_self), ih (fun r hr => h r (List.mem_cons_of_mem _ hr))]
    rfl

theorem columnsMatch_map {w : Nat} {os : List (Option Nat)} (h : columnsMatch w os = true) {r : Row} (hr : r.length = w) :
    outRow os r = r := by
  simp only [columnsMatch, Bool.and_eq_true, decide_eq_true_eq, List.all_eq_true] at h
  obtain ⟨h1, h2⟩ := h
  unfold outRow
  apply List.ext_getElem
  · simp; omega
  · intro i hi hi'
    have hio : i < os.length := by simpa using hi
    have : os[i] = some i := h2 (os[i], i) (List.mk_mem_zipIdx_iff_getElem?.mpr (List.getElem?_eq_getElem hio))
    rw [List.getElem_map, this]
    simp [hi']

theorem side_spec {n w : Nat} (hn : n ≠ 0) {t : Table} (hw : t.WF w) {os : List (Option Nat)}
    (h : ∀ c, some c ∈ os → c < w) :
    side n w t os = .ok (t.map (outRow os)) := by
  unfold side
  by_cases h0 : t.length > 0
  · rw [if_pos h0]
    by_cases hm : columnsMatch w os = true
    · rw [if_pos hm, appendChunked_eq hn]
      congr 1
      conv => lhs; rw [← List.map_id t]
      exact List.map_congr_left fun r hr => (columnsMatch_map hm (hw r hr)).symm
    · rw [if_neg hm]
      exact mapRows_spec os t (fun r hr c hc => by rw [hw r hr]; exact h c hc)
  · rw [if_neg h0]
    have : t = [] := List.length_eq_zero_iff.mp (by omega)
    subst this; rfl

/-! ### The variable map -/

theorem find_eq_some {m : VarMap} (hn : (m.map (·.1)).Nodup) {v : String} {c : Nat} : find m v = some c ↔ (v, c) ∈ m := by
  induction m with
  | nil => simp [find]
  | cons p m ih =>
    simp only [List.map_cons, List.nodup_cons] at hn
    have ih := ih hn.2
    simp only [find, List.find?_cons] at ih ⊢
    by_cases hp : p.1 = v
    · subst hp
      simp only [decide_true, Option.map_some, Option.some.injEq, List.mem_cons]
      constructor
      · intro h; left; rw [← h]
      · rintro (h | h)
        · rw [← h]
        · exact absurd (List.mem_map.mpr ⟨_, h, rfl⟩) hn.1
    · simp only [hp, decide_false, List.mem_cons]
      rw [ih]
      constructor
      · exact Or.inr
      · rintro (h | h)
        · rw [← h] at hp; exact absurd rfl hp
        · exact h

theorem find_eq_none {m : VarMap} {v : String} : find m v = none ↔ v ∉ m.map (·.1) := by
  simp only [find, Option.map_eq_none_iff, List.find?_eq_none, decide_eq_true_eq, List.mem_map, not_exists, not_and]

theorem variableColumns_names (left right : VarMap) (hl : (left.map (·.1)).Nodup) (hr : (right.map (·.1)).Nodup) :
    ((variableColumns left right).map (·.1)).Nodup ∧
    ∀ v, v ∈ (variableColumns left right).map (·.1) ↔ v ∈ left.map (·.1) ∨ v ∈ right.map (·.1) := by
  have hnew : ((((right.filter fun p => (find left p.1).isNone).zipIdx left.length).map
      fun q => (q.1.1, q.2)).map (·.1)) = (right.filter fun p => (find left p.1).isNone).map (·.1) := by
    rw [List.map_map]
    conv => rhs; rw [← List.zipIdx_map_fst left.length (right.filter _), List.map_map]
    rfl
  have hmem : ∀ v, v ∈ (right.filter fun p => (find left p.1).isNone).map (·.1) ↔
      v ∈ right.map (·.1) ∧ v ∉ left.map (·.1) := by
    intro v
    simp only [List.mem_map, List.mem_filter, Option.isNone_iff_eq_none, find_eq_none]
    constructor
    · rintro ⟨p, ⟨h1, h2⟩, rfl⟩; exact ⟨⟨p, h1, rfl⟩, by simpa using h2⟩
    · rintro ⟨⟨p, h1, rfl⟩, h2⟩; exact ⟨p, ⟨h1, by simpa using h2⟩, rfl⟩
  constructor
  · unfold variableColumns
    rw [List.map_append, hnew, List.nodup_append]
    refine ⟨hl, hr.sublist ((List.filter_sublist).map _), ?_⟩
    intro a ha b hb hab
    subst hab
    exact ((hmem a).mp hb).2 ha
  · intro v
    unfold variableColumns
    rw [List.map_append, hnew, List.mem_append, hmem]
    by_cases h : v ∈ left.map (·.1) <;> simp [h]

theorem variableColumns_cols (left right : VarMap) (hl : (left.map (·.2)).Perm (List.range left.length)) :
    ((variableColumns left right).map (·.2)).Perm (List.range (variableColumns left right).length) := by
  unfold variableColumns
  rw [List.map_append, List.map_map]
  have : ((right.filter fun p => (find left p.1).isNone).zipIdx left.length).map ((fun x => x.2) ∘ fun q => (q.1.1, q.2))
      = List.range' left.length (right.filter fun p => (find left p.1).isNone).length := by
    rw [← List.zipIdx_map_snd left.length]; rfl
  rw [this, List.length_append, List.length_map, List.length_zipIdx, List.range_eq_range', List.range'_append_1.symm,
    Nat.zero_add]
  rw [List.range_eq_range'] at hl
  exact hl.append_right _

theorem go_spec (left right : VarMap) : ∀ (ps : VarMap) (acc : List (Option Nat × Option Nat)),
    (∀ p ∈ ps, p.2 < acc.length) → (ps.map (·.2)).Nodup →
    ∃ o, columnOrigins.go left right ps acc = .ok o ∧ o.length = acc.length ∧
      (∀ p ∈ ps, o[p.2]? = some (find left p.1, find right p.1)) ∧
      ∀ c, c ∉ ps.map (·.2) → o[c]? = acc[c]? := by
  intro ps
  induction ps with
  | nil => intro acc _ _; exact ⟨acc, rfl, rfl, by simp, fun _ _ => rfl⟩
  | cons p ps ih =>
    intro acc h hn
    have hp := h p List.mem_cons_self
    simp only [List.map_cons, List.nodup_cons] at hn
    obtain ⟨o, h1, h2, h3, h4⟩ := ih (acc.set p.2 (find left p.1, find right p.1))
      (fun q hq => by rw [List.length_set]; exact h q (List.mem_cons_of_mem _ hq)) hn.2
    refine ⟨o, by rw [columnOrigins.go, if_pos hp, h1], by rw [h2, List.length_set], ?_, ?_⟩
    · intro q hq
      rcases List.mem_cons.mp hq with rfl | hq
      · rw [h4 _ hn.1, List.getElem?_set_self hp]
      · exact h3 q hq
    · intro c hc
      simp only [List.map_cons, List.mem_cons, not_or] at hc
      rw [h4 c hc.2, List.getElem?_set_ne (fun h => hc.1 h.symm)]

theorem columnOrigins_spec {left right : VarMap} (hl : (left.map (·.2)).Perm (List.range left.length)) :
    ∃ o, columnOrigins left right = .ok o ∧ o.length = (variableColumns left right).length ∧
      ∀ p ∈ variableColumns left right, o[p.2]? = some (find left p.1, find right p.1) := by
  have hc := variableColumns_cols left right hl
  obtain ⟨o, h1, h2, h3, _⟩ := go_spec left right (variableColumns left right)
    (List.replicate (variableColumns left right).length (none, none))
    (by
      intro p hp
      rw [List.length_replicate]
      exact List.mem_range.mp (hc.subset (List.mem_map.mpr ⟨p, hp, rfl⟩)))
    (hc.nodup_iff.mpr List.nodup_range)
  exact ⟨o, h1, by rw [h2, List.length_replicate], h3⟩

end Verif.Union
