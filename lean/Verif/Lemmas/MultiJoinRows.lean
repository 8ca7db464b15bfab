import Verif.Lemmas.MultiJoin
import Verif.Spec.Join
/-
The rows written by `MultiColumnJoin` and `OptionalJoin`.
-/
namespace Verif.MultiJoin
open JoinSpec

theorem and_shift_eq_zero (m c : Nat) : m &&& (1 <<< c) = 0 ↔ m.testBit c = false := by
  rw [Nat.one_shiftLeft]
  constructor
  · intro h
    have := congrArg (fun n => n.testBit c) h
    simpa [Nat.testBit_and, Nat.testBit_two_pow_self] using this
  · intro h
    apply Nat.eq_of_testBit_eq
    intro i
    rw [Nat.testBit_and, Nat.testBit_two_pow, Nat.zero_testBit]
    by_cases hc : c = i
    · subst hc; simp [h]
    · simp [hc]

theorem bitmap_spec {cols : List Nat} (h : ∀ c ∈ cols, c < 32) :
    ∃ m, bitmap cols = .ok m ∧ ∀ c, m.testBit c = decide (c ∈ cols) := by
  induction cols with
  | nil => exact ⟨0, rfl, by simp⟩
  | cons c cs ih =>
    obtain ⟨m, hm, hb⟩ := ih (fun d hd => h d (List.mem_cons_of_mem _ hd))
    refine ⟨m ||| 1 <<< c, ?_, ?_⟩
    · simp only [bitmap, shiftOne, if_pos (h c List.mem_cons_self), Outcome.bind, hm]
    · intro d
      rw [Nat.testBit_or, hb, Nat.one_shiftLeft, Nat.testBit_two_pow]
      rw [Bool.eq_iff_iff]
      simp only [Bool.or_eq_true, decide_eq_true_eq, List.mem_cons]
      constructor
      · rintro (h | rfl)
        · exact .inr h
        · exact .inl rfl
      · rintro (rfl | h)
        · exact .inr rfl
        · exact .inl h

theorem keepCols_spec {bm : Nat} {cols : List Nat} (hb : ∀ c, bm.testBit c = decide (c ∈ cols)) (y : Row) :
    ∀ c, c + y.length ≤ 32 → keepCols bm c y = .ok (((y.zipIdx c).filter fun p => p.2 ∉ cols).map (·.1)) := by
  induction y with
  | nil => intro c _; rfl
  | cons v vs ih =>
    intro c hc
    simp only [List.length_cons] at hc
    simp only [keepCols, shiftOne, if_pos (show c < 32 by omega), Outcome.bind, ih (c + 1) (by omega), List.zipIdx_cons,
      and_shift_eq_zero, hb]
    by_cases hm : c ∈ cols
    · simp [hm]
    · simp [hm]

theorem keepCols_without {bm : Nat} {cols : List Nat} (hb : ∀ c, bm.testBit c = decide (c ∈ cols)) {y : Row}
    (hy : y.length ≤ 32) : keepCols bm 0 y = .ok (without cols y) :=
  keepCols_spec hb y 0 (by omega)

/-- The remaining columns, by number. -/
def kept (n : Nat) (cols : List Nat) : List Nat := (List.range n).filter fun c => c ∉ cols

theorem without_eq (cols : List Nat) (y : Row) : without cols y = (kept y.length cols).map fun c => y.getD c 0 := by
  have h : y.zipIdx = (List.range y.length).map fun c => (y.getD c 0, c) := by
    apply List.ext_getElem
    · simp
    · intro i h1 h2
      simp at h1
      simp [h1]
  unfold without kept
  rw [h, List.filter_map, List.map_map]
  rfl

theorem kept_length {n : Nat} {cols : List Nat} (hn : cols.Nodup) (hc : ∀ c ∈ cols, c < n) :
    (kept n cols).length + cols.length = n := by
  have h1 : ((List.range n).filter fun c => c ∈ cols).Perm cols := by
    rw [List.perm_ext_iff_of_nodup (List.nodup_range.filter _) hn]
    intro c
    simp only [List.mem_filter, List.mem_range, decide_eq_true_eq]
    exact ⟨fun h => h.2, fun h => ⟨hc c h, h⟩⟩
  have h2 := List.length_eq_length_filter_add (l := List.range n) (fun c => decide (c ∈ cols))
  rw [h1.length_eq, List.length_range] at h2
  have h3 : (List.range n).filter (fun x => !decide (x ∈ cols)) = kept n cols := by
    unfold kept
    congr 1
    funext x
    simp
  rw [h3] at h2
  omega

theorem without_length {cols : List Nat} {y : Row} (hn : cols.Nodup) (hc : ∀ c ∈ cols, c < y.length) :
    (without cols y).length = y.length - cols.length := by
  rw [without_eq, List.length_map]
  have := kept_length hn hc
  omega

/-- Where a remaining column ends up. -/
theorem kept_index {n : Nat} {cols : List Nat} (hn : cols.Nodup) {c : Nat} (hc : c ∉ cols) (hcn : c < n) :
    (kept n cols)[c - (cols.filter fun d => d < c).length]? = some c := by
  have hsplit : List.range n = List.range c ++ (List.range' c (n - c)) := by
    rw [List.range_eq_range', List.range_eq_range', show n = c + (n - c) by omega]
    rw [← List.range'_append_1]
    simp
  have hhead : List.range' c (n - c) = c :: List.range' (c + 1) (n - c - 1) := by
    rw [show n - c = (n - c - 1) + 1 by omega, List.range'_succ]
    simp
  have hk : kept n cols = kept c cols ++ c :: (List.range' (c + 1) (n - c - 1)).filter fun c => c ∉ cols := by
    unfold kept
    rw [hsplit, List.filter_append, hhead, List.filter_cons_of_pos (by simp [hc])]
  have hlen : (kept c cols).length = c - (cols.filter fun d => d < c).length := by
    have e : kept c cols = kept c (cols.filter fun d => d < c) := by
      unfold kept
      apply List.filter_congr
      intro d hd
      have := List.mem_range.mp hd
      simp [this]
    have := kept_length (n := c) (cols := cols.filter fun d => d < c) (hn.filter _)
      (by intro d hd; simpa using (List.mem_filter.mp hd).2)
    rw [← e] at this
    omega
  rw [hk, ← hlen, List.getElem?_append_right (Nat.le_refl _)]
  simp

theorem foldl_max_ge (l : List Nat) : ∀ m, m ≤ l.foldl max m ∧ ∀ x ∈ l, x ≤ l.foldl max m := by
  induction l with
  | nil => intro m; simp
  | cons y l ih =>
    intro m
    obtain ⟨h1, h2⟩ := ih (max m y)
    simp only [List.foldl_cons]
    refine ⟨by omega, ?_⟩
    intro x hx
    rcases List.mem_cons.mp hx with rfl | hx
    · omega
    · exact h2 x hx

theorem foldl_set_other {c : Nat} : ∀ (jcs : JoinCols) (v : List Nat), c ∉ jcs.map (·.1) →
    (jcs.foldl (fun v jc => v.set jc.1 jc.2) v)[c]? = v[c]? := by
  intro jcs
  induction jcs with
  | nil => intro v _; rfl
  | cons jc jcs ih =>
    intro v h
    simp only [List.map_cons, List.mem_cons, not_or] at h
    rw [List.foldl_cons, ih _ h.2, List.getElem?_set_ne (fun e => h.1 e.symm)]

theorem foldl_set_mem : ∀ (jcs : JoinCols) (v : List Nat), (jcs.map (·.1)).Nodup → ∀ jc ∈ jcs, jc.1 < v.length →
    (jcs.foldl (fun v jc => v.set jc.1 jc.2) v)[jc.1]? = some jc.2 := by
  intro jcs
  induction jcs with
  | nil => intro v _ jc h; simp at h
  | cons c jcs ih =>
    intro v hn jc hjc hlt
    simp only [List.map_cons, List.nodup_cons] at hn
    rw [List.foldl_cons]
    rcases List.mem_cons.mp hjc with rfl | hjc
    · rw [foldl_set_other _ _ hn.1, List.getElem?_set_self hlt]
    · exact ih _ hn.2 jc hjc (by simpa using hlt)

theorem joinColumnAToB_spec {jcs : JoinCols} (hn : (jcs.map (·.1)).Nodup) {jc : Nat × Nat} (h : jc ∈ jcs) :
    Outcome.read (joinColumnAToB jcs) jc.1 = .ok jc.2 := by
  unfold Outcome.read joinColumnAToB
  rw [foldl_set_mem jcs _ hn jc h]
  rw [List.length_replicate]
  have := (foldl_max_ge (jcs.map (·.1)) 0).2 jc.1 (List.mem_map_of_mem h)
  omega

theorem find_nodup {jcs : JoinCols} (hn : (jcs.map (·.1)).Nodup) {jc : Nat × Nat} (hjc : jc ∈ jcs) :
    jcs.find? (fun jc' => jc'.1 = jc.1) = some jc := by
    rw [List.find?_eq_some_iff_getElem]
    obtain ⟨i, hi, rfl⟩ := List.mem_iff_getElem.mp hjc
    refine ⟨by simp, i, hi, rfl, ?_⟩
    intro j hj
    simp only [Bool.not_eq_eq_eq_not, Bool.not_true, decide_eq_false_iff_not]
    intro he
    have := (List.getElem_inj (i := j) (j := i) (h₀ := by simp; omega) (h₁ := by simpa using hi) hn).mp
      (by simpa using he)
    omega

theorem padLeft_spec {bmA : Nat} {jcs : JoinCols} (hb : ∀ c, bmA.testBit c = decide (c ∈ jcs.map (·.1)))
    (hn : (jcs.map (·.1)).Nodup) {y : Row} (hy : ∀ jc ∈ jcs, jc.2 < y.length) :
    ∀ n c, c + n ≤ 32 → padLeft bmA (joinColumnAToB jcs) y c n = .ok ((List.range' c n).map fun c =>
      match jcs.find? fun jc => jc.1 = c with
      | some jc => y.getD jc.2 0
      | none => ID_NO_VALUE) := by
  intro n
  induction n with
  | zero => intro c _; rfl
  | succ n ih =>
    intro c hc
    simp only [padLeft, shiftOne, if_pos (show c < 32 by omega), Outcome.bind, ih (c + 1) (by omega), List.range'_succ,
      List.map_cons, and_shift_eq_zero, hb]
    by_cases hm : c ∈ jcs.map (·.1)
    · obtain ⟨jc, hjc, rfl⟩ := List.mem_map.mp hm
      have hfind := find_nodup hn hjc
      rw [if_neg (by simpa using ⟨jc.2, hjc⟩)]
      simp only [joinColumnAToB_spec hn hjc, Outcome.read_lt _ _ (hy jc hjc), hfind]
      simp [hy jc hjc]
    · have hfind : jcs.find? (fun jc' => jc'.1 = c) = none := by
        rw [List.find?_eq_none]
        intro jc hjc he
        exact hm (List.mem_map.mpr ⟨jc, hjc, by simpa using he⟩)
      rw [if_pos (by simpa using hm), hfind]

theorem agree_iff (jcs : JoinCols) (x y : Row) : agree jcs x y = true ↔ ka jcs x = kb jcs y := by
  simp only [agree, List.all_eq_true, decide_eq_true_eq, ka, kb]
  rw [List.map_inj_left]

theorem sorted_ka {jcs : JoinCols} {t : Table} (h : SortedOnCols (jcs.map (·.1)) t) :
    t.Pairwise fun x y => ka jcs x ≤ ka jcs y := by
  refine h.imp ?_
  intro x y hxy
  have e : ∀ z : Row, key (jcs.map (·.1)) z = ka jcs z := by intro z; simp [key, ka]
  rw [e, e] at hxy
  exact not_lt.mp hxy

theorem sorted_kb {jcs : JoinCols} {t : Table} (h : SortedOnCols (jcs.map (·.2)) t) :
    t.Pairwise fun x y => kb jcs x ≤ kb jcs y := by
  refine h.imp ?_
  intro x y hxy
  have e : ∀ z : Row, key (jcs.map (·.2)) z = kb jcs z := by intro z; simp [key, kb]
  rw [e, e] at hxy
  exact not_lt.mp hxy

theorem optionalColumn_spec (col : Nat) : ∀ (jcs : JoinCols) (ci : Nat),
    optionalColumn col jcs ci = if col ∈ jcs.map (·.2) then none
      else some (ci - ((jcs.map (·.2)).filter fun d => d < col).length) := by
  intro jcs
  induction jcs with
  | nil => intro ci; simp [optionalColumn]
  | cons jc jcs ih =>
    intro ci
    simp only [optionalColumn, List.map_cons, List.mem_cons]
    by_cases h1 : jc.2 < col
    · rw [if_pos h1, ih]
      have hne : ¬ col = jc.2 := by omega
      simp only [hne, false_or]
      rw [List.filter_cons_of_pos (by simpa using h1), List.length_cons]
      by_cases hm : col ∈ jcs.map (·.2)
      · rw [if_pos hm, if_pos hm]
      · rw [if_neg hm, if_neg hm]
        congr 1
        omega
    · rw [if_neg h1]
      by_cases h2 : jc.2 = col
      · rw [if_pos h2, if_pos (.inl h2.symm)]
      · rw [if_neg h2, ih]
        have hne : ¬ col = jc.2 := fun e => h2 e.symm
        simp only [hne, false_or]
        rw [List.filter_cons_of_neg (by simpa using h1)]

end Verif.MultiJoin
