import Verif.Lemmas.IdTable
/-
C25: the id table behaves like a list of rows.
-/
namespace Verif.IdTable
open RowListSpec (Step Run)

/-- The operation on lists of rows that an operation stands for. -/
def toSpec : Op → RowListSpec.Op
  | .pushBack row => .pushBack row
  | .emplaceBack => .emplaceBack
  | .popBack => .popBack
  | .insert pos src b e => .insert pos (((rows src).take e).drop b)
  | .erase b e => .erase b e
  | .eraseOne b => .eraseOne b
  | .clear => .clear
  | .reserve n => .reserve n
  | .resize n => .resize n
  | .set i c v => .set i c v

/-- The arguments are in range for a table with `cols` columns and `n` rows: rows have the right width, inserted ranges are ranges of another
table with the same width, and cells that are written exist. `erase` must not be called with the row 0 as end if there are no columns. -/
def Args (cols n : Nat) : Op → Prop
  | .pushBack row => row.length = cols
  | .insert _ src b e => Sound src ∧ src.cols = cols ∧ (b < e → e ≤ src.size)
  | .erase _ e => cols ≠ 0 ∨ e ≠ 0
  | .set i c _ => i < n ∧ c < cols
  | _ => True

/-- The number of rows after an operation. -/
def count (n : Nat) : Op → Nat
  | .pushBack _ => n + 1
  | .emplaceBack => n + 1
  | .popBack => n - 1
  | .insert _ _ b e => n + (e - b)
  | .erase b e => n - (min e n - b)
  | .eraseOne b => if b < n then n - 1 else n
  | .clear => 0
  | .reserve _ => n
  | .resize m => m
  | .set _ _ _ => n

/-- The arguments of all operations are in range. -/
def ArgsAll (cols n : Nat) : List Op → Prop
  | [] => True
  | op :: ops => Args cols n op ∧ ArgsAll cols (count n op) ops

theorem pushBack_ok {t : Tab} (h : Sound t) {row : Row} (hr : row.length = t.cols) :
    ∃ t', pushBack t row = .ok t' ∧ t'.cols = t.cols ∧ Sound t' ∧ rows t' = rows t ++ [row] := by
  unfold pushBack
  simp only
  obtain ⟨t1, ht1, hs1, hc1, hz1, hr1, hcap⟩ : ∃ t1, (if t.size + 1 ≥ t.cap then grow t 0 else t) = t1 ∧ Sound t1 ∧ t1.cols = t.cols ∧
      t1.size = t.size ∧ rows t1 = rows t ∧ t1.size + 1 ≤ t1.cap := by
    by_cases hc : t.size + 1 ≥ t.cap
    · obtain ⟨g1, g2, g3, g4, g5⟩ := grow_spec h (n := 0)
      refine ⟨_, if_pos hc, g3, g2, g1, g4, ?_⟩
      rw [g5, if_pos rfl, g1]
      have := growCapacity_gt t.cap
      have := h.1
      omega
    · exact ⟨_, if_neg hc, h, rfl, rfl, rfl, by omega⟩
  rw [ht1, readRange, if_pos (by omega)]
  simp only [Outcome.bind]
  rw [List.drop_zero, List.take_of_length_le (by omega)]
  have hle : t1.size * t1.cols + row.length ≤ t1.data.length := by
    rw [hs1.2, hr, ← hc1]
    have := Nat.mul_le_mul_right t1.cols hcap
    rw [Nat.add_mul, Nat.one_mul] at this
    exact this
  obtain ⟨d, hd1, hd2, hd3, hd4⟩ := write_spec hle
  rw [hd1]
  refine ⟨_, rfl, hc1, ?_, ?_⟩
  · exact ⟨hcap, by simpa [hd2] using hs1.2⟩
  · have hs' : Sound { t1 with data := d, size := t1.size + 1 } := ⟨hcap, by simpa [hd2] using hs1.2⟩
    refine rows_eq hs' ?_ ?_ ?_
    · simp [rows_length, hz1]
    · intro r hrm
      simp only [List.mem_append, List.mem_singleton] at hrm
      rcases hrm with hrm | rfl
      · exact (rows_wf h r hrm).trans hc1.symm
      · exact hr.trans hc1.symm
    · simp only
      rw [List.flatten_append, ← hr1, rows_flatten hs1, Nat.add_mul, Nat.one_mul, take_split, hd3, hd4,
        List.take_append_of_le_length (by omega), List.take_of_length_le (l := row) (by omega)]
      simp

theorem emplaceBack_ok {t : Tab} (h : Sound t) :
    ∃ row : Row, row.length = t.cols ∧ (emplaceBack t).cols = t.cols ∧ Sound (emplaceBack t) ∧ rows (emplaceBack t) = rows t ++ [row] := by
  unfold emplaceBack
  simp only
  obtain ⟨t1, ht1, hs1, hc1, hz1, hr1, hcap⟩ : ∃ t1, (if t.size + 1 ≥ t.cap then grow t 0 else t) = t1 ∧ Sound t1 ∧ t1.cols = t.cols ∧
      t1.size = t.size ∧ rows t1 = rows t ∧ t1.size + 1 ≤ t1.cap := by
    by_cases hc : t.size + 1 ≥ t.cap
    · obtain ⟨g1, g2, g3, g4, g5⟩ := grow_spec h (n := 0)
      refine ⟨_, if_pos hc, g3, g2, g1, g4, ?_⟩
      rw [g5, if_pos rfl, g1]
      have := growCapacity_gt t.cap
      have := h.1
      omega
    · exact ⟨_, if_neg hc, h, rfl, rfl, rfl, by omega⟩
  rw [ht1, ← hc1, ← hr1]
  have hs' : Sound { t1 with size := t1.size + 1 } := ⟨hcap, hs1.2⟩
  refine ⟨(t1.data.drop (t1.size * t1.cols)).take t1.cols, ?_, rfl, hs', ?_⟩
  · have := rows_wf hs' ((t1.data.drop (t1.size * t1.cols)).take t1.cols) (List.mem_map.mpr ⟨t1.size, by simp, rfl⟩)
    exact this
  · unfold rows
    simp only
    rw [List.range_succ, List.map_append, List.map_singleton]

theorem popBack_ok {t : Tab} (h : Sound t) : (popBack t).cols = t.cols ∧ Sound (popBack t) ∧ rows (popBack t) = (rows t).dropLast := by
  unfold popBack
  by_cases hz : t.size > 0
  · rw [if_pos hz]
    have := h.1
    refine ⟨rfl, ⟨by simp only; omega, h.2⟩, ?_⟩
    unfold rows
    simp only
    obtain ⟨n, hn⟩ : ∃ n, t.size = n + 1 := ⟨t.size - 1, by omega⟩
    rw [hn, List.range_succ, List.map_append, List.map_singleton, List.dropLast_concat]
    rfl
  · rw [if_neg hz]
    have : rows t = [] := List.length_eq_zero_iff.mp (by rw [rows_length]; omega)
    exact ⟨rfl, h, by rw [this]; rfl⟩

theorem shrink_ok {t : Tab} (h : Sound t) {n : Nat} (hn : n ≤ t.size) : Sound { t with size := n } ∧ rows { t with size := n } = (rows t).take n := by
  refine ⟨⟨Nat.le_trans hn h.1, h.2⟩, ?_⟩
  unfold rows
  simp only
  rw [← List.map_take, List.take_range, Nat.min_eq_left hn]

theorem insert_ok {t src : Tab} (h : Sound t) (hsrc : Sound src) (hcols : src.cols = t.cols) (pos : Nat) {b e : Nat} (he : b < e → e ≤ src.size) :
    ∃ t', insert t pos src b e = .ok t' ∧ t'.cols = t.cols ∧ Sound t' ∧
      rows t' = (rows t).take pos ++ ((rows src).take e).drop b ++ (rows t).drop pos := by
  unfold insert
  by_cases hbe : b ≥ e
  · rw [if_pos hbe]
    refine ⟨t, rfl, rfl, h, ?_⟩
    rw [List.drop_of_length_le (by rw [List.length_take]; omega), List.append_nil, List.take_append_drop]
  · rw [if_neg hbe]
    have he := he (by omega)
    simp only
    obtain ⟨t1, ht1, hs1, hc1, hz1, hr1, hcap⟩ : ∃ t1, (if t.cap < t.size + (e - b) then grow t (t.size + (e - b) - t.cap) else t) = t1 ∧
        Sound t1 ∧ t1.cols = t.cols ∧ t1.size = t.size ∧ rows t1 = rows t ∧ t1.size + (e - b) ≤ t1.cap := by
      by_cases hc : t.cap < t.size + (e - b)
      · obtain ⟨g1, g2, g3, g4, g5⟩ := grow_spec h (n := t.size + (e - b) - t.cap)
        refine ⟨_, if_pos hc, g3, g2, g1, g4, ?_⟩
        rw [g5, if_neg (by omega), g1]
        omega
      · exact ⟨_, if_neg hc, h, rfl, rfl, rfl, by omega⟩
    rw [ht1, ← hr1, ← hz1]
    rw [← hc1] at hcols
    have hposr : (rows t1).take pos = (rows t1).take (min pos t1.size) ∧ (rows t1).drop pos = (rows t1).drop (min pos t1.size) := by
      rcases Nat.le_total pos t1.size with hp | hp
      · rw [Nat.min_eq_left hp]; exact ⟨rfl, rfl⟩
      · rw [Nat.min_eq_right hp, List.take_of_length_le (by rw [rows_length]; exact hp), List.drop_of_length_le (by rw [rows_length]; exact hp),
          List.take_of_length_le (by rw [rows_length]; exact Nat.le_refl _), List.drop_of_length_le (by rw [rows_length]; exact Nat.le_refl _)]
        exact ⟨rfl, rfl⟩
    rw [hposr.1, hposr.2]
    have htar : min pos t1.size ≤ t1.size := Nat.min_le_right _ _
    generalize min pos t1.size = target at htar ⊢
    obtain ⟨k, hk⟩ : ∃ k, e - b = k := ⟨_, rfl⟩
    obtain ⟨m, hm⟩ : ∃ m, t1.size = target + m := ⟨t1.size - target, by omega⟩
    have hbk : e = b + k := by omega
    rw [hk, show t1.size - target = m by omega]
    rw [hk, hm] at hcap
    have hlen : (target + m + k) * t1.cols ≤ t1.data.length := by rw [hs1.2]; exact Nat.mul_le_mul_right _ hcap
    have hls : (b + k) * t1.cols ≤ src.data.length := by
      rw [hsrc.2, hcols]; exact Nat.mul_le_mul_right _ (by have := hsrc.1; omega)
    simp only [Nat.add_mul] at hlen hls
    rw [move, if_pos (by rw [Nat.mul_comm t1.cols]; omega), Nat.add_mul, Nat.mul_comm t1.cols m]
    have hsl : (List.take (m * t1.cols) (List.drop (target * t1.cols) t1.data)).length = m * t1.cols := by
      rw [List.length_take, List.length_drop]; omega
    obtain ⟨d, hd1, hd2, hd3, hd4⟩ := write_spec (data := t1.data) (off := target * t1.cols + k * t1.cols)
      (vals := List.take (m * t1.cols) (List.drop (target * t1.cols) t1.data)) (by omega)
    rw [hd1]
    simp only [Outcome.bind]
    rw [readRange, hcols, Nat.mul_comm t1.cols k, if_pos (by omega)]
    simp only
    have hnl : (List.take (k * t1.cols) (List.drop (b * t1.cols) src.data)).length = k * t1.cols := by
      rw [List.length_take, List.length_drop]; omega
    obtain ⟨d', hd1', hd2', hd3', hd4'⟩ := write_spec (data := d) (off := target * t1.cols)
      (vals := List.take (k * t1.cols) (List.drop (b * t1.cols) src.data)) (by omega)
    rw [hd1']
    have hs' : Sound { t1 with data := d', size := t1.size + k } := ⟨by simp only; omega, by simpa [hd2', hd2] using hs1.2⟩
    refine ⟨_, rfl, hc1, hs', ?_⟩
    have hw1 := rows_wf hs1
    have hws := rows_wf hsrc
    rw [hcols] at hws
    refine rows_eq hs' ?_ ?_ ?_
    · simp only [List.length_append, List.length_take, List.length_drop, rows_length]
      omega
    · intro r hr
      simp only [List.mem_append] at hr
      rcases hr with (hr | hr) | hr
      · exact hw1 r (List.mem_of_mem_take hr)
      · exact hws r (List.mem_of_mem_take (List.mem_of_mem_drop hr))
      · exact hw1 r (List.mem_of_mem_drop hr)
    · simp only
      have hR : List.take ((t1.size + k) * t1.cols) d' = List.take (target * t1.cols) d ++
          (List.take (k * t1.cols) (List.drop (b * t1.cols) src.data) ++ List.take (m * t1.cols) (List.drop (target * t1.cols) t1.data)) := by
        rw [show (t1.size + k) * t1.cols = target * t1.cols + (k * t1.cols + m * t1.cols) by rw [hm]; simp only [Nat.add_mul]; omega,
          take_split d', hd3', hd4', hnl, List.take_append, hnl, Nat.add_sub_cancel_left, List.take_take, hd4, List.take_append_of_le_length (by omega),
          List.take_take, Nat.min_self, Nat.min_eq_right (by omega)]
      rw [hR, hbk, List.flatten_append, List.flatten_append, flatten_take hw1, flatten_drop hw1,
        flatten_drop (fun x hx => hws x (List.mem_of_mem_take hx)), flatten_take hws, rows_flatten hs1, rows_flatten hsrc, hcols]
      have hA : List.take (target * t1.cols) d = List.take (target * t1.cols) (List.take (t1.size * t1.cols) t1.data) := by
        have := congrArg (List.take (target * t1.cols)) hd3
        rw [List.take_take, List.take_take, Nat.min_eq_left (by omega)] at this
        rw [this, List.take_take, Nat.min_eq_left]
        rw [hm, Nat.add_mul]; omega
      have hB : List.drop (b * t1.cols) (List.take ((b + k) * t1.cols) (List.take (src.size * t1.cols) src.data)) =
          List.take (k * t1.cols) (List.drop (b * t1.cols) src.data) := by
        rw [List.take_take, Nat.min_eq_left (Nat.mul_le_mul_right _ (by omega)), List.drop_take, Nat.add_mul, Nat.add_sub_cancel_left]
      have hC : List.drop (target * t1.cols) (List.take (t1.size * t1.cols) t1.data) =
          List.take (m * t1.cols) (List.drop (target * t1.cols) t1.data) := by
        rw [List.drop_take, hm, Nat.add_mul, Nat.add_sub_cancel_left]
      rw [hA, hB, hC, List.append_assoc]

theorem eraseTo_ok {t : Tab} (h : Sound t) (b e : Nat) :
    ∃ t', eraseTo t b e = .ok t' ∧ t'.cols = t.cols ∧ Sound t' ∧ rows t' = (rows t).take b ++ (rows t).drop (max b e) := by
  unfold eraseTo
  simp only
  have hdrop : (rows t).drop (max b e) = (rows t).drop (max b (if e > t.size then t.size else e)) := by
    by_cases he : e > t.size
    · rw [if_pos he, List.drop_of_length_le (by rw [rows_length]; omega), List.drop_of_length_le (by rw [rows_length]; omega)]
    · rw [if_neg he]
  rw [hdrop]
  have hes : (if e > t.size then t.size else e) ≤ t.size := by split <;> omega
  generalize (if e > t.size then t.size else e) = e at hes ⊢
  by_cases hbe : e ≤ b
  · rw [if_pos hbe]
    refine ⟨t, rfl, rfl, h, ?_⟩
    rw [Nat.max_eq_left hbe, List.take_append_drop]
  · rw [if_neg hbe]
    obtain ⟨k, hk⟩ : ∃ k, e = b + k := ⟨e - b, by omega⟩
    obtain ⟨m, hm⟩ : ∃ m, t.size = e + m := ⟨t.size - e, by omega⟩
    have hlen : (b + k + m) * t.cols ≤ t.data.length := by rw [h.2]; exact Nat.mul_le_mul_right _ (by have := h.1; omega)
    simp only [Nat.add_mul] at hlen
    rw [show t.size - e = m by omega, show t.size - (e - b) = b + m by omega, Nat.max_eq_right (by omega), hk, move, Nat.add_mul, if_pos (by omega)]
    have hsl : (List.take (m * t.cols) (List.drop (b * t.cols + k * t.cols) t.data)).length = m * t.cols := by
      rw [List.length_take, List.length_drop]; omega
    obtain ⟨d, hd1, hd2, hd3, hd4⟩ := write_spec (data := t.data) (off := b * t.cols)
      (vals := List.take (m * t.cols) (List.drop (b * t.cols + k * t.cols) t.data)) (by omega)
    rw [hd1]
    have hs' : Sound { t with data := d, size := b + m } := ⟨by have := h.1; simp only; omega, by simpa [hd2] using h.2⟩
    refine ⟨_, rfl, rfl, hs', ?_⟩
    have hw := rows_wf h
    refine rows_eq hs' ?_ ?_ ?_
    · simp only [List.length_append, List.length_take, List.length_drop, rows_length]
      omega
    · intro r hr
      rcases List.mem_append.mp hr with hr | hr
      · exact hw r (List.mem_of_mem_take hr)
      · exact hw r (List.mem_of_mem_drop hr)
    · simp only
      rw [List.flatten_append, flatten_take hw, flatten_drop hw, rows_flatten h, Nat.add_mul b m, take_split d, hd3, hd4,
        List.take_append_of_le_length (by omega), List.take_take, List.take_take, Nat.min_self, Nat.min_eq_left
          (Nat.mul_le_mul_right _ (by omega)), List.drop_take, Nat.add_mul,
        show t.size * t.cols - (b * t.cols + k * t.cols) = m * t.cols by rw [hm, hk]; simp only [Nat.add_mul]; omega]

theorem reserve_ok {t : Tab} (h : Sound t) (n : Nat) : (reserve t n).cols = t.cols ∧ (reserve t n).size = t.size ∧ Sound (reserve t n) ∧
    rows (reserve t n) = rows t ∧ n ≤ (reserve t n).cap := by
  unfold reserve
  by_cases hc : t.cap < n
  · rw [if_pos hc]
    obtain ⟨g1, g2, g3, g4, g5⟩ := grow_spec h (n := n - t.cap)
    refine ⟨g2, g1, g3, g4, ?_⟩
    rw [g5, if_neg (by omega)]
    omega
  · rw [if_neg hc]
    exact ⟨rfl, rfl, h, rfl, by omega⟩

theorem resize_ok {t : Tab} (h : Sound t) (n : Nat) : ∃ new : Table, new.WF t.cols ∧ ((rows t).take n ++ new).length = n ∧
    (resize t n).cols = t.cols ∧ Sound (resize t n) ∧ rows (resize t n) = (rows t).take n ++ new := by
  unfold resize
  by_cases h1 : n > t.size
  · rw [if_pos h1]
    obtain ⟨g1, g2, g3, g4, g5⟩ := reserve_ok h n
    have hs' : Sound { reserve t n with size := n } := ⟨g5, g3.2⟩
    have hsh := (shrink_ok hs' (n := t.size) (by simp only; omega)).2
    have he : ({ ({ reserve t n with size := n } : Tab) with size := t.size } : Tab) = reserve t n := by rw [← g2]
    rw [he, g4] at hsh
    refine ⟨(rows { reserve t n with size := n }).drop t.size, ?_, ?_, g1, hs', ?_⟩
    · intro r hr
      exact (rows_wf hs' r (List.mem_of_mem_drop hr)).trans g1
    · rw [List.take_of_length_le (by rw [rows_length]; omega), hsh, List.take_append_drop, rows_length]
    · rw [List.take_of_length_le (by rw [rows_length]; omega), hsh, List.take_append_drop]
  · rw [if_neg h1]
    refine ⟨[], (fun r hr => by cases hr), ?_⟩
    rw [List.append_nil, List.length_take, rows_length]
    by_cases h2 : n < t.size
    · rw [if_pos h2]
      have := shrink_ok h (Nat.le_of_lt h2)
      exact ⟨by omega, rfl, this.1, this.2⟩
    · rw [if_neg h2]
      refine ⟨by omega, rfl, h, ?_⟩
      rw [List.take_of_length_le (by rw [rows_length]; omega)]

theorem index_lt {t : Tab} (h : Sound t) {i c : Nat} (hi : i < t.size) (hc : c < t.cols) : i * t.cols + c < t.data.length := by
  rw [h.2]
  have : (i + 1) * t.cols ≤ t.cap * t.cols := Nat.mul_le_mul_right _ (by have := h.1; omega)
  rw [Nat.add_mul, Nat.one_mul] at this
  omega

theorem set_ok {t : Tab} (h : Sound t) {i c : Nat} (hi : i < t.size) (hc : c < t.cols) (v : Nat) :
    ∃ t', set t i c v = .ok t' ∧ t'.cols = t.cols ∧ Sound t' ∧ rows t' = (rows t).modify i fun r => r.set c v := by
  unfold set
  rw [if_pos (index_lt h hi hc)]
  refine ⟨_, rfl, rfl, ⟨h.1, by simpa using h.2⟩, ?_⟩
  apply List.ext_getElem?
  intro j
  rw [List.getElem?_modify]
  unfold rows
  simp only [List.getElem?_map]
  by_cases hj : j < t.size
  · rw [List.getElem?_range hj]
    simp only [Option.map_some]
    congr 1
    by_cases hij : i = j
    · subst hij
      simp only [if_true]
      rw [List.drop_set, if_neg (by omega), Nat.add_sub_cancel_left, List.take_set]
    · simp only [hij, if_false]
      rw [List.drop_set]
      split
      · rfl
      · rw [List.take_set, List.set_eq_of_length_le]
        rw [List.length_take]
        rcases Nat.lt_trichotomy i j with hlt | heq | hgt
        · have : (i + 1) * t.cols ≤ j * t.cols := Nat.mul_le_mul_right _ hlt
          rw [Nat.add_mul, Nat.one_mul] at this
          omega
        · exact absurd heq hij
        · have : (j + 1) * t.cols ≤ i * t.cols := Nat.mul_le_mul_right _ hgt
          rw [Nat.add_mul, Nat.one_mul] at this
          omega
  · rw [List.getElem?_eq_none (by simpa using hj)]
    simp

/-- One operation. -/
theorem apply_ok {t : Tab} (h : Sound t) {op : Op} (ha : Args t.cols t.size op) :
    ∃ t', apply t op = .ok t' ∧ t'.cols = t.cols ∧ Sound t' ∧ t'.size = count t.size op ∧ Step t.cols (toSpec op) (rows t) (rows t') := by
  cases op with
  | pushBack row =>
    obtain ⟨t', h1, h2, h3, h4⟩ := pushBack_ok h ha
    refine ⟨t', h1, h2, h3, ?_, by rw [h4]; exact .pushBack _ _⟩
    have := congrArg List.length h4
    simpa [rows_length, count] using this
  | emplaceBack =>
    obtain ⟨row, h1, h2, h3, h4⟩ := emplaceBack_ok h
    refine ⟨_, rfl, h2, h3, ?_, by rw [h4]; exact .emplaceBack _ _ h1⟩
    have := congrArg List.length h4
    simpa [rows_length, count] using this
  | popBack =>
    obtain ⟨h2, h3, h4⟩ := popBack_ok h
    refine ⟨_, rfl, h2, h3, ?_, by rw [h4]; exact .popBack _⟩
    have := congrArg List.length h4
    simpa [rows_length, count] using this
  | insert pos src b e =>
    obtain ⟨t', h1, h2, h3, h4⟩ := insert_ok h ha.1 ha.2.1 pos ha.2.2
    refine ⟨t', h1, h2, h3, ?_, by rw [h4]; exact .insert _ _ _⟩
    have := congrArg List.length h4
    simp only [rows_length, List.length_append, List.length_take, List.length_drop] at this
    have := ha.2.2
    simp only [count]
    by_cases hbe : b < e
    · have := this hbe; omega
    · omega
  | erase b e =>
    have hend : ∃ t', erase t b e = .ok t' ∧ t'.cols = t.cols ∧ Sound t' ∧ rows t' = (rows t).take b ++ (rows t).drop (max b e) := by
      unfold erase
      simp only
      by_cases hn : t.isNull = true ∧ e = 0
      · rw [if_pos hn]
        obtain ⟨hn, rfl⟩ := hn
        have hlen : t.data.length = 0 := by
          unfold Tab.isNull at hn
          rw [List.isEmpty_iff.mp hn]; rfl
        rw [h.2] at hlen
        have hc : t.cols ≠ 0 := by rcases ha with ha | ha; exact ha; exact absurd rfl ha
        have hcap : t.cap = 0 := by
          rcases Nat.mul_eq_zero.mp hlen with h' | h'
          · exact h'
          · exact absurd h' hc
        have hz : t.size = 0 := by have := h.1; omega
        obtain ⟨t', h1, h2, h3, h4⟩ := eraseTo_ok h b (b + 1)
        refine ⟨t', h1, h2, h3, ?_⟩
        have hnil : rows t = [] := List.length_eq_zero_iff.mp (by rw [rows_length]; exact hz)
        rw [h4, hnil]; simp
      · rw [if_neg hn]
        exact eraseTo_ok h b e
    obtain ⟨t', h1, h2, h3, h4⟩ := hend
    refine ⟨t', h1, h2, h3, ?_, by rw [h4]; exact .erase _ _ _⟩
    have := congrArg List.length h4
    simp only [rows_length, List.length_append, List.length_take, List.length_drop] at this
    simp only [count]
    omega
  | eraseOne b =>
    obtain ⟨t', h1, h2, h3, h4⟩ := eraseTo_ok h b (b + 1)
    have h5 : rows t' = (rows t).eraseIdx b := by rw [h4, Nat.max_eq_right (by omega), List.eraseIdx_eq_take_drop_succ]
    refine ⟨t', h1, h2, h3, ?_, by rw [h5]; exact .eraseOne _ _⟩
    have := congrArg List.length h5
    simpa [rows_length, List.length_eraseIdx, count] using this
  | clear =>
    have := shrink_ok h (Nat.zero_le _)
    refine ⟨_, rfl, rfl, this.1, rfl, ?_⟩
    show Step _ _ _ (rows { t with size := 0 })
    rw [this.2, List.take_zero]
    exact .clear _
  | reserve n =>
    obtain ⟨h1, h2, h3, h4, _⟩ := reserve_ok h n
    refine ⟨_, rfl, h1, h3, h2, ?_⟩
    rw [h4]
    exact .reserve _ _
  | resize n =>
    obtain ⟨new, h1, h2, h3, h4, h5⟩ := resize_ok h n
    refine ⟨_, rfl, h3, h4, ?_, by rw [h5]; exact .resize _ _ _ h1 h2⟩
    rw [← rows_length, h5, h2]; rfl
  | set i c v =>
    obtain ⟨t', h1, h2, h3, h4⟩ := set_ok h ha.1 ha.2 v
    refine ⟨t', h1, h2, h3, ?_, by rw [h4]; exact .set _ _ _ _⟩
    have := congrArg List.length h4
    simpa [rows_length, count] using this

theorem run_ok {t : Tab} (h : Sound t) {ops : List Op} (ha : ArgsAll t.cols t.size ops) :
    ∃ t', run t ops = .ok t' ∧ t'.cols = t.cols ∧ Sound t' ∧ Run t.cols (ops.map toSpec) (rows t) (rows t') := by
  induction ops generalizing t with
  | nil => exact ⟨t, rfl, rfl, h, .nil _⟩
  | cons op ops ih =>
    obtain ⟨t1, h1, h2, h3, h4, h5⟩ := apply_ok h ha.1
    have ha2 := ha.2
    rw [← h4, ← h2] at ha2
    obtain ⟨t2, g1, g2, g3, g4⟩ := ih h3 ha2
    refine ⟨t2, ?_, g2.trans h2, g3, .cons h5 (by rw [h2] at g4; exact g4)⟩
    rw [run, h1]
    exact g1

/-- C25: after any sequence of operations with arguments in range, starting with an empty table with any number of columns, nothing outside of the
buffer has been touched, and the rows are what the same operations make of a list of rows. The resulting table may again be the
source of an insertion (`Sound`).
Missing: `erase` with end row 0 on a table without columns, see `C25_erase_violated`. -/
theorem C25_run_partial (cols : Nat) {ops : List Op} (ha : ArgsAll cols 0 ops) :
    ∃ t, run (empty cols) ops = .ok t ∧ t.cols = cols ∧ Sound t ∧ (rows t).WF cols ∧ (rows t).length = t.size ∧
      Run cols (ops.map toSpec) [] (rows t) := by
  obtain ⟨t, h1, h2, h3, h4⟩ := run_ok (t := empty cols) ⟨Nat.le_refl _, by simp [empty]⟩ ha
  refine ⟨t, h1, h2, h3, ?_, rows_length t, h4⟩
  have := rows_wf h3
  rwa [h2] at this

/-- Some operations on a table with two columns, with the result. -/
example : ArgsAll 2 0 [.pushBack [1, 2], .pushBack [3, 4], .insert 1 ⟨2, 2, 2, [5, 6, 7, 8]⟩ 0 2, .erase 0 1, .set 0 1 9, .popBack] := by
  refine ⟨rfl, rfl, ⟨?_, rfl, fun _ => Nat.le_refl _⟩, .inl (by decide), ⟨by decide, by decide⟩, trivial, trivial⟩
  unfold Sound; decide

example : (run (empty 2) [.pushBack [1, 2], .pushBack [3, 4], .insert 1 ⟨2, 2, 2, [5, 6, 7, 8]⟩ 0 2, .erase 0 1, .set 0 1 9, .popBack]).map rows =
    .ok [[5, 9], [7, 8]] := by decide

/-- C25 for reading: a cell inside the table is read as it is in the list of rows. -/
theorem C25_get {t : Tab} (h : Sound t) {i c : Nat} (hi : i < t.size) (hc : c < t.cols) :
    ∃ r v, (rows t)[i]? = some r ∧ r[c]? = some v ∧ get t i c = .ok v := by
  have hlt := index_lt h hi hc
  refine ⟨(t.data.drop (i * t.cols)).take t.cols, t.data[i * t.cols + c], ?_, ?_, ?_⟩
  · unfold rows
    rw [List.getElem?_map, List.getElem?_range hi]; rfl
  · rw [List.getElem?_take_of_lt hc, List.getElem?_drop, List.getElem?_eq_getElem hlt]
  · unfold get
    rw [Outcome.read_lt _ _ hlt]

theorem row_ext {a b : Row} {w : Nat} (ha : a.length = w) (hb : b.length = w) (h : ∀ c, c < w → a[c]? = b[c]?) : a = b := by
  apply List.ext_getElem?
  intro c
  by_cases hc : c < w
  · exact h c hc
  · rw [List.getElem?_eq_none (by omega), List.getElem?_eq_none (by omega)]

theorem eqRow_spec {t o : Tab} (ht : Sound t) (ho : Sound o) (hcols : o.cols = t.cols) {i : Nat} (hit : i < t.size) (hio : i < o.size) :
    ∀ n col, col + n = t.cols → ∃ b, eqRow t o i col n = .ok b ∧
      (b = true ↔ ∀ c, col ≤ c → c < t.cols → ((rows t)[i]?.bind (·[c]?)) = ((rows o)[i]?.bind (·[c]?))) := by
  intro n
  induction n with
  | zero => intro col hcol; exact ⟨true, rfl, by simp only [true_iff]; intro c h1 h2; omega⟩
  | succ n ih =>
    intro col hcol
    obtain ⟨r, v, h1, h2, h3⟩ := C25_get ht hit (c := col) (by omega)
    obtain ⟨r', v', h1', h2', h3'⟩ := C25_get ho hio (c := col) (by omega)
    rw [eqRow, h3]
    simp only [Outcome.bind]
    rw [h3']
    simp only
    by_cases hv : v = v'
    · rw [if_neg (by simpa using hv)]
      obtain ⟨b, hb1, hb2⟩ := ih (col + 1) (by omega)
      refine ⟨b, hb1, hb2.trans ⟨fun h c hc1 hc2 => ?_, fun h c hc1 hc2 => h c (by omega) hc2⟩⟩
      rcases Nat.eq_or_lt_of_le hc1 with rfl | hlt
      · rw [h1, h1']; simp [h2, h2', hv]
      · exact h c hlt hc2
    · rw [if_pos hv]
      refine ⟨false, rfl, ?_⟩
      simp only [Bool.false_eq_true, false_iff]
      intro h
      have := h col (Nat.le_refl _) (by omega)
      rw [h1, h1'] at this
      simp only [Option.bind_some, h2, h2', Option.some.injEq] at this
      exact hv this

theorem eqRows_spec {t o : Tab} (ht : Sound t) (ho : Sound o) (hcols : o.cols = t.cols) (hsize : o.size = t.size) :
    ∀ n i, i + n = t.size → ∃ b, eqRows t o i n = .ok b ∧ (b = true ↔ ∀ j, i ≤ j → j < t.size → (rows t)[j]? = (rows o)[j]?) := by
  intro n
  induction n with
  | zero => intro i hi; exact ⟨true, rfl, by simp only [true_iff]; intro c h1 h2; omega⟩
  | succ n ih =>
    intro i hi
    obtain ⟨b, hb1, hb2⟩ := eqRow_spec ht ho hcols (i := i) (by omega) (by omega) t.cols 0 (by omega)
    rw [eqRows, hb1]
    simp only [Outcome.bind]
    have hrow : b = true ↔ (rows t)[i]? = (rows o)[i]? := by
      refine hb2.trans ⟨fun h => ?_, fun h c _ _ => by rw [h]⟩
      have hti : i < (rows t).length := by rw [rows_length]; omega
      have hoi : i < (rows o).length := by rw [rows_length]; omega
      rw [List.getElem?_eq_getElem hti, List.getElem?_eq_getElem hoi] at h ⊢
      congr 1
      refine row_ext (rows_wf ht _ (List.getElem_mem _)) ((rows_wf ho _ (List.getElem_mem _)).trans hcols) fun c hc => ?_
      simpa using h c (Nat.zero_le _) hc
    cases b with
    | true =>
      obtain ⟨b', hb1', hb2'⟩ := ih (i + 1) (by omega)
      refine ⟨b', by rw [if_pos rfl]; exact hb1', hb2'.trans ⟨fun h j h1 h2 => ?_, fun h j h1 h2 => h j (by omega) h2⟩⟩
      rcases Nat.eq_or_lt_of_le h1 with rfl | hlt
      · exact hrow.mp rfl
      · exact h j hlt h2
    | false =>
      refine ⟨false, by rw [if_neg (by simp)], ?_⟩
      simp only [Bool.false_eq_true, false_iff] at hrow ⊢
      exact fun h => hrow (h i (Nat.le_refl _) (by omega))

/-- C25 for comparing: two tables with the same number of columns are equal exactly if their rows are. -/
theorem C25_eq {t o : Tab} (ht : Sound t) (ho : Sound o) (hcols : o.cols = t.cols) : ∃ b, eq t o = .ok b ∧ (b = true ↔ rows t = rows o) := by
  unfold eq
  by_cases hs : o.size = t.size
  · rw [if_neg (by simpa using hs)]
    obtain ⟨b, h1, h2⟩ := eqRows_spec ht ho hcols hs t.size 0 (by omega)
    refine ⟨b, h1, h2.trans ⟨fun h => ?_, fun h j _ _ => by rw [h]⟩⟩
    apply List.ext_getElem?
    intro j
    by_cases hj : j < t.size
    · exact h j (Nat.zero_le _) hj
    · rw [List.getElem?_eq_none (by rw [rows_length]; omega), List.getElem?_eq_none (by rw [rows_length]; omega)]
  · rw [if_pos hs]
    refine ⟨false, rfl, ?_⟩
    simp only [Bool.false_eq_true, false_iff]
    intro h
    have := congrArg List.length h
    rw [rows_length, rows_length] at this
    exact hs this.symm

example : eq ⟨1, 2, 2, [5, 6, 0, 0]⟩ ⟨1, 1, 2, [5, 6]⟩ = .ok true := by decide

/-- C25 is violated without columns: `erase(begin, begin)` on a table without columns removes a row, because the end iterator
equals the default argument. -/
theorem C25_erase_violated :
    (run (empty 0) [.pushBack [], .pushBack [], .erase 0 0]).map rows = .ok [[]] ∧
    ¬ Run 0 ([Op.pushBack [], .pushBack [], .erase 0 0].map toSpec) [] [[]] := by
  refine ⟨by decide, ?_⟩
  intro h
  cases h with
  | cons h1 h =>
    cases h1
    cases h with
    | cons h2 h =>
      cases h2
      cases h with
      | cons h3 h =>
        generalize hl : ([[]] : Table) = l at h
        cases h3
        cases h
        exact absurd hl (by decide)

/-- Two tables with different numbers of columns may count as equal. -/
theorem C25_eq_violated : eq ⟨1, 1, 1, [5]⟩ ⟨1, 1, 2, [5, 6]⟩ = .ok true ∧ rows ⟨1, 1, 1, [5]⟩ ≠ rows ⟨1, 1, 2, [5, 6]⟩ := by decide

/-- Appending a row of the table to the table itself is undefined behaviour when the table has to grow, and the table grows when it is full
except for one row. -/
theorem C25_self_append (t : Tab) (row : Nat) (h : t.cap ≤ t.size + 1) : pushBackSelf t row = .ub := by
  unfold pushBackSelf
  rw [if_pos h]

/-- A table that was moved from, for example by `moveToStatic`, still says that it has rows; reading them is undefined behaviour. -/
theorem C25_moved_from (t : Tab) (i c : Nat) : (movedFrom t).size = t.size ∧ get (movedFrom t) i c = .ub := by
  refine ⟨rfl, ?_⟩
  unfold get movedFrom
  exact Outcome.read_ge _ _ (by simp)

end Verif.IdTable
