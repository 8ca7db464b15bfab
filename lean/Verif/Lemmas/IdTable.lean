import Verif.Model.IdTable
import Verif.Spec.RowList
/-
Lemmas about the id table.
-/
namespace Verif.IdTable

/-! ### Growth -/

theorem toFloat_ge (m : Nat) : 8388608 * m ≤ 8388608 * toFloat m + m := by
  unfold toFloat
  by_cases h : m < 2 ^ 24
  · rw [if_pos h]; omega
  · rw [if_neg h]
    simp only
    have hm : m ≠ 0 := by intro h'; subst h'; simp at h
    have h1 : 2 ^ m.log2 ≤ m := Nat.log2_self_le hm
    have h2 : 24 ≤ m.log2 := (Nat.le_log2 hm).mpr (Nat.not_lt.mp h)
    have h3 : 2 ^ m.log2 = 2 ^ (m.log2 - 23) * 8388608 := by
      rw [show (8388608 : Nat) = 2 ^ 23 by rfl, ← Nat.pow_add]; congr 1; omega
    generalize hu : 2 ^ (m.log2 - 23) = unit at *
    have hp : 0 < unit := by rw [← hu]; exact Nat.two_pow_pos _
    have h4 := Nat.mod_lt m hp
    have h5 : unit * (m / unit) + m % unit = m := Nat.div_add_mod m unit
    have h6 : unit * (m / unit) ≤ (if 2 * (m % unit) > unit ∨ (2 * (m % unit) = unit ∧ m / unit % 2 = 1) then m / unit + 1 else m / unit) * unit := by
      rw [Nat.mul_comm]
      refine Nat.mul_le_mul_right _ ?_
      split <;> omega
    generalize (if 2 * (m % unit) > unit ∨ (2 * (m % unit) = unit ∧ m / unit % 2 = 1) then m / unit + 1 else m / unit) * unit = x at *
    generalize unit * (m / unit) = y at *
    omega

theorem growCapacity_gt (cap : Nat) : cap < growCapacity cap := by
  unfold growCapacity
  have h1 := toFloat_ge cap
  have h2 := toFloat_ge (3 * toFloat cap)
  have h3 := toFloat_ge (toFloat (3 * toFloat cap) + 2)
  generalize toFloat (toFloat (3 * toFloat cap) + 2) = c at *
  generalize toFloat (3 * toFloat cap) = b at *
  generalize hge : toFloat cap = a at *
  by_cases h : cap < 2 ^ 24
  · have : a = cap := by rw [← hge]; unfold toFloat; rw [if_pos h]
    subst this
    omega
  · omega

/-! ### The view of the buffer -/

/-- The buffer has room for `cap` rows, and there are at most as many. -/
def Sound (t : Tab) : Prop := t.size ≤ t.cap ∧ t.data.length = t.cap * t.cols

theorem flatten_take {w : Nat} : ∀ {l : Table}, l.WF w → ∀ k, (l.take k).flatten = l.flatten.take (k * w) := by
  intro l
  induction l with
  | nil => intro _ k; simp
  | cons r l ih =>
    intro hw k
    have hr : r.length = w := hw r List.mem_cons_self
    cases k with
    | zero => simp
    | succ k =>
      rw [List.take_succ_cons, List.flatten_cons, ih (fun x hx => hw x (List.mem_cons_of_mem _ hx)), List.flatten_cons, List.take_append,
        List.take_of_length_le (l := r) (by rw [hr, Nat.add_mul]; omega), hr, Nat.add_mul, Nat.one_mul, Nat.add_sub_cancel]

theorem flatten_drop {w : Nat} : ∀ {l : Table}, l.WF w → ∀ k, (l.drop k).flatten = l.flatten.drop (k * w) := by
  intro l
  induction l with
  | nil => intro _ k; simp
  | cons r l ih =>
    intro hw k
    have hr : r.length = w := hw r List.mem_cons_self
    cases k with
    | zero => simp
    | succ k =>
      rw [List.drop_succ_cons, ih (fun x hx => hw x (List.mem_cons_of_mem _ hx)), List.flatten_cons, List.drop_append,
        List.drop_of_length_le (l := r) (by rw [hr, Nat.add_mul]; omega), hr, Nat.add_mul, Nat.one_mul, Nat.add_sub_cancel, List.nil_append]

theorem flatten_length {w : Nat} : ∀ {l : Table}, l.WF w → l.flatten.length = l.length * w := by
  intro l
  induction l with
  | nil => intro _; simp
  | cons r l ih =>
    intro hw
    rw [List.flatten_cons, List.length_append, ih (fun x hx => hw x (List.mem_cons_of_mem _ hx)), hw r List.mem_cons_self, List.length_cons,
      Nat.add_mul, Nat.one_mul, Nat.add_comm]

theorem flatten_inj {w : Nat} : ∀ {a b : Table}, a.WF w → b.WF w → a.length = b.length → a.flatten = b.flatten → a = b := by
  intro a
  induction a with
  | nil => intro b _ _ h _; exact (List.length_eq_zero_iff.mp h.symm).symm
  | cons r a ih =>
    intro b ha hb hl hf
    cases b with
    | nil => cases hl
    | cons s b =>
      rw [List.flatten_cons, List.flatten_cons] at hf
      have := List.append_inj hf (by rw [ha r List.mem_cons_self, hb s List.mem_cons_self])
      rw [this.1, ih (fun x hx => ha x (List.mem_cons_of_mem _ hx)) (fun x hx => hb x (List.mem_cons_of_mem _ hx)) (by simpa using hl) this.2]

theorem rows_length (t : Tab) : (rows t).length = t.size := by simp [rows]

theorem rows_wf {t : Tab} (h : Sound t) : (rows t).WF t.cols := by
  intro r hr
  obtain ⟨i, hi, rfl⟩ := List.mem_map.mp hr
  have hi := List.mem_range.mp hi
  rw [List.length_take, List.length_drop, h.2, ← Nat.sub_mul]
  have : 1 * t.cols ≤ (t.cap - i) * t.cols := Nat.mul_le_mul_right _ (by have := h.1; omega)
  omega

theorem rows_flatten {t : Tab} (_ : Sound t) : (rows t).flatten = t.data.take (t.size * t.cols) := by
  unfold rows
  have : ∀ n, n ≤ t.size → ((List.range n).map fun i => (t.data.drop (i * t.cols)).take t.cols).flatten = t.data.take (n * t.cols) := by
    intro n
    induction n with
    | zero => intro _; simp
    | succ n ih =>
      intro hn
      rw [List.range_succ, List.map_append, List.flatten_append, ih (by omega), Nat.add_mul, Nat.one_mul, List.take_add]
      simp
  exact this _ (Nat.le_refl _)

theorem rows_eq {t : Tab} (h : Sound t) {l : Table} (hl : l.length = t.size) (hw : l.WF t.cols)
    (hf : l.flatten = t.data.take (t.size * t.cols)) : rows t = l :=
  flatten_inj (rows_wf h) hw (by rw [rows_length, hl]) (by rw [rows_flatten h, hf])

theorem grow_spec {t : Tab} (h : Sound t) {n : Nat} : (grow t n).size = t.size ∧ (grow t n).cols = t.cols ∧ Sound (grow t n) ∧
    rows (grow t n) = rows t ∧ (grow t n).cap = if n = 0 then growCapacity t.cap else t.cap + n := by
  have hcap : t.cap ≤ (grow t n).cap := by
    unfold grow
    simp only
    split
    · exact Nat.le_of_lt (growCapacity_gt _)
    · omega
  have hd : (grow t n).data = t.data ++ List.replicate ((grow t n).cap * t.cols - t.data.length) 0 := by
    unfold grow
    simp only
    rw [List.take_of_length_le]
    rw [h.2]
    exact Nat.mul_le_mul_right _ hcap
  have hle : t.data.length ≤ (grow t n).cap * t.cols := by rw [h.2]; exact Nat.mul_le_mul_right _ hcap
  have hs : Sound (grow t n) := by
    refine ⟨Nat.le_trans h.1 hcap, ?_⟩
    rw [hd, List.length_append, List.length_replicate]
    show _ = _ * t.cols
    omega
  refine ⟨rfl, rfl, hs, ?_, rfl⟩
  refine rows_eq hs (rows_length t) (rows_wf h) ?_
  rw [rows_flatten h, hd]
  show _ = List.take (t.size * t.cols) _
  rw [List.take_append_of_le_length]
  rw [h.2]
  exact Nat.mul_le_mul_right _ h.1

theorem write_spec {data vals : List Nat} {off : Nat} (h : off + vals.length ≤ data.length) :
    ∃ d, write data off vals = .ok d ∧ d.length = data.length ∧ d.take off = data.take off ∧ d.drop off = vals ++ data.drop (off + vals.length) := by
  refine ⟨_, if_pos h, ?_, ?_, ?_⟩
  · simp; omega
  · rw [List.append_assoc, List.take_append_of_le_length (by rw [List.length_take]; omega), List.take_of_length_le (by rw [List.length_take]; omega)]
  · rw [List.append_assoc, List.drop_append_of_le_length (by rw [List.length_take]; omega), List.drop_of_length_le (by rw [List.length_take]; omega),
      List.nil_append]

theorem take_split (d : List Nat) (a b : Nat) : d.take (a + b) = d.take a ++ (d.drop a).take b := List.take_add

end Verif.IdTable
