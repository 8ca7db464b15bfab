import Verif.Model.Server
import Verif.Spec.Server
/-
The strings that the JSON library writes are those that are UTF-8, and they are read back.
-/
namespace Verif.Server
open ServerSpec

theorem decode_codep (st cp b : Nat) : decode st cp b = ((decode st 0 b).1, if st ≠ 0 then b % 64 + cp * 64 % 2 ^ 32 else (decode 0 0 b).2) := by
  unfold decode
  by_cases h : st ≠ 0
  · simp only [if_pos h]
  · simp only [if_neg h]
    have : st = 0 := by omega
    subst this
    simp

theorem dec0 {b : Nat} (hb : b < 256) (cp : Nat) :
    (b < 128 → decode 0 cp b = (0, b)) ∧
    (0xC2 ≤ b ∧ b ≤ 0xDF → decode 0 cp b = (2, b - 0xC0)) ∧
    (b = 0xE0 → decode 0 cp b = (4, 0)) ∧
    ((0xE1 ≤ b ∧ b ≤ 0xEC ∨ b = 0xEE ∨ b = 0xEF) → decode 0 cp b = (3, b - 0xE0)) ∧
    (b = 0xED → decode 0 cp b = (5, 0xD)) ∧
    (b = 0xF0 → decode 0 cp b = (6, 0)) ∧
    (0xF1 ≤ b ∧ b ≤ 0xF3 → decode 0 cp b = (7, b - 0xF0)) ∧
    (b = 0xF4 → decode 0 cp b = (8, 4)) ∧
    ((0x80 ≤ b ∧ b ≤ 0xC1 ∨ 0xF5 ≤ b) → (decode 0 cp b).1 = 1) := by
  have he : decode 0 cp b = decode 0 0 b := by rw [decode_codep]; simp
  rw [he]
  have k1 : ∀ b < 256, b < 128 → decode 0 0 b = (0, b) := by decide +kernel
  have k2 : ∀ b < 256, 0xC2 ≤ b ∧ b ≤ 0xDF → decode 0 0 b = (2, b - 0xC0) := by decide +kernel
  have k3 : ∀ b < 256, (0xE1 ≤ b ∧ b ≤ 0xEC ∨ b = 0xEE ∨ b = 0xEF) → decode 0 0 b = (3, b - 0xE0) := by decide +kernel
  have k4 : ∀ b < 256, 0xF1 ≤ b ∧ b ≤ 0xF3 → decode 0 0 b = (7, b - 0xF0) := by decide +kernel
  have k5 : ∀ b < 256, (0x80 ≤ b ∧ b ≤ 0xC1 ∨ 0xF5 ≤ b) → (decode 0 0 b).1 = 1 := by decide +kernel
  refine ⟨k1 b hb, k2 b hb, ?_, k3 b hb, ?_, ?_, k4 b hb, ?_, k5 b hb⟩
  all_goals
    intro h
    subst h
    decide +kernel

/-- The bytes that continue in a state, and the next state. -/
def lo (st : Nat) : Nat := [0, 0, 0x80, 0x80, 0xA0, 0x80, 0x90, 0x80, 0x80].getD st 0
def hi (st : Nat) : Nat := [0, 0, 0xBF, 0xBF, 0xBF, 0x9F, 0xBF, 0xBF, 0x8F].getD st 0
def nxt (st : Nat) : Nat := [0, 0, 0, 2, 2, 2, 3, 3, 3].getD st 0

theorem dec1 {st b : Nat} (hst : st < 9) (h2 : 2 ≤ st) (hb : b < 256) (cp : Nat) :
    decode st cp b = (if lo st ≤ b ∧ b ≤ hi st then nxt st else 1, b % 64 + cp * 64 % 2 ^ 32) := by
  have key : ∀ st < 9, 2 ≤ st → ∀ b < 256, (decode st 0 b).1 = if lo st ≤ b ∧ b ≤ hi st then nxt st else 1 := by decide +kernel
  rw [decode_codep, key st hst h2 b hb]
  have : st ≠ 0 := by omega
  simp only [this, ne_eq, not_false_eq_true, if_true]

theorem dump_accept {st cp : Nat} {out : Str} {c : Char} {s : Str} {cp' : Nat} (h : decode st cp c.toNat = (0, cp')) :
    dumpLoop st cp out (c :: s) = dumpLoop 0 cp' (out ++ escape cp' c) s := by
  rw [dumpLoop, h]; simp

theorem dump_go {st cp : Nat} {out : Str} {c : Char} {s : Str} {st' cp' : Nat} (h : decode st cp c.toNat = (st', cp')) (h2 : 2 ≤ st') :
    dumpLoop st cp out (c :: s) = dumpLoop st' cp' (out ++ [c]) s := by
  rw [dumpLoop, h]
  simp only
  rw [if_neg (by omega), if_neg (by omega)]

/-- What is written for the bytes of a code point. -/
def escapes (n : Nat) (w : Str) : Str := if n < 128 then w.flatMap (escape n) else w

theorem escape_big {n : Nat} (h : 128 ≤ n) (c : Char) : escape n c = [c] := by
  unfold escape
  repeat' rw [if_neg (by omega)]

theorem map_split {s : Str} {a r : List Nat} (h : s.map Char.toNat = a ++ r) :
    ∃ w rest, s = w ++ rest ∧ w.map Char.toNat = a ∧ rest.map Char.toNat = r := by
  have := List.map_eq_append_iff.mp h
  obtain ⟨w, rest, h1, h2, h3⟩ := this
  exact ⟨w, rest, h1, h2, h3⟩

theorem shape2 {w : Str} {a b : Nat} (h : w.map Char.toNat = [a, b]) : ∃ c1 c2, w = [c1, c2] := by
  cases w with
  | nil => simp at h
  | cons x w =>
    simp only [List.map_cons, List.cons.injEq] at h
    obtain ⟨c, rfl, _⟩ := List.map_eq_singleton_iff.mp h.2
    exact ⟨x, c, rfl⟩

theorem shape3 {w : Str} {a b c : Nat} (h : w.map Char.toNat = [a, b, c]) : ∃ c1 c2 c3, w = [c1, c2, c3] := by
  cases w with
  | nil => simp at h
  | cons x w =>
    simp only [List.map_cons, List.cons.injEq] at h
    obtain ⟨c2, c3, rfl⟩ := shape2 h.2
    exact ⟨x, c2, c3, rfl⟩

theorem shape4 {w : Str} {a b c d : Nat} (h : w.map Char.toNat = [a, b, c, d]) : ∃ c1 c2 c3 c4, w = [c1, c2, c3, c4] := by
  cases w with
  | nil => simp at h
  | cons x w =>
    simp only [List.map_cons, List.cons.injEq] at h
    obtain ⟨c2, c3, c4, rfl⟩ := shape3 h.2
    exact ⟨x, c2, c3, c4, rfl⟩

/-- A code point of four bytes. -/
theorem dump_step4 {n : Nat} (h3 : 0x10000 ≤ n) (hn : n < 0x110000) (cp : Nat) (out w rest : Str)
    (hw : w.map Char.toNat = [0xF0 + n / 262144, 0x80 + n / 4096 % 64, 0x80 + n / 64 % 64, 0x80 + n % 64]) :
    dumpLoop 0 cp out (w ++ rest) = dumpLoop 0 n (out ++ w) rest := by
  obtain ⟨c1, c2, c3, c4, rfl⟩ := shape4 hw
  simp only [List.map_cons, List.map_nil, List.cons.injEq, and_true] at hw
  obtain ⟨hw1, hw2, hw3, hw4⟩ := hw
  have key : ∀ st, 2 ≤ st → decode 0 cp (0xF0 + n / 262144) = (st, n / 262144) → st < 9 → nxt st = 3 →
      lo st ≤ 0x80 + n / 4096 % 64 ∧ 0x80 + n / 4096 % 64 ≤ hi st →
      dumpLoop 0 cp out ([c1, c2, c3, c4] ++ rest) = dumpLoop 0 n (out ++ [c1, c2, c3, c4]) rest := by
    intro st hst d1 h9 hnx hr
    have d2 := dec1 (st := st) (b := 0x80 + n / 4096 % 64) h9 hst (by omega) (n / 262144)
    rw [if_pos hr, hnx] at d2
    have e2 : (0x80 + n / 4096 % 64) % 64 + (n / 262144) * 64 % 2 ^ 32 = n / 4096 := by omega
    rw [e2] at d2
    have d3 := dec1 (st := 3) (b := 0x80 + n / 64 % 64) (by omega) (by omega) (by omega) (n / 4096)
    rw [if_pos (by simp [lo, hi]; omega), show nxt 3 = 2 from rfl] at d3
    have e3 : (0x80 + n / 64 % 64) % 64 + (n / 4096) * 64 % 2 ^ 32 = n / 64 := by omega
    rw [e3] at d3
    have d4 := dec1 (st := 2) (b := 0x80 + n % 64) (by omega) (by omega) (by omega) (n / 64)
    rw [if_pos (by simp [lo, hi]; omega)] at d4
    have e4 : (0x80 + n % 64) % 64 + (n / 64) * 64 % 2 ^ 32 = n := by omega
    rw [e4] at d4
    rw [← hw1] at d1
    rw [← hw2] at d2
    rw [← hw3] at d3
    rw [← hw4] at d4
    simp only [List.cons_append, List.nil_append]
    rw [dump_go d1 hst, dump_go d2 (by omega), dump_go d3 (by omega), dump_accept d4, escape_big (by omega)]
    simp
  have hd := dec0 (b := 0xF0 + n / 262144) (by omega) cp
  by_cases c0 : n / 262144 = 0
  · refine key 6 (by omega) ?_ (by omega) rfl (by simp [lo, hi]; omega)
    rw [hd.2.2.2.2.2.1 (by omega), c0]
  · by_cases cd : n / 262144 = 4
    · refine key 8 (by omega) ?_ (by omega) rfl (by simp [lo, hi]; omega)
      rw [hd.2.2.2.2.2.2.2.1 (by omega), cd]
    · refine key 7 (by omega) ?_ (by omega) rfl (by simp [lo, hi]; omega)
      rw [hd.2.2.2.2.2.2.1 (by omega)]
      simp

/-- One code point. -/
theorem dump_step {n : Nat} (hn : Scalar n) (cp : Nat) (out w rest : Str) (hw : w.map Char.toNat = utf8 n) :
    dumpLoop 0 cp out (w ++ rest) = dumpLoop 0 n (out ++ escapes n w) rest := by
  unfold utf8 at hw
  unfold Scalar at hn
  by_cases h1 : n < 0x80
  · rw [if_pos h1] at hw
    obtain ⟨c, rfl, hc⟩ := List.map_eq_singleton_iff.mp hw
    have := (dec0 (b := n) (by omega) cp).1 h1
    rw [List.singleton_append, dump_accept (cp' := n) (by rw [hc]; exact this)]
    simp [escapes, h1]
  rw [if_neg h1] at hw
  have he : escapes n w = w := by unfold escapes; rw [if_neg (by omega)]
  rw [he]
  by_cases h2 : n < 0x800
  · rw [if_pos h2] at hw
    obtain ⟨c1, c2, rfl⟩ := shape2 hw
    simp only [List.map_cons, List.map_nil, List.cons.injEq, and_true] at hw
    have d1 := (dec0 (b := 0xC0 + n / 64) (by omega) cp).2.1 (by omega)
    have d2 := dec1 (st := 2) (b := 0x80 + n % 64) (by omega) (by omega) (by omega) (0xC0 + n / 64 - 0xC0)
    rw [if_pos (by simp [lo, hi]; omega)] at d2
    have e2 : (0x80 + n % 64) % 64 + (0xC0 + n / 64 - 0xC0) * 64 % 2 ^ 32 = n := by omega
    rw [e2] at d2
    rw [← hw.1] at d1
    rw [← hw.2] at d2
    simp only [List.cons_append, List.nil_append]
    rw [dump_go d1 (by omega), hw.1, dump_accept d2, escape_big (by omega)]
    simp
  rw [if_neg h2] at hw
  by_cases h3 : n < 0x10000
  · rw [if_pos h3] at hw
    obtain ⟨c1, c2, c3, rfl⟩ := shape3 hw
    simp only [List.map_cons, List.map_nil, List.cons.injEq, and_true] at hw
    obtain ⟨hw1, hw2, hw3⟩ := hw
    have key : ∀ st, 2 ≤ st → decode 0 cp (0xE0 + n / 4096) = (st, n / 4096) → st < 9 → nxt st = 2 →
        lo st ≤ 0x80 + n / 64 % 64 ∧ 0x80 + n / 64 % 64 ≤ hi st →
        dumpLoop 0 cp out ([c1, c2, c3] ++ rest) = dumpLoop 0 n (out ++ [c1, c2, c3]) rest := by
      intro st hst d1 h9 hnx hr
      have d2 := dec1 (st := st) (b := 0x80 + n / 64 % 64) h9 hst (by omega) (n / 4096)
      rw [if_pos hr, hnx] at d2
      have e2 : (0x80 + n / 64 % 64) % 64 + (n / 4096) * 64 % 2 ^ 32 = n / 64 := by omega
      rw [e2] at d2
      have d3 := dec1 (st := 2) (b := 0x80 + n % 64) (by omega) (by omega) (by omega) (n / 64)
      rw [if_pos (by simp [lo, hi]; omega)] at d3
      have e3 : (0x80 + n % 64) % 64 + (n / 64) * 64 % 2 ^ 32 = n := by omega
      rw [e3] at d3
      rw [← hw1] at d1
      rw [← hw2] at d2
      rw [← hw3] at d3
      simp only [List.cons_append, List.nil_append]
      rw [dump_go d1 hst, dump_go d2 (by omega), dump_accept d3, escape_big (by omega)]
      simp
    have hd := dec0 (b := 0xE0 + n / 4096) (by omega) cp
    by_cases c0 : n / 4096 = 0
    · refine key 4 (by omega) ?_ (by omega) rfl (by simp [lo, hi]; omega)
      rw [hd.2.2.1 (by omega), c0]
    · by_cases cd : n / 4096 = 0xD
      · refine key 5 (by omega) ?_ (by omega) rfl (by simp [lo, hi]; omega)
        rw [hd.2.2.2.2.1 (by omega), cd]
      · refine key 3 (by omega) ?_ (by omega) rfl (by simp [lo, hi]; omega)
        rw [hd.2.2.2.1 (by omega)]
        simp
  rw [if_neg h3] at hw
  exact dump_step4 (by omega) (by omega) cp out w rest hw

theorem cont_inv {st cp : Nat} {out s t : Str} (hst : st < 9) (h2 : 2 ≤ st) (hb : ∀ c ∈ s, c.toNat < 256)
    (h : dumpLoop st cp out s = .ok t) : ∃ c rest cp' out', s = c :: rest ∧ lo st ≤ c.toNat ∧ c.toNat ≤ hi st ∧
      dumpLoop (nxt st) cp' out' rest = .ok t := by
  cases s with
  | nil => rw [dumpLoop, if_neg (by omega)] at h; cases h
  | cons c rest =>
    have d := dec1 hst h2 (hb c (List.mem_cons_self ..)) cp
    by_cases hr : lo st ≤ c.toNat ∧ c.toNat ≤ hi st
    · rw [if_pos hr] at d
      have hnx : nxt st = 0 ∨ 2 ≤ nxt st := by
        have : ∀ st < 9, nxt st = 0 ∨ 2 ≤ nxt st := by decide
        exact this st hst
      rcases hnx with hnx | hnx
      · rw [hnx] at d
        rw [dump_accept d] at h
        exact ⟨c, rest, _, _, rfl, hr.1, hr.2, by rw [hnx]; exact h⟩
      · rw [dump_go d hnx] at h
        exact ⟨c, rest, _, _, rfl, hr.1, hr.2, h⟩
    · rw [if_neg hr] at d
      rw [dumpLoop, d] at h
      simp at h

/-- A string that is written is UTF-8. -/
theorem dump_utf8 : ∀ (k : Nat) (s : Str), s.length ≤ k → (∀ c ∈ s, c.toNat < 256) → ∀ cp out t, dumpLoop 0 cp out s = .ok t →
    Utf8 s := by
  intro k
  induction k with
  | zero =>
    intro s hs _ cp out t _
    have : s = [] := List.length_eq_zero_iff.mp (by omega)
    subst this
    exact ⟨[], by simp, rfl⟩
  | succ k ih =>
    intro s hs hb cp out t h
    cases s with
    | nil => exact ⟨[], by simp, rfl⟩
    | cons c s =>
      have hc := hb c (List.mem_cons_self ..)
      have hb' : ∀ d ∈ s, d.toNat < 256 := fun d hd => hb d (List.mem_cons_of_mem _ hd)
      have hd := dec0 hc cp
      have fin : ∀ n w rest, Scalar n → c :: s = w ++ rest → w ≠ [] → w.map Char.toNat = utf8 n → Utf8 rest → Utf8 (c :: s) := by
        intro n w rest hn he _ hw ⟨cs, h1, h2⟩
        refine ⟨n :: cs, ?_, ?_⟩
        · intro d hd
          rcases List.mem_cons.mp hd with rfl | hd
          · exact hn
          · exact h1 d hd
        · rw [he, List.map_append, hw, h2, List.flatMap_cons]
      simp only [List.length_cons] at hs
      by_cases h1 : c.toNat < 128
      · rw [dump_accept (hd.1 h1)] at h
        exact fin c.toNat [c] s (by unfold Scalar; omega) rfl (by simp) (by simp [utf8, h1]) (ih s (by omega) hb' _ _ _ h)
      by_cases h2 : 0xC2 ≤ c.toNat ∧ c.toNat ≤ 0xDF
      · rw [dump_go (hd.2.1 h2) (by omega)] at h
        obtain ⟨c2, r2, _, _, rfl, l2, u2, h⟩ := cont_inv (by omega) (by omega) hb' h
        simp only [lo, hi, List.getD_cons_zero, List.getD_cons_succ, List.length_cons] at l2 u2 hs
        refine fin ((c.toNat - 0xC0) * 64 + (c2.toNat - 0x80)) [c, c2] r2 (by unfold Scalar; omega) rfl (by simp) ?_
          (ih r2 (by omega) (fun d hd => hb' d (List.mem_cons_of_mem _ hd)) _ _ _ h)
        unfold utf8
        rw [if_neg (by omega), if_pos (by omega)]
        simp only [List.map_cons, List.map_nil, List.cons.injEq, and_true]
        omega
      have three : ∀ st cp', 2 ≤ st → st < 9 → nxt st = 2 → dumpLoop st cp' (out ++ [c]) s = .ok t →
          (∀ x, lo st ≤ x → x ≤ hi st → 0x80 ≤ x ∧ x ≤ 0xBF ∧ (c.toNat = 0xE0 → 0xA0 ≤ x) ∧ (c.toNat = 0xED → x ≤ 0x9F)) →
          0xE0 ≤ c.toNat → c.toNat ≤ 0xEF → Utf8 (c :: s) := by
        intro st cp' a1 a2 a3 h a4 a5 a6
        obtain ⟨c2, r2, _, _, rfl, l2, u2, h⟩ := cont_inv a2 a1 hb' h
        rw [a3] at h
        have hb2 : ∀ d ∈ r2, d.toNat < 256 := fun d hd => hb' d (List.mem_cons_of_mem _ hd)
        obtain ⟨c3, r3, _, _, rfl, l3, u3, h⟩ := cont_inv (by omega) (by omega) hb2 h
        have hx := a4 _ l2 u2
        simp only [lo, hi, List.getD_cons_zero, List.getD_cons_succ, List.length_cons] at l3 u3 hs
        refine fin ((c.toNat - 0xE0) * 4096 + (c2.toNat - 0x80) * 64 + (c3.toNat - 0x80)) [c, c2, c3] r3 (by unfold Scalar; omega) rfl
          (by simp) ?_ (ih r3 (by omega) (fun d hd => hb2 d (List.mem_cons_of_mem _ hd)) _ _ _ h)
        unfold utf8
        rw [if_neg (by omega), if_neg (by omega), if_pos (by omega)]
        simp only [List.map_cons, List.map_nil, List.cons.injEq, and_true]
        omega
      have four : ∀ st cp', 2 ≤ st → st < 9 → nxt st = 3 → dumpLoop st cp' (out ++ [c]) s = .ok t →
          (∀ x, lo st ≤ x → x ≤ hi st → 0x80 ≤ x ∧ x ≤ 0xBF ∧ (c.toNat = 0xF0 → 0x90 ≤ x) ∧ (c.toNat = 0xF4 → x ≤ 0x8F)) →
          0xF0 ≤ c.toNat → c.toNat ≤ 0xF4 → Utf8 (c :: s) := by
        intro st cp' a1 a2 a3 h a4 a5 a6
        obtain ⟨c2, r2, _, _, rfl, l2, u2, h⟩ := cont_inv a2 a1 hb' h
        rw [a3] at h
        have hb2 : ∀ d ∈ r2, d.toNat < 256 := fun d hd => hb' d (List.mem_cons_of_mem _ hd)
        obtain ⟨c3, r3, _, _, rfl, l3, u3, h⟩ := cont_inv (by omega) (by omega) hb2 h
        have hb3 : ∀ d ∈ r3, d.toNat < 256 := fun d hd => hb2 d (List.mem_cons_of_mem _ hd)
        have e3 : nxt 3 = 2 := rfl
        rw [e3] at h
        obtain ⟨c4, r4, _, _, rfl, l4, u4, h⟩ := cont_inv (by omega) (by omega) hb3 h
        have hx := a4 _ l2 u2
        simp only [lo, hi, List.getD_cons_zero, List.getD_cons_succ, List.length_cons] at l3 u3 l4 u4 hs
        refine fin ((c.toNat - 0xF0) * 262144 + (c2.toNat - 0x80) * 4096 + (c3.toNat - 0x80) * 64 + (c4.toNat - 0x80)) [c, c2, c3, c4] r4
          (by unfold Scalar; omega) rfl (by simp) ?_ (ih r4 (by omega) (fun d hd => hb3 d (List.mem_cons_of_mem _ hd)) _ _ _ h)
        unfold utf8
        rw [if_neg (by omega), if_neg (by omega), if_neg (by omega)]
        simp only [List.map_cons, List.map_nil, List.cons.injEq, and_true]
        omega
      by_cases h3 : c.toNat = 0xE0
      · rw [dump_go (hd.2.2.1 h3) (by omega)] at h
        exact three 4 _ (by omega) (by omega) rfl h (by simp only [lo, hi, List.getD_cons_zero, List.getD_cons_succ]; omega) (by omega) (by omega)
      by_cases h4 : c.toNat = 0xED
      · rw [dump_go (hd.2.2.2.2.1 h4) (by omega)] at h
        exact three 5 _ (by omega) (by omega) rfl h (by simp only [lo, hi, List.getD_cons_zero, List.getD_cons_succ]; omega) (by omega) (by omega)
      by_cases h5 : 0xE1 ≤ c.toNat ∧ c.toNat ≤ 0xEC ∨ c.toNat = 0xEE ∨ c.toNat = 0xEF
      · rw [dump_go (hd.2.2.2.1 h5) (by omega)] at h
        exact three 3 _ (by omega) (by omega) rfl h (by simp only [lo, hi, List.getD_cons_zero, List.getD_cons_succ]; omega) (by omega) (by omega)
      by_cases h6 : c.toNat = 0xF0
      · rw [dump_go (hd.2.2.2.2.2.1 h6) (by omega)] at h
        exact four 6 _ (by omega) (by omega) rfl h (by simp only [lo, hi, List.getD_cons_zero, List.getD_cons_succ]; omega) (by omega) (by omega)
      by_cases h7 : 0xF1 ≤ c.toNat ∧ c.toNat ≤ 0xF3
      · rw [dump_go (hd.2.2.2.2.2.2.1 h7) (by omega)] at h
        exact four 7 _ (by omega) (by omega) rfl h (by simp only [lo, hi, List.getD_cons_zero, List.getD_cons_succ]; omega) (by omega) (by omega)
      by_cases h8 : c.toNat = 0xF4
      · rw [dump_go (hd.2.2.2.2.2.2.2.1 h8) (by omega)] at h
        exact four 8 _ (by omega) (by omega) rfl h (by simp only [lo, hi, List.getD_cons_zero, List.getD_cons_succ]; omega) (by omega) (by omega)
      · have := hd.2.2.2.2.2.2.2.2 (by omega)
        rw [dumpLoop] at h
        simp only [this] at h
        simp at h

/-- What is written for a UTF-8 string. -/
theorem dump_ok : ∀ (cs : List Nat) (s : Str), (∀ c ∈ cs, Scalar c) → s.map Char.toNat = cs.flatMap utf8 → ∀ cp out,
    ∃ ws : List (Nat × Str), s = ws.flatMap Prod.snd ∧ (∀ p ∈ ws, Scalar p.1 ∧ p.2.map Char.toNat = utf8 p.1) ∧
      dumpLoop 0 cp out s = .ok (out ++ ws.flatMap fun p => escapes p.1 p.2) := by
  intro cs
  induction cs with
  | nil =>
    intro s _ h cp out
    have : s = [] := by simpa using h
    subst this
    exact ⟨[], by simp [dumpLoop]⟩
  | cons n cs ih =>
    intro s hs h cp out
    rw [List.flatMap_cons] at h
    obtain ⟨w, rest, rfl, h1, h2⟩ := map_split h
    obtain ⟨ws, e1, e2, e3⟩ := ih rest (fun c hc => hs c (List.mem_cons_of_mem _ hc)) h2 n (out ++ escapes n w)
    refine ⟨(n, w) :: ws, by rw [List.flatMap_cons, ← e1], ?_, ?_⟩
    · intro p hp
      rcases List.mem_cons.mp hp with rfl | hp
      · exact ⟨hs _ (List.mem_cons_self ..), h1⟩
      · exact e2 p hp
    · rw [dump_step (hs n (List.mem_cons_self ..)) cp out w rest h1, e3, List.flatMap_cons, List.append_assoc]

end Verif.Server
