import Verif.Model.Bytes
namespace Verif.Bytes

@[simp] theorem length_toLE (n x : Nat) : (toLE n x).length = n := by
  induction n generalizing x with
  | zero => rfl
  | succ n ih => simp [toLE, ih]

theorem ofLE_toLE (n x : Nat) (h : x < 256 ^ n) : ofLE (toLE n x) = x := by
  induction n generalizing x with
  | zero => simp at h; simp [toLE, ofLE, h]
  | succ n ih =>
    simp only [toLE, ofLE]
    rw [ih (x / 256) (by rw [Nat.div_lt_iff_lt_mul (by decide)]; rw [Nat.pow_succ] at h; exact h)]
    omega

theorem ofLE_toLE_mod (n x : Nat) : ofLE (toLE n x) = x % 256 ^ n := by
  induction n generalizing x with
  | zero => simp [toLE, ofLE, Nat.mod_one]
  | succ n ih =>
    simp only [toLE, ofLE, ih]
    rw [Nat.pow_succ, Nat.mul_comm (256 ^ n), Nat.mod_mul]

@[simp] theorem length_ofArr (k : Nat) (xs : List Nat) : (ofArr k xs).length = k * xs.length := by
  induction xs with
  | nil => simp [ofArr]
  | cons x xs ih =>
    simp only [ofArr, List.flatMap_cons, List.length_append, length_toLE, List.length_cons] at *
    rw [ih, Nat.mul_add]; omega

theorem ofArr_append (k : Nat) (xs ys : List Nat) : ofArr k (xs ++ ys) = ofArr k xs ++ ofArr k ys := by
  simp [ofArr]

theorem ofArr_cons (k x : Nat) (xs : List Nat) : ofArr k (x :: xs) = toLE k x ++ ofArr k xs := by
  simp [ofArr]

theorem toArr_ofArr (k : Nat) (xs rest : List Nat) (h : ∀ x ∈ xs, x < 256 ^ k) :
    toArr k xs.length (ofArr k xs ++ rest) = xs := by
  induction xs with
  | nil => simp [toArr]
  | cons x xs ih =>
    simp only [List.length_cons, toArr, ofArr_cons, List.append_assoc]
    rw [List.take_left' (length_toLE k x), List.drop_left' (length_toLE k x), ofLE_toLE k x (h x (by simp)),
      ih (fun y hy => h y (by simp [hy]))]

@[simp] theorem length_toArr (k n : Nat) (bs : List Nat) : (toArr k n bs).length = n := by
  induction n generalizing bs with
  | zero => rfl
  | succ n ih => simp [toArr, ih]

theorem blit_mid (a b c x : List Nat) (h : b.length = x.length) :
    blit (a ++ b ++ c) a.length x = .ok (a ++ x ++ c) := by
  unfold blit
  rw [if_pos (by simp; omega)]
  have h1 : (a ++ b ++ c).take a.length = a := by rw [List.append_assoc, List.take_left]
  have h2 : (a ++ b ++ c).drop (a.length + x.length) = c := by
    rw [← h, ← List.length_append, List.drop_left]
  rw [h1, h2]

theorem peek_mid (a b c : List Nat) : peek (a ++ b ++ c) a.length b.length = .ok b := by
  unfold peek
  rw [if_pos (by simp)]
  rw [List.append_assoc, List.drop_left, List.take_left]

theorem pread_mid (a b c : List Nat) : pread (a ++ b ++ c) a.length b.length = b := by
  unfold pread
  rw [List.append_assoc, List.drop_left, List.take_left]

/-- Version with the offset and length given up to equality. -/
theorem peek_mid' (buf a b c : List Nat) (off n : Nat) (hb : buf = a ++ b ++ c) (ho : off = a.length)
    (hn : n = b.length) : peek buf off n = .ok b := by
  subst hb; subst ho; subst hn; exact peek_mid a b c

theorem blit_mid' (buf a b c x : List Nat) (off : Nat) (hb : buf = a ++ b ++ c) (ho : off = a.length)
    (h : b.length = x.length) : blit buf off x = .ok (a ++ x ++ c) := by
  subst hb; subst ho; exact blit_mid a b c x h

theorem pread_mid' (buf a b c : List Nat) (off n : Nat) (hb : buf = a ++ b ++ c) (ho : off = a.length)
    (hn : n = b.length) : pread buf off n = b := by
  subst hb; subst ho; subst hn; exact pread_mid a b c

end Verif.Bytes
