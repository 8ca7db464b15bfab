import Verif.Model.Export
import Verif.Lemmas.ServerRead
/-
Lemmas for C72: reading what `dump` writes.
-/
namespace Verif.Export
open JsonSpec ServerSpec
open Server (Str Run dumpString decimal outOfRange dumpString_read dumpString_utf8)

theorem ws_spaces (n : Nat) (s : Str) : ws (spaces n ++ s) = ws s := by
  induction n with
  | zero => rfl
  | succ n ih => rw [spaces, List.replicate_succ, List.cons_append, ws, List.dropWhile_cons_of_pos rfl]; exact ih

theorem ws_newline (s : Str) : ws ('\n' :: s) = ws s := by
  rw [ws, List.dropWhile_cons_of_pos rfl]; rfl

theorem ws_space (s : Str) : ws (' ' :: s) = ws s := by
  rw [ws, List.dropWhile_cons_of_pos rfl]; rfl

theorem ws_keep {c : Char} {s : Str} (h : (c == ' ' || c == '\n' || c == '\t' || c == '\r') = false) : ws (c :: s) = c :: s := by
  rw [ws, List.dropWhile_cons_of_neg (by rw [h]; decide)]

theorem readValue_ws {s s' : Str} (h : ws s = ws s') (n : Nat) : readValue n s = readValue n s' := by
  cases n with
  | zero => rfl
  | succ n => rw [readValue, readValue, h]

theorem readItems_ws {s s' : Str} (h : ws s = ws s') (n : Nat) : readItems n s = readItems n s' := by
  cases n with
  | zero => rfl
  | succ n => rw [readItems, readItems, readValue_ws h]

theorem readMembers_ws {s s' : Str} (h : ws s = ws s') (n : Nat) : readMembers n s = readMembers n s' := by
  cases n with
  | zero => rfl
  | succ n => rw [readMembers, readMembers, h]

/-- The first character of a value. -/
def Starts (t : Str) : Prop := ∃ c r, t = c :: r ∧ (c == ' ' || c == '\n' || c == '\t' || c == '\r') = false ∧ c ≠ ']' ∧ c ≠ '}'

theorem dumpString_starts {s t : Str} (h : dumpString s = .ok t) : ∃ r, t = '"' :: r := by
  unfold dumpString at h
  cases hd : Server.dumpLoop 0 0 [] s with
  | ok u => rw [hd] at h; cases h; exact ⟨_, rfl⟩
  | throw w => rw [hd] at h; cases h
  | ub => rw [hd] at h; cases h
  | diverge => rw [hd] at h; cases h

theorem bind_ok {x : Run α} {f : α → Run β} {b : β} (h : x.bind f = .ok b) : ∃ a, x = .ok a ∧ f a = .ok b := by
  cases x with
  | ok a => exact ⟨a, rfl, h⟩
  | throw w => cases h
  | ub => cases h
  | diverge => cases h

theorem map_ok {x : Run α} {f : α → β} {b : β} (h : x.map f = .ok b) : ∃ a, x = .ok a ∧ f a = b := by
  cases x with
  | ok a => cases h; exact ⟨a, rfl, rfl⟩
  | throw w => cases h
  | ub => cases h
  | diverge => cases h

theorem numeric_starts {c : Char} (h : (c.isDigit || c == '-') = true) :
    (c == ' ' || c == '\n' || c == '\t' || c == '\r') = false ∧ c ≠ ']' ∧ c ≠ '}' ∧ c ≠ '"' ∧ c ≠ '[' ∧ c ≠ '{' ∧ c ≠ 'n' ∧ c ≠ 't' ∧ c ≠ 'f' := by
  refine ⟨?_, ?_, ?_, ?_, ?_, ?_, ?_, ?_, ?_⟩
  · cases he : (c == ' ' || c == '\n' || c == '\t' || c == '\r') with
    | false => rfl
    | true =>
      simp only [Bool.or_eq_true, beq_iff_eq] at he
      rcases he with ((rfl | rfl) | rfl) | rfl <;> exact absurd h (by decide)
  all_goals rintro rfl; exact absurd h (by decide)

theorem dump_starts (i : Nat) (v : Json) (hv : v.Valid) {t : Str} (h : dump i v = .ok t) : Starts t := by
  cases v with
  | null => rw [dump] at h; cases h; exact ⟨'n', _, rfl, by decide⟩
  | bool b =>
    cases b with
    | false => rw [dump] at h; cases h; exact ⟨'f', _, rfl, by decide⟩
    | true => rw [dump] at h; cases h; exact ⟨'t', _, rfl, by decide⟩
  | num u =>
    rw [dump] at h; cases h
    rw [Json.Valid] at hv
    obtain ⟨_, c, r, rfl, hc⟩ := hv
    have := numeric_starts hc
    exact ⟨c, r, rfl, this.1, this.2.1, this.2.2.1⟩
  | str s =>
    rw [dump] at h
    obtain ⟨r, rfl⟩ := dumpString_starts h
    exact ⟨_, _, rfl, by decide⟩
  | arr l =>
    cases l with
    | nil => rw [dump] at h; cases h; exact ⟨'[', _, rfl, by decide⟩
    | cons v l =>
      rw [dump] at h
      obtain ⟨_, _, h⟩ := bind_ok h
      obtain ⟨_, _, h⟩ := bind_ok h
      cases h
      exact ⟨_, _, rfl, by decide⟩
  | obj l =>
    cases l with
    | nil => rw [dump] at h; cases h; exact ⟨'{', _, rfl, by decide⟩
    | cons p l =>
      obtain ⟨k, v⟩ := p
      rw [dump] at h
      obtain ⟨_, _, h⟩ := bind_ok h
      obtain ⟨_, _, h⟩ := bind_ok h
      obtain ⟨_, _, h⟩ := bind_ok h
      cases h
      exact ⟨_, _, rfl, by decide⟩

theorem Starts.ws {t : Str} (h : Starts t) (r : Str) : ws (t ++ r) = t ++ r := by
  obtain ⟨c, u, rfl, h1, _⟩ := h
  exact ws_keep h1

theorem Starts.pos {t : Str} (h : Starts t) : 1 ≤ t.length := by
  obtain ⟨c, u, rfl, h1, _⟩ := h
  simp

/-- What may stand behind a value. -/
def Ends (r : Str) : Prop := ∀ c, r.head? = some c → isNum c = false

theorem ends_cons {c : Char} {r : Str} (h : isNum c = false) : Ends (c :: r) := by
  intro d hd; cases hd; exact h

theorem num_read {t : Str} (ht : Number t) {r : Str} (hr : Ends r) : (t ++ r).takeWhile isNum = t ∧ (t ++ r).dropWhile isNum = r := by
  obtain ⟨h, _⟩ := ht
  constructor
  · rw [List.takeWhile_append_of_pos h]
    cases r with
    | nil => rw [List.takeWhile_nil, List.append_nil]
    | cons c r => rw [List.takeWhile_cons_of_neg (by rw [hr c rfl]; decide), List.append_nil]
  · rw [List.dropWhile_append_of_pos h]
    cases r with
    | nil => rfl
    | cons c r => rw [List.dropWhile_cons_of_neg (by rw [hr c rfl]; decide)]

mutual
theorem dump_read (i : Nat) : ∀ (v : Json), v.Valid → ∃ t, dump i v = .ok t ∧ ∀ n r, t.length ≤ n → Ends r → readValue n (t ++ r) = some (v, r)
  | .null, _ => by
    refine ⟨_, dump.eq_1 i, ?_⟩
    intro n r hn _
    cases n with
    | zero => exact absurd hn (by decide)
    | succ n => rw [readValue]; rfl
  | .bool true, _ => by
    refine ⟨_, by rw [dump], ?_⟩
    intro n r hn _
    cases n with
    | zero => exact absurd hn (by decide)
    | succ n => rw [readValue]; rfl
  | .bool false, _ => by
    refine ⟨_, by rw [dump], ?_⟩
    intro n r hn _
    cases n with
    | zero => exact absurd hn (by decide)
    | succ n => rw [readValue]; rfl
  | .num t, hv => by
    rw [Json.Valid] at hv
    refine ⟨t, by rw [dump], ?_⟩
    intro n r hn hr
    obtain ⟨h1, h2⟩ := num_read hv hr
    obtain ⟨_, c, u, rfl, hc⟩ := hv
    obtain ⟨k1, _, _, k4, k5, k6, k7, k8, k9⟩ := numeric_starts hc
    have kn : ∀ a b : Char, ∀ l m : Str, a ≠ b → (a :: l).isPrefixOf (b :: m) = false := by
      intro a b l m hab
      simp [List.isPrefixOf, hab]
    cases n with
    | zero => simp at hn
    | succ n =>
      rw [readValue, List.cons_append, ws_keep k1]
      simp only
      rw [if_neg k4, if_neg k5, if_neg k6, show "null".toList = ['n', 'u', 'l', 'l'] by decide, show "true".toList = ['t', 'r', 'u', 'e'] by decide,
        show "false".toList = ['f', 'a', 'l', 's', 'e'] by decide, kn _ _ _ _ (Ne.symm k7), kn _ _ _ _ (Ne.symm k8), kn _ _ _ _ (Ne.symm k9),
        hc]
      simp only [Bool.false_eq_true, if_false, if_true]
      rw [← List.cons_append, h1, h2]
  | .str s, hv => by
    rw [Json.Valid] at hv
    obtain ⟨t, h1, h2⟩ := dumpString_read hv
    obtain ⟨u, rfl⟩ := dumpString_starts h1
    refine ⟨_, by rw [dump, h1], ?_⟩
    intro n r hn _
    cases n with
    | zero => simp at hn
    | succ n =>
      rw [readValue, List.cons_append, ws_keep (by decide)]
      simp only
      rw [if_pos trivial, ← List.cons_append, h2]
      rfl
  | .arr [], _ => by
    refine ⟨_, by rw [dump], ?_⟩
    intro n r hn _
    cases n with
    | zero => exact absurd hn (by decide)
    | succ n => rw [readValue]; rfl
  | .arr (v :: l), hv => by
    rw [Json.Valid, ValidItems] at hv
    obtain ⟨t, h1, h2⟩ := dump_read (i + 4) v hv.1
    obtain ⟨u, h3, h4⟩ := items_read (i + 4) l hv.2
    refine ⟨_, by rw [dump, h1, h3]; rfl, ?_⟩
    intro n r hn _
    have hst := dump_starts _ v hv.1 h1
    have hw : ws ('\n' :: (spaces (i + 4) ++ t ++ u ++ '\n' :: (spaces i ++ [']']) ++ r)) = t ++ (u ++ '\n' :: (spaces i ++ ']' :: r)) := by
      rw [ws_newline]
      simp only [List.append_assoc, List.cons_append, List.nil_append]
      rw [ws_spaces, hst.ws]
    cases n with
    | zero => simp at hn
    | succ n =>
      rw [readValue, List.cons_append, ws_keep (by decide)]
      simp only [List.cons_append]
      rw [if_neg (by decide), if_pos trivial, hw, if_neg, readItems_ws (s' := t ++ (u ++ '\n' :: (spaces i ++ ']' :: r))) (by rw [hw, hst.ws]),
        h4 n v t (fun n r => h2 n r) hst.pos (by
          simp only [List.length_cons, List.length_append] at hn ⊢; omega)]
      · rfl
      · obtain ⟨c, w, rfl, _, hc, _⟩ := hst
        intro h
        exact hc (by simpa using h)
  | .obj [], _ => by
    refine ⟨_, by rw [dump], ?_⟩
    intro n r hn _
    cases n with
    | zero => exact absurd hn (by decide)
    | succ n => rw [readValue]; rfl
  | .obj ((k, v) :: l), hv => by
    rw [Json.Valid, ValidMembers] at hv
    obtain ⟨m, h5, h6⟩ := dumpString_read hv.1
    obtain ⟨t, h1, h2⟩ := dump_read (i + 4) v hv.2.1
    obtain ⟨u, h3, h4⟩ := members_read (i + 4) l hv.2.2
    refine ⟨_, by rw [dump, h5, h1, h3]; rfl, ?_⟩
    intro n r hn _
    obtain ⟨m', rfl⟩ := dumpString_starts h5
    have hw : ws ('\n' :: (spaces (i + 4) ++ ('"' :: m') ++ ':' :: ' ' :: (t ++ u ++ '\n' :: (spaces i ++ ['}'])) ++ r)) =
        '"' :: m' ++ (':' :: ' ' :: (t ++ (u ++ '\n' :: (spaces i ++ '}' :: r)))) := by
      rw [ws_newline]
      simp only [List.append_assoc, List.cons_append, List.nil_append]
      rw [ws_spaces, ws_keep (by decide)]
    cases n with
    | zero => simp at hn
    | succ n =>
      rw [readValue, List.cons_append, ws_keep (by decide)]
      simp only [List.cons_append]
      rw [if_neg (by decide), if_neg (by decide), if_pos trivial]
      simp only [List.cons_append] at hw
      rw [hw, if_neg (by simp), readMembers_ws (s' := '"' :: m' ++ (':' :: ' ' :: (t ++ (u ++ '\n' :: (spaces i ++ '}' :: r)))))
        (by rw [hw, List.cons_append, ws_keep (by decide)]),
        h4 n k ('"' :: m') v t (fun r => h6 r) (fun n r => h2 n r) (by simp) ⟨m', rfl⟩ (by
          simp only [List.length_cons, List.length_append] at hn ⊢; omega)]
      rfl
theorem items_read (i : Nat) : ∀ (l : List Json), ValidItems l → ∃ u, dumpItems i l = .ok u ∧
    ∀ n v t, (∀ n r, t.length ≤ n → Ends r → readValue n (t ++ r) = some (v, r)) → 1 ≤ t.length →
      ∀ {k : Nat} {r : Str}, (t ++ u).length + 1 ≤ n → readItems n (t ++ (u ++ '\n' :: (spaces k ++ ']' :: r))) = some (v :: l, r)
  | [], _ => by
    refine ⟨[], by rw [dumpItems], ?_⟩
    intro n v t ht hpos k r hn
    cases n with
    | zero => simp at hn
    | succ n =>
      rw [readItems, List.nil_append, ht n _ (by simp only [List.length_append] at hn; omega) (ends_cons (by decide))]
      simp only
      rw [ws_newline, ws_spaces, ws_keep (by decide)]
      rfl
  | v' :: l, hv => by
    rw [ValidItems] at hv
    obtain ⟨t', h1, h2⟩ := dump_read i v' hv.1
    obtain ⟨u, h3, h4⟩ := items_read i l hv.2
    refine ⟨_, by rw [dumpItems, h1, h3]; rfl, ?_⟩
    intro n v t ht hpos k r hn
    have hst := dump_starts _ v' hv.1 h1
    cases n with
    | zero => simp at hn
    | succ n =>
      rw [readItems, List.cons_append, ht n _ (by simp only [List.length_append, List.length_cons] at hn; omega) (ends_cons (by decide))]
      simp only [List.cons_append]
      rw [ws_keep (by decide), if_neg (by simp), if_pos (by simp), List.drop_one, List.tail_cons,
        readItems_ws (s' := t' ++ (u ++ '\n' :: (spaces k ++ ']' :: r))) (by
          rw [ws_newline]
          simp only [List.append_assoc]
          rw [ws_spaces]),
        h4 n v' t' (fun n r => h2 n r) hst.pos (by simp only [List.length_cons, List.length_append] at hn ⊢; omega)]
      rfl
theorem members_read (i : Nat) : ∀ (l : List (Str × Json)), ValidMembers l → ∃ u, dumpMembers i l = .ok u ∧
    ∀ n k m v t, (∀ r, readString (m ++ r) = some (k, r)) → (∀ n r, t.length ≤ n → Ends r → readValue n (t ++ r) = some (v, r)) → 1 ≤ m.length →
      (∃ m', m = '"' :: m') → ∀ {j : Nat} {r : Str}, (t ++ u).length + 1 ≤ n →
        readMembers n (m ++ (':' :: ' ' :: (t ++ (u ++ '\n' :: (spaces j ++ '}' :: r))))) = some ((k, v) :: l, r)
  | [], _ => by
    refine ⟨[], by rw [dumpMembers], ?_⟩
    intro n k m v t hm ht hpos hq j r hn
    obtain ⟨m', rfl⟩ := hq
    cases n with
    | zero => simp at hn
    | succ n =>
      rw [readMembers, List.cons_append, ws_keep (by decide), ← List.cons_append, hm]
      simp only
      rw [ws_keep (by decide), if_pos (by simp), List.drop_one, List.tail_cons, readValue_ws (ws_space _), List.nil_append,
        ht n _ (by simp only [List.length_append] at hn; omega) (ends_cons (by decide))]
      simp only
      rw [ws_newline, ws_spaces, ws_keep (by decide)]
      rfl
  | (k', v') :: l, hv => by
    rw [ValidMembers] at hv
    obtain ⟨m2, h5, h6⟩ := dumpString_read hv.1
    obtain ⟨t', h1, h2⟩ := dump_read i v' hv.2.1
    obtain ⟨u, h3, h4⟩ := members_read i l hv.2.2
    refine ⟨_, by rw [dumpMembers, h5, h1, h3]; rfl, ?_⟩
    intro n k m v t hm ht hpos hq j r hn
    obtain ⟨m', rfl⟩ := hq
    obtain ⟨m2', rfl⟩ := dumpString_starts h5
    cases n with
    | zero => simp at hn
    | succ n =>
      rw [readMembers, List.cons_append, ws_keep (by decide), ← List.cons_append, hm]
      simp only
      rw [ws_keep (by decide), if_pos (by simp), List.drop_one, List.tail_cons, readValue_ws (ws_space _), List.cons_append,
        ht n _ (by simp only [List.length_append, List.length_cons] at hn; omega) (ends_cons (by decide))]
      simp only [List.cons_append]
      rw [ws_keep (by decide), if_neg (by simp), if_pos (by simp), List.drop_one, List.tail_cons,
        readMembers_ws (s' := '"' :: m2' ++ (':' :: ' ' :: (t' ++ (u ++ '\n' :: (spaces j ++ '}' :: r))))) (by
          rw [ws_newline]
          simp only [List.append_assoc, List.cons_append]
          rw [ws_spaces]),
        h4 n k' ('"' :: m2') v' t' (fun r => h6 r) (fun n r => h2 n r) (by simp) ⟨m2', rfl⟩ (by
          simp only [List.length_cons, List.length_append] at hn ⊢; omega)]
      rfl
end

end Verif.Export
