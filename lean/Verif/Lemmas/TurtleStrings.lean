import Verif.Lemmas.TurtleTokens
/-
The end of a string is found.
-/
namespace Verif.Turtle
open Verif.TurtleSpec

/-- the number of backslashes at the end of a text -/
def trail (s : Str) : Nat := (s.reverse.takeWhile (· == '\\')).length

/-- searching the closing marks from position `pos` on -/
def search (q v : Str) (fuel pos : Nat) : Option Nat := closing q v fuel (find q v (v.length + 1 - pos) pos)

theorem backslashes_eq (pre s : Str) : backslashes (pre ++ s) pre.length = trail pre := by
  simp [backslashes, trail]

theorem find_step {q v : Str} {pos : Nat} (hp : pos ≤ v.length) :
    find q v (v.length + 1 - pos) pos =
      if q.isPrefixOf (v.drop pos) then some pos else find q v (v.length + 1 - (pos + 1)) (pos + 1) := by
  have : v.length + 1 - pos = (v.length + 1 - (pos + 1)) + 1 := by omega
  rw [this, find]

/-- no mark here -/
theorem search_skip {q pre s : Str} (fuel : Nat) (h : q.isPrefixOf s = false) :
    search q (pre ++ s) fuel pre.length = search q (pre ++ s) fuel (pre.length + 1) := by
  unfold search
  rw [find_step (by simp)]
  simp [h]

theorem search_escaped {q pre s : Str} (fuel : Nat) (ht : trail pre % 2 = 1) :
    search q (pre ++ s) (fuel + 1) pre.length = search q (pre ++ s) fuel (pre.length + 1) ∨
    search q (pre ++ s) (fuel + 1) pre.length = search q (pre ++ s) (fuel + 1) (pre.length + 1) := by
  by_cases h : q.isPrefixOf s = true
  · left
    unfold search
    rw [find_step (by simp)]
    rw [List.drop_left, if_pos h, closing, backslashes_eq, if_neg (by omega)]
  · right
    exact search_skip _ (Bool.eq_false_iff.mpr h)

theorem search_found {q pre s : Str} (fuel : Nat) (h : q.isPrefixOf s = true) (ht : trail pre % 2 = 0) :
    search q (pre ++ s) (fuel + 1) pre.length = some pre.length := by
  unfold search
  rw [find_step (by simp), List.drop_left, if_pos h, closing, backslashes_eq, if_pos ht]

theorem trail_append_ne (s : Str) {c : Char} (h : c ≠ '\\') : trail (s ++ [c]) = 0 := by
  simp [trail, h]

theorem trail_append_bs (s : Str) : trail (s ++ ['\\']) = trail s + 1 := by
  simp [trail]

theorem trail_quotes (pre : Str) (c : Char) (n : Nat) (hc : c ≠ '\\') (h : trail pre % 2 = 0) :
    trail (pre ++ List.replicate n c) % 2 = 0 := by
  cases n with
  | zero => simpa using h
  | succ n =>
    rw [List.replicate_succ', ← List.append_assoc, trail_append_ne _ hc]

/-- How the marks look: one or three. -/
def Marks (c : Char) (k : Nat) (q : Str) : Prop := (q = [c] ∧ k = 0) ∨ (q = [c, c, c] ∧ k = 2)

theorem search_quotes {c : Char} {k : Nat} {q : Str} (hq : Marks c k q) {x : Char} (hx : x ≠ c) (fuel : Nat) (s : Str) :
    ∀ (n : Nat) (pre : Str), n ≤ k →
      search q (pre ++ (List.replicate n c ++ x :: s)) fuel pre.length =
        search q (pre ++ (List.replicate n c ++ x :: s)) fuel (pre.length + n) := by
  intro n
  induction n with
  | zero => intro pre _; simp
  | succ n ih =>
    intro pre hn
    have hnp : q.isPrefixOf (List.replicate (n + 1) c ++ x :: s) = false := by
      rcases hq with ⟨rfl, rfl⟩ | ⟨rfl, rfl⟩
      · omega
      · have : n = 0 ∨ n = 1 := by omega
        rcases this with rfl | rfl
        · simp [List.isPrefixOf, Ne.symm hx]
        · simp [List.isPrefixOf, List.replicate, Ne.symm hx]
    rw [search_skip _ hnp]
    have := ih (pre ++ [c]) (by omega)
    simp only [List.append_assoc, List.singleton_append, List.length_append, List.length_singleton] at this
    rw [List.replicate_succ, List.cons_append, this]
    congr 1
    omega

theorem search_content {c : Char} {k : Nat} {q : Str} (hq : Marks c k q) (hc : c ≠ '\\') {t : Str} (ht : Content c k t) :
    ∀ (pre r : Str) (fuel : Nat), t.length < fuel → trail pre % 2 = 0 →
      search q (pre ++ (t ++ (q ++ r))) fuel pre.length = some (pre.length + t.length) := by
  induction ht with
  | nil =>
    intro pre r fuel hf htr
    obtain ⟨f, rfl⟩ : ∃ f, fuel = f + 1 := ⟨fuel - 1, by omega⟩
    have : q.isPrefixOf (q ++ r) = true := List.isPrefixOf_iff_prefix.mpr ⟨r, rfl⟩
    rw [List.nil_append, search_found f this htr]
    simp
  | @chr n x s hn hxc hxb _ ih =>
    intro pre r fuel hf htr
    simp only [List.append_assoc, List.cons_append]
    rw [search_quotes hq hxc fuel _ n pre hn]
    have h1 := search_skip (q := q) (pre := pre ++ List.replicate n c) (s := x :: (s ++ (q ++ r))) fuel (by
      rcases hq with ⟨rfl, _⟩ | ⟨rfl, _⟩ <;> simp [List.isPrefixOf, Ne.symm hxc])
    have h2 := ih (pre ++ List.replicate n c ++ [x]) r fuel (by simp at hf; omega) (by rw [trail_append_ne _ hxb])
    simp only [List.append_assoc, List.length_append, List.length_replicate, List.length_singleton,
      List.singleton_append, Nat.add_assoc] at h1 h2
    rw [h1, h2]
    simp; omega
  | @esc n x s hn _ ih =>
    intro pre r fuel hf htr
    simp only [List.append_assoc, List.cons_append]
    rw [search_quotes hq (Ne.symm hc) fuel _ n pre hn]
    have h1 := search_skip (q := q) (pre := pre ++ List.replicate n c) (s := '\\' :: x :: (s ++ (q ++ r))) fuel (by
      rcases hq with ⟨rfl, _⟩ | ⟨rfl, _⟩ <;> simp [List.isPrefixOf, hc])
    have ht0 := trail_quotes pre c n hc htr
    have ht1 : trail (pre ++ List.replicate n c ++ ['\\']) % 2 = 1 := by rw [trail_append_bs]; omega
    have ht2 : trail (pre ++ List.replicate n c ++ ['\\'] ++ [x]) % 2 = 0 := by
      by_cases hx : x = '\\'
      · subst hx; rw [trail_append_bs]; omega
      · rw [trail_append_ne _ hx]
    obtain ⟨f, rfl⟩ : ∃ f, fuel = f + 1 := ⟨fuel - 1, by omega⟩
    have h2 := search_escaped (q := q) (pre := pre ++ List.replicate n c ++ ['\\']) (s := x :: (s ++ (q ++ r))) f ht1
    have h3 := ih (pre ++ List.replicate n c ++ ['\\'] ++ [x]) r f (by simp at hf; omega) ht2
    have h4 := ih (pre ++ List.replicate n c ++ ['\\'] ++ [x]) r (f + 1) (by simp at hf; omega) ht2
    simp only [List.append_assoc, List.length_append, List.length_replicate,
      Nat.add_assoc, List.cons_append, List.nil_append, List.length_cons, List.length_nil] at h1 h2 h3 h4
    rw [h1]
    rcases h2 with h2 | h2
    · rw [h2, h3]; simp; omega
    · rw [h2, h4]; simp; omega

theorem content_head {c : Char} {t : Str} (h : Content c 0 t) (hc : c ≠ '\\') : t.head? ≠ some c := by
  cases h with
  | nil => simp
  | @chr n x s hn hx _ _ => have : n = 0 := by omega
                            subst this; simpa using hx
  | @esc n x s hn _ => have : n = 0 := by omega
                       subst this; simpa using Ne.symm hc

theorem quoteOf_marks {c : Char} {k : Nat} {q t r : Str} (hq : Marks c k q) (hcc : c = '"' ∨ c = '\'')
    (ht : Content c k t) (hr : r.head? ≠ some c) : quoteOf (q ++ (t ++ (q ++ r))) = some q := by
  have hc : c ≠ '\\' := by rcases hcc with rfl | rfl <;> decide
  rcases hq with ⟨rfl, rfl⟩ | ⟨rfl, rfl⟩
  · have hh := content_head ht hc
    have h3 : List.isPrefixOf [c, c, c] (c :: (t ++ (c :: r))) = false := by
      cases t with
      | nil =>
        cases r with
        | nil => simp [List.isPrefixOf]
        | cons d r => simp at hr; simp [List.isPrefixOf, Ne.symm hr]
      | cons d t => simp at hh; simp [List.isPrefixOf, Ne.symm hh]
    rcases hcc with rfl | rfl
    · simp only [quoteOf, List.cons_append, List.nil_append, List.find?, h3]
      simp [List.isPrefixOf]
    · simp only [quoteOf, List.cons_append, List.nil_append, List.find?, h3]
      simp [List.isPrefixOf]
  · rcases hcc with rfl | rfl
    · simp [quoteOf, List.find?, List.isPrefixOf]
    · simp [quoteOf, List.find?, List.isPrefixOf]

theorem stringParse_marks {c : Char} {k : Nat} {q t r : Str} (hq : Marks c k q) (hcc : c = '"' ∨ c = '\'')
    (ht : Content c k t) (hr : r.head? ≠ some c) (s : State) (hs : s.input = q ++ t ++ q ++ r) :
    stringParse s = .ok true { s with last := q ++ t ++ q, input := r } := by
  have hc : c ≠ '\\' := by rcases hcc with rfl | rfl <;> decide
  have htr : trail q % 2 = 0 := by
    rcases hq with ⟨rfl, _⟩ | ⟨rfl, _⟩ <;> simp [trail, hc]
  have h1 := quoteOf_marks hq hcc ht hr
  have h2 := search_content hq hc ht q r ((q ++ (t ++ (q ++ r))).length + 1) (by simp; omega) htr
  simp only [List.append_assoc] at hs
  rw [← hs] at h1 h2
  unfold search at h2
  simp only [stringParse, h1, h2]
  have h3 : s.input.take (q.length + t.length + q.length) = q ++ (t ++ q) := by
    have : q ++ (t ++ (q ++ r)) = (q ++ (t ++ q)) ++ r := by simp
    rw [hs, this]
    exact List.take_left' (by simp; omega)
  have h4 : s.input.drop (q.length + t.length + q.length) = r := by
    have : q ++ (t ++ (q ++ r)) = (q ++ (t ++ q)) ++ r := by simp
    rw [hs, this]
    exact List.drop_left' (by simp; omega)
  rw [h3, h4]
  simp

/-- Nothing but a quotation mark starts a string. -/
theorem stringParse_none (s : State) (h : s.input.head? ≠ some '"') (h' : s.input.head? ≠ some '\'') :
    stringParse s = .ok false s := by
  have : quoteOf s.input = none := by
    cases hi : s.input with
    | nil => rfl
    | cons d r =>
      rw [hi] at h h'
      simp at h h'
      have e1 : ('"' == d) = false := by simpa using Ne.symm h
      have e2 : ('\'' == d) = false := by simpa using Ne.symm h'
      simp only [quoteOf, List.find?, List.isPrefixOf, e1, e2, Bool.false_and]
  simp [stringParse, this]

end Verif.Turtle
