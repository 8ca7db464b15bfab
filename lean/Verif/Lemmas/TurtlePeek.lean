import Verif.Lemmas.TurtleTotal
/-
What happens to a match when the text is continued: it stays the same unless the matcher has looked behind the end of the
text.
-/
namespace Verif.Turtle

/-! ### Looking behind the end -/

def peekMany (pk : Str → Bool) (f : Str → List Str) : Nat → Str → Bool
  | 0, s => pk s
  | n + 1, s => pk s || ((f s).filter fun t => decide (t.length < s.length)).any (peekMany pk f n)

/-- Some way of matching asks for a character behind the end of the text. -/
def Re.peek : Re → Str → Bool
  | .cls _, s => s.isEmpty
  | .eps, _ => false
  | .seq a b, s => a.peek s || (a.run s).any b.peek
  | .alt a b, s => a.peek s || b.peek s
  | .star a, s => peekMany a.peek a.run s.length s

theorem run_many_suffix {f : Str → List Str} (hf : ∀ s t, t ∈ f s → t <:+ s) :
    ∀ (n : Nat) (s t : Str), t ∈ many f n s → t <:+ s
  | 0, s, t, h => by simp [many] at h; subst h; exact List.suffix_refl _
  | n + 1, s, t, h => by
    simp only [many, List.mem_append, List.mem_flatMap, List.mem_filter, decide_eq_true_eq, List.mem_singleton] at h
    rcases h with ⟨u, ⟨hu, _⟩, ht⟩ | rfl
    · exact (run_many_suffix hf n u t ht).trans (hf _ _ hu)
    · exact List.suffix_refl _

theorem run_suffix : ∀ (r : Re) (s t : Str), t ∈ r.run s → t <:+ s
  | .cls p, s, t, h => by
    cases s with
    | nil => simp [Re.run] at h
    | cons c s =>
      simp only [Re.run] at h
      split at h <;> simp at h
      subst h
      exact List.suffix_cons _ _
  | .eps, s, t, h => by simp [Re.run] at h; subst h; exact List.suffix_refl _
  | .seq a b, s, t, h => by
    simp only [Re.run, List.mem_flatMap] at h
    obtain ⟨u, hu, ht⟩ := h
    exact (run_suffix b u t ht).trans (run_suffix a s u hu)
  | .alt a b, s, t, h => by
    simp only [Re.run, List.mem_append] at h
    rcases h with h | h
    · exact run_suffix a s t h
    · exact run_suffix b s t h
  | .star a, s, t, h => by
    simp only [Re.run] at h
    exact run_many_suffix (run_suffix a) _ s t h

theorem run_peek_many {f : Str → List Str} {pk : Str → Bool} (r : Str)
    (hf : ∀ s, pk s = false → f (s ++ r) = (f s).map (· ++ r)) :
    ∀ (n m : Nat) (s : Str), s.length ≤ n → (s ++ r).length ≤ m → peekMany pk f n s = false →
      many f m (s ++ r) = (many f n s).map (· ++ r)
  | 0, m, s, hn, hm, h => by
    have : s = [] := List.eq_nil_of_length_eq_zero (by omega)
    subst this
    have hp : f r = (f []).map (· ++ r) := hf [] h
    cases m with
    | zero => simp [many]
    | succ m =>
      simp only [many, List.nil_append, List.map_cons, List.map_nil]
      rw [hp]
      have : (((f []).map (· ++ r)).filter fun t => decide (t.length < r.length)) = [] := by
        rw [List.filter_eq_nil_iff]
        intro t ht
        obtain ⟨u, _, rfl⟩ := List.mem_map.mp ht
        simp
      rw [this]; simp
  | n + 1, 0, s, hn, hm, h => by
    have h0 : s ++ r = [] := List.eq_nil_of_length_eq_zero (by omega)
    obtain ⟨rfl, rfl⟩ := List.append_eq_nil_iff.mp h0
    simp [many]
  | n + 1, m + 1, s, hn, hm, h => by
    simp only [peekMany, Bool.or_eq_false_iff] at h
    simp only [many, List.map_append, List.map_cons, List.map_nil]
    congr 1
    rw [hf s h.1]
    have key : ∀ l : List Str, (l.filter fun t => decide (t.length < s.length)).any (peekMany pk f n) = false →
        ((l.map (· ++ r)).filter fun t => decide (t.length < (s ++ r).length)).flatMap (many f m) =
          ((l.filter fun t => decide (t.length < s.length)).flatMap (many f n)).map (· ++ r) := by
      intro l hl
      induction l with
      | nil => rfl
      | cons x xs ih =>
        by_cases hx : x.length < s.length
        · rw [List.filter_cons_of_pos (by simpa using hx)] at hl ⊢
          simp only [List.any_cons, Bool.or_eq_false_iff] at hl
          rw [List.map_cons, List.filter_cons_of_pos (by simpa using hx), List.flatMap_cons, List.flatMap_cons,
            List.map_append, ih hl.2]
          rw [run_peek_many r hf n m x (by omega) (by simp at hm ⊢; omega) hl.1]
        · rw [List.filter_cons_of_neg (by simpa using hx)] at hl ⊢
          rw [List.map_cons, List.filter_cons_of_neg (by simpa using hx)]
          exact ih hl
    exact key _ h.2

/-- Without a look behind the end, the matches of a longer text are the same. -/
theorem run_peek (r : Str) : ∀ (x : Re) (s : Str), x.peek s = false → x.run (s ++ r) = (x.run s).map (· ++ r)
  | .cls p, s, h => by
    cases s with
    | nil => simp [Re.peek] at h
    | cons c s => simp only [Re.run, List.cons_append]; split <;> simp
  | .eps, s, h => by simp [Re.run]
  | .seq a b, s, h => by
    simp only [Re.peek, Bool.or_eq_false_iff] at h
    simp only [Re.run, run_peek r a s h.1]
    have h2 := h.2
    revert h2
    generalize a.run s = l
    intro h2
    induction l with
    | nil => rfl
    | cons x xs ih =>
      simp only [List.any_cons, Bool.or_eq_false_iff] at h2
      simp only [List.map_cons, List.flatMap_cons, List.map_append, run_peek r b x h2.1, ih h2.2]
  | .alt a b, s, h => by
    simp only [Re.peek, Bool.or_eq_false_iff] at h
    simp only [Re.run, run_peek r a s h.1, run_peek r b s h.2, List.map_append]
  | .star a, s, h => by
    simp only [Re.peek] at h
    exact run_peek_many r (fun s hs => run_peek r a s hs) _ _ s (Nat.le_refl _) (Nat.le_refl _) h

/-- the result for a longer text -/
def more (r : Str) : Str × Str → Str × Str := fun x => (x.1, x.2 ++ r)

theorem consume_peek {x : Re} {s : Str} (r : Str) (h : x.peek s = false) : consume x (s ++ r) = (consume x s).map (more r) := by
  simp only [consume, run_peek r x s h]
  cases hr : x.run s with
  | nil => rfl
  | cons t ts =>
    have : t.length ≤ s.length := (run_suffix x s t (by simp [hr])).length_le
    simp only [List.map_cons, List.head?_cons, Option.map_some, more, Option.some.injEq, Prod.mk.injEq, and_true]
    rw [List.take_append_of_le_length (by simp only [List.length_append]; omega)]
    congr 1
    simp only [List.length_append]; omega

/-! ### Characters that stop the matcher -/

/-- Some class of the expression contains the character. -/
def Re.accepts : Re → Char → Bool
  | .cls p, c => p c
  | .eps, _ => false
  | .seq a b, c => a.accepts c || b.accepts c
  | .alt a b, c => a.accepts c || b.accepts c
  | .star a, c => a.accepts c

theorem mem_many {f : Str → List Str} {c : Char} (hf : ∀ s t, c ∈ s → t ∈ f s → c ∈ t) :
    ∀ (n : Nat) (s t : Str), c ∈ s → t ∈ many f n s → c ∈ t
  | 0, s, t, hc, h => by simp [many] at h; subst h; exact hc
  | n + 1, s, t, hc, h => by
    simp only [many, List.mem_append, List.mem_flatMap, List.mem_filter, decide_eq_true_eq, List.mem_singleton] at h
    rcases h with ⟨u, ⟨hu, _⟩, ht⟩ | rfl
    · exact mem_many hf n u t (hf _ _ hc hu) ht
    · exact hc

theorem mem_run {c : Char} : ∀ (x : Re), x.accepts c = false → ∀ s t, c ∈ s → t ∈ x.run s → c ∈ t
  | .cls p, hx, s, t, hc, h => by
    cases s with
    | nil => simp [Re.run] at h
    | cons d s =>
      simp only [Re.run] at h
      split at h <;> simp at h
      subst h
      rcases List.mem_cons.mp hc with rfl | hc
      · rename_i hp; simp only [Re.accepts] at hx; rw [hx] at hp; simp at hp
      · exact hc
  | .eps, _, s, t, hc, h => by simp [Re.run] at h; subst h; exact hc
  | .seq a b, hx, s, t, hc, h => by
    simp only [Re.accepts, Bool.or_eq_false_iff] at hx
    simp only [Re.run, List.mem_flatMap] at h
    obtain ⟨u, hu, ht⟩ := h
    exact mem_run b hx.2 u t (mem_run a hx.1 s u hc hu) ht
  | .alt a b, hx, s, t, hc, h => by
    simp only [Re.accepts, Bool.or_eq_false_iff] at hx
    simp only [Re.run, List.mem_append] at h
    rcases h with h | h
    · exact mem_run a hx.1 s t hc h
    · exact mem_run b hx.2 s t hc h
  | .star a, hx, s, t, hc, h => by
    simp only [Re.run] at h
    exact mem_many (fun s t hc h => mem_run a hx s t hc h) _ s t hc h

theorem peekMany_stop {f : Str → List Str} {pk : Str → Bool} {c : Char} (hf : ∀ s t, c ∈ s → t ∈ f s → c ∈ t)
    (hp : ∀ s, c ∈ s → pk s = false) : ∀ (n : Nat) (s : Str), c ∈ s → peekMany pk f n s = false
  | 0, s, hc => hp s hc
  | n + 1, s, hc => by
    simp only [peekMany, Bool.or_eq_false_iff]
    refine ⟨hp s hc, ?_⟩
    rw [List.any_eq_false]
    intro t ht
    rw [peekMany_stop hf hp n t (hf _ _ hc (List.mem_filter.mp ht).1)]
    simp

/-- The matcher does not look behind a character that no class contains. -/
theorem peek_stop {c : Char} : ∀ (x : Re), x.accepts c = false → ∀ s, c ∈ s → x.peek s = false
  | .cls p, _, s, hc => by
    cases s with
    | nil => simp at hc
    | cons d s => rfl
  | .eps, _, s, _ => rfl
  | .seq a b, hx, s, hc => by
    simp only [Re.accepts, Bool.or_eq_false_iff] at hx
    simp only [Re.peek, Bool.or_eq_false_iff]
    refine ⟨peek_stop a hx.1 s hc, ?_⟩
    rw [List.any_eq_false]
    intro t ht
    rw [peek_stop b hx.2 t (mem_run a hx.1 s t hc ht)]
    simp
  | .alt a b, hx, s, hc => by
    simp only [Re.accepts, Bool.or_eq_false_iff] at hx
    simp only [Re.peek, Bool.or_eq_false_iff]
    exact ⟨peek_stop a hx.1 s hc, peek_stop b hx.2 s hc⟩
  | .star a, hx, s, hc => by
    simp only [Re.peek]
    exact peekMany_stop (fun s t hc h => mem_run a hx s t hc h) (fun s hc => peek_stop a hx s hc) _ s hc

theorem consume_stop {x : Re} {c : Char} {s : Str} (r : Str) (hx : x.accepts c = false) (hc : c ∈ s) :
    consume x (s ++ r) = (consume x s).map (more r) := consume_peek r (peek_stop x hx s hc)

/-- `a` followed by `c`, where `a` does not contain `c`. -/
theorem peek_until {a : Re} {c : Char} {s : Str} (ha : a.accepts c = false) (hc : c ∈ s) : (Re.seq a (.chr c)).peek s = false := by
  simp only [Re.peek, Bool.or_eq_false_iff]
  refine ⟨peek_stop a ha s hc, ?_⟩
  rw [List.any_eq_false]
  intro t ht
  have := mem_run a ha s t hc ht
  cases t with
  | nil => simp at this
  | cons d t => simp [Re.peek, Re.chr]

/-- `a` followed by `c` needs a `c`. -/
theorem run_until {a : Re} {c : Char} {s t : Str} (h : t ∈ (Re.seq a (.chr c)).run s) : c ∈ s := by
  simp only [Re.run, List.mem_flatMap] at h
  obtain ⟨u, hu, ht⟩ := h
  have := (run_suffix a s u hu).subset
  cases u with
  | nil => simp [Re.chr, Re.run] at ht
  | cons d u =>
    simp only [Re.chr, Re.run] at ht
    split at ht
    · rename_i hd
      simp at hd; subst hd
      exact this (by simp)
    · simp at ht

theorem mem_consume {x : Re} {s w t : Str} (h : consume x s = some (w, t)) : t ∈ x.run s ∧ s = w ++ t := by
  simp only [consume, Option.map_eq_some_iff, Prod.mk.injEq] at h
  obtain ⟨u, hu, h1, rfl⟩ := h
  have hm : u ∈ x.run s := List.mem_of_mem_head? (by simp [hu])
  refine ⟨hm, ?_⟩
  obtain ⟨v, rfl⟩ := run_suffix x s u hm
  rw [← h1]
  simp

/-- An IRI is recognised regardless of what follows. -/
theorem peek_iriref {s w t : Str} (h : consume (regex .iriref) s = some (w, t)) : (regex .iriref).peek s = false := by
  obtain ⟨hm, _⟩ := mem_consume h
  cases s with
  | nil => simp [regex, Re.run, Re.chr] at hm
  | cons c s =>
    simp only [regex] at hm
    rw [Re.run, List.mem_flatMap] at hm
    obtain ⟨u, hu, hm⟩ := hm
    have h1 := run_until hm
    show (Re.seq (.chr '<') _).peek _ = false
    rw [Re.peek]
    simp only [Bool.or_eq_false_iff]
    refine ⟨rfl, ?_⟩
    simp only [Re.chr, Re.run] at hu ⊢
    split at hu
    · rename_i hc
      simp only [List.mem_singleton] at hu
      subst hu
      rw [if_pos hc]
      simp only [List.any_cons, List.any_nil, Bool.or_false]
      exact peek_until (by decide) h1
    · simp at hu

theorem peek_pnameNS {s w t : Str} (h : consume (regex .pnameNS) s = some (w, t)) : (regex .pnameNS).peek s = false := by
  obtain ⟨hm, _⟩ := mem_consume h
  cases s with
  | nil => simp [regex, Re.run] at hm
  | cons c s =>
    simp only [regex] at hm
    rw [Re.run, List.mem_flatMap] at hm
    obtain ⟨u, hu, hm⟩ := hm
    have h1 := run_until hm
    show (Re.seq (.cls isBase) _).peek _ = false
    rw [Re.peek]
    simp only [Bool.or_eq_false_iff]
    refine ⟨rfl, ?_⟩
    simp only [Re.run] at hu ⊢
    split at hu
    · rename_i hc
      simp only [List.mem_singleton] at hu
      subst hu
      rw [if_pos hc]
      simp only [List.any_cons, List.any_nil, Bool.or_false]
      exact peek_until (by decide) h1
    · simp at hu

theorem colon_pnameNS {s w t : Str} (h : consume (regex .pnameNS) s = some (w, t)) : ':' ∈ s := by
  obtain ⟨hm, _⟩ := mem_consume h
  simp only [regex] at hm
  rw [Re.run, List.mem_flatMap] at hm
  obtain ⟨u, hu, hm⟩ := hm
  exact (run_suffix _ _ _ hu).subset (run_until hm)

end Verif.Turtle
