import Verif.Model.NTriples
import Verif.Spec.NTriples
/-
Lemmas on the readers of lines.
-/
namespace Verif.NTriples
open Verif.NTriplesSpec

theorem isBlank_iff {c : Char} : isBlank c = true ↔ blank c := by simp [isBlank, blank]

theorem takeWhile_all {p : Char → Bool} {w r : Str} (hw : ∀ c ∈ w, p c = true) (hr : ∀ c ∈ r.head?, p c = false) :
    (w ++ r).takeWhile p = w := by
  induction w with
  | nil =>
    cases r with
    | nil => rfl
    | cons c r => simp [hr c (by simp)]
  | cons c w ih =>
    rw [List.cons_append, List.takeWhile_cons, if_pos (hw c (by simp)), ih (fun x hx => hw x (by simp [hx]))]

theorem skipBlanks_eq {a b r : Str} (hb : Blanks b) (hr : ∀ c ∈ r.head?, ¬ blank c) :
    skipBlanks (a ++ (b ++ r)) a.length = a.length + b.length := by
  rw [skipBlanks, List.drop_left, takeWhile_all (fun c hc => isBlank_iff.mpr (hb c hc))]
  intro c hc
  have := hr c hc
  rwa [← isBlank_iff, Bool.not_eq_true] at this

theorem wordEnd_eq {a w r : Str} (hw : Solid w) (hr : ∀ c ∈ r.head?, blank c) :
    wordEnd (a ++ (w ++ r)) a.length = a.length + w.length := by
  rw [wordEnd, List.drop_left, takeWhile_all]
  · intro c hc
    have := hw c hc
    rw [← isBlank_iff, Bool.not_eq_true] at this
    simp [this]
  · intro c hc
    simp [isBlank_iff.mpr (hr c hc)]

theorem charAt_eq (a : Str) (c : Char) (r : Str) : charAt (a ++ c :: r) a.length = c := by
  simp [charAt, List.getD_eq_getElem?_getD]

theorem substr_eq (a w r : Str) : substr (a ++ (w ++ r)) a.length (a.length + w.length) = w := by
  rw [substr, if_neg (by omega), List.drop_left, Nat.add_sub_cancel_left, List.take_left]

theorem find_eq {a u r : Str} {c : Char} (hu : c ∉ u) : find (a ++ (u ++ c :: r)) c a.length = some (a.length + u.length) := by
  have h : (u ++ c :: r).findIdx? (· == c) = some u.length := by
    induction u with
    | nil => simp [List.findIdx?_cons]
    | cons x u ih =>
      rw [List.cons_append, List.findIdx?_cons]
      simp only [List.mem_cons, not_or] at hu
      have : (x == c) = false := by simp; exact fun h => hu.1 h.symm
      rw [this, ih hu.2]
      simp
  rw [find, List.drop_left, h]
  rfl

theorem find_none {a u : Str} {c : Char} (hu : c ∉ u) : find (a ++ u) c a.length = none := by
  rw [find, List.drop_left]
  have h : u.findIdx? (· == c) = none := by
    rw [List.findIdx?_eq_none_iff]
    intro x hx
    simp
    rintro rfl
    exact hu hx
  rw [h]
  rfl

theorem iri_solid {w : Str} (h : Iri w) : Solid w := by
  obtain ⟨u, rfl, h1, _⟩ := h
  intro c hc
  simp only [List.mem_cons, List.mem_append, List.not_mem_nil, or_false] at hc
  rcases hc with rfl | hc | rfl
  · simp [blank]
  · exact h1 c hc
  · simp [blank]

theorem subject_solid {w : Str} (h : Subject w) : Solid w := by
  rcases h with h | ⟨u, rfl, h1⟩
  · exact iri_solid h
  · intro c hc
    simp only [List.mem_cons] at hc
    rcases hc with rfl | rfl | hc
    · simp [blank]
    · simp [blank]
    · exact h1 c hc

theorem head_ne {c : Char} {w : Str} (h : Solid (c :: w)) : ¬ blank c := h c (by simp)

theorem blanks_head {b r : Str} (h : Blanks b) (hne : b ≠ []) : ∀ c ∈ (b ++ r).head?, blank c := by
  cases b with
  | nil => exact absurd rfl hne
  | cons x b =>
    intro c hc
    simp at hc
    subst hc
    exact h x (by simp)

/-- the end of a word with the first character skipped -/
theorem wordEnd_cons {a w r : Str} {x : Char} (hw : Solid w) (hr : ∀ c ∈ r.head?, blank c) :
    wordEnd (a ++ (x :: w ++ r)) (a.length + 1) = a.length + (x :: w).length := by
  have h := wordEnd_eq (a := a ++ [x]) hw hr
  simp only [List.append_assoc, List.singleton_append, List.length_append, List.length_cons, List.length_nil] at h
  rw [List.cons_append, h, List.length_cons]
  omega

theorem iri_ends {a w r : Str} (h : Iri w) : charAt (a ++ (w ++ r)) a.length = '<' ∧
    charAt (a ++ (w ++ r)) (a.length + w.length - 1) = '>' := by
  obtain ⟨u, rfl, _, _⟩ := h
  refine ⟨charAt_eq a '<' _, ?_⟩
  have := charAt_eq (a ++ '<' :: u) '>' r
  simpa [Nat.add_assoc] using this

/-- The beginning of a line is read: what is left depends on the object. -/
theorem parse_start {b0 s b1 p b2 r : Str} {c : Char} (h0 : Blanks b0) (h1 : Blanks b1) (h1' : b1 ≠ []) (h2 : Blanks b2)
    (h2' : b2 ≠ []) (hs : Subject s) (hp : Iri p) (hc : ¬ blank c) :
    parseLine (b0 ++ (s ++ (b1 ++ (p ++ (b2 ++ c :: r))))) =
      match objectEnd ((b0 ++ s ++ b1 ++ p ++ b2) ++ c :: r) (b0 ++ s ++ b1 ++ p ++ b2).length with
      | .ok j => if ((b0 ++ s ++ b1 ++ p ++ b2) ++ c :: r).length ≤ j ∨ isBlank (charAt ((b0 ++ s ++ b1 ++ p ++ b2) ++ c :: r) j) = false
          then .throw else .ok (s, p, substr ((b0 ++ s ++ b1 ++ p ++ b2) ++ c :: r) (b0 ++ s ++ b1 ++ p ++ b2).length j)
      | .throw => .throw
      | .ub => .ub
      | .diverge => .diverge := by
  have hss := subject_solid hs
  have hps := iri_solid hp
  generalize hline : b0 ++ (s ++ (b1 ++ (p ++ (b2 ++ c :: r)))) = line
  have hl : (b0 ++ s ++ b1 ++ p ++ b2) ++ c :: r = line := by rw [← hline]; simp
  rw [hl]
  obtain ⟨x, s', rfl⟩ : ∃ x s', s = x :: s' := by
    rcases hs with ⟨u, rfl, _⟩ | ⟨u, rfl, _⟩ <;> exact ⟨_, _, rfl⟩
  obtain ⟨y, p', rfl⟩ : ∃ x s', p = x :: s' := by
    obtain ⟨u, rfl, _⟩ := hp
    exact ⟨_, _, rfl⟩
  have e1 : skipBlanks line 0 = b0.length := by
    have := skipBlanks_eq (a := []) (b := b0) (r := (x :: s' ++ (b1 ++ (y :: p' ++ (b2 ++ c :: r))))) h0
      (by intro z hz; simp at hz; subst hz; exact head_ne hss)
    simpa [← hline] using this
  have e2 : wordEnd line (b0.length + 1) = b0.length + (x :: s').length := by
    rw [← hline]
    exact wordEnd_cons (fun z hz => hss z (by simp [hz])) (blanks_head h1 h1')
  have e3 : substr line b0.length (b0.length + (x :: s').length) = x :: s' := by
    rw [← hline]
    exact substr_eq _ _ _
  have e4 : skipBlanks line (b0.length + (x :: s').length) = (b0 ++ x :: s' ++ b1).length := by
    have := skipBlanks_eq (a := b0 ++ x :: s') (b := b1) (r := (y :: p' ++ (b2 ++ c :: r))) h1
      (by intro z hz; simp at hz; subst hz; exact head_ne hps)
    simp only [List.length_append] at this ⊢
    rw [← hline]
    simpa using this
  have e5 : wordEnd line ((b0 ++ x :: s' ++ b1).length + 1) = (b0 ++ x :: s' ++ b1).length + (y :: p').length := by
    have := wordEnd_cons (a := b0 ++ x :: s' ++ b1) (x := y) (w := p') (r := b2 ++ c :: r) (fun z hz => hps z (by simp [hz]))
      (blanks_head h2 h2')
    rw [← hline]
    simpa using this
  have e6 : substr line (b0 ++ x :: s' ++ b1).length ((b0 ++ x :: s' ++ b1).length + (y :: p').length) = y :: p' := by
    have := substr_eq (b0 ++ x :: s' ++ b1) (y :: p') (b2 ++ c :: r)
    rw [← hline]
    simpa using this
  have e7 : skipBlanks line ((b0 ++ x :: s' ++ b1).length + (y :: p').length) = (b0 ++ x :: s' ++ b1 ++ y :: p' ++ b2).length := by
    have := skipBlanks_eq (a := b0 ++ x :: s' ++ b1 ++ y :: p') (b := b2) (r := c :: r) h2
      (by intro z hz; simp at hz; subst hz; exact hc)
    simp only [List.length_append] at this ⊢
    rw [← hline]
    simpa using this
  have hlen : line.length = b0.length + (x :: s').length + b1.length + (y :: p').length + b2.length + (r.length + 1) := by
    rw [← hline]; simp; omega
  have hb1 : 0 < b1.length := List.length_pos_iff.mpr h1'
  have hb2 : 0 < b2.length := List.length_pos_iff.mpr h2'
  have hsub : (charAt line b0.length = '<' ∧ charAt line (b0.length + (x :: s').length - 1) = '>') ∨
      (b0.length + 1 < line.length ∧ charAt line b0.length = '_' ∧ charAt line (b0.length + 1) = ':') := by
    rcases hs with h | ⟨u, hu, _⟩
    · left
      rw [← hline]
      exact iri_ends h
    · right
      injection hu with hu1 hu2
      subst hu1 hu2
      refine ⟨by rw [hlen]; simp; omega, ?_, ?_⟩
      · rw [← hline]; exact charAt_eq _ _ _
      · have := charAt_eq (b0 ++ ['_']) ':' (u ++ (b1 ++ (y :: p' ++ (b2 ++ c :: r))))
        rw [← hline]
        simpa using this
  have hpre : charAt line (b0 ++ x :: s' ++ b1).length = '<' ∧
      charAt line ((b0 ++ x :: s' ++ b1).length + (y :: p').length - 1) = '>' := by
    have := iri_ends (a := b0 ++ x :: s' ++ b1) (r := b2 ++ c :: r) hp
    rw [← hline]
    simpa using this
  unfold parseLine
  simp only [e1, e2, e3, e4, e5, e6, e7]
  rw [if_neg (by omega), if_neg (by rintro (h | h); · omega
                                    · exact h hsub),
    if_neg (by rintro (h | h)
               · simp only [List.length_append] at h; omega
               · exact h hpre), if_neg (by simp only [List.length_append]; omega)]
  rfl

/-- The object is what is read if its end is found. -/
theorem parse_object {b0 s b1 p b2 o r : Str} {c b : Char} {o' : Str} (h0 : Blanks b0) (h1 : Blanks b1) (h1' : b1 ≠ []) (h2 : Blanks b2)
    (h2' : b2 ≠ []) (hs : Subject s) (hp : Iri p) (hc : ¬ blank c) (ho : o = c :: o') (hb : blank b)
    (he : ∀ a : Str, objectEnd (a ++ (o ++ b :: r)) a.length = .ok (a.length + o.length)) :
    parseLine (b0 ++ (s ++ (b1 ++ (p ++ (b2 ++ (o ++ b :: r)))))) = .ok (s, p, o) := by
  have h := parse_start (r := o' ++ b :: r) h0 h1 h1' h2 h2' hs hp hc
  have he := he (b0 ++ s ++ b1 ++ p ++ b2)
  subst ho
  simp only [List.cons_append] at h he ⊢
  rw [h, he]
  simp only
  have hch : charAt ((b0 ++ s ++ b1 ++ p ++ b2) ++ c :: (o' ++ b :: r)) ((b0 ++ s ++ b1 ++ p ++ b2).length + (c :: o').length) = b := by
    have := charAt_eq ((b0 ++ s ++ b1 ++ p ++ b2) ++ c :: o') b r
    rw [List.length_append] at this
    simpa using this
  rw [hch, if_neg]
  · have := substr_eq (b0 ++ s ++ b1 ++ p ++ b2) (c :: o') (b :: r)
    simp only [List.cons_append] at this
    rw [this]
  · rintro (h | h)
    · simp only [List.length_append, List.length_cons] at h; omega
    · rw [isBlank_iff.mpr hb] at h; cases h

/-- The object cannot be read. -/
theorem parse_fail {b0 s b1 p b2 r : Str} {c : Char} (h0 : Blanks b0) (h1 : Blanks b1) (h1' : b1 ≠ []) (h2 : Blanks b2)
    (h2' : b2 ≠ []) (hs : Subject s) (hp : Iri p) (hc : ¬ blank c)
    (he : ∀ a : Str, ∃ j, objectEnd (a ++ c :: r) a.length = .ok j ∧
      ((a ++ c :: r).length ≤ j ∨ isBlank (charAt (a ++ c :: r) j) = false)) :
    parseLine (b0 ++ (s ++ (b1 ++ (p ++ (b2 ++ c :: r))))) = .throw := by
  rw [parse_start h0 h1 h1' h2 h2' hs hp hc]
  obtain ⟨j, h, h'⟩ := he (b0 ++ s ++ b1 ++ p ++ b2)
  rw [h]
  simp only
  rw [if_pos h']

theorem end_iri {a o : Str} (h : Iri o) (r : Str) : objectEnd (a ++ (o ++ r)) a.length = .ok (a.length + o.length) := by
  obtain ⟨u, rfl, _, h2⟩ := h
  rw [objectEnd, if_pos (by simpa using charAt_eq a '<' (u ++ '>' :: r))]
  have := find_eq (a := a ++ ['<']) (r := r) h2
  simp only [List.append_assoc, List.singleton_append, List.length_append, List.length_cons, List.length_nil, Nat.zero_add] at this
  simp only [List.cons_append, List.append_assoc, List.nil_append]
  rw [this]
  simp
  omega

theorem end_label {a o : Str} (h : Label o) {b : Char} (hb : blank b) (r : Str) :
    objectEnd (a ++ (o ++ b :: r)) a.length = .ok (a.length + o.length) := by
  obtain ⟨u, rfl, h1⟩ := h
  have c1 : charAt (a ++ ('_' :: ':' :: u ++ b :: r)) a.length = '_' := charAt_eq a '_' _
  have c2 : charAt (a ++ ('_' :: ':' :: u ++ b :: r)) (a.length + 1) = ':' := by
    have := charAt_eq (a ++ ['_']) ':' (u ++ b :: r)
    simpa using this
  rw [objectEnd, if_neg (by rw [c1]; decide), if_pos ⟨c1, by simp, c2⟩]
  have := wordEnd_cons (a := a) (x := '_') (w := ':' :: u) (r := b :: r)
    (by intro z hz
        simp only [List.mem_cons] at hz
        rcases hz with rfl | hz
        · simp [blank]
        · exact h1 z hz) (by intro z hz; simp at hz; subst hz; exact hb)
  rw [this]

/-- A literal ends at the first blank after the second quotation mark. -/
theorem end_literal {a u v : Str} {b : Char} (hu : '"' ∉ u) (hv : Solid v) (hb : blank b) (r : Str) :
    objectEnd (a ++ ('"' :: (u ++ '"' :: v) ++ b :: r)) a.length = .ok (a.length + ('"' :: (u ++ '"' :: v)).length) := by
  have c1 : charAt (a ++ ('"' :: (u ++ '"' :: v) ++ b :: r)) a.length = '"' := charAt_eq a '"' _
  have hf := find_eq (a := a ++ ['"']) (r := v ++ b :: r) hu
  simp only [List.append_assoc, List.singleton_append, List.length_append, List.length_cons, List.length_nil] at hf
  have hd : (a ++ '"' :: (u ++ '"' :: (v ++ b :: r))).drop (a.length + (0 + 1) + u.length) = '"' :: (v ++ b :: r) := by
    have := List.drop_left (l₁ := a ++ '"' :: u) (l₂ := '"' :: (v ++ b :: r))
    simp only [List.length_append, List.length_cons, List.append_assoc, List.cons_append] at this
    rw [show a.length + (0 + 1) + u.length = a.length + (u.length + 1) by omega]
    exact this
  have hw := wordEnd_eq (a := a ++ '"' :: u ++ ['"']) (r := b :: r) hv (by intro z hz; simp at hz; subst hz; exact hb)
  simp only [List.append_assoc, List.length_append, List.length_cons, List.length_nil, List.cons_append, List.nil_append,
    Nat.zero_add] at hw
  rw [objectEnd, if_neg (by rw [c1]; decide), if_neg (by rw [c1]; simp)]
  simp only [List.cons_append, List.append_assoc]
  rw [show a.length + 1 = a.length + (0 + 1) from rfl, hf]
  simp only
  rw [hd]
  rw [show literalSteps false ('"' :: (v ++ b :: r)) = 0 from by simp [literalSteps], if_neg (by simp; omega)]
  rw [show a.length + (0 + 1) + u.length + 0 + 1 = a.length + (u.length + 1 + 1) by omega, hw]
  simp
  omega

/-- A text up to its first quotation mark. -/
theorem first_quote (t : Str) : '"' ∉ t ∨ ∃ u v, t = u ++ '"' :: v ∧ '"' ∉ u := by
  induction t with
  | nil => exact .inl (by simp)
  | cons c t ih =>
    by_cases hc : c = '"'
    · exact .inr ⟨[], t, by simp [hc], by simp⟩
    · rcases ih with h | ⟨u, v, rfl, h⟩
      · exact .inl (by simp [h, Ne.symm hc])
      · exact .inr ⟨c :: u, v, by simp, by simp [h, Ne.symm hc]⟩

/-! ### Lines and files -/

theorem getLines_append {cur l r : Str} (hl : '\n' ∉ l) : getLines cur (l ++ '\n' :: r) = (cur.reverse ++ l) :: getLines [] r := by
  induction l generalizing cur with
  | nil => simp [getLines]
  | cons c l ih =>
    simp only [List.mem_cons, not_or] at hl
    rw [List.cons_append, getLines, if_neg (Ne.symm hl.1), ih hl.2]
    simp

theorem getLines_last {cur l : Str} (hl : '\n' ∉ l) (hne : cur ++ l ≠ []) : getLines cur l = [cur.reverse ++ l] := by
  induction l generalizing cur with
  | nil => simp at hne; simp [getLines, hne]
  | cons c l ih =>
    simp only [List.mem_cons, not_or] at hl
    rw [getLines, if_neg (Ne.symm hl.1), ih hl.2 (by simp)]
    simp

theorem getLines_all {ls : List Str} (h : ∀ l ∈ ls, '\n' ∉ l) : getLines [] (ls.flatMap (· ++ ['\n'])) = ls := by
  induction ls with
  | nil => rfl
  | cons l ls ih =>
    have := getLines_append (cur := []) (l := l) (r := ls.flatMap (· ++ ['\n'])) (h l (by simp))
    simp only [List.flatMap_cons, List.append_assoc, List.singleton_append] at this ⊢
    rw [this, ih (fun l hl => h l (by simp [hl]))]
    simp

theorem getLines_all_last {ls : List Str} {l : Str} (h : ∀ l ∈ ls, '\n' ∉ l) (hl : '\n' ∉ l) (hne : l ≠ []) :
    getLines [] (ls.flatMap (· ++ ['\n']) ++ l) = ls ++ [l] := by
  induction ls with
  | nil => simpa using getLines_last (cur := []) hl (by simpa using hne)
  | cons x ls ih =>
    have := getLines_append (cur := []) (l := x) (r := ls.flatMap (· ++ ['\n']) ++ l) (h x (by simp))
    simp only [List.flatMap_cons, List.append_assoc, List.nil_append, List.cons_append] at this ⊢
    rw [this, ih (fun l hl => h l (by simp [hl]))]
    simp

theorem readLines_ok {parse : Str → Outcome Triple} {ls : List Str} {ts : List Triple}
    (h : ls.map parse = ts.map Outcome.ok) : readLines parse ls = .ok ts := by
  induction ls generalizing ts with
  | nil =>
    cases ts with
    | nil => rfl
    | cons t ts => simp at h
  | cons l ls ih =>
    cases ts with
    | nil => simp at h
    | cons t ts =>
      simp only [List.map_cons, List.cons.injEq] at h
      rw [readLines, h.1, ih h.2]
      rfl

theorem readLines_throw {parse : Str → Outcome Triple} {ls ms : List Str} {l : Str} {ts : List Triple}
    (h : ls.map parse = ts.map Outcome.ok) (hl : parse l = .throw) : readLines parse (ls ++ l :: ms) = .throw := by
  induction ls generalizing ts with
  | nil => simp [readLines, hl]
  | cons x ls ih =>
    cases ts with
    | nil => simp at h
    | cons t ts =>
      simp only [List.map_cons, List.cons.injEq] at h
      rw [List.cons_append, readLines, h.1, ih h.2]
      rfl

end Verif.NTriples
