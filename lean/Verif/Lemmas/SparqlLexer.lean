import Verif.Lemmas.SparqlRegex
/-
One token of a query after the other.
-/
namespace Verif.SparqlLexer
open Turtle
open Verif.SparqlSpec (small Spells varChar VarName IriText Prefix Local StringText EndsName Lexeme Suffix Gap Trailing Text)

/-! ### Words -/

/-- The characters of the keywords. -/
def wordChar (c : Char) : Bool := between 0x61 0x7A c || c == '_'

theorem keywords_wordChar : ∀ w ∈ keywords ++ aggregates ++ ["group".toList, "order".toList, "by".toList], ∀ c ∈ w, wordChar c = true := by
  decide

theorem isPn_wordChar {c : Char} (h : isPn c = false) : wordChar (fold c) = false := by
  by_contra hne
  rw [Bool.not_eq_false] at hne
  apply Bool.false_ne_true
  rw [← h]
  unfold fold at hne
  by_cases h1 : c.toNat = 0x17F
  · simp [isPn, isBaseU, isBase, between, h1]
  · by_cases h2 : c.toNat = 0x212A
    · simp [isPn, isBaseU, isBase, between, h2]
    · rw [if_neg h1, if_neg h2] at hne
      unfold lower at hne
      by_cases h3 : between 0x41 0x5A c = true
      · simp [isPn, isBaseU, isBase, isAlpha, h3]
      · rw [if_neg h3] at hne
        simp only [wordChar, Bool.or_eq_true, beq_iff_eq] at hne
        rcases hne with hne | rfl
        · simp [isPn, isBaseU, isBase, isAlpha, hne]
        · decide

theorem fold_small {c : Char} (h1 : c.toNat ≠ 0x17F) (h2 : c.toNat ≠ 0x212A) : fold c = small c := by
  rw [small_eq, fold, if_neg h1, if_neg h2]

/-- A word that is not a special letter written otherwise. -/
theorem map_fold {w : String} {t : Str} (hw : ∀ c ∈ w.toList, c.toNat ≠ 0x17F ∧ c.toNat ≠ 0x212A) (h : Spells w t) :
    t.map fold = w.toList := by
  rw [← (h : t.map small = w.toList)]
  apply List.map_congr_left
  intro c hc
  have key : small c ∈ w.toList := by rw [← (h : t.map small = w.toList)]; exact List.mem_map_of_mem hc
  have key := hw _ key
  apply fold_small
  · intro hne; apply key.1; rw [small_eq, lower, between, hne]; simpa using hne
  · intro hne; apply key.2; rw [small_eq, lower, between, hne]; simpa using hne

theorem map_lower {w : String} {t : Str} (h : Spells w t) : t.map lower = w.toList := by
  rw [← (h : t.map small = w.toList)]
  exact List.map_congr_left fun c _ => (small_eq c).symm

theorem isPrefixOf_append {k w s : Str} (hk : ∀ c ∈ k, wordChar c = true) (hs : ∀ c, s.head? = some c → wordChar c = false) :
    k.isPrefixOf (w ++ s) = k.isPrefixOf w := by
  induction k generalizing w with
  | nil => simp [List.isPrefixOf]
  | cons a k ih =>
    cases w with
    | nil =>
      cases s with
      | nil => rfl
      | cons c s =>
        have : a ≠ c := fun h => by
          have h1 := hk a (by simp)
          rw [h, hs c rfl] at h1
          cases h1
        simp [List.isPrefixOf, this]
    | cons c w =>
      simp only [List.cons_append, List.isPrefixOf]
      rw [ih fun c hc => hk c (by simp [hc])]

theorem head_fold {s : Str} (hs : ∀ c, s.head? = some c → isPn c = false) : ∀ c, (s.map fold).head? = some c → wordChar c = false := by
  intro c hc
  cases s with
  | nil => simp at hc
  | cons d s => simp at hc; subst hc; exact isPn_wordChar (hs d rfl)

theorem find_congr {p q : Str → Bool} : ∀ {l : List Str}, (∀ a ∈ l, p a = q a) → l.find? p = l.find? q
  | [], _ => rfl
  | a :: l, h => by
    rw [List.find?_cons, List.find?_cons, h a (by simp), find_congr fun b hb => h b (by simp [hb])]

theorem consumeWord_eq {ws : List Str} (hws : ∀ w ∈ ws, ∀ c ∈ w, wordChar c = true) {t s : Str}
    (hs : ∀ c, s.head? = some c → isPn c = false) :
    consumeWord ws (t ++ s) =
      (ws.find? fun w => w.isPrefixOf (t.map fold)).map fun w => ((t ++ s).take w.length, (t ++ s).drop w.length) := by
  unfold consumeWord
  congr 1
  apply find_congr
  intro w hw
  rw [List.map_append]
  exact isPrefixOf_append (hws w hw) (head_fold hs)

theorem consumeWord_some {ws : List Str} (hws : ∀ w ∈ ws, ∀ c ∈ w, wordChar c = true) {t s : Str} {w : Str}
    (hs : ∀ c, s.head? = some c → isPn c = false) (ht : t.map fold = w) (hw : (ws.find? fun k => k.isPrefixOf w) = some w) :
    consumeWord ws (t ++ s) = some (t, s) := by
  rw [consumeWord_eq hws hs, ht, hw]
  have hl : w.length = t.length := by rw [← ht]; simp
  simp [hl]

theorem consumeWord_none {ws : List Str} (hws : ∀ w ∈ ws, ∀ c ∈ w, wordChar c = true) {t s : Str} {w : Str}
    (hs : ∀ c, s.head? = some c → isPn c = false) (ht : t.map fold = w) (hw : (ws.find? fun k => k.isPrefixOf w) = none) :
    consumeWord ws (t ++ s) = none := by
  rw [consumeWord_eq hws hs, ht, hw]
  rfl

/-- A keyword stands at the beginning. -/
theorem consumeWord_none_of {ws : List Str} {s : Str} (h : ∀ w ∈ ws, ∀ r, s.map fold ≠ w ++ r) : consumeWord ws s = none := by
  unfold consumeWord
  rw [Option.map_eq_none_iff, List.find?_eq_none]
  intro w hw hp
  rw [List.isPrefixOf_iff_prefix] at hp
  obtain ⟨r, hr⟩ := hp
  exact h w hw r hr.symm

theorem fold_space {c : Char} (h : isSpaceClass c = true) : fold c = c := by
  simp only [isSpaceClass, Bool.or_eq_true, beq_iff_eq] at h
  rcases h with (((rfl | rfl) | rfl) | rfl) | rfl <;> decide

theorem map_fold_space {s : Str} (h : ∀ c ∈ s, isSpaceClass c = true) : s.map fold = s := by
  conv => rhs; rw [← List.map_id s]
  exact List.map_congr_left fun c hc => fold_space (h c hc)

theorem mem_takeWhile {p : Char → Bool} {c : Char} : ∀ {s : Str}, c ∈ s.takeWhile p → p c = true
  | [], h => by simp at h
  | d :: s, h => by
    by_cases hd : p d = true
    · rw [List.takeWhile_cons_of_pos hd] at h
      rcases List.mem_cons.mp h with rfl | h
      · exact hd
      · exact mem_takeWhile h
    · rw [List.takeWhile_cons_of_neg hd] at h
      simp at h

theorem consumePair_none_of {a b s : Str} (h : ∀ sp r, (∀ c ∈ sp, isSpaceClass c = true) → s.map fold ≠ a ++ (sp ++ (b ++ r))) :
    consumePair a b s = none := by
  unfold consumePair
  by_cases h1 : a.isPrefixOf (s.map fold) = true
  · rw [if_pos h1]
    by_cases h2 : b.isPrefixOf (((s.drop a.length).dropWhile isSpaceClass).map fold) = true
    · exfalso
      rw [List.isPrefixOf_iff_prefix] at h1 h2
      obtain ⟨r1, h1⟩ := h1
      obtain ⟨r2, h2⟩ := h2
      have h3 : (s.drop a.length).map fold = r1 := by rw [List.map_drop, ← h1]; simp
      have h4 : ((s.drop a.length).takeWhile isSpaceClass).map fold = (s.drop a.length).takeWhile isSpaceClass :=
        map_fold_space fun c hc => mem_takeWhile hc
      apply h ((s.drop a.length).takeWhile isSpaceClass) r2 fun c hc => mem_takeWhile hc
      rw [← h1, ← h3, h2, ← h4, ← List.map_append, List.takeWhile_append_dropWhile]
    · simp only [h2, if_false, Bool.false_eq_true]
  · rw [if_neg h1]

theorem dropWhile_all {p : Char → Bool} {u v : Str} (hu : ∀ c ∈ u, p c = true) (hv : ∀ c, v.head? = some c → p c = false) :
    (u ++ v).dropWhile p = v := by
  induction u with
  | nil =>
    cases v with
    | nil => rfl
    | cons c v => simp [hv c rfl]
  | cons c u ih =>
    rw [List.cons_append, List.dropWhile_cons_of_pos (hu c (by simp))]
    exact ih fun d hd => hu d (by simp [hd])

theorem head_dropWhile {p : Char → Bool} {c : Char} : ∀ {s : Str}, (s.dropWhile p).head? = some c → p c = false
  | [], h => by simp at h
  | d :: s, h => by
    by_cases hd : p d = true
    · rw [List.dropWhile_cons_of_pos hd] at h
      exact head_dropWhile h
    · rw [List.dropWhile_cons_of_neg hd] at h
      simp at h
      subst h
      simpa using hd

theorem blank_space {c : Char} (h : TurtleSpec.blank c = true) : isSpaceClass c = true := by
  rw [blank_eq] at h
  simp only [isWs, Bool.or_eq_true, beq_iff_eq] at h
  simp only [isSpaceClass, Bool.or_eq_true, beq_iff_eq]
  tauto

theorem consumePair_some {a b : String} {x sp y s : Str} (ha : ∀ c ∈ a.toList, c.toNat ≠ 0x17F ∧ c.toNat ≠ 0x212A)
    (hb : ∀ c ∈ b.toList, c.toNat ≠ 0x17F ∧ c.toNat ≠ 0x212A) (hbs : ∀ c, b.toList.head? = some c → wordChar c = true) (hb0 : b.toList ≠ [])
    (hx : Spells a x) (hsp : ∀ c ∈ sp, TurtleSpec.blank c = true) (hy : Spells b y) :
    consumePair a.toList b.toList (x ++ sp ++ y ++ s) = some (x ++ sp ++ y, s) := by
  have hx' := map_fold ha hx
  have hy' := map_fold hb hy
  have hlx : a.toList.length = x.length := by rw [← hx']; simp
  have hly : b.toList.length = y.length := by rw [← hy']; simp
  have hd : (x ++ sp ++ y ++ s).drop a.toList.length = sp ++ (y ++ s) := by rw [hlx]; simp
  have hyne : ∀ c, (y ++ s).head? = some c → isSpaceClass c = false := by
    intro c hc
    cases y with
    | nil => rw [← hy'] at hb0; simp at hb0
    | cons d y =>
      simp at hc
      subst hc
      have := hbs (fold d) (by rw [← hy']; simp)
      by_contra hne
      rw [Bool.not_eq_false] at hne
      rw [fold_space hne] at this
      simp only [isSpaceClass, Bool.or_eq_true, beq_iff_eq] at hne
      rcases hne with (((rfl | rfl) | rfl) | rfl) | rfl <;> revert this <;> decide
  unfold consumePair
  rw [if_pos, hd, dropWhile_all (fun c hc => blank_space (hsp c hc)) hyne]
  · simp only
    rw [if_pos, hly]
    · have : (x ++ sp ++ y ++ s).length - ((y ++ s).length - y.length) = (x ++ sp ++ y).length := by simp; omega
      rw [this, List.take_left, List.drop_left]
    · rw [List.map_append, hy', List.isPrefixOf_iff_prefix]
      exact ⟨_, rfl⟩
  · rw [List.map_append, List.map_append, List.map_append, hx', List.isPrefixOf_iff_prefix]
    exact ⟨sp.map fold ++ (y.map fold ++ s.map fold), by simp⟩

/-- No word stands at the beginning. -/
def Wordless (s : Str) : Prop :=
  consumeWord keywords s = none ∧ consumePair "group".toList "by".toList s = none ∧ consumePair "order".toList "by".toList s = none ∧
    consumeWord aggregates s = none

theorem heads_wordChar : ∀ w ∈ keywords ++ aggregates ++ ["group".toList, "order".toList], ∃ c r, w = c :: r ∧ wordChar c = true := by
  intro w hw
  have h1 := keywords_wordChar w (by simp only [List.mem_append, List.mem_cons] at hw ⊢; tauto)
  have h2 : ∀ w ∈ keywords ++ aggregates ++ ["group".toList, "order".toList], w ≠ [] := by decide
  cases w with
  | nil => exact absurd rfl (h2 _ hw)
  | cons c r => exact ⟨c, r, rfl, h1 c (by simp)⟩

theorem wordless_head {c : Char} (s : Str) (h : wordChar (fold c) = false) : Wordless (c :: s) := by
  have key : ∀ w ∈ keywords ++ aggregates ++ ["group".toList, "order".toList], ∀ r, (c :: s).map fold ≠ w ++ r := by
    intro w hw r he
    obtain ⟨d, w, rfl, hd⟩ := heads_wordChar w hw
    simp at he
    rw [he.1, hd] at h
    cases h
  refine ⟨consumeWord_none_of fun w hw => key w (by simp [hw]), consumePair_none_of fun sp r _ => key _ (by simp) _,
    consumePair_none_of fun sp r _ => key _ (by simp) _, consumeWord_none_of fun w hw => key w (by simp [hw])⟩

theorem wordless_pn {c : Char} (s : Str) (h : isPn c = false) : Wordless (c :: s) := wordless_head s (isPn_wordChar h)

/-! ### The order of the attempts -/

section
variable (norm : Str → Outcome Str)

theorem step_var {s w t : Str} (h : Wordless s) (h1 : consume (.lit ['|', '|']) s = none) (h2 : consume varRe s = some (w, t)) :
    step norm s = .ok (⟨.var, w⟩, t) := by
  obtain ⟨a, b, c, d⟩ := h
  simp only [step, a, b, c, d, h1, h2]

theorem step_iri {s w t : Str} (h : Wordless s) (h1 : consume (.lit ['|', '|']) s = none) (h2 : consume varRe s = none)
    (h3 : consume iri s = some (w, t)) : step norm s = .ok (⟨.iri, w⟩, t) := by
  obtain ⟨a, b, c, d⟩ := h
  simp only [step, a, b, c, d, h1, h2, h3]

theorem step_literal {s w t : Str} (h : Wordless s) (h1 : consume (.lit ['|', '|']) s = none) (h2 : consume varRe s = none)
    (h3 : consume iri s = none) (h4 : consume literalRe s = some (w, t)) :
    step norm s = (normLiteral norm w).map fun r => (⟨.literal, r⟩, t) := by
  obtain ⟨a, b, c, d⟩ := h
  simp only [step, a, b, c, d, h1, h2, h3, h4]

theorem step_number {s : Str} (h : Wordless s) (h1 : consume (.lit ['|', '|']) s = none) (h2 : consume varRe s = none)
    (h3 : consume iri s = none) (h4 : consume literalRe s = none) :
    step norm s =
      match consume floatRe s with
      | some (w, t) => .ok (⟨.float, w⟩, t)
      | none =>
      match consume integerRe s with
      | some (w, t) => .ok (⟨.integer, w⟩, t)
      | none =>
      match consume (.cls isSymbol) s with
      | some (w, t) => .ok (⟨.symbol, w⟩, t)
      | none =>
      match consume (.plus (.cls isWs)) s with
      | some (w, t) => .ok (⟨.ws, w⟩, t)
      | none => if s.head? = some '#' then .ok (⟨.ws, []⟩, s.dropWhile (· ≠ '\n')) else .throw := by
  obtain ⟨a, b, c, d⟩ := h
  simp only [step, a, b, c, d, h1, h2, h3, h4]
  rfl

theorem none_can {r : Re} {c : Char} (s : Str) (hn : r.nullable = false) (h : r.can c = false) : consume r (c :: s) = none :=
  consume_none (run_can hn h)

/-! ### Words -/

theorem words_ok : ∀ w ∈ SparqlSpec.keywords ++ SparqlSpec.aggregates ++ ["group", "order", "by"],
    ∀ c ∈ w.toList, c.toNat ≠ 0x17F ∧ c.toNat ≠ 0x212A := by decide

theorem step_keyword {w : String} {t s : Str} (hw : w ∈ SparqlSpec.keywords) (ht : Spells w t)
    (hs : ∀ c, s.head? = some c → isPn c = false) : step norm (t ++ s) = .ok (⟨.keyword, w.toList⟩, s) := by
  have hk : ∀ w ∈ SparqlSpec.keywords, (keywords.find? fun k => k.isPrefixOf w.toList) = some w.toList := by decide
  have := consumeWord_some (ws := keywords) (fun w hw => keywords_wordChar w (by simp [hw])) hs
    (map_fold (words_ok w (by simp [hw])) ht) (hk w hw)
  simp only [step, this, map_lower ht]

theorem cons_pair {w sp r : Str} {s : Str} {b : Char} (h : w ++ s = sp ++ b :: r) (hsp : ∀ c ∈ sp, isSpaceClass c = true)
    {c : Char} (hw : w.head? = some c) (hc : isSpaceClass c = false) : c = b := by
  cases w with
  | nil => simp at hw
  | cons d w =>
    simp at hw
    subst hw
    cases sp with
    | nil => simp at h; exact h.1
    | cons e sp =>
      simp at h
      rw [h.1, hsp e (by simp)] at hc
      cases hc

theorem step_aggregate {w : String} {t s : Str} (hw : w ∈ SparqlSpec.aggregates) (ht : Spells w t)
    (hs : ∀ c, s.head? = some c → isPn c = false) : step norm (t ++ s) = .ok (⟨.aggregate, w.toList⟩, s) := by
  have hmf := map_fold (words_ok w (by simp [hw])) ht
  have hk : ∀ w ∈ SparqlSpec.aggregates, (keywords.find? fun k => k.isPrefixOf w.toList) = none := by decide
  have ha : ∀ w ∈ SparqlSpec.aggregates, (aggregates.find? fun k => k.isPrefixOf w.toList) = some w.toList := by decide
  have h1 := consumeWord_none (ws := keywords) (fun w hw => keywords_wordChar w (by simp [hw])) hs hmf (hk w hw)
  have h2 := consumeWord_some (ws := aggregates) (fun w hw => keywords_wordChar w (by simp [hw])) hs hmf (ha w hw)
  have ho : ∀ w ∈ SparqlSpec.aggregates, "order".toList.isPrefixOf w.toList = false := by decide
  have hg : ∀ w ∈ SparqlSpec.aggregates, "group".toList.isPrefixOf w.toList = false ∨ w.toList = "group".toList ++ "_concat".toList := by
    decide
  have h3 : consumePair "order".toList "by".toList (t ++ s) = none := by
    refine consumePair_none_of fun sp r _ he => ?_
    have hp := isPrefixOf_append (k := "order".toList) (w := w.toList) (s := s.map fold) (keywords_wordChar _ (by simp)) (head_fold hs)
    rw [ho w hw, ← Bool.not_eq_true, List.isPrefixOf_iff_prefix] at hp
    apply hp
    rw [← hmf, ← List.map_append, he]
    exact ⟨_, rfl⟩
  have h4 : consumePair "group".toList "by".toList (t ++ s) = none := by
    refine consumePair_none_of fun sp r hsp he => ?_
    rcases hg w hw with h | h
    · have hp := isPrefixOf_append (k := "group".toList) (w := w.toList) (s := s.map fold) (keywords_wordChar _ (by simp)) (head_fold hs)
      rw [h, ← Bool.not_eq_true, List.isPrefixOf_iff_prefix] at hp
      apply hp
      rw [← hmf, ← List.map_append, he]
      exact ⟨_, rfl⟩
    · rw [List.map_append, hmf, h, List.append_assoc, List.append_cancel_left_eq] at he
      have := cons_pair (b := 'b') (r := 'y' :: r) he hsp (c := '_') rfl (by decide)
      revert this
      decide
  simp only [step, h1, h2, h3, h4, map_lower ht]

theorem step_groupBy {x sp y s : Str} (hx : Spells "group" x) (hsp : ∀ c ∈ sp, TurtleSpec.blank c = true) (hy : Spells "by" y) :
    step norm (x ++ sp ++ y ++ s) = .ok (⟨.groupBy, (x ++ sp ++ y).map small⟩, s) := by
  have h1 : consumeWord keywords (x ++ sp ++ y ++ s) = none := by
    refine consumeWord_none_of fun w hw r he => ?_
    rw [List.append_assoc, List.append_assoc, List.map_append, map_fold (words_ok _ (by simp)) hx] at he
    have : ∀ w ∈ keywords, w.head? ≠ some 'g' := by decide
    apply this w hw
    have hne : ∀ w ∈ keywords, w ≠ [] := by decide
    cases w with
    | nil => exact absurd rfl (hne _ hw)
    | cons c w =>
      have := congrArg List.head? he
      simpa using this.symm
  have h2 := consumePair_some (s := s) (words_ok "group" (by simp)) (words_ok "by" (by simp)) (by decide) (by decide) hx hsp hy
  simp only [step, h1, h2]
  rw [List.map_congr_left fun c _ => (small_eq c).symm]

theorem step_orderBy {x sp y s : Str} (hx : Spells "order" x) (hsp : ∀ c ∈ sp, TurtleSpec.blank c = true) (hy : Spells "by" y) :
    step norm (x ++ sp ++ y ++ s) = .ok (⟨.orderBy, (x ++ sp ++ y).map small⟩, s) := by
  have hmx := map_fold (words_ok "order" (by simp)) hx
  have hhead : ((x ++ sp ++ y ++ s).map fold).head? = some 'o' ∧ ((x ++ sp ++ y ++ s).map fold).tail.head? = some 'r' := by
    rw [List.append_assoc, List.append_assoc, List.map_append, hmx]
    exact ⟨rfl, rfl⟩
  have h1 : consumeWord keywords (x ++ sp ++ y ++ s) = none := by
    refine consumeWord_none_of fun w hw r he => ?_
    have : ∀ w ∈ keywords, w.head? ≠ some 'o' ∨ w.tail.head? ≠ some 'r' := by decide
    have hne : ∀ w ∈ keywords, 2 ≤ w.length := by decide
    rw [he] at hhead
    match w, hne w hw, this w hw with
    | c :: d :: w, _, h => simp at hhead h; rcases h with h | h <;> tauto
  have h0 : consumePair "group".toList "by".toList (x ++ sp ++ y ++ s) = none := by
    refine consumePair_none_of fun _ r _ he => ?_
    rw [he] at hhead
    simp at hhead
  have h2 := consumePair_some (s := s) (words_ok "order" (by simp)) (words_ok "by" (by simp)) (by decide) (by decide) hx hsp hy
  simp only [step, h1, h0, h2]
  rw [List.map_congr_left fun c _ => (small_eq c).symm]

/-! ### Names -/

theorem lit_none {c : Char} (s : Str) (h : c ≠ '|') : consume (.lit ['|', '|']) (c :: s) = none :=
  none_can s rfl (by simp [Re.lit, Re.can, Re.chr, Re.nullable, h])

theorem var_none {c : Char} (s : Str) (h : c ≠ '?') : consume varRe (c :: s) = none :=
  none_can s rfl (by simp [varRe, Re.can, Re.chr, Re.nullable, h])

theorem step_varName {n s : Str} (hn : VarName n) (hs : ∀ c, s.head? = some c → ¬ varChar c) :
    step norm ('?' :: n ++ s) = .ok (⟨.var, '?' :: n⟩, s) :=
  step_var norm (wordless_pn _ (by decide)) (lit_none _ (by decide)) (consume_var hn hs)

theorem step_iriText {t : Str} (s : Str) (ht : IriText t) : step norm ('<' :: t ++ ['>'] ++ s) = .ok (⟨.iri, '<' :: t ++ ['>']⟩, s) :=
  step_iri norm (wordless_pn _ (by decide)) (lit_none _ (by decide)) (var_none _ (by decide)) (consume_first (first_iri_ref s ht))

/-- The part of a word before a character that does not occur in it. -/
theorem prefix_before {c : Char} {p q w r : Str} (hw : c ∉ w) (h : p ++ c :: q = w ++ r) : ∃ u, p = w ++ u := by
  induction w generalizing p with
  | nil => exact ⟨p, rfl⟩
  | cons d w ih =>
    cases p with
    | nil => simp at h hw; exact absurd h.1 hw.1
    | cons e p =>
      simp at h
      obtain ⟨u, hu⟩ := ih (fun h' => hw (by simp [h'])) h.2
      exact ⟨u, by simp [h.1, hu]⟩

theorem wordless_pname {p : Str} (s : Str) (hp : Prefix p) (hk : Lexeme.NoKeyword p)
    (hf : ∀ c ∈ p, c.toNat ≠ 0x17F ∧ c.toNat ≠ 0x212A) : Wordless (p ++ ':' :: s) := by
  have hmf : p.map fold = p.map small := List.map_congr_left fun c hc => fold_small (hf c hc).1 (hf c hc).2
  have hsplit : ∀ w r, ':' ∉ w → (p ++ ':' :: s).map fold = w ++ r → ∃ t u, p = t ++ u ∧ t.map small = w := by
    intro w r hw he
    rw [List.map_append, hmf] at he
    obtain ⟨u, hu⟩ := prefix_before (c := ':') (q := s.map fold) hw (by simpa [show fold ':' = ':' by decide] using he)
    obtain ⟨t, u', rfl, h1, -⟩ := List.map_eq_append_iff.mp hu
    exact ⟨t, u', rfl, h1⟩
  have hword : ∀ w ∈ SparqlSpec.keywords ++ SparqlSpec.aggregates, ∀ r, (p ++ ':' :: s).map fold ≠ w.toList ++ r := by
    intro w hw r he
    have hc : ∀ w ∈ SparqlSpec.keywords ++ SparqlSpec.aggregates, ':' ∉ w.toList := by decide
    obtain ⟨t, u, h1, h2⟩ := hsplit _ r (hc w hw) he
    exact hk w (List.mem_append_left _ hw) t u h1 h2
  have hpair : ∀ a : String, a ++ "by" ∈ ["groupby", "orderby"] → ':' ∉ a.toList → ∀ sp r, (∀ c ∈ sp, isSpaceClass c = true) →
      (p ++ ':' :: s).map fold ≠ a.toList ++ (sp ++ ("by".toList ++ r)) := by
    intro a ha hac sp r hsp he
    have hcs : ':' ∉ a.toList ++ (sp ++ "by".toList) := by
      simp only [List.mem_append, not_or]
      refine ⟨hac, fun h => ?_, by decide⟩
      have := hsp _ h
      revert this
      decide
    obtain ⟨t, u, h1, h2⟩ := hsplit (a.toList ++ (sp ++ "by".toList)) r hcs (by simpa using he)
    have hsp0 : sp = [] := by
      cases sp with
      | nil => rfl
      | cons c sp =>
        exfalso
        have hc : c ∈ p.map fold := by
          rw [hmf, h1, List.map_append, h2]
          simp
        obtain ⟨d, hd, hdc⟩ := List.mem_map.mp hc
        have hcc := hsp c (by simp)
        have hpn : isPn d = true ∨ d = '.' := by
          rcases hp with rfl | ⟨c', q, rfl, hc', hq, -⟩
          · simp at hd
          · rcases List.mem_cons.mp hd with rfl | hd
            · rw [nameStart_eq] at hc'; exact .inl (base_pn hc')
            · have := hq d hd
              rw [nameChar_eq] at this
              simpa using this
        have hlow : lower d = c := by
          rw [← small_eq, ← fold_small (hf d hd).1 (hf d hd).2]; exact hdc
        have hdc : d = c := by
          unfold lower at hlow
          by_cases hb : between 0x41 0x5A d = true
          · rw [if_pos hb] at hlow
            exfalso
            simp only [between, Bool.and_eq_true, decide_eq_true_eq] at hb
            have htn : ∀ n < 0x5B, 0x41 ≤ n → isSpaceClass (Char.ofNat (n + 32)) = false := by decide
            have := htn d.toNat (by omega) (by omega)
            rw [hlow, hcc] at this
            cases this
          · rwa [if_neg hb] at hlow
        subst hdc
        simp only [isSpaceClass, Bool.or_eq_true, beq_iff_eq] at hcc
        rcases hcc with (((rfl | rfl) | rfl) | rfl) | rfl <;> revert hpn <;> decide
    subst hsp0
    exact hk (a ++ "by") (List.mem_append_right _ ha) t u h1 (by simpa [Spells] using h2)
  have hkk : ∀ w ∈ keywords, ∃ k ∈ SparqlSpec.keywords, k.toList = w := by decide
  have haa : ∀ w ∈ aggregates, ∃ k ∈ SparqlSpec.aggregates, k.toList = w := by decide
  refine ⟨consumeWord_none_of fun w hw r => ?_, consumePair_none_of (hpair "group" (by decide) (by decide)),
    consumePair_none_of (hpair "order" (by decide) (by decide)), consumeWord_none_of fun w hw r => ?_⟩
  · obtain ⟨k, hk, rfl⟩ := hkk w hw
    exact hword k (by simp [hk]) r
  · obtain ⟨k, hk, rfl⟩ := haa w hw
    exact hword k (by simp [hk]) r

theorem step_pname {p l s : Str} (hp : Prefix p) (hl : Local l) (hk : Lexeme.NoKeyword p)
    (hf : ∀ c ∈ p, c.toNat ≠ 0x17F ∧ c.toNat ≠ 0x212A) (hs : EndsName s) :
    step norm (p ++ ':' :: l ++ s) = .ok (⟨.iri, p ++ ':' :: l⟩, s) := by
  have hw : Wordless (p ++ ':' :: l ++ s) := by
    rw [List.append_assoc]
    exact wordless_pname _ hp hk hf
  obtain ⟨c, t, he, hc⟩ := pname_head l hp
  refine step_iri norm hw ?_ ?_ (consume_first (first_iri_pname hp hl hs))
  · rw [he]; exact lit_none _ (base_ne hc (by decide) (by decide))
  · rw [he]; exact var_none _ (base_ne hc (by decide) (by decide))

/-! ### Literals -/

theorem EChar_echar {e x : Char} (h : Spec.EChar e x) (s : Str) : echar.first ('\\' :: e :: s) = some s :=
  first_seq (first_chr _ _) (first_cls _ (by cases h <;> decide))

theorem first_string {t v : Str} (h : StringText t v) (s : Str) :
    (Re.star (stringChar '"')).first (t ++ '"' :: s) = some ('"' :: s) := by
  induction h with
  | nil => exact first_star_stop (run_can rfl (by decide))
  | @plain c t v hc _ ih =>
    rw [List.cons_append, first_star_step (t := t ++ '"' :: s)]
    · exact ih
    · apply first_alt_left
      apply first_cls
      simpa [and_assoc] using hc
    · simp
  | @echar e x t v he _ ih =>
    rw [List.cons_append, List.cons_append, first_star_step (t := t ++ '"' :: s)]
    · exact ih
    · rw [stringChar, first_alt_right (run_cls_false _ (by decide))]
      exact EChar_echar he _
    · simp; omega

theorem first_quoted {t v : Str} (h : StringText t v) (s : Str) : (Re.alt (quoted '\'') (quoted '"')).first ('"' :: t ++ '"' :: s) = some s := by
  rw [List.cons_append, first_alt_right (run_can rfl (by decide))]
  exact first_seq (first_chr _ _) (first_seq (first_string h s) (first_chr _ _))

theorem first_langtag {x : Str} {parts : List Str} {s : Str} (hx : (Suffix.lang x parts).Ok) (hs : (Suffix.lang x parts).Ends s) :
    langtag.first ((Suffix.lang x parts).text ++ s) = some s := by
  obtain ⟨hne, hx, hparts⟩ := hx
  have hs1 : ∀ c, s.head? = some c → isAlpha c = false := fun c hc => by
    have := (hs c hc).1; rw [letter_eq] at this; simpa using this
  have hs2 : ∀ c, s.head? = some c → (isAlpha c || isDigit c) = false := fun c hc => by
    have h1 := (hs c hc).1
    have h2 := (hs c hc).2.1
    rw [letter_eq] at h1
    rw [digit_eq] at h2
    simp [h1, h2]
  simp only [Suffix.text, List.cons_append, List.append_assoc]
  refine first_seq (first_chr _ _) (first_seq (t := parts.flatMap ('-' :: ·) ++ s) ?_ ?_)
  · exact first_plus_cls hne (fun c hc => by rw [← letter_eq]; exact hx c hc) (head_flatMap_dash parts s isAlpha (by decide) hs1)
  · clear hx hne
    induction parts with
    | nil =>
      apply first_star_stop
      simp only [List.flatMap_nil, List.nil_append]
      cases s with
      | nil => exact run_nil rfl
      | cons c s => exact run_can rfl (by simp [Re.can, Re.chr, Re.nullable, (hs c rfl).2.2])
    | cons y ys ih =>
      have hy := hparts y (by simp)
      simp only [List.flatMap_cons, List.append_assoc, List.cons_append]
      rw [first_star_step (t := ys.flatMap ('-' :: ·) ++ s)]
      · exact ih hs fun z hz => hparts z (by simp [hz])
      · refine first_seq (first_chr _ _) (first_plus_cls hy.1 (fun c hc => ?_) ?_)
        · rw [← letter_eq, ← digit_eq]; exact hy.2 c hc
        · exact head_flatMap_dash ys s _ (by decide) hs2
      · simp; omega

theorem first_suffix {x : Suffix} {s : Str} (hx : x.Ok) (hs : x.Ends s) :
    (Re.opt (.alt langtag (.seq (.lit ['^', '^']) iri))).first (x.text ++ s) = some s := by
  cases x with
  | none =>
    apply first_opt_none
    rw [Suffix.text, List.nil_append]
    cases s with
    | nil => exact run_nil rfl
    | cons c s =>
      have := hs c rfl
      exact run_can rfl (by simp [Re.can, Re.chr, Re.lit, langtag, Re.nullable, this])
  | lang x parts => exact first_opt_some (first_alt_left (first_langtag hx hs))
  | ref t =>
    apply first_opt_some
    rw [show (Suffix.ref t).text ++ s = ['^', '^'] ++ (('<' :: t ++ ['>']) ++ s) by simp [Suffix.text]]
    rw [first_alt_right (show langtag.run (['^', '^'] ++ (('<' :: t ++ ['>']) ++ s)) = [] from run_can rfl (by decide))]
    exact first_seq (first_lit ['^', '^'] _) (first_iri_ref s hx)
  | pname p l =>
    apply first_opt_some
    rw [show (Suffix.pname p l).text ++ s = ['^', '^'] ++ ((p ++ ':' :: l) ++ s) by simp [Suffix.text]]
    rw [first_alt_right (show langtag.run (['^', '^'] ++ ((p ++ ':' :: l) ++ s)) = [] from run_can rfl (by decide))]
    exact first_seq (first_lit ['^', '^'] _) (first_iri_pname hx.1 hx.2 hs)

theorem prefix_no_quote {p : Str} (hp : Prefix p) : '"' ∉ p := by
  intro h
  rcases hp with rfl | ⟨c, q, rfl, hc, hq, -⟩
  · simp at h
  · rcases List.mem_cons.mp h with rfl | h
    · revert hc; decide
    · have := hq _ h
      revert this; decide

theorem local_no_quote {p : Str} (hp : Local p) : '"' ∉ p := by
  intro h
  rcases hp with rfl | ⟨c, q, rfl, hc, hq, -⟩
  · simp at h
  · rcases List.mem_cons.mp h with rfl | h
    · revert hc; decide
    · have := hq _ h
      revert this; decide

theorem suffix_no_quote {x : Suffix} (hx : x.Ok) : '"' ∉ x.text := by
  intro h
  cases x with
  | none => simp [Suffix.text] at h
  | lang x parts =>
    simp only [Suffix.text, List.cons_append, List.mem_cons, List.mem_append, List.mem_flatMap] at h
    rcases h with h | h | ⟨y, hy, h⟩
    · revert h; decide
    · have := hx.2.1 _ h; revert this; decide
    · rcases h with h | h
      · revert h; decide
      · have := (hx.2.2 y hy).2 _ h; revert this; decide
  | ref t =>
    simp only [Suffix.text, List.mem_append] at h
    rcases h with (h | h) | h
    · revert h; decide
    · have := (hx _ h).1; revert this; decide
    · revert h; decide
  | pname p l =>
    simp only [Suffix.text, List.mem_append, List.mem_cons] at h
    rcases h with (h | h) | h | h
    · revert h; decide
    · exact prefix_no_quote hx.1 h
    · revert h; decide
    · exact local_no_quote hx.2 h

theorem behindLastQuote_eq {a b : Str} (hb : '"' ∉ b) : behindLastQuote (a ++ '"' :: b) = a.length + 1 := by
  have hrev : (a ++ '"' :: b).reverse.takeWhile (· ≠ '"') = b.reverse := by
    rw [List.reverse_append, List.reverse_cons, List.append_assoc, List.takeWhile_append_of_pos]
    · simp
    · intro c hc
      simp only [List.mem_reverse] at hc
      simp only [ne_eq, decide_eq_true_eq]
      exact fun h => hb (h ▸ hc)
  unfold behindLastQuote
  rw [hrev]
  simp; omega

theorem normLiteral_eq {t v : Str} {x : Suffix} (hn : norm ('"' :: t ++ ['"']) = .ok ('"' :: v ++ ['"'])) (hx : x.Ok) :
    normLiteral norm ('"' :: t ++ '"' :: x.text) = .ok ('"' :: v ++ '"' :: x.text) := by
  have h := behindLastQuote_eq (a := '"' :: t) (suffix_no_quote hx)
  have htake : ('"' :: t ++ '"' :: x.text).take (('"' :: t).length + 1) = '"' :: t ++ ['"'] := by
    rw [show '"' :: t ++ '"' :: x.text = ('"' :: t ++ ['"']) ++ x.text by simp]
    exact List.take_left' (by simp)
  have hdrop : ('"' :: t ++ '"' :: x.text).drop (('"' :: t).length + 1) = x.text := by
    rw [show '"' :: t ++ '"' :: x.text = ('"' :: t ++ ['"']) ++ x.text by simp]
    exact List.drop_left' (by simp)
  unfold normLiteral
  rw [h, htake, hdrop, hn]
  simp [Outcome.map]

theorem step_lit {t v : Str} {x : Suffix} {s : Str} (hn : norm ('"' :: t ++ ['"']) = .ok ('"' :: v ++ ['"'])) (ht : StringText t v)
    (hx : x.Ok) (hs : x.Ends s) : step norm ('"' :: t ++ '"' :: x.text ++ s) = .ok (⟨.literal, '"' :: v ++ '"' :: x.text⟩, s) := by
  have h := step_literal norm (s := '"' :: t ++ '"' :: x.text ++ s) (w := '"' :: t ++ '"' :: x.text) (t := s) (wordless_pn _ (by decide))
    (lit_none _ (by decide)) (var_none _ (by decide)) (none_can _ rfl (by decide)) ?_
  · rw [h, normLiteral_eq norm hn hx]
    rfl
  · apply consume_first
    rw [show '"' :: t ++ '"' :: x.text ++ s = '"' :: t ++ '"' :: (x.text ++ s) by simp]
    exact first_seq (first_quoted ht _) (first_suffix hx hs)

/-! ### Numbers -/

theorem digit_cases {c : Char} (h : isDigit c = true) : c ∈ ['0', '1', '2', '3', '4', '5', '6', '7', '8', '9'] := by
  have h : 0x30 ≤ c.toNat ∧ c.toNat ≤ 0x39 := by simpa [isDigit, between] using h
  have key : ∀ n < 0x3A, 0x30 ≤ n → Char.ofNat n ∈ ['0', '1', '2', '3', '4', '5', '6', '7', '8', '9'] := by decide
  have := key c.toNat (by omega) h.1
  rwa [Char.ofNat_toNat] at this

theorem numberHead {c : Char} (h : isDigit c = true ∨ c = '-') :
    wordChar (fold c) = false ∧ c ≠ '|' ∧ c ≠ '?' ∧ iri.can c = false ∧ literalRe.can c = false := by
  have key : ∀ c ∈ ['0', '1', '2', '3', '4', '5', '6', '7', '8', '9', '-'],
      wordChar (fold c) = false ∧ c ≠ '|' ∧ c ≠ '?' ∧ iri.can c = false ∧ literalRe.can c = false := by decide
  apply key
  rcases h with h | rfl
  · have := digit_cases h
    simp only [List.mem_cons] at this ⊢
    tauto
  · simp

theorem first_minus {m : Bool} {d s : Str} (hne : d ≠ []) (hd : ∀ c ∈ d, isDigit c = true) :
    (Re.opt (.chr '-')).first ((if m then ['-'] else []) ++ d ++ s) = some (d ++ s) := by
  cases m
  · cases d with
    | nil => exact absurd rfl hne
    | cons c d =>
      refine first_opt_none (run_cls_false _ ?_)
      have := digit_cases (hd c (by simp))
      simp only [beq_eq_false_iff_ne]
      rintro rfl
      revert this; decide
  · exact first_opt_some (first_chr _ _)

theorem number_head {m : Bool} {d : Str} (s : Str) (hne : d ≠ []) (hd : ∀ c ∈ d, isDigit c = true) :
    ∃ c t, (if m then ['-'] else []) ++ d ++ s = c :: t ∧ (isDigit c = true ∨ c = '-') := by
  cases m
  · cases d with
    | nil => exact absurd rfl hne
    | cons c d => exact ⟨c, d ++ s, rfl, .inl (hd c (by simp))⟩
  · exact ⟨'-', d ++ s, rfl, .inr rfl⟩

theorem step_decimal {m : Bool} {d f s : Str} (hne : d ≠ []) (hd : ∀ c ∈ d, isDigit c = true) (hfe : f ≠ [])
    (hf : ∀ c ∈ f, isDigit c = true) (hs : ∀ c, s.head? = some c → isDigit c = false) :
    step norm ((if m then ['-'] else []) ++ d ++ '.' :: f ++ s) = .ok (⟨.float, (if m then ['-'] else []) ++ d ++ '.' :: f⟩, s) := by
  have h : consume floatRe ((if m then ['-'] else []) ++ d ++ '.' :: f ++ s) = some ((if m then ['-'] else []) ++ d ++ '.' :: f, s) := by
    apply consume_first
    rw [show (if m then ['-'] else []) ++ d ++ '.' :: f ++ s = (if m then ['-'] else []) ++ d ++ ('.' :: (f ++ s)) by simp]
    refine first_seq (first_minus hne hd) (first_seq (first_plus_cls hne hd ?_) (first_seq (first_chr _ _) (first_plus_cls hfe hf hs)))
    intro c hc
    simp at hc
    subst hc
    decide
  obtain ⟨c, t, he, hc⟩ := number_head (m := m) ('.' :: f ++ s) hne hd
  obtain ⟨h1, h2, h3, h4, h5⟩ := numberHead hc
  have he : (if m then ['-'] else []) ++ d ++ '.' :: f ++ s = c :: t := by rw [← he]; simp
  rw [step_number norm (by rw [he]; exact wordless_head _ h1) (by rw [he]; exact lit_none _ h2) (by rw [he]; exact var_none _ h3)
    (by rw [he]; exact none_can _ rfl h4) (by rw [he]; exact none_can _ rfl h5), h]

theorem split_dot {d w s x : Str} (hd : ∀ c ∈ d, isDigit c = true) (hw : ∀ c ∈ w, isDigit c = true)
    (hs : ∀ c, s.head? = some c → isDigit c = false) (h : d ++ s = w ++ '.' :: x) : s = '.' :: x := by
  induction d generalizing w with
  | nil =>
    cases w with
    | nil => exact h
    | cons c w =>
      have h1 := hw c (by simp)
      simp at h
      rw [hs c (by simp [h])] at h1
      cases h1
  | cons c d ih =>
    cases w with
    | nil =>
      simp at h
      have := hd c (by simp)
      rw [h.1] at this
      exact absurd this (by decide)
    | cons e w =>
      simp at h
      exact ih (fun a ha => hd a (by simp [ha])) (fun a ha => hw a (by simp [ha])) h.2

theorem run_digits {s t : Str} (h : t ∈ (Re.plus (.cls isDigit)).run s) : ∃ c w, s = c :: w ++ t ∧ ∀ a ∈ c :: w, isDigit a = true := by
  simp only [Re.plus, Re.run, List.mem_flatMap] at h
  obtain ⟨u, hu, ht⟩ := h
  cases s with
  | nil => simp at hu
  | cons c s =>
    by_cases hc : isDigit c = true
    · simp [hc] at hu
      subst hu
      obtain ⟨w, rfl, hw⟩ := run_over (q := fun c => isDigit c = true) (.star (.cls isDigit)) (fun c h => h) _ t ht
      exact ⟨c, w, rfl, by simpa using ⟨hc, hw⟩⟩
    · simp [hc] at hu

theorem run_float_none {m : Bool} {d s : Str} (hne : d ≠ []) (hd : ∀ c ∈ d, isDigit c = true)
    (hs : ∀ c, s.head? = some c → isDigit c = false) (hs2 : ∀ c t, s = '.' :: c :: t → isDigit c = false) :
    floatRe.run ((if m then ['-'] else []) ++ d ++ s) = [] := by
  rw [List.eq_nil_iff_forall_not_mem]
  intro t ht
  rw [floatRe, Re.run, List.mem_flatMap] at ht
  obtain ⟨a, ha, ht⟩ := ht
  rw [Re.run, List.mem_flatMap] at ht
  obtain ⟨b, hb, ht⟩ := ht
  rw [Re.run, List.mem_flatMap] at ht
  obtain ⟨e, he, ht⟩ := ht
  obtain ⟨c, w, rfl, hw⟩ := run_digits hb
  obtain ⟨f, w', rfl, hw'⟩ := run_digits ht
  have hbe : b = '.' :: (f :: w' ++ t) := by
    cases b with
    | nil => simp [Re.chr, Re.run] at he
    | cons x b =>
      by_cases hx : x = '.'
      · subst hx; simp [Re.chr, Re.run] at he; simp [← he]
      · simp [Re.chr, Re.run, hx] at he
  subst hbe
  have hds : d ++ s = c :: w ++ '.' :: (f :: w' ++ t) := by
    cases m
    · cases d with
      | nil => exact absurd rfl hne
      | cons x d =>
        have hx : x ≠ '-' := by
          rintro rfl
          have := hd '-' (by simp)
          revert this; decide
        simp [Re.opt, Re.chr, Re.run, hx] at ha
        simp [ha]
    · simp [Re.opt, Re.chr, Re.run] at ha
      rcases ha with ha | ha
      · simp [← ha]
      · have := hw c (by simp)
        rw [ha.1] at this
        exact absurd this (by decide)
  have := hw' f (by simp)
  cases (hs2 f (w' ++ t) (by simpa using split_dot hd hw hs hds)).symm.trans this

theorem step_integer {m : Bool} {d s : Str} (hne : d ≠ []) (hd : ∀ c ∈ d, isDigit c = true)
    (hs : ∀ c, s.head? = some c → isDigit c = false) (hs2 : ∀ c t, s = '.' :: c :: t → isDigit c = false) :
    step norm ((if m then ['-'] else []) ++ d ++ s) = .ok (⟨.integer, (if m then ['-'] else []) ++ d⟩, s) := by
  have h : consume integerRe ((if m then ['-'] else []) ++ d ++ s) = some ((if m then ['-'] else []) ++ d, s) :=
    consume_first (first_seq (first_minus hne hd) (first_plus_cls hne hd hs))
  have h0 := consume_none (run_float_none (m := m) hne hd hs hs2)
  obtain ⟨c, t, he, hc⟩ := number_head (m := m) s hne hd
  obtain ⟨h1, h2, h3, h4, h5⟩ := numberHead hc
  rw [step_number norm (by rw [he]; exact wordless_head _ h1) (by rw [he]; exact lit_none _ h2) (by rw [he]; exact var_none _ h3)
    (by rw [he]; exact none_can _ rfl h4) (by rw [he]; exact none_can _ rfl h5), h0, h]

/-! ### Symbols and gaps -/

theorem step_or (s : Str) : step norm ('|' :: '|' :: s) = .ok (⟨.logicalOr, ['|', '|']⟩, s) := by
  obtain ⟨a, b, c, d⟩ := wordless_pn (c := '|') ('|' :: s) (by decide)
  have : consume (.lit ['|', '|']) ('|' :: '|' :: s) = some (['|', '|'], s) := consume_lit ['|', '|'] s
  simp only [step, a, b, c, d, this]

theorem consume_cls {p : Char → Bool} {c : Char} (s : Str) (h : p c = true) : consume (.cls p) (c :: s) = some ([c], s) :=
  consume_first (w := [c]) (first_cls s h)

/-- If nothing else fits, a symbol is read. -/
theorem step_sym {c : Char} {s : Str} (hw : isPn c = false ∨ c = '-') (hc : isSymbol c = true) (h1 : consume (.lit ['|', '|']) (c :: s) = none)
    (h2 : consume varRe (c :: s) = none) (h3 : consume iri (c :: s) = none) (h4 : literalRe.can c = false)
    (h5 : consume floatRe (c :: s) = none) (h6 : consume integerRe (c :: s) = none) : step norm (c :: s) = .ok (⟨.symbol, [c]⟩, s) := by
  have hw : Wordless (c :: s) := by
    rcases hw with hw | rfl
    · exact wordless_pn s hw
    · exact wordless_head s (by decide)
  rw [step_number norm hw h1 h2 h3 (none_can s rfl h4), h5, h6, consume_cls s hc]

theorem run_lt_none {s : Str} (h : ∀ u v, s = u ++ '>' :: v → ¬ IriText u) : iri.run ('<' :: s) = [] := by
  have h1 := run_iriref_none h
  have h2 : (Re.seq langtag (.chr '@')).run ('<' :: s) = [] := run_can rfl (by decide)
  have h3 : (Re.alt pnameLN pnameNS).run ('<' :: s) = [] := run_can rfl (by decide)
  rw [iri, Re.run, Re.opt, Re.run, h2, Re.run]
  simp only [List.nil_append, List.flatMap_cons, List.flatMap_nil, List.append_nil]
  rw [Re.run, h1, h3]
  rfl

theorem run_minus_none {s : Str} (h : ∀ c, s.head? = some c → isDigit c = false) (r : Re) :
    (Re.seq (.opt (.chr '-')) (.seq (.plus (.cls isDigit)) r)).run ('-' :: s) = [] := by
  have h0 : (Re.plus (.cls isDigit)).run s = [] := by
    cases s with
    | nil => exact run_nil rfl
    | cons c s => exact run_can rfl (by simp [Re.plus, Re.can, Re.nullable, h c rfl])
  have h1 : (Re.plus (.cls isDigit)).run ('-' :: s) = [] := run_can rfl (by decide)
  rw [Re.run, show (Re.opt (.chr '-')).run ('-' :: s) = [s, '-' :: s] by simp [Re.opt, Re.chr, Re.run]]
  simp [Re.run, h0, h1]

theorem run_minus_none' {s : Str} (h : ∀ c, s.head? = some c → isDigit c = false) : integerRe.run ('-' :: s) = [] := by
  have h0 : (Re.plus (.cls isDigit)).run s = [] := by
    cases s with
    | nil => exact run_nil rfl
    | cons c s => exact run_can rfl (by simp [Re.plus, Re.can, Re.nullable, h c rfl])
  have h1 : (Re.plus (.cls isDigit)).run ('-' :: s) = [] := run_can rfl (by decide)
  rw [integerRe, Re.run, show (Re.opt (.chr '-')).run ('-' :: s) = [s, '-' :: s] by simp [Re.opt, Re.chr, Re.run]]
  simp [h0, h1]

theorem step_symbol {c : Char} {s : Str} (hc : (Lexeme.symbol c).Ok) (hs : (Lexeme.symbol c).Ends s) :
    step norm (c :: s) = .ok (⟨.symbol, [c]⟩, s) := by
  have key : ∀ c ∈ ['.', '{', '}', '(', ')', '=', '*', ',', ';', '<', '>', '!', '|', '/', '^', '?', '+', '-'],
      (isPn c = false ∨ c = '-') ∧ isSymbol c = true ∧ (c = '<' ∨ iri.can c = false) ∧ literalRe.can c = false ∧
      (c = '-' ∨ (floatRe.can c = false ∧ integerRe.can c = false)) := by decide
  obtain ⟨h1, h2, h3, h4, h5⟩ := key c hc
  have e1 : consume (.lit ['|', '|']) (c :: s) = none := by
    by_cases h : c = '|'
    · subst h
      have hs : s.head? ≠ some '|' := hs
      apply consume_lit_none
      rintro ⟨t, ht⟩
      simp at ht
      exact hs (by simp [← ht])
    · exact lit_none s h
  have e2 : consume varRe (c :: s) = none := by
    by_cases h : c = '?'
    · subst h
      have hs : ∀ d, s.head? = some d → ¬ varChar d := hs
      apply consume_none
      rw [varRe, Re.run]
      have : (Re.seq (.cls isVarStart) (.star (.cls isVarChar))).run s = [] := by
        cases s with
        | nil => exact run_nil rfl
        | cons d s =>
          refine run_can rfl ?_
          have hd := hs d rfl
          rw [varChar_eq] at hd
          simp only [Re.can, Re.nullable, Bool.false_and, Bool.or_false]
          by_contra hne
          rw [Bool.not_eq_false] at hne
          apply hd
          simp only [isVarStart, isVarChar] at hne ⊢
          simp [hne]
      simp [Re.chr, Re.run] at this ⊢
      exact this
    · exact var_none s h
  have e3 : consume iri (c :: s) = none := by
    rcases h3 with rfl | h
    · have hs : ∀ u v, s = u ++ '>' :: v → ¬ IriText u := hs
      exact consume_none (run_lt_none hs)
    · exact none_can s rfl h
  have e5 : consume floatRe (c :: s) = none ∧ consume integerRe (c :: s) = none := by
    rcases h5 with rfl | ⟨h5, h6⟩
    · have hs : ∀ d, s.head? = some d → ¬ TurtleSpec.digit d := hs
      have hs' : ∀ c, s.head? = some c → isDigit c = false := fun c hc => by
        have := hs c hc; rw [digit_eq] at this; simpa using this
      exact ⟨consume_none (run_minus_none hs' _), consume_none (run_minus_none' hs')⟩
    · exact ⟨none_can s rfl h5, none_can s rfl h6⟩
  exact step_sym norm h1 h2 e1 e2 e3 h4 e5.1 e5.2

theorem step_blank {c : Char} {w s : Str} (hw : ∀ a ∈ c :: w, isWs a = true) (hs : ∀ a, s.head? = some a → isWs a = false) :
    step norm (c :: w ++ s) = .ok (⟨.ws, c :: w⟩, s) := by
  have hc : c ∈ [' ', '\t', '\r', '\n'] := by
    have := hw c (by simp)
    simp only [isWs, Bool.or_eq_true, beq_iff_eq] at this
    simp only [List.mem_cons]
    tauto
  have key : ∀ c ∈ [' ', '\t', '\r', '\n'], isPn c = false ∧ c ≠ '|' ∧ c ≠ '?' ∧ iri.can c = false ∧ literalRe.can c = false ∧
      floatRe.can c = false ∧ integerRe.can c = false ∧ isSymbol c = false := by decide
  obtain ⟨h1, h2, h3, h4, h5, h6, h7, h8⟩ := key c hc
  have h9 : consume (.plus (.cls isWs)) (c :: w ++ s) = some (c :: w, s) := consume_first (first_plus_cls (by simp) hw hs)
  rw [List.cons_append] at h9 ⊢
  rw [step_number norm (wordless_pn _ h1) (lit_none _ h2) (var_none _ h3) (none_can _ rfl h4) (none_can _ rfl h5),
    none_can _ rfl h6, none_can _ rfl h7, consume_none (run_cls_false _ h8), h9]

theorem step_comment (s : Str) : step norm ('#' :: s) = .ok (⟨.ws, []⟩, s.dropWhile (· ≠ '\n')) := by
  rw [step_number norm (wordless_pn _ (by decide)) (lit_none _ (by decide)) (var_none _ (by decide)) (none_can _ rfl (by decide))
    (none_can _ rfl (by decide)), none_can _ rfl (by decide), none_can _ rfl (by decide), none_can _ rfl (by decide),
    none_can _ rfl (by decide)]
  rfl

/-! ### All tokens -/

/-- One token. -/
theorem step_lexeme (hn : ∀ t v, StringText t v → norm ('"' :: t ++ ['"']) = .ok ('"' :: v ++ ['"'])) {l : Lexeme} {s : Str}
    (hl : l.Ok) (hs : l.Ends s) : step norm (l.text ++ s) = .ok (l.token, s) := by
  have hnc : ∀ {s : Str}, (∀ c, s.head? = some c → ¬ TurtleSpec.nameChar c) → ∀ c, s.head? = some c → isPn c = false := by
    intro s h c hc
    have := h c hc
    rw [nameChar_eq] at this
    simpa using this
  have hdg : ∀ {s : Str}, (∀ c, s.head? = some c → ¬ TurtleSpec.digit c) → ∀ c, s.head? = some c → isDigit c = false := by
    intro s h c hc
    have := h c hc
    rw [digit_eq] at this
    simpa using this
  have hd : ∀ {d : Str}, (∀ c ∈ d, TurtleSpec.digit c) → ∀ c ∈ d, isDigit c = true := fun h c hc => by
    rw [← digit_eq]; exact h c hc
  cases l with
  | keyword w t => exact step_keyword norm hl.1 hl.2 (hnc hs)
  | aggregate w t => exact step_aggregate norm hl.1 hl.2 (hnc hs)
  | groupBy a b c => exact step_groupBy norm hl.1 hl.2.1 hl.2.2
  | orderBy a b c => exact step_orderBy norm hl.1 hl.2.1 hl.2.2
  | var n => exact step_varName norm hl hs
  | iri t => exact step_iriText norm s hl
  | pname p l => exact step_pname norm hl.1 hl.2.1 hl.2.2.1 hl.2.2.2 hs
  | literal t v x => exact step_lit norm (hn t v hl.1) hl.1 hl.2 hs
  | integer m d =>
    refine step_integer norm hl.1 (hd hl.2) (hdg hs.1) fun c t he => ?_
    have := hs.2 c t he
    rw [digit_eq] at this
    simpa using this
  | decimal m d f =>
    have := step_decimal norm (m := m) hl.1 (hd hl.2.1) hl.2.2.1 (hd hl.2.2.2) (hdg hs)
    simpa [Lexeme.text, Lexeme.token] using this
  | symbol c => exact step_symbol norm hl hs
  | or => exact step_or norm s

theorem token_type (l : Lexeme) : l.token.type ≠ .ws := by cases l <;> simp [Lexeme.token]

/-- What `readLoop` does with `u`, and with blanks in front of it. -/
def Reads (u : Str) (x : Outcome (Token × Str)) : Prop :=
  ∀ w, (∀ c ∈ w, isWs c = true) → ∀ n, (w ++ u).length ≤ n → readLoop norm n (w ++ u) = x

theorem readLoop_ws {n : Nat} {s w t : Str} (hs : s ≠ []) (h : step norm s = .ok (⟨.ws, w⟩, t)) :
    readLoop norm (n + 1) s = readLoop norm n t := by
  cases s with
  | nil => exact absurd rfl hs
  | cons c s => rw [readLoop.eq_3 norm _ n (by simp), h]; simp [Outcome.bind]

theorem reads_of_plain {u : Str} {x : Outcome (Token × Str)} (hu : ∀ c, u.head? = some c → isWs c = false)
    (h : ∀ n, u.length ≤ n → readLoop norm n u = x) : Reads norm u x := by
  intro w hw n hn
  cases w with
  | nil => exact h n hn
  | cons c w =>
    cases n with
    | zero => simp at hn
    | succ n =>
      rw [readLoop_ws norm (by simp) (step_blank norm hw hu)]
      exact h n (by simp at hn; omega)

theorem reads_gap {g u : Str} {x : Outcome (Token × Str)} (hg : Gap g) (h : Reads norm u x) : Reads norm (g ++ u) x := by
  induction hg with
  | nil => exact h
  | @blank c s hc _ ih =>
    intro w hw n hn
    have := ih (w ++ [c]) (by
      intro a ha
      rcases List.mem_append.mp ha with ha | ha
      · exact hw a ha
      · simp at ha; subst ha; rw [← blank_eq]; exact hc) n (by simpa using hn)
    simpa using this
  | @comment c s hc _ ih =>
    rw [List.append_assoc, List.cons_append, List.cons_append]
    refine reads_of_plain norm (by simp; decide) fun n hn => ?_
    cases n with
    | zero => simp at hn
    | succ n =>
      have hd : (c ++ '\n' :: (s ++ u)).dropWhile (· ≠ '\n') = '\n' :: (s ++ u) := by
        apply dropWhile_all
        · intro a ha
          simp only [ne_eq, decide_eq_true_eq]
          exact fun h => hc (h ▸ ha)
        · simp
      rw [readLoop_ws norm (by simp) (step_comment norm _), hd]
      exact ih ['\n'] (by simp; decide) n (by simp at hn ⊢; omega)

theorem reads_lexeme (hn : ∀ t v, StringText t v → norm ('"' :: t ++ ['"']) = .ok ('"' :: v ++ ['"'])) {l : Lexeme} {s : Str}
    (hl : l.Ok) (hs : l.Ends s) : Reads norm (l.text ++ s) (.ok (l.token, s)) := by
  have hstep := step_lexeme norm hn hl hs
  have hne : l.text ++ s ≠ [] := by
    intro h
    rw [h] at hstep
    have : step norm [] = .throw := by
      have hw : Wordless [] := ⟨by decide, by decide, by decide, by decide⟩
      rw [step_number norm hw (by decide) (by decide) (by decide) (by decide)]
      decide
    rw [this] at hstep
    cases hstep
  refine reads_of_plain norm (fun c hc => ?_) fun n hlen => ?_
  · by_contra hws
    rw [Bool.not_eq_false] at hws
    have hsplit : l.text ++ s = c :: ((l.text ++ s).tail.takeWhile isWs) ++ (l.text ++ s).tail.dropWhile isWs := by
      rw [List.cons_append, List.takeWhile_append_dropWhile]
      cases hh : l.text ++ s with
      | nil => exact absurd hh hne
      | cons d t => rw [hh] at hc; simp at hc; simp [hc]
    rw [hsplit, step_blank norm] at hstep
    · exact token_type l (by
        injection hstep with hstep
        rw [Prod.mk.injEq] at hstep
        rw [← hstep.1])
    · intro a ha
      rcases List.mem_cons.mp ha with rfl | ha
      · exact hws
      · exact mem_takeWhile ha
    · intro a ha
      exact head_dropWhile ha
  · cases n with
    | zero => cases hh : l.text ++ s with
      | nil => exact absurd hh hne
      | cons d t => rw [hh] at hlen; simp at hlen
    | succ n =>
      cases hh : l.text ++ s with
      | nil => exact absurd hh hne
      | cons d t =>
        rw [hh] at hstep
        rw [readLoop.eq_3 norm _ n (by simp), hstep]
        simp [Outcome.bind, token_type]

theorem read_trailing {s : Str} (hs : Trailing s) : read norm s = .ok (⟨.ws, []⟩, []) := by
  cases hs with
  | gap hg =>
    have := reads_gap norm (u := []) (x := .ok (⟨.ws, []⟩, [])) hg (reads_of_plain norm (by simp) fun n _ => by cases n <;> rfl)
    rw [List.append_nil] at this
    exact this [] (by simp) _ (Nat.le_refl _)
  | @comment s c hg hc =>
    have := reads_gap norm (u := '#' :: c) (x := .ok (⟨.ws, []⟩, [])) hg (reads_of_plain norm (by simp; decide) fun n hn => by
      cases n with
      | zero => simp at hn
      | succ n =>
        have hd : c.dropWhile (· ≠ '\n') = [] := by
          have := dropWhile_all (p := (· ≠ '\n')) (u := c) (v := []) (fun a ha => by
            simp only [ne_eq, decide_eq_true_eq]
            exact fun h => hc (h ▸ ha)) (by simp)
          simpa using this
        rw [readLoop_ws norm (by simp) (step_comment norm _), hd]
        cases n <;> rfl)
    exact this [] (by simp) _ (Nat.le_refl _)

theorem read_cons (hn : ∀ t v, StringText t v → norm ('"' :: t ++ ['"']) = .ok ('"' :: v ++ ['"'])) {g : Str} {l : Lexeme} {s : Str}
    (hg : Gap g) (hl : l.Ok) (hs : l.Ends s) : read norm (g ++ (l.text ++ s)) = .ok (l.token, s) :=
  reads_gap norm hg (reads_lexeme norm hn hl hs) [] (by simp) _ (Nat.le_refl _)

theorem tokens_text (hn : ∀ t v, StringText t v → norm ('"' :: t ++ ['"']) = .ok ('"' :: v ++ ['"'])) {ls : List Lexeme} {s : Str}
    (h : Text ls s) : ∀ n, ls.length < n → tokens norm n s = .ok (ls.map Lexeme.token) := by
  induction h with
  | nil ht =>
    intro n hlt
    cases n with
    | zero => simp at hlt
    | succ n => rw [tokens, read_trailing norm ht]; simp [Outcome.bind]
  | @cons g l ls s hg hl hs _ ih =>
    intro n hlt
    cases n with
    | zero => simp at hlt
    | succ n =>
      rw [tokens, read_cons norm hn hg hl hs]
      simp only [Outcome.bind, if_neg (token_type l)]
      rw [ih n (by simp at hlt; omega)]
      rfl

end

end Verif.SparqlLexer
