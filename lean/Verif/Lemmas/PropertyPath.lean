import Verif.Spec.PropertyPath
/-
Helper lemmas for C47: the tokens of a path and what the parser makes of them.
-/
namespace Verif.PropertyPath
open Verif.PropertyPathSpec

/-! ### Scanning -/

theorem scan_emit {s s' : Scan} {c : Char} {rest : Word} {t : List Word} (h : step s c rest = .ok (t, s')) :
    scan s (c :: rest) = (scan s' rest).map (t ++ ·) := by
  rw [scan, h]; rfl

theorem scan_silent {s s' : Scan} {c : Char} {rest : Word} (h : step s c rest = .ok ([], s')) : scan s (c :: rest) = scan s' rest := by
  rw [scan_emit h]
  cases scan s' rest <;> rfl

theorem map_map (x : Outcome (List Word)) (a b : List Word) : (x.map (b ++ ·)).map (a ++ ·) = x.map ((a ++ b) ++ ·) := by
  cases x <;> simp

/-- The operators as a list. -/
theorem delimiter_mem (c : Char) : isDelimiter c = true ↔ c ∈ ['?', '*', '+', '/', '|', '(', ')', '^'] := by
  simp [isDelimiter, or_assoc]

theorem not_delimiter {c : Char} (h : c ∉ ['?', '*', '+', '/', '|', '(', ')', '^', '\\']) : isDelimiter c = false ∧ c ≠ '\\' := by
  constructor
  · rw [Bool.eq_false_iff]
    intro h'
    rw [delimiter_mem] at h'
    simp only [List.mem_cons, List.not_mem_nil, not_or, or_false] at h h'
    rcases h' with h' | h' | h' | h' | h' | h' | h' | h' <;> simp_all
  · rintro rfl
    exact h (by decide)

theorem valid_graph {c : Char} (h : 33 ≤ c.toNat ∧ c.toNat ≤ 126) : isValid c = true := by simp [isValid, h]

theorem scan_word (inside : Bool) (w : Word) (h : wordOk inside w = true) : ∀ f cur rest,
    scan (.outer f inside false cur) (w ++ rest) = scan (.outer (f && decide (w = [])) false false (cur ++ w)) rest := by
  induction inside, w using wordOk.induct with
  | case1 inside =>
    intro f cur rest
    have : inside = false := by simpa [wordOk] using h
    subst this
    simp
  | case2 c w ih2 ih1 =>
    intro f cur rest
    simp only [wordOk, Bool.and_eq_true, decide_eq_true_eq] at h
    by_cases hc : c = '>'
    · rw [if_pos hc] at h
      rw [List.cons_append, scan_silent (s' := .outer false false false (cur ++ [c]))]
      · rw [ih2 h.2]; simp
      · subst hc; simp [step, outerStep, isValid, isDelimiter]
    · rw [if_neg hc] at h
      rw [List.cons_append, scan_silent (s' := .outer false true false (cur ++ [c]))]
      · rw [ih1 h.2]; simp
      · simp [step, outerStep, valid_graph h.1, hc]
  | case3 c w ih =>
    intro f cur rest
    simp only [wordOk, Bool.and_eq_true, decide_eq_true_eq] at h
    have hlt : c ≠ '<' ∧ c ≠ '>' := by simpa using h.1.2
    rw [List.cons_append, scan_silent (s' := .outer false false true (cur ++ ['\\'])) (by simp [step, outerStep, isValid, isDelimiter]),
      List.cons_append, scan_silent (s' := .outer false false false (cur ++ ['\\'] ++ [c]))]
    · rw [ih h.2]; simp
    · by_cases hb : c = '\\'
      · subst hb; simp [step, outerStep, isValid, isDelimiter]
      · cases hd : isDelimiter c <;> simp [step, outerStep, valid_graph h.1.1, hd, hlt.1, hlt.2, hb]
  | case4 c w hne ih2 ih1 =>
    intro f cur rest
    rw [wordOk] at h
    · simp only [Bool.and_eq_true, decide_eq_true_eq] at h
      obtain ⟨hd, hb⟩ := not_delimiter h.1.2
      by_cases hc : c = '<'
      · rw [if_pos hc] at h
        rw [List.cons_append, scan_silent (s' := .outer false true false (cur ++ [c]))]
        · rw [ih2 h.2]; simp
        · subst hc; simp [step, outerStep, isValid, isDelimiter]
      · rw [if_neg hc] at h
        rw [List.cons_append, scan_silent (s' := .outer false false false (cur ++ [c]))]
        · rw [ih1 h.2]; simp
        · simp [step, outerStep, valid_graph h.1.1, hd, hb, hc]
    · exact hne

/-- Between two tokens. -/
def Between : Scan → Prop
  | .outer _ inside escaped cur => inside = false ∧ escaped = false ∧ cur = []
  | .delims _ => True
  | .digits _ _ => False

/-- Between two tokens, and not at the beginning. -/
def Later : Scan → Prop
  | .outer first inside escaped cur => first = false ∧ inside = false ∧ escaped = false ∧ cur = []
  | .delims _ => True
  | .digits _ _ => False

/-- An operator or the end follows. -/
def RestOk (rest : Word) : Prop := ∀ c, rest.head? = some c → isDelimiter c = true

theorem later_between {s : Scan} (h : Later s) : Between s := by
  cases s with
  | outer f i e c => exact h.2
  | delims c => trivial
  | digits c w => exact h

theorem scan_pending (cur rest : Word) (hc : cur ≠ []) (hr : RestOk rest) :
    scan (.outer false false false cur) rest = (scan (.outer false false false []) rest).map ([cur] ++ ·) := by
  cases rest with
  | nil => simp [scan, lastToken, hc]
  | cons d rest =>
    have hd := hr d rfl
    have hd' := (delimiter_mem d).1 hd
    have h1 : d ≠ '<' ∧ d ≠ '>' ∧ d ≠ '\\' := by
      refine ⟨?_, ?_, ?_⟩ <;> rintro rfl <;> exact absurd hd (by decide)
    have hs : ∀ cur, step (.outer false false false cur) d rest = .ok ((if cur = [] then [] else [cur]) ++ (delimStep d d rest).1, (delimStep d d rest).2) := by
      intro cur
      simp [step, outerStep, isValid, hd, h1]
    rw [scan_emit (hs cur), scan_emit (hs []), if_neg hc, if_pos rfl, map_map, List.nil_append]

/-- The first character of an IRI. -/
theorem iri_head {w : Word} (h : iriOk w = true) : ∃ c w', w = c :: w' ∧ isDelimiter c = false ∧ isDigit c = false := by
  rw [iriOk, Bool.and_eq_true] at h
  cases w with
  | nil => exact absurd h.2 (by simp)
  | cons c w' =>
    refine ⟨c, w', rfl, ?_, ?_⟩
    · by_cases hb : c = '\\'
      · subst hb; decide
      · have h1 := h.1
        rw [wordOk] at h1
        · simp only [Bool.and_eq_true, decide_eq_true_eq] at h1
          exact (not_delimiter h1.1.2).1
        · intro _ _ h; exact absurd h hb
    · have := h.2
      simp only [List.head?_cons, Option.any_some, Bool.not_eq_true', decide_eq_false_iff_not] at this
      simp only [isDigit, Bool.and_eq_false_iff, decide_eq_false_iff_not]
      omega

theorem scan_iri {w : Word} (h : iriOk w = true) (st : Scan) (hst : Between st) (rest : Word) (hr : RestOk rest) :
    scan st (w ++ rest) = (scan (.outer false false false []) rest).map ([w] ++ ·) := by
  obtain ⟨c, w', rfl, hd, _⟩ := iri_head h
  have hw : wordOk false (c :: w') = true := by rw [iriOk, Bool.and_eq_true] at h; exact h.1
  cases st with
  | outer f i e cur =>
    obtain ⟨rfl, rfl, rfl⟩ := hst
    rw [scan_word false _ hw]
    simp only [List.nil_append, List.cons_ne_nil, decide_false, Bool.and_false]
    exact scan_pending _ _ (by simp) hr
  | delims d =>
    have e : scan (.delims d) (c :: w' ++ rest) = scan (.outer false false false []) (c :: w' ++ rest) := by
      rw [List.cons_append, scan, scan]
      simp [step, hd]
    rw [e, scan_word false _ hw]
    simp only [List.nil_append, List.cons_ne_nil, decide_false, Bool.and_false]
    exact scan_pending _ _ (by simp) hr
  | digits d cur => exact absurd hst (by simp [Between])

theorem scan_delim (d : Char) (hd : isDelimiter d = true) (st : Scan) (hst : Between st) (hq : Later st ∨ d ≠ '?') (rest : Word)
    (hr : ∀ c, rest.head? = some c → isDigit c = false) : ∃ st', Later st' ∧ scan st (d :: rest) = (scan st' rest).map ([[d]] ++ ·) := by
  have h1 : d ≠ '<' ∧ d ≠ '>' ∧ d ≠ '\\' := by
    refine ⟨?_, ?_, ?_⟩ <;> rintro rfl <;> exact absurd hd (by decide)
  have h2 : rest.head?.any isDigit = false := by
    cases h : rest.head? with
    | none => rfl
    | some c => exact hr c h
  have h3 : ∀ c, delimStep c d rest = ([[d]], .delims c) := by
    intro c
    simp [delimStep, h2]
  cases st with
  | outer f i e cur =>
    obtain ⟨rfl, rfl, rfl⟩ := hst
    refine ⟨.delims d, trivial, scan_emit ?_⟩
    have : f = false ∨ d ≠ '?' := hq.imp_left (·.1)
    rcases this with h | h <;> simp [step, outerStep, isValid, hd, h1, h, h3]
  | delims c => exact ⟨.delims c, trivial, scan_emit (by simp [step, hd, h3])⟩
  | digits c cur => exact absurd hst (by simp [Between])

theorem scan_digits (c : Char) (ds : Word) (hds : ∀ x ∈ ds, isDigit x = true) (hne : ds ≠ []) (rest : Word)
    (hr : ∀ c, rest.head? = some c → isDigit c = false) : ∀ cur,
    scan (.digits c cur) (ds ++ rest) = (scan (.delims c) rest).map ([cur ++ ds] ++ ·) := by
  induction ds with
  | nil => exact absurd rfl hne
  | cons x ds ih =>
    intro cur
    by_cases h : ds = []
    · subst h
      have h2 : rest.head?.any isDigit = false := by
        cases h : rest.head? with
        | none => rfl
        | some c => exact hr c h
      exact scan_emit (by simp [step, h2])
    · have h2 : (ds ++ rest).head?.any isDigit = true := by
        cases ds with
        | nil => exact absurd rfl h
        | cons y ds => exact hds y (by simp)
      rw [List.cons_append, scan_silent (s' := .digits c (cur ++ [x])) (by simp only [step, h2, if_true]), ih (fun y hy => hds y (List.mem_cons_of_mem _ hy)) h]
      simp

theorem scan_bound (ds : Word) (hds : ∀ x ∈ ds, isDigit x = true) (hne : ds ≠ []) (rest : Word) (hr : ∀ c, rest.head? = some c → isDigit c = false) :
    scan (.outer false false false []) ('*' :: ds ++ rest) = (scan (.delims '*') rest).map (['*' :: ds] ++ ·) := by
  have h2 : (ds ++ rest).head?.any isDigit = true := by
    cases ds with
    | nil => exact absurd rfl hne
    | cons y ds => exact hds y (by simp)
  rw [List.cons_append, scan_silent (s' := .digits '*' ['*']), scan_digits _ _ hds hne _ hr]
  · rfl
  · simp only [step, outerStep, delimStep, h2]
    rfl

/-! ### The tokens of a path -/

/-- The tokens of a path. -/
def toks : Syn → List Word
  | .iri w => [w]
  | .paren s => ['('] :: toks s ++ [[')']]
  | .mod s m => toks s ++ [m.text]
  | .inv s => ['^'] :: toks s
  | .seq a b => toks a ++ ['/'] :: toks b
  | .alt a b => toks a ++ ['|'] :: toks b

/-- The first character of a path. -/
theorem text_head (s : Syn) (h : s.ok = true) : ∃ c w, s.text = c :: w ∧ isDigit c = false ∧ c ≠ '?' := by
  induction s with
  | iri w =>
    obtain ⟨c, w', rfl, hd, hg⟩ := iri_head h
    refine ⟨c, w', rfl, hg, ?_⟩
    rintro rfl
    exact absurd hd (by decide)
  | paren s _ => exact ⟨'(', _, rfl, by decide, by decide⟩
  | inv s _ => exact ⟨'^', _, rfl, by decide, by decide⟩
  | mod s m ih =>
    simp only [Syn.ok, Bool.and_eq_true] at h
    obtain ⟨c, w, e, h⟩ := ih h.1.1
    exact ⟨c, w ++ m.text, by rw [Syn.text, e]; rfl, h⟩
  | seq a b iha _ =>
    simp only [Syn.ok, Bool.and_eq_true] at h
    obtain ⟨c, w, e, h⟩ := iha h.1.1.1
    exact ⟨c, w ++ '/' :: b.text, by rw [Syn.text, e]; rfl, h⟩
  | alt a b iha _ =>
    simp only [Syn.ok, Bool.and_eq_true] at h
    obtain ⟨c, w, e, h⟩ := iha h.1.1
    exact ⟨c, w ++ '|' :: b.text, by rw [Syn.text, e]; rfl, h⟩

theorem digit_char (d : Nat) (h : d < 10) : isDigit (Char.ofNat (48 + d)) = true := by
  have : ∀ d, d < 10 → isDigit (Char.ofNat (48 + d)) = true := by decide
  exact this d h

theorem delim_rest {d : Char} (hd : isDelimiter d = true) (rest : Word) : RestOk (d :: rest) := by
  intro c hc
  cases hc
  exact hd

theorem rest_digit {rest : Word} (h : RestOk rest) : ∀ c, rest.head? = some c → isDigit c = false := by
  intro c hc
  have := (delimiter_mem c).1 (h c hc)
  simp only [List.mem_cons, List.not_mem_nil, or_false] at this
  rcases this with h | h | h | h | h | h | h | h <;> (subst h; decide)

theorem mod_bound {ds : List Nat} (h : (Mod.atMost ds).ok = true) : ds ≠ [] ∧ (∀ d ∈ ds, d < 10) ∧ natOf ds < 2 ^ 31 := by
  simp only [Mod.ok, Bool.and_eq_true, decide_eq_true_eq, List.all_eq_true] at h
  exact ⟨h.1.1, h.1.2, h.2⟩

/-- The text of a path is cut into its tokens. -/
theorem scan_text (s : Syn) (h : s.ok = true) (hb : s.plain = true) : ∀ st, Between st → ∀ rest, RestOk rest →
    ∃ st', Later st' ∧ scan st (s.text ++ rest) = (scan st' rest).map (toks s ++ ·) := by
  induction s with
  | iri w => intro st hst rest hr; exact ⟨.outer false false false [], ⟨rfl, rfl, rfl, rfl⟩, scan_iri h st hst rest hr⟩
  | paren s ih =>
    intro st hst rest hr
    obtain ⟨c, w, e, hg, _⟩ := text_head s h
    obtain ⟨s1, l1, e1⟩ := scan_delim '(' (by decide) st hst (.inr (by decide)) (s.text ++ ')' :: rest) (by rw [e]; intro c' hc'; cases hc'; exact hg)
    obtain ⟨s2, l2, e2⟩ := ih h hb s1 (later_between l1) (')' :: rest) (delim_rest (by decide) _)
    obtain ⟨s3, l3, e3⟩ := scan_delim ')' (by decide) s2 (later_between l2) (.inl l2) rest (rest_digit hr)
    refine ⟨s3, l3, ?_⟩
    have : (Syn.paren s).text ++ rest = '(' :: (s.text ++ ')' :: rest) := by simp [Syn.text]
    rw [this, e1, e2, e3, map_map, map_map]
    simp [toks]
  | inv s ih =>
    intro st hst rest hr
    simp only [Syn.ok, Bool.and_eq_true] at h
    obtain ⟨c, w, e, hg, _⟩ := text_head s h.1
    obtain ⟨s1, l1, e1⟩ := scan_delim '^' (by decide) st hst (.inr (by decide)) (s.text ++ rest) (by rw [e]; intro c' hc'; cases hc'; exact hg)
    obtain ⟨s2, l2, e2⟩ := ih h.1 hb s1 (later_between l1) rest hr
    refine ⟨s2, l2, ?_⟩
    rw [Syn.text, List.cons_append, e1, e2, map_map]
    simp [toks]
  | seq a b iha ihb =>
    intro st hst rest hr
    simp only [Syn.ok, Syn.plain, Bool.and_eq_true] at h hb
    obtain ⟨c, w, e, hg, _⟩ := text_head b h.1.1.2
    obtain ⟨s1, l1, e1⟩ := iha h.1.1.1 hb.1 st hst ('/' :: (b.text ++ rest)) (delim_rest (by decide) _)
    obtain ⟨s2, l2, e2⟩ := scan_delim '/' (by decide) s1 (later_between l1) (.inl l1) (b.text ++ rest) (by rw [e]; intro c' hc'; cases hc'; exact hg)
    obtain ⟨s3, l3, e3⟩ := ihb h.1.1.2 hb.2 s2 (later_between l2) rest hr
    refine ⟨s3, l3, ?_⟩
    have : (Syn.seq a b).text ++ rest = a.text ++ '/' :: (b.text ++ rest) := by simp [Syn.text]
    rw [this, e1, e2, e3, map_map, map_map]
    simp [toks]
  | alt a b iha ihb =>
    intro st hst rest hr
    simp only [Syn.ok, Syn.plain, Bool.and_eq_true] at h hb
    obtain ⟨c, w, e, hg, _⟩ := text_head b h.1.2
    obtain ⟨s1, l1, e1⟩ := iha h.1.1 hb.1 st hst ('|' :: (b.text ++ rest)) (delim_rest (by decide) _)
    obtain ⟨s2, l2, e2⟩ := scan_delim '|' (by decide) s1 (later_between l1) (.inl l1) (b.text ++ rest) (by rw [e]; intro c' hc'; cases hc'; exact hg)
    obtain ⟨s3, l3, e3⟩ := ihb h.1.2 hb.2 s2 (later_between l2) rest hr
    refine ⟨s3, l3, ?_⟩
    have : (Syn.alt a b).text ++ rest = a.text ++ '|' :: (b.text ++ rest) := by simp [Syn.text]
    rw [this, e1, e2, e3, map_map, map_map]
    simp [toks]
  | mod s m ih =>
    intro st hst rest hr
    simp only [Syn.ok, Bool.and_eq_true] at h
    have one : ∀ d, isDelimiter d = true → m.text = [d] → s.plain = true →
        ∃ st', Later st' ∧ scan st ((Syn.mod s m).text ++ rest) = (scan st' rest).map (toks (.mod s m) ++ ·) := by
      intro d hd hm hb
      obtain ⟨s1, l1, e1⟩ := ih h.1.1 hb st hst (d :: rest) (delim_rest hd _)
      obtain ⟨s2, l2, e2⟩ := scan_delim d hd s1 (later_between l1) (.inl l1) rest (rest_digit hr)
      refine ⟨s2, l2, ?_⟩
      have : (Syn.mod s m).text ++ rest = s.text ++ d :: rest := by simp [Syn.text, hm]
      rw [this, e1, e2, map_map, toks, hm]
    have hbs : (∀ ds, m ≠ .atMost ds) → s.plain = true := by
      intro hm
      cases s with
      | iri w => rfl
      | _ =>
        cases m with
        | atMost ds => exact absurd rfl (hm ds)
        | _ => exact hb
    cases m with
    | opt => exact one '?' (by decide) rfl (hbs (by intro _ h; cases h))
    | star => exact one '*' (by decide) rfl (hbs (by intro _ h; cases h))
    | plus => exact one '+' (by decide) rfl (hbs (by intro _ h; cases h))
    | atMost ds =>
      cases s with
      | iri w =>
        obtain ⟨h1, h2, _⟩ := mod_bound h.1.2
        refine ⟨.delims '*', trivial, ?_⟩
        have : (Syn.mod (.iri w) (.atMost ds)).text ++ rest = w ++ ('*' :: ds.map (fun d => Char.ofNat (48 + d)) ++ rest) := by simp [Syn.text, Mod.text]
        rw [this, scan_iri h.1.1 st hst ('*' :: ds.map (fun d => Char.ofNat (48 + d)) ++ rest) (delim_rest (d := '*') (by decide) _), scan_bound _ _ (by simpa using h1) rest (rest_digit hr), map_map]
        · simp [toks, Mod.text]
        · intro x hx
          obtain ⟨d, hd, rfl⟩ := List.mem_map.1 hx
          exact digit_char d (h2 d hd)
      | _ => exact absurd hb (by simp [Syn.plain])

/-- The tokens of a path. -/
theorem tokenize_text (s : Syn) (h : s.ok = true) (hb : s.plain = true) : tokenize s.text = .ok (toks s) := by
  obtain ⟨st, l, e⟩ := scan_text s h hb (.outer true false false []) ⟨rfl, rfl, rfl⟩ [] (by intro c hc; cases hc)
  rw [List.append_nil] at e
  rw [tokenize, e]
  cases st with
  | outer f i e cur =>
    obtain ⟨_, _, _, rfl⟩ := l
    simp [scan, lastToken]
  | delims c => simp [scan, lastToken]
  | digits c w => exact absurd l (by simp [Later])

/-! ### The grammar -/

/-- The size of a path. -/
def size : Syn → Nat
  | .iri _ => 1
  | .paren s => size s + 1
  | .mod s _ => size s + 1
  | .inv s => size s + 1
  | .seq a b => size a + size b + 1
  | .alt a b => size a + size b + 1

theorem size_pos (s : Syn) : 0 < size s := by cases s <;> simp [size]

/-- No operator of an element follows. -/
def NoMod (rest : List Word) : Prop := ∀ t, rest.head? = some t → t ≠ ['?'] ∧ t.head? ≠ some '*' ∧ t ≠ ['+']

/-- A given operator does not follow. -/
def No (c : Char) (rest : List Word) : Prop := rest.head? ≠ some [c]

theorem accept_no {c : Char} {rest : List Word} (h : No c rest) : accept c rest = none := by
  cases rest with
  | nil => rfl
  | cons t ts => rw [accept, if_neg]; intro e; exact h (by rw [e]; rfl)

theorem accept_yes (c : Char) (rest : List Word) : accept c ([c] :: rest) = some rest := by rw [accept, if_pos rfl]

theorem modifier_none (p : Path) {rest : List Word} (h : NoMod rest) : modifier p rest = .ok (p, rest) := by
  cases rest with
  | nil => rfl
  | cons t ts =>
    obtain ⟨h1, h2, h3⟩ := h t rfl
    have h4 : t ≠ ['*'] := by rintro rfl; exact h2 rfl
    rw [modifier, if_neg h1, if_neg h4, if_neg h3, if_neg h2]

theorem stoi_digits (ds : List Nat) (h : ds ≠ []) (hd : ∀ d ∈ ds, d < 10) (hn : natOf ds < 2 ^ 31) :
    stoi (ds.map fun d => Char.ofNat (48 + d)) = .ok (natOf ds) := by
  have hf : ∀ n, (ds.map fun d => Char.ofNat (48 + d)).foldl (fun n c => 10 * n + (c.toNat - 48)) n = ds.foldl (fun n d => 10 * n + d) n := by
    clear hn h
    induction ds with
    | nil => intro n; rfl
    | cons d ds ih =>
      intro n
      have : ∀ d, d < 10 → (Char.ofNat (48 + d)).toNat - 48 = d := by decide
      rw [List.map_cons, List.foldl_cons, List.foldl_cons, this d (hd d List.mem_cons_self), ih fun x hx => hd x (List.mem_cons_of_mem _ hx)]
  rw [stoi]
  simp only [hf]
  rw [if_neg (by simpa using h)]
  exact if_pos hn

/-- The first token of a path. -/
theorem toks_head (s : Syn) (h : s.ok = true) : ∃ t ts, toks s = t :: ts ∧ (s.level ≤ 1 → t ≠ ['^']) := by
  induction s with
  | iri w =>
    obtain ⟨c, w', rfl, hd, _⟩ := iri_head h
    refine ⟨c :: w', [], rfl, fun _ e => ?_⟩
    cases e
    exact absurd hd (by decide)
  | paren s _ => exact ⟨['('], _, rfl, fun _ => by decide⟩
  | inv s _ => exact ⟨['^'], _, rfl, fun h => absurd h (by simp [Syn.level])⟩
  | mod s m ih =>
    simp only [Syn.ok, Bool.and_eq_true, decide_eq_true_eq] at h
    obtain ⟨t, ts, e, h1⟩ := ih h.1.1
    exact ⟨t, ts ++ [m.text], by rw [toks, e]; rfl, fun _ => h1 (by omega)⟩
  | seq a b iha _ =>
    simp only [Syn.ok, Bool.and_eq_true] at h
    obtain ⟨t, ts, e, _⟩ := iha h.1.1.1
    exact ⟨t, ts ++ ['/'] :: toks b, by rw [toks, e]; rfl, fun h => absurd h (by simp [Syn.level])⟩
  | alt a b iha _ =>
    simp only [Syn.ok, Bool.and_eq_true] at h
    obtain ⟨t, ts, e, _⟩ := iha h.1.1
    exact ⟨t, ts ++ ['|'] :: toks b, by rw [toks, e]; rfl, fun h => absurd h (by simp [Syn.level])⟩

/-- What each function makes of the tokens of a path. -/
structure Parses (s : Syn) : Prop where
  primary : s.level ≤ 0 → ∀ fuel rest, 6 * size s ≤ fuel + 5 → pathPrimary fuel (toks s ++ rest) = .ok (s.tree, rest)
  elt : s.level ≤ 1 → ∀ fuel rest, NoMod rest → 6 * size s ≤ fuel + 4 → pathElt fuel (toks s ++ rest) = .ok (s.tree, rest)
  inverse : s.level ≤ 2 → ∀ fuel rest, NoMod rest → 6 * size s ≤ fuel + 3 → pathEltOrInverse fuel (toks s ++ rest) = .ok (s.tree, rest)
  sequence : s.level ≤ 3 → ∀ fuel rest, NoMod rest → No '/' rest → 6 * size s ≤ fuel + 2 → pathSequence fuel (toks s ++ rest) = .ok (s.tree, rest)
  factors : s.level ≤ 3 → ∀ fuel rest, NoMod rest → No '/' rest → 6 * size s ≤ fuel + 1 →
    sequenceMore fuel (['/'] :: toks s ++ rest) = .ok (s.trees.2.1, rest)
  alternative : ∀ fuel rest, NoMod rest → No '/' rest → No '|' rest → 6 * size s ≤ fuel + 1 → path fuel (toks s ++ rest) = .ok (s.tree, rest)
  summands : ∀ fuel rest, NoMod rest → No '/' rest → No '|' rest → 6 * size s ≤ fuel → pathMore fuel (['|'] :: toks s ++ rest) = .ok (s.trees.2.2, rest)

theorem sequenceMore_none {fuel : Nat} {rest : List Word} (h : No '/' rest) (hf : 0 < fuel) : sequenceMore fuel rest = .ok ([], rest) := by
  obtain ⟨f, rfl⟩ : ∃ f, fuel = f + 1 := ⟨fuel - 1, by omega⟩
  rw [sequenceMore, accept_no h]

theorem pathMore_none {fuel : Nat} {rest : List Word} (h : No '|' rest) (hf : 0 < fuel) : pathMore fuel rest = .ok ([], rest) := by
  obtain ⟨f, rfl⟩ : ∃ f, fuel = f + 1 := ⟨fuel - 1, by omega⟩
  rw [pathMore, accept_no h]

/-- From sequences to everything above. -/
theorem parses_of_sequence (s : Syn) (h2 : s.trees.2.2 = [s.tree])
    (hseq : ∀ fuel rest, NoMod rest → No '/' rest → 6 * size s ≤ fuel + 2 → pathSequence fuel (toks s ++ rest) = .ok (s.tree, rest)) :
    (∀ fuel rest, NoMod rest → No '/' rest → No '|' rest → 6 * size s ≤ fuel + 1 → path fuel (toks s ++ rest) = .ok (s.tree, rest)) ∧
    (∀ fuel rest, NoMod rest → No '/' rest → No '|' rest → 6 * size s ≤ fuel → pathMore fuel (['|'] :: toks s ++ rest) = .ok (s.trees.2.2, rest)) := by
  have hp := size_pos s
  constructor
  · intro fuel rest hm hs ho hf
    obtain ⟨f, rfl⟩ : ∃ f, fuel = f + 1 := ⟨fuel - 1, by omega⟩
    rw [path, hseq f rest hm hs (by omega)]
    simp only [Outcome.bind, pathMore_none ho (show 0 < f by omega), Outcome.map]
    rfl
  · intro fuel rest hm hs ho hf
    obtain ⟨f, rfl⟩ : ∃ f, fuel = f + 1 := ⟨fuel - 1, by omega⟩
    rw [List.cons_append, pathMore, accept_yes]
    simp only [hseq f rest hm hs (by omega), Outcome.bind, pathMore_none ho (show 0 < f by omega), Outcome.map, h2]

/-- From inverses to everything above. -/
theorem parses_of_inverse (s : Syn) (h2 : s.trees.2.1 = [s.tree])
    (hinv : ∀ fuel rest, NoMod rest → 6 * size s ≤ fuel + 3 → pathEltOrInverse fuel (toks s ++ rest) = .ok (s.tree, rest)) :
    (∀ fuel rest, NoMod rest → No '/' rest → 6 * size s ≤ fuel + 2 → pathSequence fuel (toks s ++ rest) = .ok (s.tree, rest)) ∧
    (∀ fuel rest, NoMod rest → No '/' rest → 6 * size s ≤ fuel + 1 → sequenceMore fuel (['/'] :: toks s ++ rest) = .ok (s.trees.2.1, rest)) := by
  have hp := size_pos s
  constructor
  · intro fuel rest hm hs hf
    obtain ⟨f, rfl⟩ : ∃ f, fuel = f + 1 := ⟨fuel - 1, by omega⟩
    rw [pathSequence, hinv f rest hm (by omega)]
    simp only [Outcome.bind, sequenceMore_none hs (show 0 < f by omega), Outcome.map]
    rfl
  · intro fuel rest hm hs hf
    obtain ⟨f, rfl⟩ : ∃ f, fuel = f + 1 := ⟨fuel - 1, by omega⟩
    rw [List.cons_append, sequenceMore, accept_yes]
    simp only [hinv f rest hm (by omega), Outcome.bind, sequenceMore_none hs (show 0 < f by omega), Outcome.map, h2]

/-- From elements to everything above. -/
theorem parses_of_elt (s : Syn) (hok : s.ok = true) (hl : s.level ≤ 1) (h1 : s.trees.2.1 = [s.tree]) (h2 : s.trees.2.2 = [s.tree])
    (hprim : s.level ≤ 0 → ∀ fuel rest, 6 * size s ≤ fuel + 5 → pathPrimary fuel (toks s ++ rest) = .ok (s.tree, rest))
    (helt : ∀ fuel rest, NoMod rest → 6 * size s ≤ fuel + 4 → pathElt fuel (toks s ++ rest) = .ok (s.tree, rest)) : Parses s := by
  have hp := size_pos s
  have hinv : ∀ fuel rest, NoMod rest → 6 * size s ≤ fuel + 3 → pathEltOrInverse fuel (toks s ++ rest) = .ok (s.tree, rest) := by
    intro fuel rest hm hf
    obtain ⟨f, rfl⟩ : ∃ f, fuel = f + 1 := ⟨fuel - 1, by omega⟩
    obtain ⟨t, ts, e, hne⟩ := toks_head s hok
    have : accept '^' (toks s ++ rest) = none := accept_no (by rw [e]; intro h; exact hne hl (Option.some.inj h))
    rw [pathEltOrInverse, this]
    exact helt f rest hm (by omega)
  obtain ⟨a, b⟩ := parses_of_inverse s h1 hinv
  obtain ⟨c, d⟩ := parses_of_sequence s h2 a
  exact ⟨hprim, fun _ => helt, fun _ => hinv, fun _ => a, fun _ => b, c, d⟩

theorem noMod_cons {t : Word} {rest : List Word} (h : t ≠ ['?'] ∧ t.head? ≠ some '*' ∧ t ≠ ['+']) : NoMod (t :: rest) := by
  intro t' ht'
  cases ht'
  exact h

/-- From primaries to everything above. -/
theorem parses_of_primary (s : Syn) (hok : s.ok = true) (hl : s.level ≤ 0) (h1 : s.trees.2.1 = [s.tree]) (h2 : s.trees.2.2 = [s.tree])
    (hprim : ∀ fuel rest, 6 * size s ≤ fuel + 5 → pathPrimary fuel (toks s ++ rest) = .ok (s.tree, rest)) : Parses s := by
  have hp := size_pos s
  refine parses_of_elt s hok (by omega) h1 h2 (fun _ => hprim) ?_
  intro fuel rest hm hf
  obtain ⟨f, rfl⟩ : ∃ f, fuel = f + 1 := ⟨fuel - 1, by omega⟩
  rw [pathElt, hprim f rest (by omega)]
  simp only [Outcome.bind]
  exact modifier_none _ hm

/-- The parser returns the tree of a path. -/
theorem parses (s : Syn) (h : s.ok = true) : Parses s := by
  induction s with
  | iri w =>
    refine parses_of_primary _ h (Nat.le_refl _) rfl rfl ?_
    intro fuel rest hf
    obtain ⟨f, rfl⟩ : ∃ f, fuel = f + 1 := ⟨fuel - 1, by simp only [size] at hf; omega⟩
    have : accept '(' (w :: rest) = none := by
      apply accept_no
      obtain ⟨c, w', rfl, hd, _⟩ := iri_head h
      intro e
      cases e
      exact absurd hd (by decide)
    show pathPrimary (f + 1) (w :: rest) = _
    simp only [pathPrimary, this]
    rfl
  | paren s ih =>
    have ih := ih h
    refine parses_of_primary _ h (Nat.le_refl _) rfl rfl ?_
    intro fuel rest hf
    have hp := size_pos s
    obtain ⟨f, rfl⟩ : ∃ f, fuel = f + 1 := ⟨fuel - 1, by simp only [size] at hf; omega⟩
    have e : toks (.paren s) ++ rest = ['('] :: (toks s ++ [')'] :: rest) := by simp [toks]
    rw [e, pathPrimary, accept_yes]
    have := ih.alternative f ([')'] :: rest) (noMod_cons (by decide)) (by simp [No]) (by simp [No]) (by simp only [size] at hf; omega)
    simp only [this, Outcome.bind, accept_yes]
    rfl
  | mod s m ih =>
    have h' := h
    simp only [Syn.ok, Bool.and_eq_true, decide_eq_true_eq] at h'
    have ih := ih h'.1.1
    refine parses_of_elt _ h (by simp [Syn.level]) (by cases m <;> rfl) (by cases m <;> rfl) (fun h => absurd h (by simp [Syn.level])) ?_
    intro fuel rest _ hf
    obtain ⟨f, rfl⟩ : ∃ f, fuel = f + 1 := ⟨fuel - 1, by simp only [size] at hf; omega⟩
    have e : toks (.mod s m) ++ rest = toks s ++ m.text :: rest := by simp [toks]
    rw [e, pathElt, ih.primary (by omega) f _ (by simp only [size] at hf; omega)]
    simp only [Outcome.bind]
    cases m with
    | opt => rfl
    | star => rfl
    | plus => rfl
    | atMost ds =>
      obtain ⟨h1, h2, h3⟩ := mod_bound h'.1.2
      have hd : ds.map (fun d => Char.ofNat (48 + d)) ≠ [] := by simpa using h1
      rw [modifier, Mod.text, if_neg (by simp), if_neg (by simpa using h1), if_neg (by simp), if_pos (by rfl), List.drop_one, List.tail_cons, stoi_digits ds h1 h2 h3]
      rfl
  | inv s ih =>
    have h' := h
    simp only [Syn.ok, Bool.and_eq_true, decide_eq_true_eq] at h'
    have ih := ih h'.1
    have hp := size_pos s
    have hinv : ∀ fuel rest, NoMod rest → 6 * size (.inv s) ≤ fuel + 3 → pathEltOrInverse fuel (toks (.inv s) ++ rest) = .ok ((Syn.inv s).tree, rest) := by
      intro fuel rest hm hf
      obtain ⟨f, rfl⟩ : ∃ f, fuel = f + 1 := ⟨fuel - 1, by simp only [size] at hf; omega⟩
      rw [toks, List.cons_append, pathEltOrInverse, accept_yes]
      simp only [ih.elt h'.2 f rest hm (by simp only [size] at hf; omega), Outcome.map]
      rfl
    obtain ⟨a, b⟩ := parses_of_inverse _ rfl hinv
    obtain ⟨c, d⟩ := parses_of_sequence _ rfl a
    exact ⟨fun h => absurd h (by simp [Syn.level]), fun h => absurd h (by simp [Syn.level]), fun _ => hinv, fun _ => a, fun _ => b, c, d⟩
  | seq a b iha ihb =>
    simp only [Syn.ok, Bool.and_eq_true, decide_eq_true_eq] at h
    have iha := iha h.1.1.1
    have ihb := ihb h.1.1.2
    have hpa := size_pos a
    have hpb := size_pos b
    have e : ∀ rest, toks (.seq a b) ++ rest = toks a ++ (['/'] :: toks b ++ rest) := by intro rest; simp [toks]
    have hm1 : ∀ rest, NoMod (['/'] :: toks b ++ rest) := fun rest => noMod_cons (by decide)
    have hne : b.trees.2.1 ≠ [] := by cases b with
      | mod s m => cases m <;> exact List.cons_ne_nil _ _
      | _ => exact List.cons_ne_nil _ _
    have hseq : ∀ fuel rest, NoMod rest → No '/' rest → 6 * size (.seq a b) ≤ fuel + 2 → pathSequence fuel (toks (.seq a b) ++ rest) = .ok ((Syn.seq a b).tree, rest) := by
      intro fuel rest hm hs hf
      obtain ⟨f, rfl⟩ : ∃ f, fuel = f + 1 := ⟨fuel - 1, by simp only [size] at hf; omega⟩
      rw [e, pathSequence, iha.inverse h.1.2 f _ (hm1 rest) (by simp only [size] at hf; omega)]
      simp only [Outcome.bind, ihb.factors h.2 f rest hm hs (by simp only [size] at hf; omega), Outcome.map, if_neg hne]
      rfl
    have hfac : ∀ fuel rest, NoMod rest → No '/' rest → 6 * size (.seq a b) ≤ fuel + 1 →
        sequenceMore fuel (['/'] :: toks (.seq a b) ++ rest) = .ok ((Syn.seq a b).trees.2.1, rest) := by
      intro fuel rest hm hs hf
      obtain ⟨f, rfl⟩ : ∃ f, fuel = f + 1 := ⟨fuel - 1, by simp only [size] at hf; omega⟩
      rw [List.cons_append, e, sequenceMore, accept_yes]
      simp only [iha.inverse h.1.2 f _ (hm1 rest) (by simp only [size] at hf; omega), Outcome.bind,
        ihb.factors h.2 f rest hm hs (by simp only [size] at hf; omega), Outcome.map]
      rfl
    obtain ⟨c, d⟩ := parses_of_sequence _ rfl hseq
    exact ⟨fun h => absurd h (by simp [Syn.level]), fun h => absurd h (by simp [Syn.level]), fun h => absurd h (by simp [Syn.level]),
      fun _ => hseq, fun _ => hfac, c, d⟩
  | alt a b iha ihb =>
    simp only [Syn.ok, Bool.and_eq_true, decide_eq_true_eq] at h
    have iha := iha h.1.1
    have ihb := ihb h.1.2
    have hpa := size_pos a
    have hpb := size_pos b
    have e : ∀ rest, toks (.alt a b) ++ rest = toks a ++ (['|'] :: toks b ++ rest) := by intro rest; simp [toks]
    have hm1 : ∀ rest, NoMod (['|'] :: toks b ++ rest) := fun rest => noMod_cons (by decide)
    have hs1 : ∀ rest, No '/' (['|'] :: toks b ++ rest) := fun rest => by simp [No]
    have hne : b.trees.2.2 ≠ [] := by cases b with
      | mod s m => cases m <;> exact List.cons_ne_nil _ _
      | _ => exact List.cons_ne_nil _ _
    refine ⟨fun h => absurd h (by simp [Syn.level]), fun h => absurd h (by simp [Syn.level]), fun h => absurd h (by simp [Syn.level]),
      fun h => absurd h (by simp [Syn.level]), fun h => absurd h (by simp [Syn.level]), ?_, ?_⟩
    · intro fuel rest hm hs ho hf
      obtain ⟨f, rfl⟩ : ∃ f, fuel = f + 1 := ⟨fuel - 1, by simp only [size] at hf; omega⟩
      rw [e, path, iha.sequence h.2 f _ (hm1 rest) (hs1 rest) (by simp only [size] at hf; omega)]
      simp only [Outcome.bind, ihb.summands f rest hm hs ho (by simp only [size] at hf; omega), Outcome.map, if_neg hne]
      rfl
    · intro fuel rest hm hs ho hf
      obtain ⟨f, rfl⟩ : ∃ f, fuel = f + 1 := ⟨fuel - 1, by simp only [size] at hf; omega⟩
      rw [List.cons_append, e, pathMore, accept_yes]
      simp only [iha.sequence h.2 f _ (hm1 rest) (hs1 rest) (by simp only [size] at hf; omega), Outcome.bind,
        ihb.summands f rest hm hs ho (by simp only [size] at hf; omega), Outcome.map]
      rfl

theorem size_le (s : Syn) (h : s.ok = true) : size s ≤ s.text.length := by
  induction s with
  | iri w =>
    obtain ⟨c, w', rfl, _⟩ := iri_head h
    simp [size, Syn.text]
  | paren s ih => have := ih h; simp only [size, Syn.text, List.cons_append, List.length_cons, List.length_append]; omega
  | mod s m ih =>
    simp only [Syn.ok, Bool.and_eq_true] at h
    have := ih h.1.1
    have : 0 < m.text.length := by cases m <;> simp [Mod.text]
    simp only [size, Syn.text, List.length_append]; omega
  | inv s ih =>
    simp only [Syn.ok, Bool.and_eq_true] at h
    have := ih h.1; simp only [size, Syn.text, List.length_cons]; omega
  | seq a b iha ihb =>
    simp only [Syn.ok, Bool.and_eq_true] at h
    have := iha h.1.1.1
    have := ihb h.1.1.2
    simp only [size, Syn.text, List.length_append, List.length_cons]; omega
  | alt a b iha ihb =>
    simp only [Syn.ok, Bool.and_eq_true] at h
    have := iha h.1.1
    have := ihb h.1.2
    simp only [size, Syn.text, List.length_append, List.length_cons]; omega

theorem parse_text (s : Syn) (h : s.ok = true) (hb : s.plain = true) (fuel : Nat) (hf : 6 * s.text.length ≤ fuel) :
    parse fuel s.text = .ok (computeCanBeNull s.tree) := by
  have := size_le s h
  have hp := (parses s h).alternative fuel [] (by intro t ht; cases ht) (by simp [No]) (by simp [No]) (by omega)
  rw [List.append_nil] at hp
  rw [parse, tokenize_text s h hb]
  simp only [Outcome.bind, hp]
  rfl

end Verif.PropertyPath
