import Verif.Lemmas.TurtleParse
/-
Blank nodes, literals, verbs and subjects.
-/
namespace Verif.Turtle
open Verif.TurtleSpec
open Verif.Spec

theorem miss {id : TokId} {t : Str} (hn : (regex id).nullable = false)
    (h : ∀ c, t.head? = some c → (regex id).can c = false) : consume (regex id) t = none := by
  cases t with
  | nil => exact consume_empty _
  | cons c t => exact consume_cannot t hn (h c rfl)

theorem miss_of {id : TokId} {c : Char} {t : Str} (hn : (regex id).nullable = false) (hc : t.head? = some c)
    (h : (regex id).can c = false) : consume (regex id) t = none :=
  miss hn fun d hd => by rw [hc, Option.some.injEq] at hd; subst hd; exact h

/-- What a word that denotes triples changes. -/
structure Kept (s s' : State) (k : Nat) (ts : List Triple) : Prop where
  prefixes : s'.prefixes = s.prefixes
  subject : s'.activeSubject = s.activeSubject
  numBlank : s'.numBlank = k
  triples : s'.triples = s.triples ++ ts

theorem Kept.trans {a b c : State} {k l : Nat} {ts us : List Triple} (h : Kept a b k ts) (h' : Kept b c l us) :
    Kept a c l (ts ++ us) :=
  ⟨h'.1.trans h.1, h'.2.trans h.2, h'.3, by rw [h'.4, h.4, List.append_assoc]⟩

theorem Keep.kept {s s' : State} (h : Keep s s') : Kept s s' s.numBlank [] :=
  ⟨h.prefixes, h.subject, h.numBlank, by rw [h.triples, List.append_nil]⟩

theorem EnvOf.of {env : Env} {s s' : State} (h : EnvOf env s) (he : s'.prefixes = s.prefixes) : EnvOf env s' := by
  intro p; rw [he]; exact h p

/-! ### Blank nodes -/

theorem blankNode_miss {s : State} {t : Str} (h : At s t) (h1 : consume (regex .blankNodeLabel) t = none)
    (h2 : consume (regex .anon) t = none) : blankNode s = .ok false (s.setIn t) := by
  rw [blankNode, por_miss (term_miss h h1)]
  simp [anon, term_miss h.set h2, Res.bind, setIn_setIn]

theorem blankNode_miss_head {s : State} {t : Str} (h : At s t) (h1 : t.head? ≠ some '_') (h2 : t.head? ≠ some '[') :
    blankNode s = .ok false (s.setIn t) := by
  refine blankNode_miss h (miss rfl fun c hc => ?_) (miss rfl fun c hc => ?_)
  · have : c ≠ '_' := by rintro rfl; exact h1 hc
    simp [regex, Re.can, Re.lit, Re.chr, Re.nullable, this]
  · have : c ≠ '[' := by rintro rfl; exact h2 hc
    simp [regex, Re.can, Re.chr, Re.nullable, this]

theorem label_spec {l : Str} (hl : Label l) {ts : List Tok} {s : State}
    (h : Layout Sep (.wrd ('_' :: ':' :: l) :: ts) s.input) :
    ∃ s', blankNode s = .ok true s' ∧ Layout Sep ts s'.input ∧ s'.last = '_' :: ':' :: l ∧ Kept s s' s.numBlank [] ∧
      s'.activePredicate = s.activePredicate := by
  obtain ⟨r, hat, he, hl', _⟩ := layout_next h (solid_wrd _ (by decide) (by decide))
  refine ⟨_, por_hit (term_hit hat (consume_label hl (he rfl))), hl', rfl, ⟨rfl, rfl, rfl, by simp [State.setIn]⟩, rfl⟩

theorem anon_spec {ws : Str} (hw : blanks ws) {ts : List Tok} {s : State}
    (h : Layout Sep (.sym ('[' :: ws ++ [']']) :: ts) s.input) :
    ∃ s', blankNode s = .ok true s' ∧ Layout Sep ts s'.input ∧ s'.last = anonName s.numBlank ∧
      Kept s s' (s.numBlank + 1) [] ∧ s'.activePredicate = s.activePredicate := by
  obtain ⟨r, hat, _, hl', _⟩ := layout_next h (solid_sym _ (by decide) (by decide))
  have h1 : parseTerminal .blankNodeLabel s = .ok false (s.setIn (('[' :: ws ++ [']']) ++ r)) :=
    term_miss hat (miss_of (c := '[') rfl rfl (by decide))
  have h2 := term_hit hat.set (consume_anon r hw)
  refine ⟨{ s.setIn r with last := anonName s.numBlank, numBlank := s.numBlank + 1 }, ?_, hl', rfl,
    ⟨rfl, rfl, rfl, by simp [State.setIn]⟩, rfl⟩
  rw [blankNode, por_miss h1]
  simp only [Tok.sym] at h2
  simp only [anon, h2, Res.bind, if_true]
  rfl

/-! ### Where an IRI starts -/

/-- how an IRI starts -/
def StartsIri (w : Place) (t : Str) : Prop := (∃ u, t = '<' :: u) ∨ ∃ p u, Prefix p ∧ w.ok p ∧ t = p ++ ':' :: u

theorem iri_at {hex : Str → Str} {w : Place} {i : Iri} (hi : i.Ok hex w) {ts : List Tok} {s : State}
    (h : Layout Sep (i.toks ++ ts) s.input) : ∃ t, At s t ∧ Layout Sep (i.toks ++ ts) t ∧ StartsIri w t := by
  obtain ⟨tok, htok, hs⟩ := iri_solid hi
  rw [htok] at h ⊢
  obtain ⟨r, hat, _, _, hl⟩ := layout_next h hs
  refine ⟨_, hat, hl, ?_⟩
  cases i with
  | ref t v =>
    simp only [Iri.toks, List.cons.injEq, and_true] at htok
    subst htok
    exact .inl ⟨t ++ ['>'] ++ r, by simp [Tok.sym]⟩
  | pname p t v =>
    simp only [Iri.toks, List.cons.injEq, and_true] at htok
    subst htok
    exact .inr ⟨p, t ++ r, hi.1, hi.2.2, by simp [Tok.wrd]⟩

theorem StartsIri.head {w : Place} {t : Str} (h : StartsIri w t) :
    ∃ c, t.head? = some c ∧ (c = '<' ∨ isBase c = true) := by
  rcases h with ⟨u, rfl⟩ | ⟨p, u, ⟨c, v, rfl, hc, _⟩, _, rfl⟩
  · exact ⟨'<', rfl, .inl rfl⟩
  · rw [nameStart_eq] at hc
    exact ⟨c, rfl, .inr hc⟩

theorem StartsIri.not {w : Place} {t : Str} (h : StartsIri w t) (d : Char) (hd : isBase d = false) (hd' : d ≠ '<') :
    t.head? ≠ some d := by
  obtain ⟨c, hc, hc'⟩ := h.head
  rw [hc]
  simp only [ne_eq, Option.some.injEq]
  rcases hc' with rfl | hc'
  · exact Ne.symm hd'
  · exact base_ne hc' hd

/-- A word that is no prefix of the prefix and has no colon is no prefix of the text. -/
theorem not_prefix {w p : Str} (u : Str) (hw : ':' ∉ w) (h : ¬ w <+: p) : ¬ w <+: p ++ ':' :: u := by
  intro hp
  obtain ⟨x, hx⟩ := hp
  by_cases hle : w.length ≤ p.length
  · exact h (List.prefix_of_prefix_length_le (l₃ := p ++ ':' :: u) ⟨x, hx⟩ ⟨_, rfl⟩ hle)
  · have h1 : (w ++ x)[p.length]? = some ':' := by rw [hx]; simp
    rw [List.getElem?_append_left (by omega)] at h1
    exact hw (List.mem_of_getElem? h1)

/-! ### Literals -/

theorem base_sign {c : Char} (hc : isBase c = true) : isSign c = false := by
  simp only [isSign, Bool.or_eq_false_iff, beq_eq_false_iff_ne, ne_eq]
  constructor <;> (rintro rfl; revert hc; decide)

theorem base_digit {c : Char} (hc : isBase c = true) : isDigit c = false := by
  cases hd : isDigit c with
  | false => rfl
  | true =>
    exfalso
    simp only [isDigit, isBase, isAlpha, between, Bool.or_eq_true, Bool.and_eq_true, decide_eq_true_eq] at *
    omega

theorem base_cannot_integer {c : Char} (hc : isBase c = true) : (regex .integer).can c = false := by
  simp [regex, Re.can, Re.opt, Re.plus, base_sign hc, base_digit hc]

theorem base_cannot_decimal {c : Char} (hc : isBase c = true) : (regex .decimal).can c = false := by
  simp [regex, Re.can, Re.opt, Re.plus, Re.chr, Re.nullable, base_sign hc, base_digit hc, base_ne hc (d := '.') (by decide)]

theorem literal_miss {e : Escapes} {s : State} {t : Str} (hb : Bare t) (h1 : t.head? ≠ some '"') (h2 : t.head? ≠ some '\'')
    (hi : consume (regex .integer) t = none) (hd : consume (regex .decimal) t = none)
    (hD : consume (regex .double) t = none) (ht : consume (regex .true_) t = none) (hf : consume (regex .false_) t = none) :
    literal e (s.setIn t) = .ok false (s.setIn t) := by
  have hs := stringParse_none (s.setIn t) h1 h2
  have hr : rdfLiteral e (s.setIn t) = .ok false (s.setIn t) := by simp [rdfLiteral, hs, Res.bind]
  have hat : At (s.setIn t) t := at_setIn hb
  rw [literal, por_miss hr]
  have hn : numericLiteral (s.setIn t) = .ok false (s.setIn t) := by
    rw [numericLiteral, por_miss (term_miss hat hi), setIn_setIn, por_miss (term_miss hat hd), setIn_setIn,
      term_miss hat hD, setIn_setIn]
  rw [por_miss hn, booleanLiteral, por_miss (term_miss hat ht), setIn_setIn, term_miss hat hf, setIn_setIn]

theorem literal_miss_iri {e : Escapes} {s : State} {t : Str} (hb : Bare t) (h : StartsIri .object t) :
    literal e (s.setIn t) = .ok false (s.setIn t) := by
  apply literal_miss hb (h.not _ (by decide) (by decide)) (h.not _ (by decide) (by decide))
  · obtain ⟨c, hc, hc'⟩ := h.head
    refine miss_of rfl hc ?_
    rcases hc' with rfl | hc'
    · decide
    · exact base_cannot_integer hc'
  · obtain ⟨c, hc, hc'⟩ := h.head
    refine miss_of rfl hc ?_
    rcases hc' with rfl | hc'
    · decide
    · exact base_cannot_decimal hc'
  · rcases h with ⟨u, rfl⟩ | ⟨p, u, hp, hw, rfl⟩
    · exact miss_of (c := '<') rfl rfl (by decide)
    · exact consume_double_none u hp hw.2.2
  · rcases h with ⟨u, rfl⟩ | ⟨p, u, hp, hw, rfl⟩
    · exact miss_of (c := '<') rfl rfl (by decide)
    · exact consume_lit_none (not_prefix u (by decide) hw.1)
  · rcases h with ⟨u, rfl⟩ | ⟨p, u, hp, hw, rfl⟩
    · exact miss_of (c := '<') rfl rfl (by decide)
    · exact consume_lit_none (not_prefix u (by decide) hw.2.1)

theorem number_head {t : Str} (h : Integer t) : ∃ c u, t = c :: u ∧ (isSign c = true ∨ isDigit c = true) := by
  obtain ⟨sign, digits, hs, hne, hd, rfl⟩ := h
  simp only [List.mem_cons, List.not_mem_nil, or_false] at hs
  rcases hs with rfl | rfl | rfl
  · cases digits with
    | nil => exact absurd rfl hne
    | cons c u => exact ⟨c, u, rfl, .inr (by rw [← digit_eq]; exact hd c (by simp))⟩
  · exact ⟨_, _, rfl, .inl (by decide)⟩
  · exact ⟨_, _, rfl, .inl (by decide)⟩

theorem number_ne {c d : Char} (h : isSign c = true ∨ isDigit c = true) (h1 : isSign d = false) (h2 : isDigit d = false) :
    c ≠ d := by
  rintro rfl; rw [h1, h2] at h; simp at h

theorem number_solid {t : Str} (h : Integer t) : (Tok.wrd t).Solid := by
  obtain ⟨c, u, rfl, hc⟩ := number_head h
  refine solid_wrd _ ?_ (number_ne hc (by decide) (by decide))
  simp [isWs, number_ne hc (d := ' ') (by decide) (by decide), number_ne hc (d := '\t') (by decide) (by decide),
    number_ne hc (d := '\r') (by decide) (by decide), number_ne hc (d := '\n') (by decide) (by decide)]

/-- how a literal starts -/
theorem lit_solid {hex : Str → Str} {l : Lit} (h : l.Ok hex) : ∃ t ts, l.toks = t :: ts ∧ t.Solid ∧
    t.text.head? ≠ some '_' ∧ t.text.head? ≠ some '[' := by
  cases l with
  | string q t v x =>
    obtain ⟨⟨c, hcc, hq⟩, _, _⟩ := h
    refine ⟨_, _, rfl, ?_⟩
    have : ∃ u, q ++ t ++ q = c :: u := by
      rcases hq with ⟨rfl, _⟩ | ⟨rfl, _⟩
      · exact ⟨_, rfl⟩
      · exact ⟨_, rfl⟩
    obtain ⟨u, hu⟩ := this
    rw [hu]
    rcases hcc with rfl | rfl
    · exact ⟨solid_sym _ (by decide) (by decide), by simp [Tok.sym], by simp [Tok.sym]⟩
    · exact ⟨solid_sym _ (by decide) (by decide), by simp [Tok.sym], by simp [Tok.sym]⟩
  | number t =>
    refine ⟨_, _, rfl, number_solid h, ?_⟩
    obtain ⟨c, u, rfl, hc⟩ := number_head h
    simp [Tok.wrd, number_ne hc (d := '_') (by decide) (by decide), number_ne hc (d := '[') (by decide) (by decide)]
  | bool b =>
    refine ⟨_, _, rfl, ?_⟩
    cases b
    · exact ⟨solid_wrd (c := 'f') _ (by decide) (by decide), by decide, by decide⟩
    · exact ⟨solid_wrd (c := 't') _ (by decide) (by decide), by decide, by decide⟩

theorem suffix_first {hex : Str → Str} {x : Suffix} (h : x.Ok hex) {f : Tok} {rest : List Tok} (hf : IsFollow f) :
    ∃ t ts, x.toks ++ f :: rest = t :: ts ∧ t.Solid ∧ ∃ c, t.text.head? = some c ∧ c ∈ ['@', '^', ',', ';', '.', ']'] := by
  cases x with
  | none =>
    refine ⟨_, _, rfl, hf.solid, ?_⟩
    obtain ⟨c, rfl, hc⟩ := hf
    exact ⟨c, rfl, by simp only [List.mem_cons] at hc ⊢; exact .inr (.inr hc)⟩
  | lang t =>
    obtain ⟨x, parts, _, _, _, rfl⟩ := h
    exact ⟨_, _, rfl, solid_wrd _ (by decide) (by decide), '@', rfl, by decide⟩
  | dtype i => exact ⟨_, _, rfl, solid_sym _ (by decide) (by decide), '^', rfl, by decide⟩

theorem normalize_spec {hex : Str → Str} {c : Char} {q t v : Str} {k : Nat} (hcc : c = '"' ∨ c = '\'') (hq : Marks c k q)
    (ht : Content c k t) (hv : DenotesNoTail true hex t v) :
    RdfEscaping.normalizeRDFLiteral hex (q ++ t ++ q) = .ok (['"'] ++ v ++ ['"']) := by
  have hc : c ≠ '\\' := by rcases hcc with rfl | rfl <;> decide
  rcases hq with ⟨rfl, rfl⟩ | ⟨rfl, rfl⟩
  · exact RdfEscaping.C52_literal_partial hex c hcc t v hv (content_head ht hc)
  · exact RdfEscaping.C52_long_literal_partial hex c hcc t v hv

/-- Literals, from the position of their first character. -/
theorem literal_spec {hex : Str → Str} {env : Env} {l : Lit} {v : Str} (hl : l.Ok hex) (hv : l.den env = some v)
    {f : Tok} {rest : List Tok} (hf : IsFollow f) {s : State} {t : Str} (hb : Bare t)
    (h : Layout Sep (l.toks ++ f :: rest) t) (henv : EnvOf env s) :
    ∃ s', literal (escapes hex) (s.setIn t) = .ok true s' ∧ Layout Sep (f :: rest) s'.input ∧ s'.last = v ∧ Keep s s' := by
  obtain ⟨tok, toks, htok, hsol, _, _⟩ := lit_solid hl
  have hnext := layout_next (s := s.setIn t) (t := tok) (ts := toks ++ f :: rest)
    (by rw [htok] at h; exact h) hsol
  obtain ⟨r, hat, hends, hl', _⟩ := hnext
  have htt : t = tok.text ++ r := by rw [← hat.1]; exact (skipWC_bare hb).symm
  cases l with
  | string q u w x =>
    obtain ⟨⟨c, hcc, hq⟩, hden, hx⟩ := hl
    simp only [Lit.toks, List.cons.injEq] at htok
    obtain ⟨rfl, rfl⟩ := htok
    have hm : ∃ k, Marks c k q ∧ Content c k u := by
      rcases hq with ⟨h1, h2⟩ | ⟨h1, h2⟩
      · exact ⟨0, .inl ⟨h1, rfl⟩, h2⟩
      · exact ⟨2, .inr ⟨h1, rfl⟩, h2⟩
    obtain ⟨k, hm, hcont⟩ := hm
    have hr : r.head? ≠ some c := by
      intro hr
      obtain ⟨t1, ts1, he, hs1, d, hd, hdm⟩ := suffix_first hx (f := f) (rest := rest) hf
      rw [he] at hl'
      rcases layout_head hl' hs1 c hr with h1 | h1 | h1
      · rcases hcc with rfl | rfl <;> revert h1 <;> decide
      · rcases hcc with rfl | rfl <;> revert h1 <;> decide
      · rw [hd] at h1
        simp only [Option.some.injEq] at h1
        subst h1
        rcases hcc with rfl | rfl <;> revert hdm <;> decide
    have hsp := stringParse_marks hm hcc hcont hr (s.setIn t) htt
    have hnorm := normalize_spec hcc hm hcont hden
    simp only [Lit.den, Option.map_eq_some_iff] at hv
    obtain ⟨y, hy, rfl⟩ := hv
    suffices ∃ s', rdfLiteral (escapes hex) (s.setIn t) = .ok true s' ∧ Layout Sep (f :: rest) s'.input ∧
        s'.last = ['"'] ++ w ++ ['"'] ++ y ∧ Keep s s' by
      obtain ⟨s', h1, h2⟩ := this
      exact ⟨s', por_hit h1, h2⟩
    simp only [rdfLiteral, hsp, Res.bind, if_true, escapes, hnorm, lift]
    generalize hlit : ['"'] ++ w ++ ['"'] = lit
    cases x with
    | none =>
      simp only [Suffix.den, Option.some.injEq] at hy
      subst hy
      obtain ⟨r', hat', _, _, hlay⟩ := layout_next (s := { s.setIn r with last := lit }) hl' hf.solid
      obtain ⟨c', rfl, hc'⟩ := hf
      have hm1 : consume (regex .langtag) ((Tok.sym [c']).text ++ r') = none :=
        miss_of (c := c') rfl rfl ((by decide : ∀ c ∈ [',', ';', '.', ']'], (regex .langtag).can c = false) c' hc')
      have hm2 : consume (regex .doubleCircumflex) ((Tok.sym [c']).text ++ r') = none :=
        miss_of (c := c') rfl rfl
          ((by decide : ∀ c ∈ [',', ';', '.', ']'], (regex .doubleCircumflex).can c = false) c' hc')
      have h1 := term_miss hat' hm1
      have h2 := skip_miss hat'.set hm2
      refine ⟨{ s.setIn ((Tok.sym [c']).text ++ r') with last := lit }, ?_, hlay, by simp, ⟨rfl, rfl, rfl, rfl, rfl, rfl⟩⟩
      simp only [State.setIn] at h1 h2 ⊢
      rw [h1]
      simp only [Bool.false_eq_true, if_false]
      rw [pand_miss h2]
      simp
    | lang tag =>
      simp only [Suffix.den, Option.some.injEq] at hy
      subst hy
      have hsol' : (Tok.wrd tag).Solid := by
        obtain ⟨x, parts, _, _, _, rfl⟩ := hx
        exact solid_wrd _ (by decide) (by decide)
      obtain ⟨r', hat', hends', hl'', _⟩ := layout_next (s := { s.setIn r with last := lit }) hl' hsol'
      have h1 := term_hit hat' (consume_langtag hx (hends' rfl))
      refine ⟨{ s.setIn r' with last := lit ++ tag }, ?_, hl'', rfl, ⟨rfl, rfl, rfl, rfl, rfl, rfl⟩⟩
      simp only [State.setIn] at h1 ⊢
      rw [h1]
      simp [Tok.wrd]
    | dtype i =>
      simp only [Suffix.den, Option.map_eq_some_iff] at hy
      obtain ⟨z, hz, rfl⟩ := hy
      obtain ⟨r', hat', _, hl'', _⟩ := layout_next (s := { s.setIn r with last := lit }) hl'
        (solid_sym _ (by decide) (by decide))
      have hm1 : consume (regex .langtag) ((Tok.sym ['^', '^']).text ++ r') = none :=
        miss_of (c := '^') rfl rfl (by decide)
      have h1 := term_miss hat' hm1
      have h2 := skip_hit (id := .doubleCircumflex) hat'.set (consume_lit ['^', '^'] r')
      obtain ⟨s', h3, h4, h5, h6⟩ := iri_spec (s := { s.setIn r' with last := lit }) hx hz hl'' henv
      refine ⟨{ s' with last := lit ++ ['^', '^'] ++ z }, ?_, h4, by simp, ⟨h6.1, h6.2, h6.3, h6.4, h6.5, h6.6⟩⟩
      simp only [State.setIn, escapes] at h1 h2 h3 ⊢
      rw [h1]
      simp only [Bool.false_eq_true, if_false]
      rw [pand_hit h2, check_hit h3]
      simp [h5]
  | number u =>
    simp only [Lit.toks, List.cons.injEq] at htok
    obtain ⟨rfl, rfl⟩ := htok
    simp only [Lit.den, Option.some.injEq] at hv
    subst hv
    obtain ⟨c, u', rfl, hc⟩ := number_head hl
    have h1 : rdfLiteral (escapes hex) (s.setIn t) = .ok false (s.setIn t) := by
      have := stringParse_none (s.setIn t)
        (by rw [htt]; simp [State.setIn, Tok.wrd, number_ne hc (d := '"') (by decide) (by decide)])
        (by rw [htt]; simp [State.setIn, Tok.wrd, number_ne hc (d := '\'') (by decide) (by decide)])
      simp [rdfLiteral, this, Res.bind]
    refine ⟨{ s.setIn r with last := c :: u' }, ?_, hl', rfl, ⟨rfl, rfl, rfl, rfl, rfl, rfl⟩⟩
    rw [literal, por_miss h1]
    exact por_hit (por_hit (term_hit hat (consume_integer hl (hends rfl))))
  | bool b =>
    simp only [Lit.toks, List.cons.injEq] at htok
    obtain ⟨rfl, rfl⟩ := htok
    simp only [Lit.den, Option.some.injEq] at hv
    subst hv
    have hhead : ∃ c, t.head? = some c ∧ (c = 't' ∨ c = 'f') := by
      rw [htt]
      cases b
      · exact ⟨'f', rfl, .inr rfl⟩
      · exact ⟨'t', rfl, .inl rfl⟩
    obtain ⟨c, hc, hcc⟩ := hhead
    have h1 : rdfLiteral (escapes hex) (s.setIn t) = .ok false (s.setIn t) := by
      have := stringParse_none (s.setIn t)
        (by rw [State.setIn, hc]; rcases hcc with rfl | rfl <;> decide)
        (by rw [State.setIn, hc]; rcases hcc with rfl | rfl <;> decide)
      simp [rdfLiteral, this, Res.bind]
    have hat : At (s.setIn t) t := at_setIn hb
    have hn : numericLiteral (s.setIn t) = .ok false (s.setIn t) := by
      rw [numericLiteral, por_miss (term_miss hat (miss_of rfl hc (by rcases hcc with rfl | rfl <;> decide))), setIn_setIn,
        por_miss (term_miss hat (miss_of rfl hc (by rcases hcc with rfl | rfl <;> decide))), setIn_setIn,
        term_miss hat (miss_of rfl hc (by rcases hcc with rfl | rfl <;> decide)), setIn_setIn]
    rw [literal, por_miss h1, por_miss hn, booleanLiteral]
    rw [htt] at hat ⊢
    cases b
    · refine ⟨{ s.setIn r with last := "false".toList }, ?_, hl', rfl, ⟨rfl, rfl, rfl, rfl, rfl, rfl⟩⟩
      rw [por_miss (term_miss hat (miss_of (c := 'f') rfl rfl (by decide)))]
      exact term_hit (id := .false_) hat.set (consume_lit _ r)
    · refine ⟨{ s.setIn r with last := "true".toList }, ?_, hl', rfl, ⟨rfl, rfl, rfl, rfl, rfl, rfl⟩⟩
      exact por_hit (term_hit (id := .true_) hat (consume_lit _ r))

/-! ### Verbs -/

theorem verb_miss {e : Escapes} {s : State} {t : Str} {c : Char} (h : At s t) (hc : t.head? = some c) (h1 : c ≠ 'a')
    (h2 : c ≠ '<') (h3 : isBase c = false) : verb e s = .ok false (s.setIn t) := by
  have ha : predicateSpecialA s = .ok false (s.setIn t) := by
    have : consume (regex .a) t = none := miss_of rfl hc (by simp [regex, Re.can, Re.chr, h1])
    simp [predicateSpecialA, h.1, this, State.setIn]
  rw [verb, por_miss ha]
  have := iri_miss (e := e) h.set (by rw [hc]; simpa using h2) (by rw [hc]; simp [h3])
  simp [predicate, this, Res.bind, setIn_setIn]

theorem verb_spec {hex : Str → Str} {env : Env} {x : Verb} {v : Str} (hx : x.Ok hex) (hv : x.den env = some v)
    {ts : List Tok} {s : State} (h : Layout Sep (x.toks ++ ts) s.input) (henv : EnvOf env s) :
    ∃ s', verb (escapes hex) s = .ok true s' ∧ Layout Sep ts s'.input ∧ s'.activePredicate = v ∧ Kept s s' s.numBlank [] := by
  cases x with
  | a =>
    simp only [Verb.den, Option.some.injEq] at hv
    subst hv
    obtain ⟨r, hat, _, hl, _⟩ := layout_next h (solid_wrd _ (by decide) (by decide))
    refine ⟨{ s.setIn r with activePredicate := rdfType }, ?_, hl, rfl, ⟨rfl, rfl, rfl, by simp [State.setIn]⟩⟩
    apply por_hit
    have := consume_chr 'a' r
    simp only [Tok.wrd] at hat
    simp [predicateSpecialA, hat.1, regex, this, State.setIn]
  | iri i =>
    obtain ⟨t, hat, hl, hst⟩ := iri_at hx h
    have ha : predicateSpecialA s = .ok false (s.setIn t) := by
      have : consume (regex .a) t = none := by
        rcases hst with ⟨u, rfl⟩ | ⟨p, u, hp, hw, rfl⟩
        · exact miss_of (c := '<') rfl rfl (by decide)
        · obtain ⟨c, p, rfl, _⟩ := hp
          have : c ≠ 'a' := by rintro rfl; exact hw ⟨p, rfl⟩
          exact miss_of (c := c) rfl rfl (by simp [regex, Re.can, Re.chr, this])
      simp [predicateSpecialA, hat.1, this, State.setIn]
    obtain ⟨s', h1, h2, h3, h4⟩ := iri_spec (s := s.setIn t) hx hv hl henv
    refine ⟨{ s' with activePredicate := v }, ?_, h2, rfl, ⟨h4.2, h4.3, h4.5, by rw [List.append_nil]; exact h4.6⟩⟩
    rw [verb, por_miss ha]
    simp [predicate, h1, Res.bind, h3]

end Verif.Turtle
