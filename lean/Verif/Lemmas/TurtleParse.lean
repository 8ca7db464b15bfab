import Verif.Lemmas.TurtleStrings
import Verif.Props.C03_Escaping
/-
Terms, verbs and literals are parsed as they are written.
-/
namespace Verif.Turtle
open Verif.TurtleSpec
open Verif.Spec

/-- does not start with white space or a comment -/
def Bare (t : Str) : Prop := ∀ c, t.head? = some c → isWs c = false ∧ c ≠ '#'

theorem skipWhitespace_blanks {a : Str} (t : Str) (ha : blanks a) : skipWhitespace (a ++ t) = skipWhitespace t := by
  unfold skipWhitespace
  induction a with
  | nil => rfl
  | cons c a ih =>
    have : isWs c = true := by rw [← blank_eq]; exact ha c (by simp)
    rw [List.cons_append, List.dropWhile_cons_of_pos this]
    exact ih fun d hd => ha d (by simp [hd])

theorem skipWhitespace_bare {t : Str} (h : ∀ c, t.head? = some c → isWs c = false) : skipWhitespace t = t := by
  unfold skipWhitespace
  cases t with
  | nil => rfl
  | cons c t => rw [List.dropWhile_cons_of_neg (by simp [h c rfl])]

theorem skipComments_bare {t : Str} (h : Bare t) : skipComments t = t := by
  unfold skipComments
  split
  · exact absurd rfl (h '#' rfl).2
  · rfl

theorem skipWC_bare {t : Str} (h : Bare t) : skipWC t = t := by
  have hw : skipWhitespace t = t := skipWhitespace_bare fun c hc => (h c hc).1
  rw [skipWC, hw, skipComments_bare h, hw]

theorem dropWhile_line {u : Str} (r : Str) (hu : '\n' ∉ u) : (u ++ '\n' :: r).dropWhile (· ≠ '\n') = '\n' :: r := by
  induction u with
  | nil => simp
  | cons c u ih =>
    simp only [List.mem_cons, not_or] at hu
    rw [List.cons_append, List.dropWhile_cons_of_pos (by simpa using Ne.symm hu.1)]
    exact ih hu.2

theorem skipComments_comment {c : Str} (t : Str) (h : Comment c) : skipComments (c ++ t) = t := by
  obtain ⟨u, hu, rfl⟩ := h
  have h1 := dropWhile_line (u := '#' :: u) t (by simp [hu])
  simp only [List.cons_append, List.append_assoc, List.nil_append] at h1 ⊢
  rw [skipComments, h1]
  simp

theorem skipWC_sep {a t : Str} (ha : Sep a) (ht : Bare t) : skipWC (a ++ t) = t := by
  obtain ⟨x, c, y, rfl, hx, hc, hy⟩ := ha
  have hw : skipWhitespace t = t := skipWhitespace_bare fun c hc => (ht c hc).1
  rw [skipWC, List.append_assoc, List.append_assoc, skipWhitespace_blanks _ hx]
  rcases hc with rfl | hc
  · rw [List.nil_append, skipWhitespace_blanks _ hy, hw, skipComments_bare ht, hw]
  · have h1 : skipWhitespace (c ++ (y ++ t)) = c ++ (y ++ t) := by
      apply skipWhitespace_bare
      obtain ⟨u, _, rfl⟩ := hc
      intro d hd
      simp at hd
      subst hd
      decide
    rw [h1, skipComments_comment _ hc, skipWhitespace_blanks _ hy, hw]

/-- the next token starts `t` -/
def At (s : State) (t : Str) : Prop := skipWC s.input = t ∧ Bare t

/-- the state with another input -/
def State.setIn (s : State) (t : Str) : State := { s with input := t }

theorem at_setIn {s : State} {t : Str} (h : Bare t) : At (s.setIn t) t := ⟨skipWC_bare h, h⟩
theorem At.set {s : State} {t : Str} (h : At s t) : At (s.setIn t) t := at_setIn h.2
theorem setIn_setIn (s : State) (t u : Str) : (s.setIn t).setIn u = s.setIn u := rfl

theorem skip_hit {s : State} {t w r : Str} {id : TokId} (h : At s t) (hc : consume (regex id) t = some (w, r)) :
    skip id s = .ok true (s.setIn r) := by
  simp [skip, h.1, hc, State.setIn]
theorem skip_miss {s : State} {t : Str} {id : TokId} (h : At s t) (hc : consume (regex id) t = none) :
    skip id s = .ok false (s.setIn t) := by
  simp [skip, h.1, hc, State.setIn]
theorem term_hit {s : State} {t w r : Str} {id : TokId} (h : At s t) (hc : consume (regex id) t = some (w, r)) :
    parseTerminal id s = .ok true { s.setIn r with last := w } := by
  simp [parseTerminal, parseTerminalWs, h.1, hc, State.setIn]
theorem term_miss {s : State} {t : Str} {id : TokId} (h : At s t) (hc : consume (regex id) t = none) :
    parseTerminal id s = .ok false (s.setIn t) := by
  simp [parseTerminal, parseTerminalWs, h.1, hc, State.setIn]

theorem por_hit {f g : P} {s s' : State} (h : f s = .ok true s') : por f g s = .ok true s' := by
  simp [por, h, Res.bind]
theorem por_miss {f g : P} {s s' : State} (h : f s = .ok false s') : por f g s = g s' := by
  simp [por, h, Res.bind]
theorem pand_hit {f g : P} {s s' : State} (h : f s = .ok true s') : pand f g s = g s' := by
  simp [pand, h, Res.bind]
theorem pand_miss {f g : P} {s s' : State} (h : f s = .ok false s') : pand f g s = .ok false s' := by
  simp [pand, h, Res.bind]
theorem check_hit {f : P} {s s' : State} (h : f s = .ok true s') : check f s = .ok true s' := by
  simp [check, h, Res.bind]

/-! ### Layouts -/

/-- the first character of the token is not white space, and it is no comment -/
def _root_.Verif.TurtleSpec.Tok.Solid (t : Tok) : Prop := ∃ c u, t.text = c :: u ∧ isWs c = false ∧ c ≠ '#'

theorem sep_nil : Sep [] := ⟨[], [], [], rfl, by simp [blanks], .inl rfl, by simp [blanks]⟩

theorem solid_bare {t : Tok} (h : t.Solid) (r : Str) : Bare (t.text ++ r) := by
  obtain ⟨c, u, ht, h1, h2⟩ := h
  intro d hd
  rw [ht] at hd
  simp at hd
  subst hd
  exact ⟨h1, h2⟩

/-- The next token of a text that is laid out properly. -/
theorem layout_next {t : Tok} {ts : List Tok} {s : State} (h : Layout Sep (t :: ts) s.input) (ht : t.Solid) :
    ∃ r, At s (t.text ++ r) ∧ (t.word = true → Ends r) ∧ Layout Sep ts r ∧ Layout Sep (t :: ts) (t.text ++ r) := by
  cases hs : s.input with
  | nil =>
    rw [hs] at h
    generalize hx : ([] : Str) = x at h
    cases h with
    | @cons a _ _ r h1 h2 h3 =>
      have := congrArg List.length hx
      obtain ⟨c, u, htt, _, _⟩ := ht
      simp [htt] at this
  | cons d v =>
    rw [hs] at h
    generalize hx : d :: v = x at h
    cases h with
    | @cons a _ _ r h1 h2 h3 =>
      refine ⟨r, ⟨?_, solid_bare ht r⟩, h2, h3, ?_⟩
      · rw [hs, hx, List.append_assoc]
        exact skipWC_sep h1 (solid_bare ht r)
      · have := Layout.cons (s := []) (t := t) sep_nil h2 h3
        simpa using this

/-- What the text starts with. -/
theorem layout_start {t : Tok} {ts : List Tok} {x : Str} (h : Layout Sep (t :: ts) x) (ht : t.Solid) :
    ∃ a c u, x = a ++ c :: u ∧ blanks a ∧ isWs c = false ∧ (c = '#' ∨ t.text.head? = some c) := by
  cases h with
  | @cons a _ _ r h1 h2 h3 =>
    obtain ⟨y, c, z, rfl, hy, hc, hz⟩ := h1
    obtain ⟨d, u, htt, hd1, hd2⟩ := ht
    rcases hc with rfl | ⟨w, _, rfl⟩
    · refine ⟨y ++ z, d, u ++ r, by simp [htt], ?_, hd1, .inr (by simp [htt])⟩
      intro e he
      simp at he
      rcases he with he | he
      · exact hy e he
      · exact hz e he
    · exact ⟨y, '#', w ++ ['\n'] ++ z ++ t.text ++ r, by simp, hy, by decide, .inl rfl⟩

/-- The first character of the text. -/
theorem layout_head {t : Tok} {ts : List Tok} {x : Str} (h : Layout Sep (t :: ts) x) (ht : t.Solid) (c : Char)
    (hc : x.head? = some c) : isWs c = true ∨ c = '#' ∨ t.text.head? = some c := by
  obtain ⟨a, d, u, rfl, ha, _, hd⟩ := layout_start h ht
  cases a with
  | nil => simp at hc; subst hc; exact .inr hd
  | cons e a =>
    simp at hc; subst hc
    left; rw [← blank_eq]; exact ha e (by simp)

theorem solid_sym {c : Char} (u : Str) (h1 : isWs c = false) (h2 : c ≠ '#') : (Tok.sym (c :: u)).Solid := ⟨c, u, rfl, h1, h2⟩
theorem solid_wrd {c : Char} (u : Str) (h1 : isWs c = false) (h2 : c ≠ '#') : (Tok.wrd (c :: u)).Solid := ⟨c, u, rfl, h1, h2⟩

/-- The tokens that may follow an object. -/
def IsFollow (f : Tok) : Prop := ∃ c, f = .sym [c] ∧ c ∈ [',', ';', '.', ']']

theorem IsFollow.solid {f : Tok} (h : IsFollow f) : f.Solid := by
  obtain ⟨c, rfl, hc⟩ := h
  refine solid_sym [] ?_ ?_
  · revert hc; revert c; decide
  · revert hc; revert c; decide

/-! ### What is left alone -/

/-- Everything is as before, except for the input, the last result and the last prefix. -/
structure Keep (s s' : State) : Prop where
  base : s'.base = s.base
  prefixes : s'.prefixes = s.prefixes
  subject : s'.activeSubject = s.activeSubject
  predicate : s'.activePredicate = s.activePredicate
  numBlank : s'.numBlank = s.numBlank
  triples : s'.triples = s.triples

theorem Keep.refl (s : State) : Keep s s := ⟨rfl, rfl, rfl, rfl, rfl, rfl⟩
theorem Keep.trans {a b c : State} (h : Keep a b) (h' : Keep b c) : Keep a c :=
  ⟨h'.1.trans h.1, h'.2.trans h.2, h'.3.trans h.3, h'.4.trans h.4, h'.5.trans h.5, h'.6.trans h.6⟩
theorem Keep.setIn (s : State) (t : Str) : Keep s (s.setIn t) := ⟨rfl, rfl, rfl, rfl, rfl, rfl⟩

/-! ### IRIs -/

theorem base_ne {c d : Char} (h : isBase c = true) (hd : isBase d = false) : c ≠ d := by
  rintro rfl; rw [h] at hd; simp at hd

theorem base_ws {c : Char} (h : isBase c = true) : isWs c = false := by
  simp [isWs, base_ne h (d := ' ') (by decide), base_ne h (d := '\t') (by decide), base_ne h (d := '\r') (by decide),
    base_ne h (d := '\n') (by decide)]

theorem iri_solid {hex : Str → Str} {w : Place} {i : Iri} (h : i.Ok hex w) :
    ∃ t, i.toks = [t] ∧ t.Solid := by
  cases i with
  | ref t v => exact ⟨_, rfl, solid_sym _ (by decide) (by decide)⟩
  | pname p t v =>
    obtain ⟨⟨c, s, rfl, hc, _⟩, _, _⟩ := h
    rw [nameStart_eq] at hc
    exact ⟨_, rfl, solid_wrd _ (base_ws hc) (base_ne hc (by decide))⟩

theorem unescape_plain (c : Char) (s : Str) (h : c ≠ '\\') :
    RdfEscaping.unescapePrefixedIri (c :: s) = (RdfEscaping.unescapePrefixedIri s).map (c :: ·) := by
  rw [RdfEscaping.unescapePrefixedIri.eq_def]
  simp [h]

theorem unescape_escaped (c : Char) (s : Str) (h : escapable c = true) :
    RdfEscaping.unescapePrefixedIri ('\\' :: c :: s) = (RdfEscaping.unescapePrefixedIri s).map (c :: ·) := by
  have : c ∈ RdfEscaping.reserved := by
    simp [escapable] at h
    rcases h with h | h | h | h | h | h | h | h | h | h | h | h | h | h | h | h | h | h | h | h <;>
      (subst h; decide)
  rw [RdfEscaping.unescapePrefixedIri.eq_def]
  simp [this]

theorem unescape_dots (n : Nat) (s v : Str) (h : RdfEscaping.unescapePrefixedIri s = .ok v) :
    RdfEscaping.unescapePrefixedIri (List.replicate n '.' ++ s) = .ok (List.replicate n '.' ++ v) := by
  induction n with
  | zero => simpa using h
  | succ n ih =>
    rw [List.replicate_succ, List.cons_append, unescape_plain _ _ (by decide), ih]
    rfl

theorem unescape_plx {p w s v : Str} (hp : Plx p w) (h : RdfEscaping.unescapePrefixedIri s = .ok v) :
    RdfEscaping.unescapePrefixedIri (p ++ s) = .ok (w ++ v) := by
  cases hp with
  | @percent a b ha hb =>
    have h1 : ∀ x, hexDigit x = true → x ≠ '\\' := by rintro x hx rfl; revert hx; decide
    rw [List.cons_append, List.cons_append, List.cons_append, List.nil_append, unescape_plain _ _ (by decide),
      unescape_plain _ _ (h1 a ha), unescape_plain _ _ (h1 b hb), h]
    rfl
  | @escaped c hc =>
    rw [List.cons_append, List.cons_append, List.nil_append, unescape_escaped _ _ hc, h]
    rfl

theorem unescape_localTail {t v : Str} (h : LocalTail t v) : RdfEscaping.unescapePrefixedIri t = .ok v := by
  induction h with
  | nil => simp [RdfEscaping.unescapePrefixedIri]
  | @chr n c s v hc _ ih =>
    apply unescape_dots
    rw [unescape_plain, ih]
    · rfl
    · rcases hc with hc | rfl
      · rintro rfl; revert hc; decide
      · decide
  | plx hp _ ih =>
    apply unescape_dots
    exact unescape_plx hp ih

theorem unescape_local {t v : Str} (h : Local t v) : RdfEscaping.unescapePrefixedIri t = .ok v := by
  cases h with
  | nil => simp [RdfEscaping.unescapePrefixedIri]
  | chr hc ht =>
    rw [unescape_plain, unescape_localTail ht]
    · rfl
    · rcases hc with hc | rfl | rfl | hc
      · rintro rfl; revert hc; decide
      · decide
      · decide
      · rintro rfl; revert hc; decide
  | plx hp ht => exact unescape_plx hp (unescape_localTail ht)

/-- The prefixes known to the parser. -/
def EnvOf (env : Env) (s : State) : Prop := ∀ p, lookup s.prefixes p = env p

theorem iriref_spec {hex : Str → Str} {t v : Str} (ht : IriText t) (hv : DenotesNoTail false hex t v) {ts : List Tok}
    {s : State} (hl : Layout Sep (.sym (['<'] ++ t ++ ['>']) :: ts) s.input) :
    ∃ s', iriref (escapes hex) s = .ok true s' ∧ Layout Sep ts s'.input ∧ s'.last = ['<'] ++ v ++ ['>'] ∧ Keep s s' ∧
      s'.activePrefix = s.activePrefix := by
  obtain ⟨r, hat, _, hl', _⟩ := layout_next hl (solid_sym _ (by decide) (by decide))
  have h1 := RdfEscaping.C52_iri_partial hex t v hv
  refine ⟨{ s.setIn r with last := ['<'] ++ v ++ ['>'] }, ?_, hl', rfl, ⟨rfl, rfl, rfl, rfl, rfl, rfl⟩, rfl⟩
  simp only [iriref, term_hit hat (consume_iriref r ht), Res.bind, if_true, escapes, h1, lift]

theorem iriref_miss {e : Escapes} {s : State} {t : Str} (h : At s t) (hc : t.head? ≠ some '<') :
    iriref e s = .ok false (s.setIn t) := by
  have : consume (regex .iriref) t = none := by
    cases t with
    | nil => exact consume_empty _
    | cons c t =>
      apply consume_cannot _ rfl
      simp at hc
      simp [regex, Re.can, Re.chr, Re.nullable, hc]
  simp [iriref, term_miss h this, Res.bind]

theorem pnameNS_spec {p : Str} (hp : Prefix p) {s : State} {r : Str} (hat : At s (p ++ ':' :: r)) :
    pnameNS s = .ok true { s.setIn r with activePrefix := p, last := [] } := by
  simp only [pnameNS, term_hit hat (consume_pnameNS r hp), Res.bind, if_true]
  simp

theorem pnameNS_miss {s : State} {t : Str} (h : At s t) (hc : ∀ c, t.head? = some c → isBase c = false) :
    pnameNS s = .ok false (s.setIn t) := by
  have : consume (regex .pnameNS) t = none := by
    cases t with
    | nil => exact consume_empty _
    | cons c t =>
      apply consume_cannot _ rfl
      simp [regex, Re.can, Re.nullable, hc c rfl]
  simp [pnameNS, term_miss h this, Res.bind]

theorem prefixedName_miss {e : Escapes} {s : State} {t : Str} (h : At s t) (hc : ∀ c, t.head? = some c → isBase c = false) :
    prefixedName e s = .ok false (s.setIn t) := by
  simp [prefixedName, pnameNS_miss h hc, Res.bind]

theorem iri_miss {e : Escapes} {s : State} {t : Str} (h : At s t) (hc : t.head? ≠ some '<')
    (hb : ∀ c, t.head? = some c → isBase c = false) : iri e s = .ok false (s.setIn t) := by
  rw [iri, por_miss (iriref_miss h hc)]
  exact prefixedName_miss h.set hb

theorem iri_spec {hex : Str → Str} {env : Env} {w : Place} {i : Iri} {v : Str} (hi : i.Ok hex w) (hv : i.den env = some v)
    {ts : List Tok} {s : State} (hl : Layout Sep (i.toks ++ ts) s.input) (henv : EnvOf env s) :
    ∃ s', iri (escapes hex) s = .ok true s' ∧ Layout Sep ts s'.input ∧ s'.last = v ∧ Keep s s' := by
  cases i with
  | ref t v' =>
    simp only [Iri.den, Option.some.injEq] at hv
    subst hv
    obtain ⟨s', h1, h2, h3, h4, _⟩ := iriref_spec hi.1 hi.2 hl
    exact ⟨s', por_hit h1, h2, h3, h4⟩
  | pname p t v' =>
    obtain ⟨hp, ht, _⟩ := hi
    simp only [Iri.den, Option.map_eq_some_iff] at hv
    obtain ⟨n, hn, rfl⟩ := hv
    have hsolid : (Tok.wrd (p ++ ':' :: t)).Solid := by
      obtain ⟨c, u, rfl, hc, _⟩ := hp
      rw [nameStart_eq] at hc
      exact solid_wrd _ (base_ws hc) (base_ne hc (by decide))
    have hlt : p.head? ≠ some '<' ∧ p ≠ [] := by
      obtain ⟨c, u, rfl, hc, _⟩ := hp
      rw [nameStart_eq] at hc
      simp [base_ne hc (d := '<') (by decide)]
    obtain ⟨r, hat, hends, hl', _⟩ := layout_next hl hsolid
    have hends := hends rfl
    have hat : At s (p ++ ':' :: (t ++ r)) := by simpa [Tok.wrd] using hat
    have h1 := iriref_miss (e := escapes hex) hat (by
      cases p with
      | nil => exact absurd rfl hlt.2
      | cons c p => simpa using hlt.1)
    have h2 := pnameNS_spec hp (s := s.setIn (p ++ ':' :: (t ++ r))) hat.set
    have h3 := consume_pnLocal ht hends
    have hun := unescape_local ht
    refine ⟨{ s.setIn r with activePrefix := p, last := ['<'] ++ n ++ v' ++ ['>'] }, ?_, hl', rfl, ⟨rfl, rfl, rfl, rfl, rfl, rfl⟩⟩
    rw [iri, por_miss h1]
    simp only [prefixedName, h2, Res.bind, if_true]
    have hlook : lookup s.prefixes p = some n := by rw [henv p, hn]
    by_cases hte : t = []
    · subst hte
      rw [if_pos rfl] at h3
      simp only [parseTerminalWs, State.setIn, List.nil_append] at h3 ⊢
      simp only [Bool.false_eq_true, if_false, h3, hlook]
      simp [escapes, hun, lift]
    · rw [if_neg hte] at h3
      simp only [parseTerminalWs, State.setIn] at h3 ⊢
      simp only [Bool.false_eq_true, if_false, h3, hlook]
      simp [escapes, hun, lift]

end Verif.Turtle
