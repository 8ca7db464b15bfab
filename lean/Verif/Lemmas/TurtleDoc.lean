import Verif.Lemmas.TurtleLists
/-
Statements and documents.
-/
namespace Verif.Turtle
open Verif.TurtleSpec
open Verif.Spec

variable {hex : Str → Str} {env : Env}

/-- What the statements of a document change. -/
structure Read (s s' : State) (env' : Env) (k : Nat) (ts : List Triple) : Prop where
  env : EnvOf env' s'
  numBlank : s'.numBlank = k
  triples : s'.triples = s.triples ++ ts

theorem statement_at {e : Escapes} {fuel : Nat} {s : State} {t : Str} (h : At s t) :
    statement e fuel s = por (directive e) (pand (triples e fuel) (skip .dot)) (s.setIn t) := by
  simp only [statement, h.1, State.setIn]

theorem prefixID_miss {e : Escapes} {s : State} {t : Str} (h : At s t) (hc : t.head? ≠ some '@') :
    prefixID e s = .ok false (s.setIn t) := by
  have : consume (regex .turtlePrefix) t = none := miss rfl fun c h => by
    have : c ≠ '@' := by rintro rfl; exact hc h
    simp [regex, Re.can, Re.lit, Re.chr, Re.nullable, this]
  simp [prefixID, skip_miss h this, Res.bind]

theorem directive_miss {e : Escapes} {s : State} {t : Str} (h : At s t) (hc : t.head? ≠ some '@')
    (hp : ¬ "PREFIX".toList <+: t) (hb : ¬ "BASE".toList <+: t) : directive e s = .ok false (s.setIn t) := by
  have h1 : consume (regex .turtleBase) t = none := miss rfl fun c h => by
    have : c ≠ '@' := by rintro rfl; exact hc h
    simp [regex, Re.can, Re.lit, Re.chr, Re.nullable, this]
  have h2 : consume (regex .sparqlPrefix) t = none := consume_lit_none hp
  have h3 : consume (regex .sparqlBase) t = none := consume_lit_none hb
  have b1 : baseDirective e .turtleBase (s.setIn t) = .ok false (s.setIn t) := by
    simp [baseDirective, skip_miss h.set h1, Res.bind, setIn_setIn]
  have b2 : sparqlPrefix e (s.setIn t) = .ok false (s.setIn t) := by
    simp [sparqlPrefix, skip_miss h.set h2, Res.bind, setIn_setIn]
  have b3 : baseDirective e .sparqlBase (s.setIn t) = .ok false (s.setIn t) := by
    simp [baseDirective, skip_miss h.set h3, Res.bind, setIn_setIn]
  rw [directive, por_miss (prefixID_miss h hc), por_miss b1, por_miss b2, b3]

theorem stripBrackets_spec (v : Str) : stripBrackets (['<'] ++ v ++ ['>']) = .ok v := by
  simp [stripBrackets]

theorem pre_spec {p t v : Str} (h : (Stmt.pre false p t v).Ok hex) {rest : List Tok} {s : State}
    (hl : Layout Sep ((Stmt.pre false p t v).toks ++ rest) s.input) (henv : EnvOf env s) :
    ∃ s', (∀ fuel, statement (escapes hex) fuel s = .ok true s') ∧ Layout Sep rest s'.input ∧
      Read s s' (fun q => if q = p then some v else env q) s.numBlank [] := by
  obtain ⟨_, hp, ht, hv⟩ := h
  have hl0 : Layout Sep (.wrd "@prefix".toList :: .sym (p ++ [':']) :: .sym (['<'] ++ t ++ ['>']) :: .sym ['.'] :: rest)
      s.input := hl
  obtain ⟨r, hat, _, hl1, _⟩ := layout_next hl0 (solid_wrd (c := '@') _ (by decide) (by decide))
  have h1 : skip .turtlePrefix (s.setIn ((Tok.wrd "@prefix".toList).text ++ r)) = .ok true (s.setIn r) :=
    skip_hit (id := .turtlePrefix) hat.set (consume_lit _ r)
  have hsol : (Tok.sym (p ++ [':'])).Solid := by
    obtain ⟨c, u, rfl, hc, _⟩ := hp
    rw [nameStart_eq] at hc
    exact solid_sym _ (base_ws hc) (base_ne hc (by decide))
  obtain ⟨r2, hat2, _, hl2, _⟩ := layout_next (s := s.setIn r) hl1 hsol
  have h2 := pnameNS_spec hp (s := s.setIn r) (r := r2) (by simpa [Tok.sym] using hat2)
  obtain ⟨s3, h3, hl3, h3v, hk, hpre⟩ := iriref_spec (hex := hex)
    (s := { (s.setIn r).setIn r2 with activePrefix := p, last := [] }) ht hv hl2
  obtain ⟨r4, h4, hl4⟩ := skip_sym (id := .dot) (by decide) rfl hl3
  refine ⟨{ s3.setIn r4 with prefixes := (p, v) :: s.prefixes }, ?_, hl4, ⟨?_, hk.5, by rw [List.append_nil]; exact hk.6⟩⟩
  · intro fuel
    rw [statement_at hat]
    apply por_hit
    apply por_hit
    simp only [prefixID, h1, Res.bind, if_true]
    rw [pand_hit (check_hit h2), pand_hit (check_hit h3), check_hit h4]
    simp only [if_true]
    have : (s3.setIn r4).last = ['<'] ++ v ++ ['>'] := h3v
    rw [this, stripBrackets_spec]
    simp only [lift]
    congr 1
    have e1 : (s3.setIn r4).activePrefix = p := hpre
    have e2 : (s3.setIn r4).prefixes = s.prefixes := hk.2
    rw [e1, e2]
  · intro q
    by_cases hq : q = p
    · subst hq
      simp [lookup]
    · have := henv q
      simp only [lookup] at this ⊢
      rw [List.find?_cons_of_neg (by simpa using Ne.symm hq), this, if_neg hq]

/-- The subject of a statement. -/
theorem subject_spec {n : Node} (hn : n.Ok hex .subject) {v : Str} {k : Nat} {rest : List Tok} {s : State}
    (hl : Layout Sep (n.toks ++ rest) s.input) (henv : EnvOf env s) (hd : n.den anonName env s.numBlank = some (v, k)) :
    ∃ t s', At s t ∧ directive (escapes hex) (s.setIn t) = .ok false (s.setIn t) ∧
      subject (escapes hex) (s.setIn t) = .ok true s' ∧ Layout Sep rest s'.input ∧ s'.activeSubject = v ∧
      s'.prefixes = s.prefixes ∧ s'.numBlank = k ∧ s'.triples = s.triples := by
  cases n with
  | iri i =>
    simp only [Node.den, Option.map_eq_some_iff, Prod.mk.injEq] at hd
    obtain ⟨v', hv, rfl, rfl⟩ := hd
    obtain ⟨t, hat, hl', hst⟩ := iri_at hn hl
    have h1 := blankNode_miss_head hat.set (hst.not _ (by decide) (by decide)) (hst.not _ (by decide) (by decide))
    obtain ⟨s', h3, h4, h5, h6⟩ := iri_spec (s := s.setIn t) hn hv hl' henv
    refine ⟨t, { s' with activeSubject := v' }, hat, ?_, ?_, h4, rfl, h6.2, h6.5, h6.6⟩
    · have := directive_miss (e := escapes hex) hat.set (hst.not _ (by decide) (by decide)) ?_ ?_
      · rw [setIn_setIn] at this; exact this
      · rcases hst with ⟨u, rfl⟩ | ⟨p, u, hp, hw, rfl⟩
        · rintro ⟨x, hx⟩; simp at hx
        · exact not_prefix u (by decide) hw.1
      · rcases hst with ⟨u, rfl⟩ | ⟨p, u, hp, hw, rfl⟩
        · rintro ⟨x, hx⟩; simp at hx
        · exact not_prefix u (by decide) hw.2
    · rw [setIn_setIn] at h1
      simp only [subject, por_miss h1, por_hit h3, Res.bind, if_true, h5]
  | label l =>
    simp only [Node.den, Option.some.injEq, Prod.mk.injEq] at hd
    obtain ⟨rfl, rfl⟩ := hd
    obtain ⟨r, hat, _, _, hl'⟩ := layout_next hl (solid_wrd _ (by decide) (by decide))
    obtain ⟨s', h1, h2, h3, h4, h5⟩ := label_spec (s := s.setIn _) hn hl'
    refine ⟨_, { s' with activeSubject := '_' :: ':' :: l }, hat, ?_, ?_, h2, rfl, h4.1, h4.3, ?_⟩
    · have := directive_miss (e := escapes hex) hat.set (by simp [Tok.wrd]) (by rintro ⟨x, hx⟩; simp [Tok.wrd] at hx)
        (by rintro ⟨x, hx⟩; simp [Tok.wrd] at hx)
      rw [setIn_setIn] at this; exact this
    · simp only [subject, por_hit h1, Res.bind, if_true, h3]
    · have := h4.4; rw [List.append_nil] at this; exact this
  | anon ws =>
    simp only [Node.den, Option.some.injEq, Prod.mk.injEq] at hd
    obtain ⟨rfl, rfl⟩ := hd
    obtain ⟨r, hat, _, _, hl'⟩ := layout_next hl (solid_sym _ (by decide) (by decide))
    obtain ⟨s', h1, h2, h3, h4, h5⟩ := anon_spec (s := s.setIn _) hn hl'
    refine ⟨_, { s' with activeSubject := anonName s.numBlank }, hat, ?_, ?_, h2, rfl, h4.1, h4.3, ?_⟩
    · have := directive_miss (e := escapes hex) hat.set (by simp [Tok.sym]) (by rintro ⟨x, hx⟩; simp [Tok.sym] at hx)
        (by rintro ⟨x, hx⟩; simp [Tok.sym] at hx)
      rw [setIn_setIn] at this; exact this
    · simp only [subject, por_hit h1, Res.bind, if_true, h3]
      rfl
    · have := h4.4; rw [List.append_nil] at this; exact this

/-- Every supported statement. -/
theorem stmt_spec {st : Stmt} (h : st.Ok hex) {rest : List Tok} {s : State} {env' : Env} {ts : List Triple} {k : Nat}
    (hl : Layout Sep (st.toks ++ rest) s.input) (henv : EnvOf env s)
    (hd : st.den anonName env s.numBlank = some (env', ts, k)) :
    ∃ N s', (∀ fuel, N ≤ fuel → statement (escapes hex) fuel s = .ok true s') ∧ Layout Sep rest s'.input ∧
      Read s s' env' k ts := by
  cases st with
  | pre sparql p t v =>
    have : sparql = false := h.1
    subst this
    simp only [Stmt.den, Option.some.injEq, Prod.mk.injEq] at hd
    obtain ⟨rfl, rfl, rfl⟩ := hd
    obtain ⟨s', h1, h2, h3⟩ := pre_spec h hl henv
    exact ⟨0, s', fun fuel _ => h1 fuel, h2, h3⟩
  | base => exact absurd h id
  | props => exact absurd h id
  | triples n p =>
    simp only [Stmt.den, Option.bind_eq_some_iff, Option.map_eq_some_iff, Prod.mk.injEq, Prod.exists] at hd
    obtain ⟨v, k1, hd1, ts', k2, hd2, rfl, rfl, rfl⟩ := hd
    have hl0 : Layout Sep (n.toks ++ (p.toks ++ .sym ['.'] :: rest)) s.input := by simpa [Stmt.toks] using hl
    obtain ⟨t, s1, hat, hdir, hsub, hl1, e1, e2, e3, e4⟩ := subject_spec h.1 hl0 henv hd1
    obtain ⟨N, s2, hrun, hl2, hk, _⟩ := (props_goal (hex := hex) (env := env) p h.2).1 s1 (.sym ['.']) rest k2 ts'
      ⟨'.', rfl, by decide⟩ (henv.of e2) hl1 (by rw [e1, e3]; exact hd2)
    obtain ⟨r, h3, hl3⟩ := skip_sym (id := .dot) (by decide) rfl hl2
    refine ⟨N, s2.setIn r, fun fuel hf => ?_, hl3, ⟨(henv.of e2).of hk.1, hk.3, ?_⟩⟩
    · rw [statement_at hat, por_miss hdir]
      have : triples (escapes hex) fuel (s.setIn t) = .ok true s2 := by
        simp [triples, hsub, Res.bind, hrun fuel hf]
      rw [pand_hit this, h3]
    · have := hk.4
      rw [e4] at this
      exact this

/-- The end of a document. -/
theorem end_spec {s : State} (hl : Layout Sep [] s.input) (fuel : Nat) :
    statement (escapes hex) (fuel + 1) s = .ok false (s.setIn []) := by
  have hbare : Bare [] := by intro c hc; simp at hc
  have hat : At s [] := by
    refine ⟨?_, hbare⟩
    cases hs : s.input with
    | nil => exact skipWC_bare hbare
    | cons c u =>
      rw [hs] at hl
      cases hl with
      | nil h => have := skipWC_sep h hbare; rwa [List.append_nil] at this
  rw [statement_at hat, por_miss (directive_miss hat.set (by simp) (by simp) (by simp)), setIn_setIn]
  have h1 := blankNode_miss_head hat.set (by simp) (by simp)
  have h2 := iri_miss (e := escapes hex) hat.set (by simp) (by simp)
  have h3 := skip_miss (id := .openRound) hat.set (consume_empty _)
  have h4 := skip_miss (id := .openSquared) hat.set (consume_empty _)
  rw [setIn_setIn] at h1 h2 h3 h4
  have hsub : subject (escapes hex) (s.setIn []) = .ok false (s.setIn []) := by
    simp [subject, por_miss h1, por_miss h2, collection, h3, Res.bind]
  apply pand_miss
  simp [triples, hsub, Res.bind, run, step, h4]

/-- Documents, from any state. -/
theorem doc_spec : ∀ (d : List Stmt) (env : Env) (s : State) (ts : List Triple), (∀ st ∈ d, st.Ok hex) → EnvOf env s →
    Layout Sep (d.flatMap Stmt.toks) s.input → denFrom anonName env s.numBlank d = some ts →
    ∃ N s', (∀ fuel, N ≤ fuel → ∀ n, d.length < n → turtleDoc (escapes hex) fuel n s = .ok () s') ∧ s'.input = [] ∧
      s'.triples = s.triples ++ ts := by
  intro d
  induction d with
  | nil =>
    intro env s ts _ _ hl hd
    simp only [denFrom, Option.some.injEq] at hd
    subst hd
    refine ⟨1, s.setIn [], ?_, rfl, by simp [State.setIn]⟩
    intro fuel hf n hn
    obtain ⟨f, rfl⟩ : ∃ f, fuel = f + 1 := ⟨fuel - 1, by omega⟩
    obtain ⟨m, rfl⟩ : ∃ m, n = m + 1 := ⟨n - 1, by simp at hn; omega⟩
    simp [turtleDoc, end_spec hl, Res.bind]
  | cons st d ih =>
    intro env s ts hok henv hl hd
    simp only [denFrom, Option.bind_eq_some_iff, Option.map_eq_some_iff, Prod.exists] at hd
    obtain ⟨env', ts1, k, hd1, ts2, hd2, rfl⟩ := hd
    obtain ⟨N, s1, h1, hl1, hr⟩ := stmt_spec (hok st (by simp)) (by simpa using hl) henv hd1
    obtain ⟨N2, s2, h2, h3, h4⟩ := ih env' s1 ts2 (fun x hx => hok x (by simp [hx])) hr.env hl1 (by rw [hr.numBlank]; exact hd2)
    refine ⟨N + N2, s2, ?_, h3, by rw [h4, hr.triples, List.append_assoc]⟩
    intro fuel hf n hn
    obtain ⟨m, rfl⟩ : ∃ m, n = m + 1 := ⟨n - 1, by simp at hn; omega⟩
    simp only [turtleDoc, h1 fuel (by omega), Res.bind, if_true]
    exact h2 fuel (by omega) m (by simp at hn; omega)

end Verif.Turtle
