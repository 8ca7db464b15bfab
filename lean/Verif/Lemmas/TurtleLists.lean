import Verif.Lemmas.TurtleTerms
/-
Lists of predicates and objects.
-/
namespace Verif.Turtle
open Verif.TurtleSpec
open Verif.Spec

/-! ### Single symbols -/

theorem solid_of {c : Char} (h : c ∈ [',', ';', '.', ']', '[']) : (Tok.sym [c]).Solid :=
  solid_sym [] ((by decide : ∀ c ∈ [',', ';', '.', ']', '['], isWs c = false) c h)
    ((by decide : ∀ c ∈ [',', ';', '.', ']', '['], c ≠ '#') c h)

theorem skip_sym {c : Char} {id : TokId} (hc : c ∈ [',', ';', '.', ']', '[']) (hid : regex id = .chr c) {ts : List Tok}
    {s : State} (h : Layout Sep (.sym [c] :: ts) s.input) : ∃ r, skip id s = .ok true (s.setIn r) ∧ Layout Sep ts r := by
  obtain ⟨r, hat, _, hl, _⟩ := layout_next h (solid_of hc)
  exact ⟨r, skip_hit hat (by rw [hid]; exact consume_chr c r), hl⟩

theorem skip_not {c : Char} {id : TokId} (hc : c ∈ [',', ';', '.', ']', '[']) (hn : (regex id).nullable = false)
    (hid : (regex id).can c = false) {ts : List Tok} {s : State} (h : Layout Sep (.sym [c] :: ts) s.input) :
    ∃ t, skip id s = .ok false (s.setIn t) ∧ Layout Sep (.sym [c] :: ts) t := by
  obtain ⟨r, hat, _, _, hl⟩ := layout_next h (solid_of hc)
  exact ⟨_, skip_miss hat (miss_of (c := c) hn rfl hid), hl⟩

theorem verb_not {e : Escapes} {c : Char} (hc : c ∈ [',', ';', '.', ']', '[']) {ts : List Tok} {s : State}
    (h : Layout Sep (.sym [c] :: ts) s.input) :
    ∃ t, verb e s = .ok false (s.setIn t) ∧ Layout Sep (.sym [c] :: ts) t := by
  obtain ⟨r, hat, _, _, hl⟩ := layout_next h (solid_of hc)
  exact ⟨_, verb_miss (c := c) hat rfl ((by decide : ∀ c ∈ [',', ';', '.', ']', '['], c ≠ 'a') c hc)
    ((by decide : ∀ c ∈ [',', ';', '.', ']', '['], c ≠ '<') c hc)
    ((by decide : ∀ c ∈ [',', ';', '.', ']', '['], isBase c = false) c hc), hl⟩

/-! ### Statements of the induction -/

/-- `f` is one of the symbols `cs` -/
def Follow (cs : List Char) (f : Tok) : Prop := ∃ c, f = .sym [c] ∧ c ∈ cs

theorem Follow.mono {cs ds : List Char} {f : Tok} (h : Follow cs f) (hs : ∀ c ∈ cs, c ∈ ds) : Follow ds f := by
  obtain ⟨c, rfl, hc⟩ := h; exact ⟨c, rfl, hs c hc⟩

theorem follow_semicolons {n : Nat} {f : Tok} {rest : List Tok} (hf : Follow ['.', ']'] f) :
    ∃ g r, semicolons n ++ f :: rest = g :: r ∧ Follow [';', '.', ']'] g := by
  cases n with
  | zero => exact ⟨f, rest, rfl, hf.mono (by decide)⟩
  | succ n => exact ⟨.sym [';'], semicolons n ++ f :: rest, rfl, _, rfl, by decide⟩

variable (hex : Str → Str) (env : Env)

/-- `task` reads the tokens of the text, leaves the rest, and yields the triples. -/
def Reads (task : Task) (s : State) (rest : List Tok) (k : Nat) (ts : List Triple) : Prop :=
  ∃ N s', (∀ fuel, N ≤ fuel → run (escapes hex) fuel task s = .ok true s') ∧ Layout Sep rest s'.input ∧ Kept s s' k ts ∧
    (task ∈ [.object, .objectList, .commas] → s'.activePredicate = s.activePredicate)

def ObjGoal (o : Obj) : Prop := ∀ (s : State) f rest k ts, Follow [',', ';', '.', ']'] f → EnvOf env s →
  Layout Sep (o.toks ++ f :: rest) s.input →
  o.den anonName env s.activeSubject s.activePredicate s.numBlank = some (ts, k) →
  Reads hex .object s (f :: rest) k ts

def ObjsGoal (o : Objs) : Prop := ∀ (s : State) f rest k ts, Follow [';', '.', ']'] f → EnvOf env s →
  Layout Sep (o.toks ++ f :: rest) s.input →
  o.den anonName env s.activeSubject s.activePredicate s.numBlank = some (ts, k) →
  Reads hex .objectList s (f :: rest) k ts

def CommasGoal (o : Objs) : Prop := ∀ (s : State) f rest k ts, Follow [';', '.', ']'] f → EnvOf env s →
  Layout Sep (.sym [','] :: o.toks ++ f :: rest) s.input →
  o.den anonName env s.activeSubject s.activePredicate s.numBlank = some (ts, k) →
  Reads hex .commas s (f :: rest) k ts

def PropsGoal (p : Props) : Prop := ∀ (s : State) f rest k ts, Follow ['.', ']'] f → EnvOf env s →
  Layout Sep (p.toks ++ f :: rest) s.input →
  p.den anonName env s.activeSubject s.numBlank = some (ts, k) →
  Reads hex .predicateObjectList s (f :: rest) k ts

def SemisGoal (p : Props) : Prop := ∀ (n : Nat) (s : State) f rest k ts, Follow ['.', ']'] f → EnvOf env s →
  Layout Sep (semicolons (n + 1) ++ p.toks ++ f :: rest) s.input →
  p.den anonName env s.activeSubject s.numBlank = some (ts, k) →
  Reads hex .semicolons s (f :: rest) k ts

variable {hex env}

/-! ### Objects -/

theorem follow_isFollow {f : Tok} (h : Follow [',', ';', '.', ']'] f) : IsFollow f := h

theorem obj_plain {s s' : State} {v : Str} {k : Nat} {rest : List Tok}
    (h : por blankNode (por (literal (escapes hex)) (iri (escapes hex))) s = .ok true s') (hl : Layout Sep rest s'.input)
    (hv : s'.last = v) (hk : Kept s s' k []) (hp : s'.activePredicate = s.activePredicate) :
    Reads hex .object s rest k [(s.activeSubject, s.activePredicate, v)] := by
  refine ⟨1, emitTriple s', ?_, hl, ⟨hk.1, hk.2, hk.3, ?_⟩, fun _ => hp⟩
  · intro fuel hf
    obtain ⟨n, rfl⟩ : ∃ n, fuel = n + 1 := ⟨fuel - 1, by omega⟩
    simp only [run, step, h, Res.bind, if_true]
  · have := hk.4
    simp only [List.append_nil] at this
    simp [emitTriple, this, hk.2, hp, hv]

theorem obj_node {n : Node} (hn : n.Ok hex .object) : ObjGoal hex env (.node n) := by
  intro s f rest k ts hf henv hl hden
  simp only [Obj.den, Option.map_eq_some_iff, Prod.mk.injEq, Prod.exists] at hden
  obtain ⟨v, k', hd, rfl, rfl⟩ := hden
  cases n with
  | iri i =>
    simp only [Node.den, Option.map_eq_some_iff, Prod.mk.injEq] at hd
    obtain ⟨v', hv, rfl, rfl⟩ := hd
    obtain ⟨t, hat, hl', hst⟩ := iri_at hn hl
    have h1 := blankNode_miss_head hat (hst.not _ (by decide) (by decide)) (hst.not _ (by decide) (by decide))
    have h2 := literal_miss_iri (e := escapes hex) (s := s) hat.2 hst
    obtain ⟨s', h3, h4, h5, h6⟩ := iri_spec (s := s.setIn t) hn hv hl' henv
    refine obj_plain (s' := s') ?_ h4 h5 ?_ h6.4
    · rw [por_miss h1, por_miss h2, h3]
    · exact ⟨h6.2, h6.3, h6.5, by rw [h6.6, List.append_nil]; rfl⟩
  | label l =>
    simp only [Node.den, Option.some.injEq, Prod.mk.injEq] at hd
    obtain ⟨rfl, rfl⟩ := hd
    obtain ⟨s', h1, h2, h3, h4, h5⟩ := label_spec hn hl
    exact obj_plain (por_hit h1) h2 h3 h4 h5
  | anon ws =>
    simp only [Node.den, Option.some.injEq, Prod.mk.injEq] at hd
    obtain ⟨rfl, rfl⟩ := hd
    obtain ⟨s', h1, h2, h3, h4, h5⟩ := anon_spec hn hl
    exact obj_plain (por_hit h1) h2 h3 h4 h5

theorem obj_lit {l : Lit} (hl : l.Ok hex) : ObjGoal hex env (.lit l) := by
  intro s f rest k ts hf henv hlay hden
  simp only [Obj.den, Option.map_eq_some_iff, Prod.mk.injEq] at hden
  obtain ⟨v, hv, rfl, rfl⟩ := hden
  obtain ⟨tok, toks, htok, hsol, hn1, hn2⟩ := lit_solid hl
  have hlay' : Layout Sep (tok :: (toks ++ f :: rest)) s.input := by
    simp only [Obj.toks, htok] at hlay
    exact hlay
  obtain ⟨r, hat, _, _, hl'⟩ := layout_next hlay' hsol
  have hhead : (tok.text ++ r).head? = tok.text.head? := by
    obtain ⟨c, u, hc, _⟩ := hsol
    rw [hc]; rfl
  have h1 := blankNode_miss_head hat (by rw [hhead]; exact hn1) (by rw [hhead]; exact hn2)
  obtain ⟨s', h2, h3, h4, h5⟩ := literal_spec (s := s) (t := tok.text ++ r) hl hv (follow_isFollow hf) hat.2
    (by rw [htok]; exact hl') henv
  refine obj_plain (s' := s') ?_ h3 h4 ?_ h5.4
  · rw [por_miss h1, por_hit h2]
  · exact ⟨h5.2, h5.3, h5.5, by rw [h5.6, List.append_nil]⟩

theorem props_first {p : Props} (hp : p.Ok hex) : ∃ t ts, p.toks = t :: ts ∧ t.Solid ∧ t.text.head? ≠ some ']' := by
  have key : ∀ v : Verb, v.Ok hex → ∃ t ts, v.toks = t :: ts ∧ t.Solid ∧ t.text.head? ≠ some ']' := by
    intro v hv
    cases v with
    | a => exact ⟨_, _, rfl, solid_wrd _ (by decide) (by decide), by decide⟩
    | iri i =>
      obtain ⟨t, ht, hs⟩ := iri_solid hv
      refine ⟨t, [], ht, hs, ?_⟩
      cases i with
      | ref t' v' =>
        simp only [Iri.toks, List.cons.injEq, and_true] at ht
        subst ht
        simp [Tok.sym]
      | pname p' t' v' =>
        simp only [Iri.toks, List.cons.injEq, and_true] at ht
        subst ht
        obtain ⟨⟨c, u, rfl, hc, _⟩, _⟩ := hv
        rw [nameStart_eq] at hc
        simpa [Tok.wrd] using base_ne hc (d := ']') (by decide)
  cases p with
  | one v o n =>
    obtain ⟨t, ts, h1, h2⟩ := key v hp.1
    exact ⟨t, ts ++ o.toks ++ semicolons n, by simp [Props.toks, h1], h2⟩
  | more v o n r =>
    obtain ⟨t, ts, h1, h2⟩ := key v hp.1
    exact ⟨t, ts ++ o.toks ++ semicolons (n + 1) ++ r.toks, by simp [Props.toks, h1], h2⟩

theorem obj_props {p : Props} (hp : p.Ok hex) (ih : PropsGoal hex env p) : ObjGoal hex env (.props p) := by
  intro s f rest k ts hf henv hl hden
  simp only [Obj.den, Option.map_eq_some_iff, Prod.mk.injEq, Prod.exists] at hden
  obtain ⟨us, k', hd, rfl, rfl⟩ := hden
  have hl1 : Layout Sep (.sym ['['] :: (p.toks ++ .sym [']'] :: f :: rest)) s.input := by
    simpa [Obj.toks] using hl
  obtain ⟨r, hat, _, hl2, _⟩ := layout_next hl1 (solid_of (by decide))
  have hat : At s ('[' :: r) := hat
  have hanon : consume (regex .anon) ('[' :: r) = none := by
    obtain ⟨t, tts, htt, hsol, hne⟩ := props_first hp
    rw [htt] at hl2
    obtain ⟨a, c, u, rfl, ha, hc, hc'⟩ := layout_start hl2 hsol
    refine consume_anon_none u ha hc ?_
    rcases hc' with rfl | hc'
    · decide
    · rintro rfl; exact hne hc'
  have h1 := blankNode_miss hat (miss_of (c := '[') rfl rfl (by decide)) hanon
  have h2 : literal (escapes hex) (s.setIn ('[' :: r)) = .ok false (s.setIn ('[' :: r)) :=
    literal_miss hat.2 (by simp) (by simp) (miss_of (c := '[') rfl rfl (by decide))
      (miss_of (c := '[') rfl rfl (by decide)) (miss_of (c := '[') rfl rfl (by decide))
      (miss_of (c := '[') rfl rfl (by decide)) (miss_of (c := '[') rfl rfl (by decide))
  have h3 : iri (escapes hex) (s.setIn ('[' :: r)) = .ok false (s.setIn ('[' :: r)) :=
    iri_miss hat.set (by simp) (by simp; decide)
  have h4 : collection (s.setIn ('[' :: r)) = .ok false (s.setIn ('[' :: r)) := by
    have := skip_miss (id := .openRound) hat.set (miss_of (c := '[') rfl rfl (by decide))
    simp [collection, this, Res.bind, setIn_setIn]
  have h5 : skip .openSquared (s.setIn ('[' :: r)) = .ok true (s.setIn r) :=
    skip_hit hat.set (consume_chr '[' r)
  obtain ⟨N, s1, hrun, hl3, hk, _⟩ := ih
    { emitTriple { s.setIn r with numBlank := s.numBlank + 1, last := anonName s.numBlank } with
      activeSubject := anonName s.numBlank } (.sym [']']) (f :: rest) k' us ⟨_, rfl, by decide⟩ henv hl2 hd
  obtain ⟨r', h6, hl4⟩ := skip_sym (id := .closeSquared) (by decide) rfl hl3
  refine ⟨N + 2, { s1.setIn r' with activeSubject := s.activeSubject, activePredicate := s.activePredicate }, ?_, hl4,
    ⟨hk.1, rfl, hk.3, ?_⟩, fun _ => rfl⟩
  · intro fuel hfuel
    obtain ⟨n, rfl⟩ : ∃ n, fuel = n + 2 := ⟨fuel - 2, by omega⟩
    have hobj : por blankNode (por (literal (escapes hex)) (iri (escapes hex))) s = .ok false (s.setIn ('[' :: r)) := by
      rw [por_miss h1, por_miss h2, h3]
    have hblank : run (escapes hex) (n + 1) .blankNodePropertyList (s.setIn ('[' :: r)) =
        .ok true { s1.setIn r' with activeSubject := s.activeSubject, activePredicate := s.activePredicate } := by
      simp only [run, step, h5, Res.bind, if_true]
      have := check_hit (hrun n (by omega))
      simp only [State.setIn] at this ⊢
      rw [this]
      simp only [check_hit h6]
      rfl
    rw [run, step]
    simp only [hobj, Res.bind, Bool.false_eq_true, if_false]
    rw [por_miss h4]
    exact hblank
  · have := hk.4
    simp only [State.setIn, emitTriple] at this ⊢
    simp [this]

/-! ### Lists of objects -/

theorem commas_stop {f : Tok} (hf : Follow [';', '.', ']'] f) {rest : List Tok} {s : State}
    (hl : Layout Sep (f :: rest) s.input) :
    ∃ s', (∀ n, run (escapes hex) (n + 1) .commas s = .ok true s') ∧ Layout Sep (f :: rest) s'.input ∧
      Kept s s' s.numBlank [] ∧ s'.activePredicate = s.activePredicate := by
  obtain ⟨c, rfl, hc⟩ := hf
  obtain ⟨t, h1, h2⟩ := skip_not (id := .comma) ((by decide : ∀ c ∈ [';', '.', ']'], c ∈ [',', ';', '.', ']', '[']) c hc) rfl
    ((by decide : ∀ c ∈ [';', '.', ']'], (regex .comma).can c = false) c hc) hl
  refine ⟨s.setIn t, ?_, h2, ⟨rfl, rfl, rfl, by simp [State.setIn]⟩, rfl⟩
  intro n
  simp only [run, step]
  rw [pand_miss h1]
  simp [Res.bind]

theorem commas_one {o : Obj} (ih : ObjGoal hex env o) : CommasGoal hex env (.one o) := by
  intro s f rest k ts hf henv hl hden
  obtain ⟨r, h1, hl1⟩ := skip_sym (id := .comma) (by decide) rfl hl
  obtain ⟨N, s1, hrun, hl2, hk, hp⟩ := ih (s.setIn r) f rest k ts (hf.mono (by decide)) henv hl1 hden
  obtain ⟨s2, hstop, hl3, hk2, hp2⟩ := commas_stop (hex := hex) hf hl2
  have hp := hp (by decide)
  refine ⟨N + 2, s2, ?_, hl3, ?_, fun _ => hp2.trans hp⟩
  · intro fuel hfuel
    obtain ⟨n, rfl⟩ : ∃ n, fuel = n + 2 := ⟨fuel - 2, by omega⟩
    rw [run, step]
    simp only [pand_hit h1, check_hit (hrun (n + 1) (by omega)), Res.bind, if_true]
    exact hstop n
  · have h := Kept.trans hk hk2
    rw [List.append_nil, hk.3] at h
    exact ⟨h.1, h.2, h.3, h.4⟩

theorem commas_more {o : Obj} {r : Objs} (ih : ObjGoal hex env o) (ihr : CommasGoal hex env r) :
    CommasGoal hex env (.more o r) := by
  intro s f rest k ts hf henv hl hden
  simp only [Objs.den, Option.bind_eq_some_iff, Option.map_eq_some_iff, Prod.mk.injEq, Prod.exists] at hden
  obtain ⟨ts1, k1, hd1, ts2, k2, hd2, rfl, rfl⟩ := hden
  have hl0 : Layout Sep (.sym [','] :: (o.toks ++ .sym [','] :: (r.toks ++ f :: rest))) s.input := by
    simpa [Objs.toks] using hl
  obtain ⟨x, h1, hl1⟩ := skip_sym (id := .comma) (by decide) rfl hl0
  obtain ⟨N, s1, hrun, hl2, hk, hp⟩ := ih (s.setIn x) _ _ _ _ ⟨',', rfl, by decide⟩ henv hl1 hd1
  have hp := hp (by decide)
  have hd2' : r.den anonName env s1.activeSubject s1.activePredicate s1.numBlank = some (ts2, k2) := by
    rw [hk.2, hp, hk.3]; exact hd2
  obtain ⟨N2, s2, hrun2, hl3, hk2, hp2⟩ := ihr s1 f rest _ _ hf (henv.of hk.1) (by simpa using hl2) hd2'
  have hp2 := hp2 (by decide)
  refine ⟨N + N2 + 1, s2, ?_, hl3, ?_, fun _ => hp2.trans hp⟩
  · intro fuel hfuel
    obtain ⟨n, rfl⟩ : ∃ n, fuel = n + 1 := ⟨fuel - 1, by omega⟩
    rw [run, step]
    simp only [pand_hit h1, check_hit (hrun n (by omega)), Res.bind, if_true]
    exact hrun2 n (by omega)
  · have h := Kept.trans hk hk2
    exact ⟨h.1, h.2, h.3, h.4⟩

theorem objs_one {o : Obj} (ih : ObjGoal hex env o) : ObjsGoal hex env (.one o) := by
  intro s f rest k ts hf henv hl hden
  obtain ⟨N, s1, hrun, hl2, hk, hp⟩ := ih s f rest k ts (hf.mono (by decide)) henv hl hden
  obtain ⟨s2, hstop, hl3, hk2, hp2⟩ := commas_stop (hex := hex) hf hl2
  have hp := hp (by decide)
  refine ⟨N + 2, s2, ?_, hl3, ?_, fun _ => hp2.trans hp⟩
  · intro fuel hfuel
    obtain ⟨n, rfl⟩ : ∃ n, fuel = n + 2 := ⟨fuel - 2, by omega⟩
    rw [run, step, pand_hit (hrun (n + 1) (by omega))]
    exact hstop n
  · have h := Kept.trans hk hk2
    rw [List.append_nil, hk.3] at h
    exact h

theorem objs_more {o : Obj} {r : Objs} (ih : ObjGoal hex env o) (ihr : CommasGoal hex env r) :
    ObjsGoal hex env (.more o r) := by
  intro s f rest k ts hf henv hl hden
  simp only [Objs.den, Option.bind_eq_some_iff, Option.map_eq_some_iff, Prod.mk.injEq, Prod.exists] at hden
  obtain ⟨ts1, k1, hd1, ts2, k2, hd2, rfl, rfl⟩ := hden
  have hl0 : Layout Sep (o.toks ++ .sym [','] :: (r.toks ++ f :: rest)) s.input := by
    simpa [Objs.toks] using hl
  obtain ⟨N, s1, hrun, hl2, hk, hp⟩ := ih s _ _ _ _ ⟨',', rfl, by decide⟩ henv hl0 hd1
  have hp := hp (by decide)
  have hd2' : r.den anonName env s1.activeSubject s1.activePredicate s1.numBlank = some (ts2, k2) := by
    rw [hk.2, hp, hk.3]; exact hd2
  obtain ⟨N2, s2, hrun2, hl3, hk2, hp2⟩ := ihr s1 f rest _ _ hf (henv.of hk.1) (by simpa using hl2) hd2'
  have hp2 := hp2 (by decide)
  refine ⟨N + N2 + 1, s2, ?_, hl3, Kept.trans hk hk2, fun _ => hp2.trans hp⟩
  intro fuel hfuel
  obtain ⟨n, rfl⟩ : ∃ n, fuel = n + 1 := ⟨fuel - 1, by omega⟩
  rw [run, step, pand_hit (hrun n (by omega))]
  exact hrun2 n (by omega)

/-! ### Lists of predicates -/

/-- Semicolons after which nothing comes. -/
theorem semis_stop {f : Tok} (hf : Follow ['.', ']'] f) {rest : List Tok} : ∀ (n : Nat) (s : State),
    Layout Sep (semicolons n ++ f :: rest) s.input → Reads hex .semicolons s (f :: rest) s.numBlank [] := by
  intro n
  induction n with
  | zero =>
    intro s hl
    obtain ⟨c, rfl, hc⟩ := hf
    obtain ⟨t, h1, h2⟩ := skip_not (id := .semicolon) ((by decide : ∀ c ∈ ['.', ']'], c ∈ [',', ';', '.', ']', '[']) c hc) rfl
      ((by decide : ∀ c ∈ ['.', ']'], (regex .semicolon).can c = false) c hc) hl
    refine ⟨1, s.setIn t, ?_, h2, ⟨rfl, rfl, rfl, by simp [State.setIn]⟩, by simp⟩
    intro fuel hfuel
    obtain ⟨n, rfl⟩ : ∃ n, fuel = n + 1 := ⟨fuel - 1, by omega⟩
    simp [run, step, h1, Res.bind]
  | succ n ih =>
    intro s hl
    have hl0 : Layout Sep (.sym [';'] :: (semicolons n ++ f :: rest)) s.input := hl
    obtain ⟨r, h1, hl1⟩ := skip_sym (id := .semicolon) (by decide) rfl hl0
    obtain ⟨g, r', hg, hgf⟩ := follow_semicolons (n := n) (rest := rest) hf
    rw [hg] at hl1
    obtain ⟨c, rfl, hc⟩ := hgf
    obtain ⟨t, h2, hl2⟩ := verb_not (e := escapes hex) (s := s.setIn r)
      ((by decide : ∀ c ∈ [';', '.', ']'], c ∈ [',', ';', '.', ']', '[']) c hc) hl1
    rw [← hg] at hl2
    obtain ⟨N, s1, hrun, hl3, hk, _⟩ := ih ((s.setIn r).setIn t) hl2
    refine ⟨N + 1, s1, ?_, hl3, ⟨hk.1, hk.2, hk.3, hk.4⟩, by simp⟩
    intro fuel hfuel
    obtain ⟨n', rfl⟩ : ∃ n, fuel = n + 1 := ⟨fuel - 1, by omega⟩
    rw [run, step]
    simp only [h1, Res.bind, if_true, pand_miss h2]
    exact hrun n' (by omega)

/-- Semicolons before a verb: all but the last one are skipped. -/
theorem semis_skip {ts : List Tok} {rest : List Tok} {k : Nat} {us : List Triple} :
    ∀ (n : Nat) (s : State), Layout Sep (semicolons (n + 1) ++ ts) s.input →
    (∀ s' : State, s'.prefixes = s.prefixes → s'.activeSubject = s.activeSubject → s'.numBlank = s.numBlank →
      s'.triples = s.triples → Layout Sep (.sym [';'] :: ts) s'.input → Reads hex .semicolons s' rest k us) →
    Reads hex .semicolons s rest k us := by
  intro n
  induction n with
  | zero => intro s hl h; exact h s rfl rfl rfl rfl hl
  | succ n ih =>
    intro s hl h
    have hl0 : Layout Sep (.sym [';'] :: (.sym [';'] :: (semicolons n ++ ts))) s.input := hl
    obtain ⟨r, h1, hl1⟩ := skip_sym (id := .semicolon) (by decide) rfl hl0
    obtain ⟨t, h2, hl2⟩ := verb_not (e := escapes hex) (s := s.setIn r) (by decide) hl1
    obtain ⟨N, s1, hrun, hl3, hk, _⟩ := ih ((s.setIn r).setIn t) hl2 h
    refine ⟨N + 1, s1, ?_, hl3, ⟨hk.1, hk.2, hk.3, hk.4⟩, by simp⟩
    intro fuel hfuel
    obtain ⟨n', rfl⟩ : ∃ n, fuel = n + 1 := ⟨fuel - 1, by omega⟩
    rw [run, step]
    simp only [h1, Res.bind, if_true, pand_miss h2]
    exact hrun n' (by omega)

/-- A verb and its objects. -/
theorem verb_objects {v : Verb} {o : Objs} (hv : v.Ok hex) (iho : ObjsGoal hex env o) {s : State} {f : Tok} {rest : List Tok}
    {p : Str} {k : Nat} {ts : List Triple} (hf : Follow [';', '.', ']'] f) (henv : EnvOf env s)
    (hl : Layout Sep (v.toks ++ o.toks ++ f :: rest) s.input) (hp : v.den env = some p)
    (hd : o.den anonName env s.activeSubject p s.numBlank = some (ts, k)) :
    ∃ N s1 s2, verb (escapes hex) s = .ok true s1 ∧ (∀ fuel, N ≤ fuel → run (escapes hex) fuel .objectList s1 = .ok true s2) ∧
      Layout Sep (f :: rest) s2.input ∧ Kept s s2 k ts := by
  rw [List.append_assoc] at hl
  obtain ⟨s1, h1, hl1, h2, hk1⟩ := verb_spec hv hp hl henv
  obtain ⟨N, s2, hrun, hl2, hk2, _⟩ := iho s1 f rest k ts hf (henv.of hk1.1) hl1 (by rw [hk1.2, h2, hk1.3]; exact hd)
  exact ⟨N, s1, s2, h1, hrun, hl2, by simpa using Kept.trans hk1 hk2⟩

theorem props_one {v : Verb} {o : Objs} {m : Nat} (hv : v.Ok hex) (iho : ObjsGoal hex env o) :
    PropsGoal hex env (.one v o m) ∧ SemisGoal hex env (.one v o m) := by
  constructor
  · intro s f rest k ts hf henv hl hden
    simp only [Props.den, Option.bind_eq_some_iff] at hden
    obtain ⟨p, hp, hd⟩ := hden
    obtain ⟨g, r, hg, hgf⟩ := follow_semicolons (n := m) (rest := rest) hf
    have hl0 : Layout Sep (v.toks ++ o.toks ++ g :: r) s.input := by
      rw [← hg]; simpa [Props.toks] using hl
    obtain ⟨N, s1, s2, h1, hrun, hl1, hk⟩ := verb_objects hv iho hgf henv hl0 hp hd
    rw [← hg] at hl1
    obtain ⟨N2, s3, hrun2, hl2, hk2, _⟩ := semis_stop (hex := hex) hf m s2 hl1
    refine ⟨N + N2 + 1, s3, ?_, hl2, ?_, by simp⟩
    · intro fuel hfuel
      obtain ⟨n, rfl⟩ : ∃ n, fuel = n + 1 := ⟨fuel - 1, by omega⟩
      rw [run, step, pand_hit h1, pand_hit (check_hit (hrun n (by omega)))]
      exact hrun2 n (by omega)
    · have h := Kept.trans hk hk2
      rw [List.append_nil, hk.3] at h
      exact h
  · intro n s f rest k ts hf henv hl hden
    simp only [Props.den, Option.bind_eq_some_iff] at hden
    obtain ⟨p, hp, hd⟩ := hden
    rw [List.append_assoc] at hl
    refine semis_skip n s hl fun s' e1 e2 e3 e4 hl' => ?_
    obtain ⟨r0, h0, hl0⟩ := skip_sym (id := .semicolon) (by decide) rfl hl'
    obtain ⟨g, r, hg, hgf⟩ := follow_semicolons (n := m) (rest := rest) hf
    have hl1 : Layout Sep (v.toks ++ o.toks ++ g :: r) (s'.setIn r0).input := by
      rw [← hg]; simpa [Props.toks, State.setIn] using hl0
    obtain ⟨N, s1, s2, h1, hrun, hl2, hk⟩ := verb_objects (s := s'.setIn r0) hv iho hgf (henv.of e1) hl1 hp
      (by rw [show (s'.setIn r0).activeSubject = s.activeSubject from e2, show (s'.setIn r0).numBlank = s.numBlank from e3]
          exact hd)
    rw [← hg] at hl2
    obtain ⟨N2, s3, hrun2, hl3, hk2, _⟩ := semis_stop (hex := hex) hf m s2 hl2
    refine ⟨N + N2 + 1, s3, ?_, hl3, ?_, by simp⟩
    · intro fuel hfuel
      obtain ⟨n, rfl⟩ : ∃ n, fuel = n + 1 := ⟨fuel - 1, by omega⟩
      rw [run, step]
      simp only [h0, Res.bind, if_true, pand_hit h1, check_hit (hrun n (by omega))]
      exact hrun2 n (by omega)
    · have h := Kept.trans hk hk2
      rw [List.append_nil, hk.3] at h
      exact ⟨h.1, h.2, h.3, h.4⟩

theorem props_more {v : Verb} {o : Objs} {m : Nat} {q : Props} (hv : v.Ok hex) (iho : ObjsGoal hex env o)
    (ihq : SemisGoal hex env q) : PropsGoal hex env (.more v o m q) ∧ SemisGoal hex env (.more v o m q) := by
  constructor
  · intro s f rest k ts hf henv hl hden
    simp only [Props.den, Option.bind_eq_some_iff, Option.map_eq_some_iff, Prod.mk.injEq, Prod.exists] at hden
    obtain ⟨p, hp, ts1, k1, hd, ts2, k2, hd2, rfl, rfl⟩ := hden
    have hl0 : Layout Sep (v.toks ++ o.toks ++ .sym [';'] :: (semicolons m ++ q.toks ++ f :: rest)) s.input := by
      simpa [Props.toks, semicolons, List.replicate_succ] using hl
    obtain ⟨N, s1, s2, h1, hrun, hl1, hk⟩ := verb_objects hv iho ⟨';', rfl, by decide⟩ henv hl0 hp hd
    obtain ⟨N2, s3, hrun2, hl2, hk2, _⟩ := ihq m s2 f rest k2 ts2 hf (henv.of hk.1)
      (by simpa [semicolons, List.replicate_succ] using hl1) (by rw [hk.2, hk.3]; exact hd2)
    refine ⟨N + N2 + 1, s3, ?_, hl2, Kept.trans hk hk2, by simp⟩
    intro fuel hfuel
    obtain ⟨n, rfl⟩ : ∃ n, fuel = n + 1 := ⟨fuel - 1, by omega⟩
    rw [run, step, pand_hit h1, pand_hit (check_hit (hrun n (by omega)))]
    exact hrun2 n (by omega)
  · intro n s f rest k ts hf henv hl hden
    simp only [Props.den, Option.bind_eq_some_iff, Option.map_eq_some_iff, Prod.mk.injEq, Prod.exists] at hden
    obtain ⟨p, hp, ts1, k1, hd, ts2, k2, hd2, rfl, rfl⟩ := hden
    rw [List.append_assoc] at hl
    refine semis_skip n s hl fun s' e1 e2 e3 e4 hl' => ?_
    obtain ⟨r0, h0, hl0⟩ := skip_sym (id := .semicolon) (by decide) rfl hl'
    have hl1 : Layout Sep (v.toks ++ o.toks ++ .sym [';'] :: (semicolons m ++ q.toks ++ f :: rest)) (s'.setIn r0).input := by
      simpa [Props.toks, semicolons, List.replicate_succ, State.setIn] using hl0
    obtain ⟨N, s1, s2, h1, hrun, hl2, hk⟩ := verb_objects (s := s'.setIn r0) hv iho ⟨';', rfl, by decide⟩ (henv.of e1) hl1 hp
      (by rw [show (s'.setIn r0).activeSubject = s.activeSubject from e2, show (s'.setIn r0).numBlank = s.numBlank from e3]
          exact hd)
    obtain ⟨N2, s3, hrun2, hl3, hk2, _⟩ := ihq m s2 f rest k2 ts2 hf (henv.of (hk.1.trans e1))
      (by simpa [semicolons, List.replicate_succ] using hl2)
      (by rw [hk.2, hk.3, show (s'.setIn r0).activeSubject = s.activeSubject from e2]; exact hd2)
    refine ⟨N + N2 + 1, s3, ?_, hl3, ?_, by simp⟩
    · intro fuel hfuel
      obtain ⟨n, rfl⟩ : ∃ n, fuel = n + 1 := ⟨fuel - 1, by omega⟩
      rw [run, step]
      simp only [h0, Res.bind, if_true, pand_hit h1, check_hit (hrun n (by omega))]
      exact hrun2 n (by omega)
    · have h := Kept.trans hk hk2
      exact ⟨h.1, h.2, h.3, h.4⟩

mutual
  theorem obj_goal : ∀ o : Obj, o.Ok hex → ObjGoal hex env o
    | .node _, h => obj_node h
    | .lit _, h => obj_lit h
    | .props p, h => obj_props h (props_goal p h).1
  theorem objs_goal : ∀ o : Objs, o.Ok hex → ObjsGoal hex env o ∧ CommasGoal hex env o
    | .one o, h => ⟨objs_one (obj_goal o h), commas_one (obj_goal o h)⟩
    | .more o r, h =>
      ⟨objs_more (obj_goal o h.1) (objs_goal r h.2).2, commas_more (obj_goal o h.1) (objs_goal r h.2).2⟩
  theorem props_goal : ∀ p : Props, p.Ok hex → PropsGoal hex env p ∧ SemisGoal hex env p
    | .one _ o _, h => props_one h.1 (objs_goal o h.2).1
    | .more _ o _ r, h => props_more h.1 (objs_goal o h.2.1).1 (props_goal r h.2.2).2
end

end Verif.Turtle
