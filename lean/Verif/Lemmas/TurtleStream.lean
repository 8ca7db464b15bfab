import Verif.Lemmas.TurtleStatement
import Verif.Lemmas.TurtleFuel
import Verif.Model.TurtleStream
import Verif.Spec.TurtleStream
/-
Lemmas for C63: reading a document in blocks.
-/
namespace Verif.Turtle
open Verif.TurtleSpec
open Verif.RdfEscaping

/-! ### More prefixes -/

/-- What is known in `e` is the same in `f`. -/
def EnvLe (e f : Env) : Prop := ∀ p v, e p = some v → f p = some v

theorem EnvLe.refl (e : Env) : EnvLe e e := fun _ _ h => h
theorem EnvLe.trans {e f g : Env} (h1 : EnvLe e f) (h2 : EnvLe f g) : EnvLe e g := fun p v h => h2 p v (h1 p v h)

variable {name : Nat → Str} {e f : Env}

theorem iri_le (h : EnvLe e f) {i : Iri} {v : Str} (hd : i.den e = some v) : i.den f = some v := by
  cases i with
  | ref t w => exact hd
  | pname p t w =>
    simp only [Iri.den, Option.map_eq_some_iff] at hd ⊢
    obtain ⟨n, hn, hv⟩ := hd
    exact ⟨n, h _ _ hn, hv⟩

theorem node_le (h : EnvLe e f) {n : Node} {k : Nat} {x : Str × Nat} (hd : n.den name e k = some x) : n.den name f k = some x := by
  cases n with
  | iri i =>
    simp only [Node.den, Option.map_eq_some_iff] at hd ⊢
    obtain ⟨v, hv, hx⟩ := hd
    exact ⟨v, iri_le h hv, hx⟩
  | label l => exact hd
  | anon ws => exact hd

theorem lit_le (h : EnvLe e f) {l : Lit} {v : Str} (hd : l.den e = some v) : l.den f = some v := by
  cases l with
  | string q t w x =>
    cases x with
    | none => exact hd
    | lang t => exact hd
    | dtype i =>
      simp only [Lit.den, Suffix.den, Option.map_map, Option.map_eq_some_iff] at hd ⊢
      obtain ⟨n, hn, hv⟩ := hd
      exact ⟨n, iri_le h hn, hv⟩
  | number t => exact hd
  | bool b => exact hd

theorem verb_le (h : EnvLe e f) {x : Verb} {v : Str} (hd : x.den e = some v) : x.den f = some v := by
  cases x with
  | a => exact hd
  | iri i => exact iri_le h hd

mutual
  theorem obj_le (h : EnvLe e f) : ∀ (o : Obj) {s p : Str} {k : Nat} {x : List TurtleSpec.Triple × Nat},
      o.den name e s p k = some x → o.den name f s p k = some x
    | .node n, s, p, k, x, hd => by
      simp only [Obj.den, Option.map_eq_some_iff] at hd ⊢
      obtain ⟨y, hy, hx⟩ := hd
      exact ⟨y, node_le h hy, hx⟩
    | .lit l, s, p, k, x, hd => by
      simp only [Obj.den, Option.map_eq_some_iff] at hd ⊢
      obtain ⟨y, hy, hx⟩ := hd
      exact ⟨y, lit_le h hy, hx⟩
    | .props q, s, p, k, x, hd => by
      simp only [Obj.den, Option.map_eq_some_iff] at hd ⊢
      obtain ⟨y, hy, hx⟩ := hd
      exact ⟨y, props_le h q hy, hx⟩
  theorem objs_le (h : EnvLe e f) : ∀ (o : Objs) {s p : Str} {k : Nat} {x : List TurtleSpec.Triple × Nat},
      o.den name e s p k = some x → o.den name f s p k = some x
    | .one o, s, p, k, x, hd => by
      simp only [Objs.den] at hd ⊢
      exact obj_le h o hd
    | .more o r, s, p, k, x, hd => by
      simp only [Objs.den, Option.bind_eq_some_iff, Option.map_eq_some_iff] at hd ⊢
      obtain ⟨y, hy, z, hz, hx⟩ := hd
      exact ⟨y, obj_le h o hy, z, objs_le h r hz, hx⟩
  theorem props_le (h : EnvLe e f) : ∀ (q : Props) {s : Str} {k : Nat} {x : List TurtleSpec.Triple × Nat},
      q.den name e s k = some x → q.den name f s k = some x
    | .one v o _, s, k, x, hd => by
      simp only [Props.den, Option.bind_eq_some_iff] at hd ⊢
      obtain ⟨y, hy, hx⟩ := hd
      exact ⟨y, verb_le h hy, objs_le h o hx⟩
    | .more v o _ r, s, k, x, hd => by
      simp only [Props.den, Option.bind_eq_some_iff, Option.map_eq_some_iff] at hd ⊢
      obtain ⟨y, hy, z, hz, w, hw, hx⟩ := hd
      exact ⟨y, verb_le h hy, z, objs_le h o hz, w, props_le h r hw, hx⟩
end

/-- The environment of all declarations of a document. -/
def Declares (d : List Stmt) (g : Env) : Prop := ∀ q p t v, .pre q p t v ∈ d → g p = some v

theorem stmt_le {hex : Str → Str} {st : Stmt} (hok : st.Ok hex) {k k' : Nat} {e' : Env} {ts : List TurtleSpec.Triple} {d : List Stmt} {g : Env}
    (hst : st ∈ d) (hg : Declares d g) (h : EnvLe e f) (hf : EnvLe f g) (hd : st.den name e k = some (e', ts, k')) :
    ∃ f', st.den name f k = some (f', ts, k') ∧ EnvLe e' f' ∧ EnvLe f f' ∧ EnvLe f' g := by
  cases st with
  | base => exact absurd hok id
  | props => exact absurd hok id
  | pre q p t v =>
    simp only [Stmt.den, Option.some.injEq, Prod.mk.injEq] at hd ⊢
    obtain ⟨rfl, rfl, rfl⟩ := hd
    have hgp := hg q p t v hst
    refine ⟨_, ⟨rfl, rfl, rfl⟩, ?_, ?_, ?_⟩
    · intro x y hx
      by_cases hxp : x = p
      · simpa [hxp] using hx
      · simp [hxp] at hx ⊢
        exact h x y hx
    · intro x y hx
      by_cases hxp : x = p
      · have := hf x y hx
        rw [hxp, hgp] at this
        simpa [hxp] using this
      · simpa [hxp] using hx
    · intro x y hx
      by_cases hxp : x = p
      · rw [hxp, hgp]
        simpa [hxp] using hx
      · simp [hxp] at hx
        exact hf x y hx
  | triples n p =>
    simp only [Stmt.den, Option.bind_eq_some_iff, Option.map_eq_some_iff, Prod.mk.injEq] at hd ⊢
    obtain ⟨x, hx, y, hy, rfl, hts⟩ := hd
    exact ⟨f, ⟨x, node_le h hx, y, props_le h p hy, rfl, hts⟩, h, .refl f, hf⟩

theorem declares {d : List Stmt} (h : Consistent d) : ∃ g, Declares d g := by
  classical
  refine ⟨fun p => if hp : ∃ q t v, Stmt.pre q p t v ∈ d then some hp.choose_spec.choose_spec.choose else none, ?_⟩
  intro q p t v hm
  have hp : ∃ q t v, Stmt.pre q p t v ∈ d := ⟨q, t, v, hm⟩
  simp only [dif_pos hp]
  exact congrArg some (h _ _ _ _ _ _ _ hp.choose_spec.choose_spec.choose_spec hm)

/-! ### The state while reading -/

variable {hex : Str → Str}

/-- The document `d` remains to be read, with the prefixes `env`; `R` is the text in the blocks not yet read. -/
structure Reading (hex : Str → Str) (D : List Stmt) (R : Str) (input : Str) (numBlank : Nat) (prefixes : Env) (d : List Stmt)
    (ts : List TurtleSpec.Triple) : Prop where
  ok : ∀ st ∈ d, st.Ok hex
  sub : ∀ st ∈ d, st ∈ D
  layout : Layout Sep (d.flatMap Stmt.toks) (input ++ R)
  den : ∃ env, EnvLe env prefixes ∧ denFrom anonName env numBlank d = some ts

def envOf (s : State) : Env := lookup s.prefixes

theorem cleanCut {t r : Str} (h : CutOk t r) : CleanCut t r := by
  rcases h with h | ⟨c, u, h1, h2⟩
  · exact .inl h
  · refine .inr ⟨c, u, h1, ?_⟩
    simp only [blank, decide_eq_true_eq, List.mem_cons, List.not_mem_nil, or_false] at h2
    rcases h2 with rfl | rfl | rfl | rfl <;> decide

/-! ### What a statement changes -/

/-- The function leaves the prefixes and reads from left to right. -/
def Mild (f : P) : Prop := ∀ s, match f s with
  | .ok _ s' => s'.input <:+ s.input ∧ s'.prefixes = s.prefixes
  | .error s' => s'.prefixes = s.prefixes
  | _ => True

theorem Mild.ok {f : P} (h : Mild f) {s : State} {b : Bool} {s' : State} (hs : f s = .ok b s') : s'.input <:+ s.input ∧ s'.prefixes = s.prefixes := by
  have := h s; rw [hs] at this; exact this
theorem Mild.error {f : P} (h : Mild f) {s s' : State} (hs : f s = .error s') : s'.prefixes = s.prefixes := by
  have := h s; rw [hs] at this; exact this

theorem Mild.bind {f : P} {g : Bool → State → Res Bool} (hf : Mild f) (hg : ∀ b, Mild (g b)) : Mild fun s => (f s).bind g := by
  intro s
  show match (f s).bind g with
    | .ok _ s' => s'.input <:+ s.input ∧ s'.prefixes = s.prefixes
    | .error s' => s'.prefixes = s.prefixes
    | _ => True
  cases h : f s with
  | ok b s1 =>
    obtain ⟨h1, h2⟩ := hf.ok h
    show match g b s1 with
      | .ok _ s' => s'.input <:+ s.input ∧ s'.prefixes = s.prefixes
      | .error s' => s'.prefixes = s.prefixes
      | _ => True
    cases hg1 : g b s1 with
    | ok b' s2 => obtain ⟨h3, h4⟩ := (hg b).ok hg1; exact ⟨h3.trans h1, h4.trans h2⟩
    | error s2 => exact ((hg b).error hg1).trans h2
    | abort => trivial
    | ub => trivial
    | diverge => trivial
  | error s1 => exact hf.error h
  | abort => trivial
  | ub => trivial
  | diverge => trivial

theorem mild_ok (g : State → State) (b : Bool) (h1 : ∀ s, (g s).input = s.input) (h2 : ∀ s, (g s).prefixes = s.prefixes) : Mild fun s => .ok b (g s) :=
  fun s => ⟨by rw [h1]; exact List.suffix_refl _, h2 s⟩
theorem mild_id (b : Bool) : Mild fun s => .ok b s := mild_ok (fun s => s) b (fun _ => rfl) fun _ => rfl
theorem mild_error : Mild fun s => .error s := fun _ => rfl
theorem mild_ite {b : Bool} {f g : P} (hf : Mild f) (hg : Mild g) : Mild fun s => if b then f s else g s := by
  cases b
  · exact hg
  · exact hf
theorem Mild.por {f g : P} (hf : Mild f) (hg : Mild g) : Mild (por f g) := hf.bind fun _ => mild_ite (mild_id true) hg
theorem Mild.pand {f g : P} (hf : Mild f) (hg : Mild g) : Mild (pand f g) := hf.bind fun _ => mild_ite hg (mild_id false)
theorem Mild.check {f : P} (hf : Mild f) : Mild (check f) := hf.bind fun _ => mild_ite (mild_id true) mild_error
theorem Mild.pre {f : P} (hf : Mild f) (g : State → State) (h1 : ∀ s, (g s).input <:+ s.input) (h2 : ∀ s, (g s).prefixes = s.prefixes) :
    Mild fun s => f (g s) := by
  intro s
  have := hf (g s)
  show match f (g s) with
    | .ok _ s' => s'.input <:+ s.input ∧ s'.prefixes = s.prefixes
    | .error s' => s'.prefixes = s.prefixes
    | _ => True
  cases h : f (g s) with
  | ok b s' => rw [h] at this; exact ⟨this.1.trans (h1 s), this.2.trans (h2 s)⟩
  | error s' => rw [h] at this; exact this.trans (h2 s)
  | abort => trivial
  | ub => trivial
  | diverge => trivial

theorem mild_tok {id : TokId} {f : P} {g : Str → State → State} (h : IsTok (r := []) id f g) (hg : ∀ w s, (g w s).prefixes = s.prefixes) : Mild f := by
  intro s
  rcases h.cases s with ⟨w, y, h1, h2⟩ | ⟨_, h2⟩
  · rw [h2]
    refine ⟨?_, hg _ _⟩
    rw [h.input]
    exact (run_suffix _ _ _ (mem_consume h1).1).trans (skipWC_suffix _)
  · rw [h2]
    exact ⟨skipWC_suffix _, rfl⟩

theorem mild_skip (id : TokId) : Mild (skip id) := mild_tok (tok_skip id) fun _ _ => rfl
theorem mild_term (id : TokId) : Mild (parseTerminal id) := mild_tok (tok_term id) fun _ _ => rfl

theorem mild_lift (o : State → Outcome Str) (k : Str → P) (h : ∀ v, Mild (k v)) : Mild fun s => lift (o s) fun v => k v s := by
  intro s
  show match lift (o s) fun v => k v s with
    | .ok _ s' => s'.input <:+ s.input ∧ s'.prefixes = s.prefixes
    | .error s' => s'.prefixes = s.prefixes
    | _ => True
  cases o s with
  | ok v => exact h v s
  | throw => trivial
  | ub => trivial
  | diverge => trivial

theorem mild_iriref (e : Escapes) : Mild (iriref e) :=
  (mild_term .iriref).bind fun _ => mild_ite
    (mild_lift (fun s => e.iriref s.last) (fun v s => .ok true { s with last := v }) fun _ => mild_ok _ true (fun _ => rfl) fun _ => rfl) (mild_id false)

theorem mild_pnameNS : Mild pnameNS := mild_tok tok_pnameNS fun _ _ => rfl

theorem mild_local : Mild (parseTerminalWs false .pnLocal) := by
  intro s
  rcases local_cases s with ⟨w, y, h1, h2⟩ | ⟨_, h2⟩
  · rw [h2]; exact ⟨run_suffix _ _ _ (mem_consume h1).1, rfl⟩
  · rw [h2]; exact ⟨List.suffix_refl _, rfl⟩

theorem mild_finish (e : Escapes) : Mild (finish e) := by
  intro s
  show match (match lookup s.prefixes s.activePrefix with
    | none => Res.error s
    | some n => lift (e.prefixed s.last) fun v => .ok true { s with last := ['<'] ++ n ++ v ++ ['>'] }) with
    | .ok _ s' => s'.input <:+ s.input ∧ s'.prefixes = s.prefixes
    | .error s' => s'.prefixes = s.prefixes
    | _ => True
  cases lookup s.prefixes s.activePrefix with
  | none => rfl
  | some n =>
    show match lift (e.prefixed s.last) fun v => .ok true { s with last := ['<'] ++ n ++ v ++ ['>'] } with
    | .ok _ s' => s'.input <:+ s.input ∧ s'.prefixes = s.prefixes
    | .error s' => s'.prefixes = s.prefixes
    | _ => True
    cases e.prefixed s.last with
    | ok v => exact ⟨List.suffix_refl _, rfl⟩
    | throw => trivial
    | ub => trivial
    | diverge => trivial

theorem mild_prefixedName (e : Escapes) : Mild (prefixedName e) :=
  mild_pnameNS.bind fun _ => mild_ite (mild_local.bind fun _ => mild_finish e) (mild_id false)
theorem mild_iri (e : Escapes) : Mild (iri e) := (mild_iriref e).por (mild_prefixedName e)
theorem mild_blankNode : Mild blankNode := (mild_term .blankNodeLabel).por (mild_tok tok_anon fun _ _ => rfl)

theorem mild_string : Mild stringParse := by
  intro s
  unfold stringParse
  cases quoteOf s.input with
  | none => exact ⟨List.suffix_refl _, rfl⟩
  | some q =>
    simp only
    cases closing q s.input (s.input.length + 1) (find q s.input (s.input.length + 1 - q.length) q.length) with
    | none => rfl
    | some p => exact ⟨List.drop_suffix _ _, rfl⟩

theorem mild_rdfLiteral (e : Escapes) : Mild (rdfLiteral e) := by
  refine mild_string.bind fun _ => mild_ite ?_ (mild_id false)
  refine mild_lift (fun s => e.literal s.last) (fun lit s => litTail e lit { s with last := lit }) fun lit => ?_
  refine Mild.pre (f := litTail e lit) ?_ _ (fun _ => List.suffix_refl _) fun _ => rfl
  refine (mild_term .langtag).bind fun _ => mild_ite (mild_ok _ true (fun _ => rfl) fun _ => rfl) ?_
  exact ((mild_skip .doubleCircumflex).pand (mild_iri e).check).bind fun _ => mild_ite (mild_ok _ true (fun _ => rfl) fun _ => rfl) (mild_id true)

theorem mild_literal (e : Escapes) : Mild (literal e) :=
  (mild_rdfLiteral e).por (((mild_term .integer).por ((mild_term .decimal).por (mild_term .double))).por ((mild_term .true_).por (mild_term .false_)))
theorem mild_collection : Mild collection := (mild_skip .openRound).bind fun _ => mild_ite mild_error (mild_id false)
theorem mild_verb (e : Escapes) : Mild (verb e) :=
  (mild_tok tok_a fun _ _ => rfl).por ((mild_iri e).bind fun _ => mild_ite (mild_ok _ true (fun _ => rfl) fun _ => rfl) (mild_id false))
theorem mild_subject (e : Escapes) : Mild (subject e) :=
  (mild_blankNode.por ((mild_iri e).por mild_collection)).bind fun _ => mild_ite (mild_ok _ true (fun _ => rfl) fun _ => rfl) (mild_id false)

theorem mild_step (e : Escapes) {call : Task → P} (h : ∀ k, Mild (call k)) : ∀ k, Mild (step e call k)
  | .predicateObjectList => (mild_verb e).pand ((h _).check.pand (h _))
  | .semicolons => (mild_skip _).bind fun _ => mild_ite (((mild_verb e).pand (h _).check).bind fun _ => h _) (mild_id true)
  | .objectList => (h _).pand (h _)
  | .commas => ((mild_skip _).pand (h _).check).bind fun _ => mild_ite (h _) (mild_id true)
  | .object => (mild_blankNode.por ((mild_literal e).por (mild_iri e))).bind fun _ =>
      mild_ite (mild_ok emitTriple true (fun _ => rfl) fun _ => rfl) (mild_collection.por (h _))
  | .blankNodePropertyList => by
    refine (mild_skip _).bind fun _ => mild_ite ?_ (mild_id false)
    have hin : ∀ a b, Mild (inside call a b) := fun a b =>
      (h _).check.bind fun _ => (mild_skip _).check.bind fun _ => mild_ok _ true (fun _ => rfl) fun _ => rfl
    intro s
    have := hin s.activeSubject s.activePredicate (enter s)
    exact this

theorem mild_run (e : Escapes) : ∀ n k, Mild (run e n k)
  | 0, _ => fun _ => trivial
  | n + 1, k => mild_step e (mild_run e n) k

theorem mild_triples (e : Escapes) (n : Nat) : Mild (triples e n) :=
  (mild_subject e).bind fun _ => mild_ite ((mild_run e n _).bind fun _ => mild_ite (mild_id true) mild_error)
    ((mild_run e n _).bind fun _ => mild_ite ((mild_run e n _).bind fun _ => mild_id true) (mild_id false))

/-- The same, but when the function succeeds the prefixes may change. -/
def Meek (f : P) : Prop := ∀ s, match f s with
  | .ok b s' => s'.input <:+ s.input ∧ (b = false → s'.prefixes = s.prefixes)
  | .error s' => s'.prefixes = s.prefixes
  | _ => True

theorem Mild.meek {f : P} (h : Mild f) : Meek f := by
  intro s
  have := h s
  cases hs : f s with
  | ok b s' => rw [hs] at this; exact ⟨this.1, fun _ => this.2⟩
  | error s' => rw [hs] at this; exact this
  | abort => trivial
  | ub => trivial
  | diverge => trivial

theorem Meek.por {f g : P} (hf : Meek f) (hg : Meek g) : Meek (por f g) := by
  intro s
  show match (f s).bind fun b s => if b then .ok true s else g s with
    | .ok b s' => s'.input <:+ s.input ∧ (b = false → s'.prefixes = s.prefixes)
    | .error s' => s'.prefixes = s.prefixes
    | _ => True
  have h1 := hf s
  cases h : f s with
  | ok b s1 =>
    rw [h] at h1
    cases b with
    | true => exact ⟨h1.1, fun h => by simp at h⟩
    | false =>
      have h2 := hg s1
      show match g s1 with
        | .ok b s' => s'.input <:+ s.input ∧ (b = false → s'.prefixes = s.prefixes)
        | .error s' => s'.prefixes = s.prefixes
        | _ => True
      cases hg1 : g s1 with
      | ok b' s2 => rw [hg1] at h2; exact ⟨h2.1.trans h1.1, fun hb => (h2.2 hb).trans (h1.2 rfl)⟩
      | error s2 => rw [hg1] at h2; exact h2.trans (h1.2 rfl)
      | abort => trivial
      | ub => trivial
      | diverge => trivial
  | error s1 => rw [h] at h1; exact h1
  | abort => trivial
  | ub => trivial
  | diverge => trivial

/-- A mild function, and then the prefixes are changed. -/
theorem Meek.after {f g h : P} (hf : Mild f) (hg : Meek g) (hh : Meek h) :
    Meek fun s => (f s).bind fun b s => if b then g s else h s := by
  intro s
  show match (f s).bind fun b s => if b then g s else h s with
    | .ok b s' => s'.input <:+ s.input ∧ (b = false → s'.prefixes = s.prefixes)
    | .error s' => s'.prefixes = s.prefixes
    | _ => True
  cases hs : f s with
  | ok b s1 =>
    obtain ⟨h1, h2⟩ := hf.ok hs
    have key : ∀ k : P, Meek k → match k s1 with
        | .ok b s' => s'.input <:+ s.input ∧ (b = false → s'.prefixes = s.prefixes)
        | .error s' => s'.prefixes = s.prefixes
        | _ => True := by
      intro k hk
      have h3 := hk s1
      cases hk1 : k s1 with
      | ok b' s2 => rw [hk1] at h3; exact ⟨h3.1.trans h1, fun hb => (h3.2 hb).trans h2⟩
      | error s2 => rw [hk1] at h3; exact h3.trans h2
      | abort => trivial
      | ub => trivial
      | diverge => trivial
    cases b with
    | true => exact key g hg
    | false => exact key h hh
  | error s1 => exact hf.error hs
  | abort => trivial
  | ub => trivial
  | diverge => trivial

theorem meek_prefixID (e : Escapes) : Meek (prefixID e) := by
  refine Meek.after (mild_skip _) ?_ (mild_id false).meek
  refine Meek.after (mild_pnameNS.check.pand ((mild_iriref e).check.pand (mild_skip _).check)) ?_ mild_error.meek
  intro s
  show match lift (stripBrackets s.last) fun v => .ok true { s with prefixes := (s.activePrefix, v) :: s.prefixes } with
    | .ok b s' => s'.input <:+ s.input ∧ (b = false → s'.prefixes = s.prefixes)
    | .error s' => s'.prefixes = s.prefixes
    | _ => True
  cases stripBrackets s.last with
  | ok v => exact ⟨List.suffix_refl _, fun h => by simp at h⟩
  | throw => trivial
  | ub => trivial
  | diverge => trivial

theorem meek_base (e : Escapes) (id : TokId) : Meek (baseDirective e id) :=
  Mild.meek ((mild_skip _).bind fun _ => mild_ite ((mild_iriref e).bind fun _ => mild_ite (mild_ok _ true (fun _ => rfl) fun _ => rfl) mild_error) (mild_id false))

theorem meek_sparqlPrefix (e : Escapes) : Meek (sparqlPrefix e) :=
  Meek.after (mild_skip _) (Meek.after (mild_pnameNS.pand (mild_iriref e)) (fun _ => ⟨List.suffix_refl _, fun h => by simp at h⟩) mild_error.meek)
    (mild_id false).meek

theorem meek_statement (e : Escapes) (n : Nat) : Meek (statement e n) := by
  have h : Meek (por (directive e) (pand (triples e n) (skip .dot))) :=
    ((meek_prefixID e).por ((meek_base e _).por ((meek_sparqlPrefix e).por (meek_base e _)))).por ((mild_triples e n).pand (mild_skip _)).meek
  intro s
  have := h { s with input := skipWC s.input }
  show match por (directive e) (pand (triples e n) (skip .dot)) { s with input := skipWC s.input } with
    | .ok b s' => s'.input <:+ s.input ∧ (b = false → s'.prefixes = s.prefixes)
    | .error s' => s'.prefixes = s.prefixes
    | _ => True
  cases hs : por (directive e) (pand (triples e n) (skip .dot)) { s with input := skipWC s.input } with
  | ok b s' => rw [hs] at this; exact ⟨this.1.trans (skipWC_suffix _), this.2⟩
  | error s' => rw [hs] at this; exact this
  | abort => trivial
  | ub => trivial
  | diverge => trivial

/-! ### One statement -/

theorem add_nil (s : State) : s.add [] = s := by
  simp [State.add]

/-- A statement is read, although the text ends somewhere. -/
theorem reading_step {g : Env} {D : List Stmt} (hg : Declares D g) {t R : Str} {s : State} {d : List Stmt} {ts : List TurtleSpec.Triple}
    {fuel : Nat} (hr : Reading hex D R s.input s.numBlank (envOf s) d ts) (hle : EnvLe (envOf s) g) (hs : s.input <:+ t)
    (hc : R = [] ∨ CleanCut t R) (hf : 3 * (s.input ++ R).length < fuel) :
    (∃ s' d' ts1 ts2, statement (escapes hex) fuel s = .ok true s' ∧ ts = ts1 ++ ts2 ∧ s'.triples = s.triples ++ ts1 ∧
      Reading hex D R s'.input s'.numBlank (envOf s') d' ts2 ∧ EnvLe (envOf s) (envOf s') ∧ EnvLe (envOf s') g ∧
      s'.input <:+ s.input ∧ s'.input.length < s.input.length) ∨
    (∃ s', (statement (escapes hex) fuel s = .ok false s' ∨ statement (escapes hex) fuel s = .error s') ∧
      s'.prefixes = s.prefixes ∧
      (R = [] → d = [] ∧ ts = [] ∧ s' = s.setIn [] ∧ statement (escapes hex) fuel s = .ok false s')) := by
  have hgood := statement_good (hex := hex) (fuel := fuel) s (by rw [List.length_append] at hf; omega)
  have hmeek := meek_statement (escapes hex) fuel s
  have hsame : Found (statement (escapes hex) fuel) s → statement (escapes hex) fuel (s.add R) = (statement (escapes hex) fuel s).add R := by
    intro hfound
    rcases hc with rfl | hc
    · rw [add_nil]
      cases hh : statement (escapes hex) fuel s <;> simp [Res.add, add_nil]
    · exact statement_same hc fuel hs hfound
  -- what happens with the whole text
  have hwhole : (d = [] ∧ ts = [] ∧ statement (escapes hex) fuel (s.add R) = .ok false ((s.add R).setIn [])) ∨
      ∃ s' d' ts1 ts2, statement (escapes hex) fuel (s.add R) = .ok true s' ∧ ts = ts1 ++ ts2 ∧ s'.triples = s.triples ++ ts1 ∧
        (∀ st ∈ d', st ∈ d) ∧ Layout Sep (d'.flatMap Stmt.toks) s'.input ∧
        (∃ env, EnvLe env (envOf s') ∧ denFrom anonName env s'.numBlank d' = some ts2) ∧
        EnvLe (envOf s) (envOf s') ∧ EnvLe (envOf s') g := by
    obtain ⟨env, henv, hden⟩ := hr.den
    cases d with
    | nil =>
      left
      obtain ⟨f, rfl⟩ : ∃ f, fuel = f + 1 := ⟨fuel - 1, by omega⟩
      refine ⟨rfl, ?_, end_spec (s := s.add R) hr.layout f⟩
      simpa [denFrom] using hden.symm
    | cons st d' =>
      right
      simp only [denFrom, Option.bind_eq_some_iff, Option.map_eq_some_iff, Prod.exists] at hden
      obtain ⟨env', ts1, k, hd1, ts2, hd2, rfl⟩ := hden
      obtain ⟨f', hf1, hf2, hf3, hf4⟩ := stmt_le (hr.ok st (by simp)) (hr.sub st (by simp)) hg henv hle hd1
      obtain ⟨s', h1, h2, h3⟩ := stmt_fuel (env := envOf s) (s := s.add R) (hr.ok st (by simp)) (rest := d'.flatMap Stmt.toks)
        (by simpa [State.add] using hr.layout) (fun _ => rfl) hf1 hf
      have he : envOf s' = f' := funext h3.env
      refine ⟨s', d', ts1, ts2, h1, rfl, h3.triples, fun x hx => by simp [hx], h2, ⟨env', by rw [he]; exact hf2, by rw [h3.numBlank]; exact hd2⟩, ?_, ?_⟩
      · rw [he]; exact hf3
      · rw [he]; exact hf4
  cases hst : statement (escapes hex) fuel s with
  | ok b s' =>
    rw [hst] at hgood hmeek
    cases b with
    | true =>
      left
      have := hsame (.inr ⟨s', hst⟩)
      rw [hst] at this
      rcases hwhole with ⟨_, _, h⟩ | ⟨s2, d', ts1, ts2, h1, h2, h3, h4, h5, h6, h7, h8⟩
      · rw [h] at this; simp [Res.add] at this
      · rw [h1] at this
        simp [Res.add] at this
        subst this
        refine ⟨s', d', ts1, ts2, rfl, h2, h3, ⟨fun st hx => hr.ok st (h4 st hx), fun st hx => hr.sub st (h4 st hx), h5, h6⟩, h7, h8, hmeek.1, ?_⟩
        exact hgood.2 rfl rfl
    | false =>
      right
      refine ⟨s', .inl rfl, hmeek.2 rfl, ?_⟩
      rintro rfl
      rw [add_nil] at hwhole
      rcases hwhole with ⟨h1, h2, h⟩ | ⟨s2, d', ts1, ts2, h1, _⟩
      · rw [hst] at h
        simp at h
        exact ⟨h1, h2, h, rfl⟩
      · rw [hst] at h1; simp at h1
  | error s' =>
    right
    rw [hst] at hmeek
    refine ⟨s', .inr rfl, hmeek, ?_⟩
    rintro rfl
    rw [add_nil] at hwhole
    rcases hwhole with ⟨_, _, h⟩ | ⟨s2, d', ts1, ts2, h1, _⟩
    · rw [hst] at h; simp at h
    · rw [hst] at h1; simp at h1
  | abort =>
    have := hsame (.inl hst)
    rw [hst] at this
    rcases hwhole with ⟨_, _, h⟩ | ⟨s2, d', ts1, ts2, h1, _⟩
    · rw [h] at this; simp [Res.add] at this
    · rw [h1] at this; simp [Res.add] at this
  | ub => rw [hst] at hgood; exact hgood.elim
  | diverge => rw [hst] at hgood; exact hgood.elim

/-! ### A batch -/

theorem byteSize_append (a b : Str) : byteSize (a ++ b) = byteSize a + byteSize b := by
  simp [byteSize]

/-- While a document with the text `T` is being read: `t` has been read from the file, `ts` remain. -/
structure Midst (hex : Str → Str) (g : Env) (D : List Stmt) (T : Str) (x : Stream) (t : Str) (ts : List TurtleSpec.Triple) : Prop where
  cur : ∃ d, Reading hex D x.blocks.flatten x.st.input x.st.numBlank (envOf x.st) d ts
  le : EnvLe (envOf x.st) g
  suf : x.st.input <:+ t
  cuts : Cuts t x.blocks
  ne : ∀ c ∈ x.blocks, c ≠ []
  rest : x.st.input ++ x.blocks.flatten <:+ T

/-- The backup: from there the triples `ts` are read. -/
structure Saved (hex : Str → Str) (D : List Stmt) (T : Str) (b : Backup) (x : Stream) (t : Str) (ts : List TurtleSpec.Triple) : Prop where
  cur : ∃ d, Reading hex D x.blocks.flatten b.input b.numBlank (envOf x.st) d ts
  none : b.numTriples = 0
  suf : b.input <:+ t
  rest : b.input ++ x.blocks.flatten <:+ T

theorem Reading.mono {D d : List Stmt} {R i : Str} {k : Nat} {e f : Env} {ts : List TurtleSpec.Triple} (h : Reading hex D R i k e d ts)
    (hle : EnvLe e f) : Reading hex D R i k f d ts := by
  obtain ⟨env, h1, h2⟩ := h.den
  exact ⟨h.ok, h.sub, h.layout, env, h1.trans hle, h2⟩

theorem fill_spec {g : Env} {D : List Stmt} (hg : Declares D g) {T : Str} {fuel min max : Nat} (hf : 3 * T.length < fuel)
    (hmax : byteSize T ≤ max) {ts : List TurtleSpec.Triple} : ∀ (n : Nat) (b : Backup) (x : Stream) (t : Str) (ts2 : List TurtleSpec.Triple),
    Midst hex g D T x t ts2 → Saved hex D T b x t ts → ts = x.st.triples ++ ts2 → x.exhausted = false →
    x.blocks.length * (T.length + 1) + x.st.input.length < n →
    ∃ x' t' ts', fill (escapes hex) fuel min max n b x = .ok x' ∧ Midst hex g D T x' t' ts' ∧ ts = x'.st.triples ++ ts' ∧
      (x'.exhausted = true → ts' = []) ∧ (min ≤ x'.st.triples.length ∨ x'.exhausted = true) ∧
      x'.blocks.length ≤ x.blocks.length := by
  intro n
  induction n with
  | zero => intro b x t ts2 _ _ _ _ h; omega
  | succ n ih =>
    intro b x t ts2 hm hb hts hex' hn
    by_cases hmin : x.st.triples.length < min
    · obtain ⟨d, hr⟩ := hm.cur
      have hlen := hm.rest.length_le
      have hcut : x.blocks.flatten = [] ∨ CleanCut t x.blocks.flatten := by
        have := hm.cuts
        cases hbl : x.blocks with
        | nil => exact .inl rfl
        | cons c bs => rw [hbl] at this; exact .inr (cleanCut this.1)
      rcases reading_step hg hr hm.le hm.suf hcut (fuel := fuel) (by omega) with
        ⟨s', d', ts1, ts2', h1, h2, h3, h4, h5, h6, h7, h8⟩ | ⟨s', h1, h2, h3⟩
      · have key := ih b { x with st := s' } t ts2' ⟨⟨d', h4⟩, h6, h7.trans hm.suf, hm.cuts, hm.ne, ?_⟩
          ⟨?_, hb.none, hb.suf, hb.rest⟩ (by simp only [h3, hts, h2, List.append_assoc]) hex' (by simp only; omega)
        · obtain ⟨x', t', ts', k1, k2⟩ := key
          refine ⟨x', t', ts', ?_, k2⟩
          rw [fill, if_pos ⟨hmin, hex'⟩, h1]
          exact k1
        · refine List.IsSuffix.trans ?_ hm.rest
          obtain ⟨w, hw⟩ := h7
          exact ⟨w, by simp [← hw]⟩
        · obtain ⟨d0, hd0⟩ := hb.cur
          exact ⟨d0, hd0.mono h5⟩
      · have hretry : ∀ raised, (raised = true → x.blocks.flatten ≠ []) →
            ∃ x' t' ts', retry max (fill (escapes hex) fuel min max n) b raised { x with st := s' } = .ok x' ∧ Midst hex g D T x' t' ts' ∧
              ts = x'.st.triples ++ ts' ∧ (x'.exhausted = true → ts' = []) ∧ (min ≤ x'.st.triples.length ∨ x'.exhausted = true) ∧
              x'.blocks.length ≤ x.blocks.length := by
          intro raised hraised
          cases hbl : x.blocks with
          | nil =>
            have hR : x.blocks.flatten = [] := by rw [hbl]; rfl
            obtain ⟨rfl, rfl, rfl, h4⟩ := h3 hR
            have hraised : raised = false := by
              cases raised with
              | false => rfl
              | true => exact absurd hR (hraised rfl)
            subst hraised
            refine ⟨{ x with st := { x.st.setIn [] with input := skipWC (x.st.setIn []).input }, exhausted := true }, t, [], ?_, ?_, ?_, fun _ => rfl, .inr rfl, by simp [hbl]⟩
            · simp [retry, resetAndRead, hbl]
            · have hskip : skipWC (x.st.setIn []).input = [] := rfl
              refine ⟨⟨[], by simp, by simp, ?_, ?_⟩, hm.le, ?_, hm.cuts, hm.ne, ?_⟩
              · simp only [hskip, hR]
                exact .nil ⟨[], [], [], rfl, by simp [blanks], .inl rfl, by simp [blanks]⟩
              · exact ⟨fun _ => none, fun _ _ h => by simp at h, rfl⟩
              · simp only [hskip]; exact List.nil_suffix
              · simp only [hskip, hR]; exact List.nil_suffix
            · simpa [State.setIn] using hts
          | cons next bs =>
            have hne : next ≠ [] := hm.ne next (by rw [hbl]; simp)
            obtain ⟨c, u, rfl⟩ : ∃ c u, next = c :: u := by
              cases next with
              | nil => exact absurd rfl hne
              | cons c u => exact ⟨c, u, rfl⟩
            have hrest := hb.rest
            rw [hbl] at hrest
            have hflat : ((c :: u) :: bs).flatten = (c :: u) ++ bs.flatten := rfl
            have hsz : byteSize (b.input ++ c :: u) ≤ max := by
              rw [hflat, ← List.append_assoc] at hrest
              obtain ⟨w, hw⟩ := hrest
              rw [← hw, byteSize_append, byteSize_append (b.input ++ c :: u)] at hmax
              omega
            have hlen2 : (b.input ++ c :: u).length ≤ T.length := by
              rw [hflat, ← List.append_assoc] at hrest
              have := hrest.length_le
              rw [List.length_append] at this
              omega
            let x2 : Stream := { x with st := { s' with numBlank := b.numBlank, triples := [], input := b.input ++ c :: u }, blocks := bs }
            have hreset : resetAndRead b { x with st := s' } = .ok (some (x2.backup, x2)) := by
              simp only [resetAndRead, hbl, hb.none, List.take_zero, Nat.not_lt_zero, if_false]
              rfl
            obtain ⟨d0, hd0⟩ := hb.cur
            have henv : envOf x2.st = envOf x.st := by simp only [envOf, x2, h2]
            have hcuts := hm.cuts
            rw [hbl] at hcuts
            have hR : Reading hex D x2.blocks.flatten x2.st.input x2.st.numBlank (envOf x2.st) d0 ts := by
              rw [henv]
              refine ⟨hd0.ok, hd0.sub, ?_, hd0.den⟩
              have := hd0.layout
              rw [hbl, hflat, ← List.append_assoc] at this
              exact this
            have hsuf : x2.st.input <:+ t ++ c :: u := by
              obtain ⟨w, hw⟩ := hb.suf
              exact ⟨w, by simp [x2, ← hw]⟩
            have hrest2 : x2.st.input ++ x2.blocks.flatten <:+ T := by
              rw [hflat, ← List.append_assoc] at hrest
              exact hrest
            have key := ih x2.backup x2 (t ++ c :: u) ts
              ⟨⟨d0, hR⟩, by rw [henv]; exact hm.le, hsuf, hcuts.2, fun y hy => hm.ne y (by rw [hbl]; simp; exact .inr hy), hrest2⟩
              ⟨⟨d0, hR⟩, rfl, hsuf, hrest2⟩ (by simp [x2]) hex' ?_
            · obtain ⟨x', t', ts', k1, k2, k3, k4, k5, k6⟩ := key
              refine ⟨x', t', ts', ?_, k2, k3, k4, k5, ?_⟩
              rotate_left
              · have k6 : x'.blocks.length ≤ bs.length := k6
                simp only [List.length_cons]
                omega
              rw [hbl] at hreset
              rw [retry, hreset]
              simp only
              rw [if_neg (by exact Nat.not_lt.mpr hsz)]
              exact k1
            · rw [hbl] at hn
              simp only [List.length_cons, Nat.add_mul, Nat.one_mul] at hn
              show bs.length * (T.length + 1) + (b.input ++ c :: u).length < n
              omega
        rcases h1 with h1 | h1
        · obtain ⟨x', t', ts', k1, k2⟩ := hretry false (by simp)
          refine ⟨x', t', ts', ?_, k2⟩
          rw [fill, if_pos ⟨hmin, hex'⟩, h1]
          exact k1
        · obtain ⟨x', t', ts', k1, k2⟩ := hretry true (by
            intro _ hR
            have := (h3 hR).2.2.2
            rw [h1] at this
            simp at this)
          refine ⟨x', t', ts', ?_, k2⟩
          rw [fill, if_pos ⟨hmin, hex'⟩, h1]
          exact k1
    · refine ⟨x, t, ts2, ?_, hm, hts, by simp [hex'], .inl (by omega), Nat.le_refl _⟩
      rw [fill, if_neg (by simp [hmin])]

/-! ### The whole file -/

theorem pop_cons {x : Stream} {l : List Triple} {a : Triple} (h : x.st.triples = l ++ [a]) :
    pop x = (some a, { x with st := { x.st with triples := l } }) := by
  simp [pop, h]

/-- Batches that are read one after the other. -/
theorem readAll_of {e : Escapes} {fuel min max loops : Nat} (M : Stream → List Triple → Prop)
    (hM : ∀ x l ts, M x ts → M { x with st := { x.st with triples := l } } ts)
    (hfill : ∀ x ts, M x ts → x.st.triples = [] → ∃ x' ts', fill e fuel min max loops x.backup x = .ok x' ∧ M x' ts' ∧
      ts = x'.st.triples ++ ts' ∧ (x'.st.triples = [] → ts' = [])) :
    ∀ (n : Nat) (x : Stream) (ts : List Triple), M x ts → (x.st.triples ++ ts).length < n →
      ∃ out, readAll (streamGetLine e fuel loops min max) n x = .ok out ∧ out.Perm (x.st.triples ++ ts) := by
  intro n
  induction n with
  | zero => intro x ts _ h; omega
  | succ n ih =>
    intro x ts hm hn
    -- one triple is taken
    have take : ∀ (y : Stream) (ts' : List Triple) (l : List Triple) (a : Triple), M y ts' → y.st.triples = l ++ [a] →
        (y.st.triples ++ ts').length < n + 1 →
        ∃ out, (match (Outcome.ok (pop y) : Outcome (Option Triple × Stream)) with
          | .ok (none, _) => .ok []
          | .ok (some t, y) => (readAll (streamGetLine e fuel loops min max) n y).map (t :: ·)
          | .throw => .throw
          | .ub => .ub
          | .diverge => .diverge) = Outcome.ok out ∧ out.Perm (y.st.triples ++ ts') := by
      intro y ts' l a hy1 hy4 hy5
      rw [pop_cons hy4]
      obtain ⟨out, h1, h2⟩ := ih { y with st := { y.st with triples := l } } ts' (hM y l ts' hy1)
        (by rw [hy4] at hy5; simp at hy5 ⊢; omega)
      refine ⟨a :: out, ?_, ?_⟩
      · simp only [h1, Outcome.map]
      · rw [hy4, List.append_assoc, List.singleton_append]
        exact (List.Perm.cons a h2).trans List.perm_middle.symm
    by_cases hx : x.st.triples = []
    · obtain ⟨y, ts', h1, h2, h3, h4⟩ := hfill x ts hm hx
      rw [readAll, streamGetLine, if_pos hx, h1]
      rw [hx, List.nil_append, h3]
      rw [hx, List.nil_append, h3] at hn
      rcases List.eq_nil_or_concat y.st.triples with hy | ⟨l, a, hy⟩
      · refine ⟨[], ?_, ?_⟩
        · simp [pop, hy]
        · rw [hy, h4 hy]; exact List.Perm.refl _
      · rw [List.concat_eq_append] at hy
        exact take y ts' l a h2 hy hn
    · rw [readAll, streamGetLine, if_neg hx]
      rcases List.eq_nil_or_concat x.st.triples with hy | ⟨l, a, hy⟩
      · exact absurd hy hx
      · rw [List.concat_eq_append] at hy
        exact take x ts l a hm hy hn

theorem readAll_spec {g : Env} {D : List Stmt} (hg : Declares D g) {T : Str} {fuel min max loops : Nat} (hf : 3 * T.length < fuel)
    (hmax : byteSize T ≤ max) (hmin : 0 < min) (n : Nat) (x : Stream) (t : Str) (ts : List TurtleSpec.Triple)
    (hm : Midst hex g D T x t ts) (hex' : x.exhausted = true → ts = []) (hn : (x.st.triples ++ ts).length < n)
    (hl : (x.blocks.length + 1) * (T.length + 1) < loops) :
    ∃ out, readAll (streamGetLine (escapes hex) fuel loops min max) n x = .ok out ∧ out.Perm (x.st.triples ++ ts) := by
  refine readAll_of (fun x ts => ∃ t, Midst hex g D T x t ts ∧ (x.exhausted = true → ts = []) ∧
    (x.blocks.length + 1) * (T.length + 1) < loops) ?_ ?_ n x ts ⟨t, hm, hex', hl⟩ hn
  · rintro x l ts ⟨t, h1, h2, h3⟩
    exact ⟨t, ⟨h1.cur, h1.le, h1.suf, h1.cuts, h1.ne, h1.rest⟩, h2, h3⟩
  · rintro x ts ⟨t, hm, hex', hl⟩ hx
    cases he : x.exhausted with
    | true =>
      refine ⟨x, ts, ?_, ⟨t, hm, hex', hl⟩, by rw [hx]; rfl, fun _ => hex' he⟩
      obtain ⟨k, rfl⟩ : ∃ k, loops = k + 1 := ⟨loops - 1, by omega⟩
      rw [fill, if_neg (by simp [he])]
    | false =>
      obtain ⟨x', t', ts', h1, h2, h3, h4, h5, h6⟩ := fill_spec (min := min) (max := max) hg hf hmax loops x.backup x t ts hm
        ⟨hm.cur, by simp [Stream.backup, hx], hm.suf, hm.rest⟩ (by rw [hx]; rfl) he (by
          have := hm.rest.length_le
          rw [List.length_append] at this
          rw [Nat.add_mul, Nat.one_mul] at hl
          omega)
      refine ⟨x', ts', h1, ⟨t', h2, h4, ?_⟩, h3, ?_⟩
      · exact Nat.lt_of_le_of_lt (Nat.mul_le_mul_right _ (Nat.succ_le_succ h6)) hl
      · intro hy
        apply h4
        rcases h5 with h5 | h5
        · rw [hy] at h5
          simp at h5
          omega
        · exact h5

/-! ### A single block -/

/-- The rest of a document in a single block. -/
structure Alone (hex : Str → Str) (T : Nat) (x : Stream) (ts : List TurtleSpec.Triple) : Prop where
  cur : ∃ d : List Stmt, (∀ st ∈ d, st.Ok hex) ∧ Layout Sep (d.flatMap Stmt.toks) x.st.input ∧
    denFrom anonName (envOf x.st) x.st.numBlank d = some ts
  none : x.blocks = []
  len : x.st.input.length ≤ T

theorem fill_alone {T fuel min max : Nat} (hf : 3 * T < fuel) {ts : List TurtleSpec.Triple} : ∀ (n : Nat) (b : Backup) (x : Stream)
    (ts2 : List TurtleSpec.Triple), Alone hex T x ts2 → ts = x.st.triples ++ ts2 → x.exhausted = false → x.st.input.length < n →
    ∃ x' ts', fill (escapes hex) fuel min max n b x = .ok x' ∧ Alone hex T x' ts' ∧ ts = x'.st.triples ++ ts' ∧
      (x'.exhausted = true → ts' = []) ∧ (min ≤ x'.st.triples.length ∨ x'.exhausted = true) := by
  intro n
  induction n with
  | zero => intro b x ts2 _ _ _ h; omega
  | succ n ih =>
    intro b x ts2 hm hts he hn
    by_cases hmin : x.st.triples.length < min
    · have hlen := hm.len
      obtain ⟨d, hok, hl, hd⟩ := hm.cur
      cases d with
      | nil =>
        obtain ⟨f, rfl⟩ : ∃ f, fuel = f + 1 := ⟨fuel - 1, by omega⟩
        have hst := end_spec (hex := hex) hl f
        have hts2 : ts2 = [] := by simpa [denFrom] using hd.symm
        subst hts2
        have hskip : skipWC (x.st.setIn []).input = [] := rfl
        refine ⟨{ x with st := { x.st.setIn [] with input := skipWC (x.st.setIn []).input }, exhausted := true }, [], ?_, ?_, ?_, fun _ => rfl, .inr rfl⟩
        · rw [fill, if_pos ⟨hmin, he⟩, hst]
          simp [retry, resetAndRead, hm.none]
        · refine ⟨⟨[], by simp, ?_, rfl⟩, hm.none, ?_⟩
          · simp only [hskip]
            exact .nil ⟨[], [], [], rfl, by simp [blanks], .inl rfl, by simp [blanks]⟩
          · simp [hskip]
        · simpa [State.setIn] using hts
      | cons st d' =>
        simp only [denFrom, Option.bind_eq_some_iff, Option.map_eq_some_iff, Prod.exists] at hd
        obtain ⟨env', ts1, k, hd1, ts3, hd2, rfl⟩ := hd
        obtain ⟨s', h1, h2, h3⟩ := stmt_fuel (env := envOf x.st) (s := x.st) (hok st (by simp)) (rest := d'.flatMap Stmt.toks)
          (by simpa using hl) (fun _ => rfl) hd1 (fuel := fuel) (by omega)
        have hgood := statement_good (hex := hex) (fuel := fuel) x.st (by omega)
        rw [h1] at hgood
        have hlt := hgood.2 rfl rfl
        have henv : envOf s' = env' := funext h3.env
        obtain ⟨x', ts', k1, k2⟩ := ih b { x with st := s' } ts3
          ⟨⟨d', fun y hy => hok y (by simp [hy]), h2, by rw [henv, h3.numBlank]; exact hd2⟩, hm.none, by simp only; omega⟩
          (by simp only [h3.triples, hts, List.append_assoc]) he (by simp only; omega)
        refine ⟨x', ts', ?_, k2⟩
        rw [fill, if_pos ⟨hmin, he⟩, h1]
        exact k1
    · refine ⟨x, ts2, ?_, hm, hts, by simp [he], .inl (by omega)⟩
      rw [fill, if_neg (by simp [hmin])]

/-- A document in a single block is read completely; prefixes may be declared again. -/
theorem single_spec (d : List Stmt) (text : Str) (ts : List TurtleSpec.Triple) (hok : ∀ st ∈ d, st.Ok hex)
    (hl : Layout Sep (d.flatMap Stmt.toks) text) (hd : den anonName d = some ts) {fuel min max loops n : Nat}
    (hf : 3 * text.length < fuel) (hmin : 0 < min) (hloops : text.length < loops) (hn : ts.length < n) :
    ∃ out, readAll (streamGetLine (escapes hex) fuel loops min max) n (Stream.init [text]) = .ok out ∧ out.Perm ts := by
  refine readAll_of (fun x ts => Alone hex text.length x ts ∧ (x.exhausted = true → ts = [])) ?_ ?_ n (Stream.init [text]) ts ?_ hn
  · rintro x l ts ⟨h1, h2⟩
    exact ⟨⟨h1.cur, h1.none, h1.len⟩, h2⟩
  · rintro x ts ⟨hm, hex'⟩ hx
    cases he : x.exhausted with
    | true =>
      refine ⟨x, ts, ?_, ⟨hm, hex'⟩, by rw [hx]; rfl, fun _ => hex' he⟩
      obtain ⟨k, rfl⟩ : ∃ k, loops = k + 1 := ⟨loops - 1, by omega⟩
      rw [fill, if_neg (by simp [he])]
    | false =>
      obtain ⟨x', ts', h1, h2, h3, h4, h5⟩ := fill_alone (min := min) (max := max) (ts := ts) hf loops x.backup x ts hm (by simp [hx]) he
        (Nat.lt_of_le_of_lt hm.len hloops)
      refine ⟨x', ts', h1, ⟨h2, h4⟩, h3, ?_⟩
      intro hy
      apply h4
      rcases h5 with h5 | h5
      · rw [hy] at h5
        simp at h5
        omega
      · exact h5
  · refine ⟨⟨⟨d, hok, hl, ?_⟩, rfl, Nat.le_refl _⟩, by simp [Stream.init]⟩
    exact hd

/-- A document is read completely, however it is divided into blocks. -/
theorem stream_spec (d : List Stmt) (first : Str) (blocks : List Str) (ts : List TurtleSpec.Triple) (hok : ∀ st ∈ d, st.Ok hex)
    (hcons : Consistent d) (hl : Layout Sep (d.flatMap Stmt.toks) (first ++ blocks.flatten)) (hd : den anonName d = some ts)
    (hcut : Cuts first blocks) (hne : ∀ b ∈ blocks, b ≠ []) {fuel min max loops n : Nat}
    (hf : 3 * (first ++ blocks.flatten).length < fuel) (hmax : byteSize (first ++ blocks.flatten) ≤ max) (hmin : 0 < min)
    (hloops : (blocks.length + 1) * ((first ++ blocks.flatten).length + 1) < loops) (hn : ts.length < n) :
    ∃ out, readAll (streamGetLine (escapes hex) fuel loops min max) n (Stream.init (first :: blocks)) = .ok out ∧ out.Perm ts := by
  obtain ⟨g, hg⟩ := declares hcons
  refine readAll_spec hg hf hmax hmin n (Stream.init (first :: blocks)) first ts ?_ (by simp [Stream.init]) (by simpa [Stream.init] using hn) hloops
  refine ⟨⟨d, hok, fun _ h => h, hl, fun _ => none, fun _ _ h => by simp at h, hd⟩, fun p v h => ?_, List.suffix_refl _, hcut, hne, List.suffix_refl _⟩
  simp [envOf, Stream.init, lookup] at h

/-! ### All texts -/

theorem fill_safe {e : Escapes} {L fuel min max : Nat} (hgood : ∀ s : State, s.input.length ≤ L → Good true s.input.length (statement e fuel s)) :
    ∀ (n : Nat) (b : Backup) (x : Stream), b.input.length + x.blocks.flatten.length ≤ L → x.st.input.length ≤ b.input.length →
    x.blocks.length * (L + 1) + x.st.input.length < n →
    fill e fuel min max n b x ≠ .ub ∧ fill e fuel min max n b x ≠ .diverge := by
  intro n
  induction n with
  | zero => intro b x _ _ h; omega
  | succ n ih =>
    intro b x h1 h2 h3
    rw [fill]
    by_cases hc : x.st.triples.length < min ∧ x.exhausted = false
    · rw [if_pos hc]
      have hg := hgood x.st (by omega)
      have hretry : ∀ (raised : Bool) (s : State), retry max (fill e fuel min max n) b raised { x with st := s } ≠ .ub ∧
          retry max (fill e fuel min max n) b raised { x with st := s } ≠ .diverge := by
        intro raised s
        unfold retry resetAndRead
        simp only
        cases hb : x.blocks with
        | nil => cases raised <;> simp
        | cons c bs =>
          cases c with
          | nil => cases raised <;> simp
          | cons a u =>
            rw [hb] at h1 h3
            simp only [List.flatten_cons, List.length_append, List.length_cons] at h1 h3
            simp only
            by_cases ht : s.triples.length < b.numTriples
            · simp [ht]
            · rw [if_neg ht]
              simp only
              split
              · simp
              · apply ih
                · simp only [Stream.backup, List.length_append, List.length_cons]; omega
                · simp [Stream.backup]
                · simp only [List.length_append, List.length_cons]
                  rw [Nat.add_mul, Nat.one_mul] at h3
                  omega
      cases hs : statement e fuel x.st with
      | ok r s =>
        rw [hs] at hg
        cases r with
        | true =>
          have := hg.2 rfl rfl
          exact ih b { x with st := s } h1 (by simp only; omega) (by simp only; omega)
        | false => exact hretry false s
      | error s => exact hretry true s
      | abort => simp
      | ub => rw [hs] at hg; exact hg.elim
      | diverge => rw [hs] at hg; exact hg.elim
    · rw [if_neg hc]; simp

/-- Every call ends. -/
theorem streamGetLine_safe {L fuel loops : Nat} (min max : Nat) (x : Stream) (hL : x.st.input.length + x.blocks.flatten.length ≤ L)
    (hf : 3 * L < fuel) (hl : (x.blocks.length + 1) * (L + 1) < loops) :
    streamGetLine (escapes hex) fuel loops min max x ≠ .ub ∧ streamGetLine (escapes hex) fuel loops min max x ≠ .diverge := by
  have h := fill_safe (e := escapes hex) (L := L) (fuel := fuel) (min := min) (max := max)
    (fun s hs => statement_good (hex := hex) (fuel := fuel) s (by omega)) loops x.backup x
    (by simpa [Stream.backup] using hL) (by simp [Stream.backup]) (by rw [Nat.add_mul, Nat.one_mul] at hl; omega)
  unfold streamGetLine
  split
  · cases hx : fill (escapes hex) fuel min max loops x.backup x with
    | ok y => simp
    | throw => simp
    | ub => exact absurd hx h.1
    | diverge => exact absurd hx h.2
  · simp

/-! ### Files that are mapped into memory -/

theorem readAll_pops {e : Escapes} {fuel loops min : Nat} : ∀ (n : Nat) (x : Stream), x.st.triples.length < n → x.exhausted = true → 0 < loops →
    readAll (mmapGetLine e fuel loops min) n x = .ok x.st.triples.reverse := by
  intro n
  induction n with
  | zero => intro x h; omega
  | succ n ih =>
    intro x h he hl
    rw [readAll, mmapGetLine]
    rcases List.eq_nil_or_concat x.st.triples with hx | ⟨l, a, hx⟩
    · obtain ⟨k, rfl⟩ : ∃ k, loops = k + 1 := ⟨loops - 1, by omega⟩
      rw [if_pos hx, mmapFill, if_neg (by simp [he])]
      simp [pop, hx]
    · rw [List.concat_eq_append] at hx
      rw [if_neg (by rw [hx]; simp), pop_cons hx]
      simp only
      rw [ih { x with st := { x.st with triples := l } } (by rw [hx] at h; simp at h; simpa using h) he hl]
      simp [Outcome.map, hx]

/-- The memory-mapped file is read up to the end of its first statement. -/
theorem mmap_first {st : Stmt} {rest : List Tok} {text : Str} {env' : Env} {ts : List Triple} {k : Nat} (hok : st.Ok hex)
    (hl : Layout Sep (st.toks ++ rest) text) (hd : st.den anonName (fun _ => none) 0 = some (env', ts, k)) {fuel loops min n : Nat}
    (hf : 3 * text.length < fuel) (hmin : 0 < min) (hloops : 0 < loops) (hn : ts.length < n) :
    readAll (mmapGetLine (escapes hex) fuel loops min) n (Stream.init [text]) = .ok ts.reverse := by
  obtain ⟨s', h1, h2, h3⟩ := stmt_fuel (env := fun _ => none) (s := { input := text }) hok hl (fun _ => rfl) hd hf
  obtain ⟨m, rfl⟩ : ∃ m, n = m + 1 := ⟨n - 1, by omega⟩
  obtain ⟨k, rfl⟩ : ∃ k, loops = k + 1 := ⟨loops - 1, by omega⟩
  have hts : s'.triples = ts := by simpa using h3.triples
  have hfill : mmapFill (escapes hex) fuel min (k + 1) (Stream.init [text]) =
      .ok { st := { s' with input := skipWC s'.input }, blocks := [], exhausted := true } := by
    rw [mmapFill, if_pos (by simp [Stream.init, hmin])]
    simp only [Stream.init, h1]
  rw [readAll, mmapGetLine, if_pos (by simp [Stream.init]), hfill]
  rcases List.eq_nil_or_concat ts with rfl | ⟨l, a, rfl⟩
  · simp [pop, hts]
  · rw [List.concat_eq_append] at hts
    simp only
    rw [pop_cons (x := { st := { s' with input := skipWC s'.input }, blocks := [], exhausted := true }) hts]
    simp only
    rw [readAll_pops m _ (by simp only; simp at hn; omega) rfl (by omega)]
    simp [Outcome.map]

/-- At the end of the text the loop goes on. -/
theorem mmapFill_empty {fuel min : Nat} (hmin : 0 < min) : ∀ (n : Nat) (x : Stream), x.st.triples = [] → x.exhausted = false →
    Layout Sep [] x.st.input → mmapFill (escapes hex) (fuel + 1) min n x = .diverge := by
  intro n
  induction n with
  | zero => intro x _ _ _; rfl
  | succ n ih =>
    intro x h1 h2 h3
    rw [mmapFill, if_pos (by simp [h1, h2, hmin]), end_spec (hex := hex) h3 fuel]
    exact ih _ (by simpa [State.setIn] using h1) h2 (.nil ⟨[], [], [], rfl, by simp [blanks], .inl rfl, by simp [blanks]⟩)

end Verif.Turtle
