import Verif.Lemmas.TurtleAppend
/-
A statement that is read from the beginning of a text is also read from the whole text.
-/
namespace Verif.Turtle
open Verif.RdfEscaping

variable {hex : Str → Str} {t r : Str}

/-! ### Triples -/

def closed : Bool → Str → Prop := fun b x => b = true ∧ Ahead sym x

theorem back_triples (hcut : CleanCut t r) (n : Nat) : Back (triples (escapes hex) n) := by
  have h := good_run (hex := hex) hcut n
  refine back_subject.bind fun b => back_ite ?_ ?_
  · exact (h.back .predicateObjectList).bind fun b => back_ite (back_ok (fun s => s) true fun _ => rfl) back_error
  · exact (h.back .blankNodePropertyList).bind fun b => back_ite
      ((h.back .predicateObjectList).bind fun _ => back_ok (fun s => s) true fun _ => rfl) (back_ok (fun s => s) false fun _ => rfl)

theorem sure_triples (hcut : CleanCut t r) (n : Nat) : Sure t r closed (triples (escapes hex) n) := by
  have h := good_run (hex := hex) hcut n
  have b1 : ∀ b : Bool, Back fun s : State => if b then .ok true s else .error s := fun b =>
    back_ite (back_ok (fun s => s) true fun _ => rfl) back_error
  have b2 : Back fun s => (run (escapes hex) n .predicateObjectList s).bind fun _ s => .ok true s :=
    (h.back .predicateObjectList).bind fun _ => back_ok (fun s => s) true fun _ => rfl
  have b3 : ∀ b : Bool, Back fun s => if b then (run (escapes hex) n .predicateObjectList s).bind fun _ s => .ok true s else .ok false s :=
    fun b => back_ite b2 (back_ok (fun s => s) false fun _ => rfl)
  refine Sure.bind (sure_subject hcut) back_subject (fun b => ?_)
    (fun b => back_ite ((h.back .predicateObjectList).bind b1) ((h.back .blankNodePropertyList).bind b3)) ?_
  · refine Sure.ite ?_ ?_
    · refine Sure.bind h.pol (h.back .predicateObjectList) (fun b => Sure.ite (sure_const fun s => rfl) (sure_const fun s => rfl)) b1 ?_
      intro b s hs
      cases b with
      | true => exact hs.2.2
      | false => exact hs.elim
    · refine Sure.bind (q1 := any) h.bnpl (h.back .blankNodePropertyList) (fun b => Sure.ite ?_ (sure_const fun s => rfl)) b3 ?_
      · refine Sure.bind h.pol (h.back .predicateObjectList) (fun b => sure_const fun s => rfl)
          (fun _ => back_ok (fun s => s) true fun _ => rfl) ?_
        intro b s hs
        exact hs.2.2
      · intro _ _ _; trivial
  · intro b s hs hb
    subst hb
    have hs : Fine closed ((run (escapes hex) n .blankNodePropertyList s).bind fun b s =>
      if b then (run (escapes hex) n .predicateObjectList s).bind fun _ s => .ok true s else .ok false s) := hs
    apply h.starts s
    cases hr : run (escapes hex) n .blankNodePropertyList s with
    | ok b s' =>
      cases b with
      | true => exact .inl ⟨s', rfl⟩
      | false =>
        rw [hr] at hs
        have := hs.2.1
        simp at this
    | abort => exact .inr rfl
    | error s' => rw [hr] at hs; exact hs.elim
    | ub => rw [hr] at hs; exact hs.elim
    | diverge => rw [hr] at hs; exact hs.elim

/-! ### The last function called -/

/-- The function succeeds, or fails for good. -/
def Found (f : P) (s : State) : Prop := f s = .abort ∨ ∃ s', f s = .ok true s'

def Final (t r : Str) (f : P) : Prop := ∀ s, s.input <:+ t → Found f s → Alive s.input ∧ Same r f s

def Pass (t r : Str) (f : P) : Prop := ∀ s s1, s.input <:+ t → f s = .ok false s1 →
  s1.input <:+ s.input ∧ (Alive s1.input → Alive s.input ∧ Same r f s)

theorem Final.por {f g : P} (hf : Final t r f) (pf : Pass t r f) (hg : Final t r g) : Final t r (por f g) := by
  intro s hs h
  have hc : Found f s ∨ ∃ s1, f s = .ok false s1 ∧ Found g s1 := by
    rcases h with h | ⟨s', h⟩
    · rcases bind_abort h with h | ⟨b, s1, h1, h2⟩
      · exact .inl (.inl h)
      · cases b with
        | true => simp at h2
        | false => exact .inr ⟨s1, h1, .inl h2⟩
    · obtain ⟨b, s1, h1, h2⟩ := bind_ok h
      cases b with
      | true => exact .inl (.inr ⟨s1, h1⟩)
      | false => exact .inr ⟨s1, h1, .inr ⟨s', h2⟩⟩
  rcases hc with hf' | ⟨s1, h1, hg'⟩
  · obtain ⟨a1, a2⟩ := hf s hs hf'
    refine ⟨a1, a2.por fun s1 h1 => ?_⟩
    rcases hf' with h | ⟨s', h⟩ <;> (rw [h] at h1; simp at h1)
  · obtain ⟨p1, p2⟩ := pf s s1 hs h1
    obtain ⟨g1, g2⟩ := hg s1 (p1.trans hs) hg'
    obtain ⟨a1, a2⟩ := p2 g1
    refine ⟨a1, a2.por fun s2 h2 => ?_⟩
    rw [h1] at h2
    simp at h2
    subst h2
    exact g2

theorem Pass.por {f g : P} (pf : Pass t r f) (pg : Pass t r g) : Pass t r (por f g) := by
  intro s s2 hs h
  obtain ⟨b, s1, h1, h2⟩ := bind_ok h
  cases b with
  | true => simp at h2
  | false =>
    obtain ⟨p1, p2⟩ := pf s s1 hs h1
    obtain ⟨q1, q2⟩ := pg s1 s2 (p1.trans hs) h2
    refine ⟨q1.trans p1, fun ha => ?_⟩
    obtain ⟨a1, a2⟩ := q2 ha
    obtain ⟨c1, c2⟩ := p2 a1
    refine ⟨c1, c2.por fun s3 h3 => ?_⟩
    rw [h1] at h3
    simp at h3
    subst h3
    exact a2

/-- A function followed by the last one. -/
theorem Final.seq {q : Bool → Str → Prop} {f g h : P} (hf : Sure t r q f) (bf : Back f) (hq : ∀ x, q true x) (hg : Final t r g)
    (hh : ∀ s, ¬ Found h s) : Final t r fun s => (f s).bind fun b s => if b then g s else h s := by
  intro s hs hfound
  have hc : f s = .abort ∨ ∃ s1, f s = .ok true s1 ∧ Found g s1 := by
    rcases hfound with hf | ⟨s', hf⟩
    · rcases bind_abort hf with hf | ⟨b, s1, h1, h2⟩
      · exact .inl hf
      · cases b with
        | true => exact .inr ⟨s1, h1, .inl h2⟩
        | false => exact absurd (.inl h2) (hh s1)
    · obtain ⟨b, s1, h1, h2⟩ := bind_ok hf
      cases b with
      | true => exact .inr ⟨s1, h1, .inr ⟨s', h2⟩⟩
      | false => exact absurd (.inr ⟨s', h2⟩) (hh s1)
  rcases hc with hc | ⟨s1, h1, hg'⟩
  · have hs1 : Same r f s := hf s hs (by rw [hc]; trivial)
    refine ⟨bf.abort s hc, hs1.bind fun b s2 h2 => ?_⟩
    rw [hc] at h2
    simp at h2
  · obtain ⟨a1, a2⟩ := hg s1 ((bf.suffix h1).trans hs) hg'
    have hs1 : Same r f s := hf s hs (by rw [h1]; exact ⟨a1, hq _⟩)
    refine ⟨bf.alive h1 a1, hs1.bind fun b s2 h2 => ?_⟩
    rw [h1] at h2
    simp at h2
    obtain ⟨rfl, rfl⟩ := h2
    exact a2

theorem Pass.tok {id : TokId} {g : P} (hp : Plain id) (hg : ∀ s s', g s ≠ .ok false s') :
    Pass t r fun s => (skip id s).bind fun b s => if b then g s else .ok false s := by
  intro s s1 hs h
  obtain ⟨b, s2, h1, h2⟩ := bind_ok h
  cases b with
  | true => exact absurd h2 (hg s2 s1)
  | false =>
    simp at h2
    subst h2
    have bk := (tok_skip (r := []) id).back
    refine ⟨bk.suffix h1, fun ha => ⟨bk.alive h1 ha, ?_⟩⟩
    have hsk : Same r (skip id) s := (tok_skip id).plain (t := t) (q := any) hp s hs (by rw [h1]; exact ⟨ha, trivial⟩)
    refine hsk.bind fun b s3 h3 => ?_
    rw [h1] at h3
    simp at h3
    obtain ⟨rfl, rfl⟩ := h3
    rfl

/-- A dot, and what happens then. -/
theorem Final.dot {g h : P} (hg : ∀ s, Same r g s) (hh : ∀ s, ¬ Found h s) :
    Final t r fun s => (skip .dot s).bind fun b s => if b then g s else h s := by
  intro s hs hf
  have htok := tok_skip (r := r) .dot
  rcases htok.cases s with ⟨w, y, h1, h2⟩ | ⟨h1, h2⟩
  · obtain ⟨c, u, hx, hc⟩ := consume_can h1
    have : c = '.' := by simpa [regex, Re.can, Re.chr] using hc
    subst this
    have ha : Alive s.input := ⟨'.', by decide, Live.of_head hx (by decide) (by simp)⟩
    refine ⟨ha, (htok.dot ha).bind fun b s3 h3 => ?_⟩
    rw [h2] at h3
    simp at h3
    obtain ⟨rfl, rfl⟩ := h3
    exact hg _
  · exfalso
    rw [Found, h2] at hf
    exact hh _ hf

/-! ### Directives -/

theorem prefixID_eq (e : Escapes) (s : State) : prefixID e s = (skip .turtlePrefix s).bind fun b s =>
    if b then (check pnameNS s).bind fun b s =>
      if b then (check (iriref e) s).bind fun b s =>
        if b then (skip .dot s).bind fun b s =>
          if b then lift (stripBrackets s.last) fun v => .ok true { s with prefixes := (s.activePrefix, v) :: s.prefixes }
          else .error s
        else .error s
      else .error s
    else .ok false s := by
  unfold prefixID pand
  congr 1
  funext b s
  cases b with
  | false => rfl
  | true =>
    simp only [if_true]
    cases check pnameNS s with
    | ok b s =>
      cases b with
      | false => rfl
      | true =>
        simp only [Res.bind, if_true]
        cases check (iriref e) s with
        | ok b s =>
          cases b with
          | false => rfl
          | true =>
            simp only [check, if_true]
            cases skip .dot s with
            | ok b s => cases b <;> rfl
            | error s => rfl
            | abort => rfl
            | ub => rfl
            | diverge => rfl
        | error s => rfl
        | abort => rfl
        | ub => rfl
        | diverge => rfl
    | error s => rfl
    | abort => rfl
    | ub => rfl
    | diverge => rfl

theorem sparqlPrefix_eq (e : Escapes) (s : State) : sparqlPrefix e s = (skip .sparqlPrefix s).bind fun b s =>
    if b then (pnameNS s).bind fun b s =>
      if b then (iriref e s).bind fun b s =>
        if b then .ok true { s with prefixes := (s.activePrefix, s.last) :: s.prefixes } else .error s
      else .error s
    else .ok false s := by
  unfold sparqlPrefix pand
  congr 1
  funext b s
  cases b with
  | false => rfl
  | true =>
    simp only [if_true]
    cases pnameNS s with
    | ok b s =>
      cases b with
      | false => rfl
      | true => rfl
    | error s => rfl
    | abort => rfl
    | ub => rfl
    | diverge => rfl

theorem error_found (s : State) : ¬ Found (fun s => .error s) s := by
  rintro (h | ⟨_, h⟩) <;> simp at h
theorem false_found (s : State) : ¬ Found (fun s => .ok false s) s := by
  rintro (h | ⟨_, h⟩) <;> simp at h

theorem final_prefixID : Final t r (prefixID (escapes hex)) := by
  have : prefixID (escapes hex) = _ := funext (prefixID_eq (escapes hex))
  rw [this]
  refine Final.seq (q := any) ((tok_skip .turtlePrefix).plain (by unfold Plain; decide)) (tok_skip (r := []) .turtlePrefix).back
    (fun _ => trivial) ?_ false_found
  refine Final.seq (q := any) (Sure.check sure_pnameNS (tok_pnameNS (r := [])).back fun _ _ hb => by simp at hb)
    (tok_pnameNS (r := [])).back.check (fun _ => trivial) ?_ error_found
  refine Final.seq (q := any) (Sure.check (sure_iriref _) (back_iriref _) fun _ _ hb => by simp at hb)
    (back_iriref _).check (fun _ => trivial) ?_ error_found
  exact Final.dot (fun s => lift_add _ fun v => rfl) error_found

theorem final_iriref {g : P} (hg : ∀ s, Same r g s) :
    Final t r fun s => (iriref (escapes hex) s).bind fun b s => if b then g s else .error s := by
  intro s hs hf
  have : Found (iriref (escapes hex)) s := by
    rcases hf with hf | ⟨s', hf⟩
    · rcases bind_abort hf with hf | ⟨b, s1, h1, h2⟩
      · exact .inl hf
      · cases b with
        | true => exact .inr ⟨s1, h1⟩
        | false => simp at h2
    · obtain ⟨b, s1, h1, h2⟩ := bind_ok hf
      cases b with
      | true => exact .inr ⟨s1, h1⟩
      | false => simp at h2
  obtain ⟨a1, a2⟩ := iriref_last (r := r) this
  refine ⟨a1, a2.bind fun b s1 _ => ?_⟩
  cases b with
  | true => exact hg s1
  | false => rfl

theorem final_base {id : TokId} (hp : Plain id) : Final t r (baseDirective (escapes hex) id) :=
  Final.seq (q := any) ((tok_skip id).plain hp) (tok_skip (r := []) id).back (fun _ => trivial) (final_iriref fun _ => rfl) false_found

theorem final_sparqlPrefix : Final t r (sparqlPrefix (escapes hex)) := by
  have : sparqlPrefix (escapes hex) = _ := funext (sparqlPrefix_eq (escapes hex))
  rw [this]
  refine Final.seq (q := any) ((tok_skip .sparqlPrefix).plain (by unfold Plain; decide)) (tok_skip (r := []) .sparqlPrefix).back
    (fun _ => trivial) ?_ false_found
  exact Final.seq sure_pnameNS (tok_pnameNS (r := [])).back (fun _ hb => by simp at hb) (final_iriref fun _ => rfl) error_found

theorem pass_prefixID : Pass t r (prefixID (escapes hex)) := by
  refine Pass.tok (by unfold Plain; decide) ?_
  intro s s' h
  obtain ⟨b, s1, h1, h2⟩ := bind_ok h
  cases b with
  | true => obtain ⟨v, _, hv⟩ := lift_ok h2; simp at hv
  | false => simp at h2

theorem pass_base {id : TokId} (hp : Plain id) : Pass t r (baseDirective (escapes hex) id) := by
  refine Pass.tok hp ?_
  intro s s' h
  obtain ⟨b, s1, h1, h2⟩ := bind_ok h
  cases b <;> simp at h2

theorem pass_sparqlPrefix : Pass t r (sparqlPrefix (escapes hex)) := by
  refine Pass.tok (by unfold Plain; decide) ?_
  intro s s' h
  obtain ⟨b, s1, h1, h2⟩ := bind_ok h
  cases b <;> simp at h2

theorem plain_base : Plain .turtleBase ∧ Plain .sparqlBase := by unfold Plain; decide

theorem final_directive : Final t r (directive (escapes hex)) :=
  final_prefixID.por pass_prefixID ((final_base plain_base.1).por (pass_base plain_base.1)
    (final_sparqlPrefix.por pass_sparqlPrefix (final_base plain_base.2)))

theorem pass_directive : Pass t r (directive (escapes hex)) :=
  pass_prefixID.por ((pass_base plain_base.1).por (pass_sparqlPrefix.por (pass_base plain_base.2)))

theorem final_triples (hcut : CleanCut t r) (n : Nat) : Final t r (pand (triples (escapes hex) n) (skip .dot)) := by
  have bt := back_triples (hex := hex) hcut n
  have st := sure_triples (hex := hex) hcut n
  have htok := tok_skip (r := r) .dot
  intro s hs hf
  have hc : triples (escapes hex) n s = .abort ∨ ∃ s1, triples (escapes hex) n s = .ok true s1 ∧ Found (skip .dot) s1 := by
    rcases hf with hf | ⟨s', hf⟩
    · rcases bind_abort hf with hf | ⟨b, s1, h1, h2⟩
      · exact .inl hf
      · cases b with
        | true => exact .inr ⟨s1, h1, .inl h2⟩
        | false => simp at h2
    · obtain ⟨b, s1, h1, h2⟩ := bind_ok hf
      cases b with
      | true => exact .inr ⟨s1, h1, .inr ⟨s', h2⟩⟩
      | false => simp at h2
  rcases hc with hc | ⟨s1, h1, hg⟩
  · have hs1 : Same r _ s := st s hs (by rw [hc]; trivial)
    refine ⟨bt.abort s hc, hs1.bind fun b s2 h2 => ?_⟩
    rw [hc] at h2
    simp at h2
  · have hhit : ∃ u, skipWC s1.input = '.' :: u := by
      rcases htok.cases s1 with ⟨w, y, h2, h3⟩ | ⟨h2, h3⟩
      · obtain ⟨c, u, hx, hc⟩ := consume_can h2
        have : c = '.' := by simpa [regex, Re.can, Re.chr] using hc
        exact ⟨u, by rw [hx, this]⟩
      · exfalso
        rw [Found, h3] at hg
        simp at hg
    obtain ⟨u, hu⟩ := hhit
    have ha : Alive s1.input := ⟨'.', by decide, Live.of_head hu (by decide) (by simp)⟩
    have hs1 : Same r _ s := st s hs (by
      rw [h1]
      refine ⟨ha, rfl, .skip ?_⟩
      rw [hu]
      exact .here (.inr (.inl rfl)))
    refine ⟨bt.alive h1 ha, hs1.bind fun b s2 h2 => ?_⟩
    rw [h1] at h2
    simp at h2
    obtain ⟨rfl, rfl⟩ := h2
    exact htok.dot ha

/-- The text behind a statement, and behind one that cannot be read, does not matter. -/
theorem statement_same (hcut : CleanCut t r) (n : Nat) {s : State} (hs : s.input <:+ t) (h : Found (statement (escapes hex) n) s) :
    statement (escapes hex) n (s.add r) = (statement (escapes hex) n s).add r := by
  obtain ⟨ha, hsame⟩ := (final_directive.por pass_directive (final_triples hcut n)) { s with input := skipWC s.input }
    ((skipWC_suffix _).trans hs) h
  have hx : Alive s.input := by
    obtain ⟨d, hd, hl⟩ := ha
    exact ⟨d, hd, live_miss hl⟩
  have hk : skipWC (s.add r).input = skipWC s.input ++ r := hx.skip r
  show por _ _ { s.add r with input := skipWC (s.add r).input } = _
  rw [hk]
  exact hsame

end Verif.Turtle
