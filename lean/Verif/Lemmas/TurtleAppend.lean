import Verif.Lemmas.TurtleStable
/-
A statement that is read from the beginning of a text is also read from the whole text.
-/
namespace Verif.Turtle
open Verif.RdfEscaping

variable {hex : Str → Str} {t r : Str}

/-! ### Strings -/

theorem isPrefixOf_add {q x : Str} (r : Str) (h : q.length ≤ x.length) : q.isPrefixOf (x ++ r) = q.isPrefixOf x := by
  rw [Bool.eq_iff_iff, List.isPrefixOf_iff_prefix, List.isPrefixOf_iff_prefix]
  constructor
  · intro hp
    exact List.prefix_of_prefix_length_le hp (List.prefix_append x r) h
  · intro hp
    exact hp.trans (List.prefix_append x r)

theorem quoteOf_add {x : Str} (r : Str) (h : 3 ≤ x.length) : quoteOf (x ++ r) = quoteOf x := by
  have : ∀ q ∈ [['"', '"', '"'], ['\'', '\'', '\''], ['"'], ['\'']], q.isPrefixOf (x ++ r) = q.isPrefixOf x := by
    intro q hq
    apply isPrefixOf_add
    simp only [List.mem_cons, List.not_mem_nil, or_false] at hq
    rcases hq with rfl | rfl | rfl | rfl <;> simp <;> omega
  unfold quoteOf
  simp only [List.find?_cons]
  rw [this _ (by simp), this _ (by simp), this _ (by simp), this _ (by simp)]
  rfl

theorem quoteOf_head {x q : Str} (h : quoteOf x = some q) : ∃ c u, x = c :: u ∧ (c = '"' ∨ c = '\'') ∧ (q.length = 1 ∨ q.length = 3) := by
  have h1 := List.mem_of_find?_eq_some h
  have h2 := List.find?_some h
  simp only [List.isPrefixOf_iff_prefix] at h2
  obtain ⟨v, rfl⟩ := h2
  simp only [List.mem_cons, List.not_mem_nil, or_false] at h1
  rcases h1 with rfl | rfl | rfl | rfl
  · exact ⟨'"', _, rfl, .inl rfl, .inr rfl⟩
  · exact ⟨'\'', _, rfl, .inr rfl, .inr rfl⟩
  · exact ⟨'"', _, rfl, .inl rfl, .inl rfl⟩
  · exact ⟨'\'', _, rfl, .inr rfl, .inl rfl⟩

theorem quoteOf_none {x : Str} (h : quoteOf x = none) (hx : x ≠ []) : quoteOf (x ++ r) = none := by
  cases x with
  | nil => exact absurd rfl hx
  | cons c u =>
    simp only [quoteOf, List.find?_eq_none] at h
    have h1 := h ['"'] (by simp)
    have h2 := h ['\''] (by simp)
    simp at h1 h2
    simp [quoteOf, List.isPrefixOf, h1, h2]

theorem find_add {q v : Str} (r : Str) : ∀ (n m pos p : Nat), find q v n pos = some p → n ≤ m → find q (v ++ r) m pos = some p := by
  intro n
  induction n with
  | zero => intro m pos p h; simp [find] at h
  | succ n ih =>
    intro m pos p h hm
    obtain ⟨m, rfl⟩ : ∃ k, m = k + 1 := ⟨m - 1, by omega⟩
    have hp := find_some _ _ _ h
    have hlen : pos ≤ v.length ∨ q = [] := by
      by_cases hq : q = []
      · exact .inr hq
      · left
        have := (List.isPrefixOf_iff_prefix.mp hp.2).length_le
        have hq : 0 < q.length := List.length_pos_iff.mpr hq
        rw [List.length_drop] at this
        omega
    have hd : q.isPrefixOf ((v ++ r).drop pos) = q.isPrefixOf (v.drop pos) := by
      rcases hlen with hlen | rfl
      · rw [List.drop_append_of_le_length hlen]
        apply isPrefixOf_add
        have := (List.isPrefixOf_iff_prefix.mp hp.2).length_le
        rw [List.length_drop] at this ⊢
        omega
      · simp
    rw [find] at h ⊢
    rw [hd]
    split at h
    · rename_i hq; rw [if_pos hq]; exact h
    · rename_i hq; rw [if_neg hq]; exact ih _ _ _ h (by omega)

theorem backslashes_add {v : Str} (r : Str) {pos : Nat} (h : pos ≤ v.length) : backslashes (v ++ r) pos = backslashes v pos := by
  unfold backslashes
  rw [List.take_append_of_le_length h]

theorem closing_add {q v : Str} (hq : q ≠ []) (r : Str) : ∀ (n m : Nat) (o : Option Nat) (p : Nat),
    (∀ x, o = some x → q.isPrefixOf (v.drop x) = true) → closing q v n o = some p → n ≤ m → closing q (v ++ r) m o = some p := by
  intro n
  induction n with
  | zero => intro m o p _ h; simp [closing] at h
  | succ n ih =>
    intro m o p ho h hm
    obtain ⟨m, rfl⟩ : ∃ k, m = k + 1 := ⟨m - 1, by omega⟩
    cases o with
    | none => simp [closing] at h
    | some x =>
      have hx := (List.isPrefixOf_iff_prefix.mp (ho x rfl)).length_le
      have hq : 0 < q.length := List.length_pos_iff.mpr hq
      rw [List.length_drop] at hx
      rw [closing] at h ⊢
      rw [backslashes_add r (by omega)]
      split at h
      · rename_i hb; rw [if_pos hb]; exact h
      · rename_i hb
        rw [if_neg hb]
        cases hf : find q v (v.length + 1 - (x + 1)) (x + 1) with
        | none =>
          rw [hf] at h
          cases n <;> simp [closing] at h
        | some y =>
          rw [hf] at h
          rw [find_add r _ ((v ++ r).length + 1 - (x + 1)) _ y hf (by simp only [List.length_append]; omega)]
          exact ih m (some y) p (fun z hz => by simp at hz; subst hz; exact (find_some _ _ _ hf).2) h (by omega)

theorem stringParse_cases (s : State) :
    (quoteOf s.input = none ∧ stringParse s = .ok false s) ∨
    (∃ q pos, quoteOf s.input = some q ∧ q.length ≤ pos ∧ pos + q.length ≤ s.input.length ∧
      stringParse s = .ok true { s with last := s.input.take (pos + q.length), input := s.input.drop (pos + q.length) } ∧
      (3 ≤ s.input.length → ∀ r, stringParse (s.add r) =
        .ok true (State.add { s with last := s.input.take (pos + q.length), input := s.input.drop (pos + q.length) } r))) ∨
    ∃ s', stringParse s = .error s' := by
  cases hq : quoteOf s.input with
  | none => left; exact ⟨rfl, by simp only [stringParse, hq]⟩
  | some q =>
    right
    cases hc : closing q s.input (s.input.length + 1) (find q s.input (s.input.length + 1 - q.length) q.length) with
    | none => right; exact ⟨s, by simp only [stringParse, hq, hc]⟩
    | some pos =>
      left
      have h1 := closing_some _ _ pos q.length (fun x hx => find_some _ _ _ hx) hc
      have h2 := (List.isPrefixOf_iff_prefix.mp h1.2).length_le
      have hq1 : 0 < q.length := by
        obtain ⟨_, _, _, _, h | h⟩ := quoteOf_head hq <;> omega
      rw [List.length_drop] at h2
      have hlen : pos + q.length ≤ s.input.length := by omega
      refine ⟨q, pos, rfl, h1.1, hlen, by simp only [stringParse, hq, hc], ?_⟩
      intro h3 r
      have hqa : quoteOf (s.add r).input = some q := by
        show quoteOf (s.input ++ r) = some q
        rw [quoteOf_add r h3, hq]
      have hca : closing q (s.add r).input ((s.add r).input.length + 1)
          (find q (s.add r).input ((s.add r).input.length + 1 - q.length) q.length) = some pos := by
        show closing q (s.input ++ r) ((s.input ++ r).length + 1) (find q (s.input ++ r) ((s.input ++ r).length + 1 - q.length) q.length) = some pos
        cases hf : find q s.input (s.input.length + 1 - q.length) q.length with
        | none => rw [hf] at hc; simp [closing] at hc
        | some y =>
          rw [hf] at hc
          rw [find_add r _ ((s.input ++ r).length + 1 - q.length) _ y hf (by simp only [List.length_append]; omega)]
          refine closing_add (List.length_pos_iff.mp hq1) r _ _ _ _ ?_ hc (by simp only [List.length_append]; omega)
          intro z hz
          simp at hz; subst hz
          exact (find_some _ _ _ hf).2
      simp only [stringParse, hqa, hca]
      show Res.ok true { s.add r with last := (s.input ++ r).take _, input := (s.input ++ r).drop _ } = _
      rw [List.take_append_of_le_length hlen, List.drop_append_of_le_length hlen]
      rfl

/-- A text starting with a quotation mark. -/
theorem live_quote {x q : Str} (h : quoteOf x = some q) : Alive x := by
  obtain ⟨c, u, rfl, hc, _⟩ := quoteOf_head h
  refine ⟨c, by rcases hc with rfl | rfl <;> decide, Live.of_head (skipWC_cons u ?_ ?_) ?_ (by simp)⟩
  all_goals (rcases hc with rfl | rfl <;> decide)

theorem live_of_quote {d : Char} {x q : Str} (h : quoteOf x = some q) (hd : d ∈ x) : Live d x := by
  obtain ⟨c, u, rfl, hc, _⟩ := quoteOf_head h
  refine Live.of_head (skipWC_cons u ?_ ?_) ?_ hd
  all_goals (rcases hc with rfl | rfl <;> decide)

theorem back_string : Back stringParse := by
  refine ⟨?_, ?_⟩
  · intro s b s' hs
    rcases stringParse_cases s with ⟨_, h⟩ | ⟨q, pos, hq, _, _, h, _⟩ | ⟨s1, h⟩
    · rw [h] at hs; simp at hs; obtain ⟨_, rfl⟩ := hs
      exact ⟨List.suffix_refl _, fun d h => h⟩
    · rw [h] at hs; simp at hs; obtain ⟨_, rfl⟩ := hs
      refine ⟨List.drop_suffix _ _, fun d hd => live_of_quote hq ?_⟩
      exact (List.drop_suffix _ _).subset ((skipWC_suffix _).subset hd.1)
    · rw [h] at hs; simp at hs
  · intro s hs
    rcases stringParse_cases s with ⟨_, h⟩ | ⟨q, pos, hq, _, _, h, _⟩ | ⟨s1, h⟩ <;> (rw [h] at hs; simp at hs)

theorem normalize_two {c : Char} (hc : c = '"' ∨ c = '\'') : normalizeRDFLiteral hex [c, c] ≠ .throw := by
  rcases hc with rfl | rfl <;>
    simp [normalizeRDFLiteral, startsWith, endsWith, removeBoth, List.isPrefixOf, List.isSuffixOf, unescapeGen, Outcome.bind, Outcome.map]

/-- When a string has been read and the rest does not matter. -/
theorem string_same {s : State} (ha : Alive s.input)
    (h : ∀ s', stringParse s = .ok true s' → 3 ≤ s.input.length) (he : ∀ s', stringParse s ≠ .error s') : Same r stringParse s := by
  rcases stringParse_cases s with ⟨hq, h1⟩ | ⟨q, pos, hq, _, _, h1, h2⟩ | ⟨s1, h1⟩
  · rw [Same, h1]
    have : quoteOf (s.add r).input = none := quoteOf_none hq ha.ne
    simp only [stringParse, this]
    rfl
  · rw [Same, h2 (h _ h1) r, h1]
    rfl
  · exact absurd h1 (he s1)

/-! ### IRIs -/

theorem lift_add (o : Outcome Str) {k k' : Str → Res Bool} (h : ∀ v, k' v = (k v).add r) : lift o k' = (lift o k).add r := by
  cases o with
  | ok v => exact h v
  | throw => rfl
  | ub => rfl
  | diverge => rfl

theorem lift_ok {o : Outcome Str} {k : Str → Res Bool} {b : Bool} {s : State} (h : lift o k = .ok b s) : ∃ v, o = .ok v ∧ k v = .ok b s := by
  cases o with
  | ok v => exact ⟨v, rfl, h⟩
  | throw => simp [lift] at h
  | ub => simp [lift] at h
  | diverge => simp [lift] at h

theorem lift_abort {o : Outcome Str} {k : Str → Res Bool} (h : lift o k = .abort) : o = .throw ∨ ∃ v, o = .ok v ∧ k v = .abort := by
  cases o with
  | ok v => exact .inr ⟨v, rfl, h⟩
  | throw => exact .inl rfl
  | ub => simp [lift] at h
  | diverge => simp [lift] at h

theorem can_iriref {c : Char} (h : (regex .iriref).can c = true) : c = '<' := by
  simp [regex, Re.can, Re.chr, Re.nullable] at h
  exact h

theorem can_pnameNS {c : Char} (h : (regex .pnameNS).can c = true) : isBase c = true := by
  simp [regex, Re.can, Re.chr, Re.nullable] at h
  exact h

/-- An IRI in brackets has been found. -/
theorem iriref_found {e : Escapes} {s : State} (h : iriref e s = .abort ∨ ∃ s', iriref e s = .ok true s') :
    ∃ w y, consume (regex .iriref) (skipWC s.input) = some (w, y) := by
  rcases (tok_term (r := []) .iriref).cases s with ⟨w, y, h1, _⟩ | ⟨_, h2⟩
  · exact ⟨w, y, h1⟩
  · exfalso
    unfold iriref at h
    rw [h2] at h
    simp [Res.bind] at h

theorem live_iriref {s : State} {w y : Str} (h : consume (regex .iriref) (skipWC s.input) = some (w, y)) : Alive s.input := by
  obtain ⟨c, u, hx, hc⟩ := consume_can h
  have := can_iriref hc
  subst this
  exact ⟨'<', by decide, Live.of_head hx (by decide) (by simp)⟩

theorem back_iriref (e : Escapes) : Back (iriref e) := by
  refine ⟨?_, ?_⟩
  · intro s b s' h
    obtain ⟨b1, s1, h1, h2⟩ := bind_ok h
    have hb := (tok_term (r := []) .iriref).back.ok _ _ _ h1
    cases b1 with
    | true =>
      obtain ⟨v, _, hv⟩ := lift_ok h2
      simp at hv
      obtain ⟨_, rfl⟩ := hv
      exact hb
    | false =>
      simp at h2
      obtain ⟨_, rfl⟩ := h2
      exact hb
  · intro s h
    obtain ⟨w, y, h⟩ := iriref_found (.inl h)
    exact live_iriref h

theorem iriref_same {e : Escapes} {s : State} (ha : Alive s.input) (hf : Firm (regex .iriref) (skipWC s.input) r) : Same r (iriref e) s := by
  refine ((tok_term .iriref).same ha hf).bind fun b s1 _ => ?_
  cases b with
  | true => exact lift_add _ fun v => rfl
  | false => rfl

/-- An IRI that is found stays the same. -/
theorem iriref_last {e : Escapes} {s : State} (h : iriref e s = .abort ∨ ∃ s', iriref e s = .ok true s') :
    Alive s.input ∧ Same r (iriref e) s := by
  obtain ⟨w, y, hc⟩ := iriref_found h
  exact ⟨live_iriref hc, iriref_same (live_iriref hc) (firm_peek r (peek_iriref hc))⟩

theorem skips_iriref (e : Escapes) : Skips (iriref e) := by
  intro s s' h p hp
  obtain ⟨b1, s1, h1, h2⟩ := bind_ok h
  cases b1 with
  | true => obtain ⟨v, _, hv⟩ := lift_ok h2; simp at hv
  | false =>
    simp at h2
    subst h2
    exact (tok_term (r := []) .iriref).skips s s1 h1 p hp

theorem starts_iriref (e : Escapes) : Starts (· = '<') (iriref e) := by
  intro s h
  obtain ⟨w, y, hc⟩ := iriref_found h.symm
  obtain ⟨c, u, hx, hc⟩ := consume_can hc
  refine .skip ?_
  rw [hx]
  exact .here (can_iriref hc)

theorem sure_iriref (e : Escapes) : Sure t r (missing (· ≠ '<')) (iriref e) := by
  intro s _ hf
  have ha := hf.back (back_iriref e)
  cases h : iriref e s with
  | ok b s' =>
    cases b with
    | true => exact (iriref_last (.inr ⟨s', h⟩)).2
    | false =>
      have h := h
      obtain ⟨b1, s1, h1, h2⟩ := bind_ok h
      cases b1 with
      | true => obtain ⟨v, _, hv⟩ := lift_ok h2; simp at hv
      | false =>
        simp at h2
        subst h2
        rw [h] at hf
        have hs : Sure t r (missing (· ≠ '<')) (parseTerminal .iriref) :=
          (tok_term .iriref).odd (fun x w y h => peek_iriref h) fun c hc => by
            cases hcc : (regex .iriref).can c with
            | false => rfl
            | true => exact absurd (can_iriref hcc) hc
        have := hs s (by assumption) (by rw [h1]; exact hf)
        refine this.bind fun b s2 hb => ?_
        cases b with
        | true => exact lift_add _ fun v => rfl
        | false => rfl
  | error s' => rw [h] at hf; exact hf.elim
  | abort => exact (iriref_last (.inl h)).2
  | ub => rw [h] at hf; exact hf.elim
  | diverge => rw [h] at hf; exact hf.elim

/-! ### Abbreviated IRIs -/

theorem tok_pnameNS : IsTok (r := r) .pnameNS pnameNS fun w s => { s with activePrefix := w.take (w.length - 1), last := [] } := by
  refine ⟨fun s w y h => ?_, fun s h => ?_, fun _ _ => rfl, fun _ _ => rfl⟩
  · rw [pnameNS, (tok_term (r := []) .pnameNS).hit s w y h]; rfl
  · rw [pnameNS, (tok_term (r := []) .pnameNS).miss s h]; rfl

theorem tok_anon : IsTok (r := r) .anon anon fun _ s => { s with last := anonName s.numBlank, numBlank := s.numBlank + 1 } := by
  refine ⟨fun s w y h => ?_, fun s h => ?_, fun _ _ => rfl, fun _ _ => rfl⟩
  · rw [anon, (tok_term (r := []) .anon).hit s w y h]; rfl
  · rw [anon, (tok_term (r := []) .anon).miss s h]; rfl

theorem not_base {c : Char} (h : isBase c = false) : (regex .pnameNS).can c = false := by
  cases hc : (regex .pnameNS).can c with
  | false => rfl
  | true => rw [can_pnameNS hc] at h; exact h

theorem sure_pnameNS : Sure t r (missing (isBase · = false)) pnameNS :=
  tok_pnameNS.odd (fun _ _ _ h => peek_pnameNS h) fun _ hc => not_base hc

/-- The local name. -/
theorem local_cases (s : State) :
    (∃ w y, consume (regex .pnLocal) s.input = some (w, y) ∧
      parseTerminalWs false .pnLocal s = .ok true { s with input := y, last := w }) ∨
    (consume (regex .pnLocal) s.input = none ∧ parseTerminalWs false .pnLocal s = .ok false s) := by
  simp only [parseTerminalWs]
  cases hc : consume (regex .pnLocal) s.input with
  | none => exact .inr ⟨rfl, by simp [hc]⟩
  | some x => exact .inl ⟨x.1, x.2, rfl, by simp [hc]⟩

theorem back_local : Back (parseTerminalWs false .pnLocal) := by
  refine ⟨?_, ?_⟩
  · intro s b s' h
    rcases local_cases s with ⟨w, y, h1, h2⟩ | ⟨_, h2⟩
    · rw [h2] at h; simp at h; obtain ⟨_, rfl⟩ := h
      obtain ⟨hm, hs⟩ := mem_consume h1
      refine ⟨run_suffix _ _ _ hm, fun d hd => ?_⟩
      obtain ⟨c, u, hx, hc⟩ := consume_can h1
      have := can_ws _ hc
      refine Live.of_head (by rw [hx]; exact skipWC_cons u this.1 this.2) this.2 ?_
      rw [← hx, hs]
      exact List.mem_append_right _ ((skipWC_suffix _).subset hd.1)
    · rw [h2] at h; simp at h; obtain ⟨_, rfl⟩ := h
      exact ⟨List.suffix_refl _, fun d h => h⟩
  · intro s h
    rcases local_cases s with ⟨w, y, h1, h2⟩ | ⟨_, h2⟩ <;> (rw [h2] at h; simp at h)

theorem sure_local (hcut : CleanCut t r) : Sure t r any (parseTerminalWs false .pnLocal) := by
  intro s hs hf
  have ha := hf.back back_local
  have same : Firm (regex .pnLocal) s.input r → Same r (parseTerminalWs false .pnLocal) s := by
    intro hfirm
    have hfirm : consume (regex .pnLocal) (s.add r).input = (consume (regex .pnLocal) s.input).map (more r) := hfirm
    rcases local_cases s with ⟨w, y, h1, h2⟩ | ⟨h1, h2⟩ <;> rw [h1] at hfirm <;>
      rcases local_cases (s.add r) with ⟨w', y', h1', h2'⟩ | ⟨h1', h2'⟩ <;> rw [h1'] at hfirm <;>
      simp [more] at hfirm
    · obtain ⟨rfl, rfl⟩ := hfirm
      rw [Same, h2, h2']
      rfl
    · rw [Same, h2, h2']
      rfl
  rcases local_cases s with ⟨w, y, h1, h2⟩ | ⟨h1, h2⟩
  · rw [h2] at hf
    obtain ⟨d, hd, hm⟩ := hf.1.mem
    have hm : d ∈ y := (skipWC_suffix _).subset hm
    refine same (firm_local hs hcut hd ?_ ?_)
    · rw [(mem_consume h1).2]; exact List.mem_append_right _ hm
    · intro w' y' h'
      rw [h1] at h'; simp at h'
      rw [← h'.2]; exact hm
  · obtain ⟨d, hd, hm⟩ := ha.mem
    refine same (firm_local hs hcut hd ((skipWC_suffix _).subset hm) ?_)
    intro w' y' h'
    rw [h1] at h'; simp at h'

/-- `expandPrefix` -/
def finish (e : Escapes) : P := fun s =>
  match lookup s.prefixes s.activePrefix with
  | none => .error s
  | some n => lift (e.prefixed s.last) fun v => .ok true { s with last := ['<'] ++ n ++ v ++ ['>'] }

theorem prefixedName_eq (e : Escapes) (s : State) : prefixedName e s = (pnameNS s).bind fun b s =>
    if b then (parseTerminalWs false .pnLocal s).bind fun _ s => finish e s else .ok false s := rfl

theorem finish_same (e : Escapes) (s : State) : Same r (finish e) s := by
  show (match lookup s.prefixes s.activePrefix with
    | none => _
    | some n => _) = (match lookup s.prefixes s.activePrefix with
    | none => _
    | some n => _ : Res Bool).add r
  cases lookup s.prefixes s.activePrefix with
  | none => rfl
  | some n => exact lift_add _ fun v => rfl

theorem finish_ok {e : Escapes} {s : State} {b : Bool} {s' : State} (h : finish e s = .ok b s') : b = true ∧ s'.input = s.input := by
  unfold finish at h
  cases hl : lookup s.prefixes s.activePrefix with
  | none => rw [hl] at h; simp at h
  | some n =>
    rw [hl] at h
    obtain ⟨v, _, hv⟩ := lift_ok h
    simp at hv
    obtain ⟨rfl, rfl⟩ := hv
    exact ⟨rfl, rfl⟩

theorem finish_abort {e : Escapes} {s : State} (h : finish e s = .abort) : e.prefixed s.last = .throw := by
  unfold finish at h
  cases hl : lookup s.prefixes s.activePrefix with
  | none => rw [hl] at h; simp at h
  | some n =>
    rw [hl] at h
    rcases lift_abort h with h | ⟨v, _, hv⟩
    · exact h
    · simp at hv

/-- Behind every backslash there is a character that may be escaped. -/
inductive Escaped : Str → Prop
  | nil : Escaped []
  | chr {c s} : c ≠ '\\' → Escaped s → Escaped (c :: s)
  | esc {c s} : isLocalEsc c = true → Escaped s → Escaped ('\\' :: c :: s)

theorem Escaped.append {a b : Str} (ha : Escaped a) (hb : Escaped b) : Escaped (a ++ b) := by
  induction ha with
  | nil => exact hb
  | chr hc _ ih => exact .chr hc ih
  | esc hc _ ih => exact .esc hc ih

theorem Escaped.prefixed {s : Str} (h : Escaped s) : unescapePrefixedIri s ≠ .throw := by
  induction h with
  | nil => simp [unescapePrefixedIri]
  | @chr c s hc _ ih =>
    rw [unescapePrefixedIri.eq_def]
    simp only [ne_eq, hc, not_false_eq_true, if_true]
    cases h : unescapePrefixedIri s <;> simp_all [Outcome.map]
  | @esc c s hc _ ih =>
    have : c ∈ reserved := by
      simp only [isLocalEsc, List.contains_iff_mem] at hc
      simp only [reserved, List.mem_cons, List.not_mem_nil, or_false] at hc ⊢
      rcases hc with h | h | h | h | h | h | h | h | h | h | h | h | h | h | h | h | h | h | h | h <;> simp [h]
    rw [unescapePrefixedIri.eq_def]
    simp only [ne_eq, not_true_eq_false, if_false, this, if_true]
    cases h : unescapePrefixedIri s <;> simp_all [Outcome.map]

/-- What the expression matches is correctly escaped. -/
def Taken (e : Re) : Prop := ∀ s u, u ∈ e.run s → ∃ w, s = w ++ u ∧ Escaped w

theorem taken_cls {p : Char → Bool} (h : p '\\' = false) : Taken (.cls p) := by
  intro s u hu
  cases s with
  | nil => simp [Re.run] at hu
  | cons c s =>
    simp only [Re.run] at hu
    split at hu
    · rename_i hp
      simp at hu; subst hu
      exact ⟨[c], rfl, .chr (by rintro rfl; rw [h] at hp; simp at hp) .nil⟩
    · simp at hu

theorem taken_seq {a b : Re} (ha : Taken a) (hb : Taken b) : Taken (.seq a b) := by
  intro s u hu
  simp only [Re.run, List.mem_flatMap] at hu
  obtain ⟨v, hv, hu⟩ := hu
  obtain ⟨w1, rfl, h1⟩ := ha s v hv
  obtain ⟨w2, rfl, h2⟩ := hb v u hu
  exact ⟨w1 ++ w2, by simp, h1.append h2⟩

theorem taken_alt {a b : Re} (ha : Taken a) (hb : Taken b) : Taken (.alt a b) := by
  intro s u hu
  simp only [Re.run, List.mem_append] at hu
  rcases hu with hu | hu
  · exact ha s u hu
  · exact hb s u hu

theorem taken_star {a : Re} (ha : Taken a) : Taken (.star a) := by
  have key : ∀ (n : Nat) (s u : Str), u ∈ many a.run n s → ∃ w, s = w ++ u ∧ Escaped w := by
    intro n
    induction n with
    | zero => intro s u hu; simp [many] at hu; exact ⟨[], by simp [hu], .nil⟩
    | succ n ih =>
      intro s u hu
      simp only [many, List.mem_append, List.mem_flatMap, List.mem_filter, List.mem_singleton] at hu
      rcases hu with ⟨v, ⟨hv, _⟩, hu⟩ | rfl
      · obtain ⟨w1, rfl, h1⟩ := ha s v hv
        obtain ⟨w2, rfl, h2⟩ := ih v u hu
        exact ⟨w1 ++ w2, by simp, h1.append h2⟩
      · exact ⟨[], rfl, .nil⟩
  intro s u hu
  exact key _ s u hu

theorem taken_plx : Taken plx := by
  refine taken_alt (taken_seq (taken_cls (by decide)) ?_) ?_
  · exact taken_seq (taken_cls (by decide)) (taken_seq (taken_cls (by decide)) (fun s u hu => ⟨[], by simpa [Re.run, Re.times, eq_comm] using hu, .nil⟩))
  · intro s u hu
    simp only [Re.run, List.mem_flatMap] at hu
    obtain ⟨v, hv, hu⟩ := hu
    cases s with
    | nil => simp [Re.chr, Re.run] at hv
    | cons c s =>
      simp only [Re.chr, Re.run] at hv
      split at hv
      · rename_i hc
        simp at hc hv
        subst hc; subst hv
        cases v with
        | nil => simp at hu
        | cons d v =>
          simp only at hu
          split at hu
          · simp at hu; subst hu
            exact ⟨['\\', d], rfl, .esc (by assumption) .nil⟩
          · simp at hu
      · simp at hv

theorem taken_local : Taken (regex .pnLocal) := by
  refine taken_seq (taken_alt (taken_cls (by decide)) taken_plx) (taken_star (taken_seq (taken_star (taken_cls (by decide)))
    (taken_alt (taken_cls (by decide)) taken_plx)))

theorem local_prefixed {x w y : Str} (h : consume (regex .pnLocal) x = some (w, y)) : unescapePrefixedIri w ≠ .throw := by
  obtain ⟨hm, hs⟩ := mem_consume h
  obtain ⟨w', hw', he⟩ := taken_local x y hm
  have : w = w' := List.append_cancel_right (hs.symm.trans hw')
  subst this
  exact he.prefixed

/-- Abbreviated IRIs never cause an exception of another kind. -/
theorem prefixedName_abort {s : State} : prefixedName (escapes hex) s ≠ .abort := by
  intro h
  rw [prefixedName_eq] at h
  rcases bind_abort h with h | ⟨b, s1, h1, h⟩
  · rcases (tok_pnameNS (r := [])).cases s with ⟨w, y, _, h2⟩ | ⟨_, h2⟩ <;> (rw [h2] at h; simp at h)
  · cases b with
    | false => simp at h
    | true =>
      simp only [if_true] at h
      have hl : s1.last = [] := by
        rcases (tok_pnameNS (r := [])).cases s with ⟨w, y, _, h2⟩ | ⟨_, h2⟩
        · rw [h2] at h1; simp at h1; rw [← h1]
        · rw [h2] at h1; simp at h1
      rcases local_cases s1 with ⟨w, y, hc, h2⟩ | ⟨_, h2⟩
      · rw [h2] at h
        exact local_prefixed hc (finish_abort h)
      · rw [h2] at h
        have := finish_abort h
        rw [hl] at this
        simp [escapes, unescapePrefixedIri] at this

theorem prefixedName_ok {e : Escapes} {s : State} {b : Bool} {s' : State} (h : prefixedName e s = .ok b s') :
    (b = false ∧ pnameNS s = .ok false s') ∨
    (b = true ∧ ∃ s1 b2 s2, pnameNS s = .ok true s1 ∧ parseTerminalWs false .pnLocal s1 = .ok b2 s2 ∧ finish e s2 = .ok true s') := by
  rw [prefixedName_eq] at h
  obtain ⟨b1, s1, h1, h2⟩ := bind_ok h
  cases b1 with
  | false =>
    simp at h2
    obtain ⟨rfl, rfl⟩ := h2
    exact .inl ⟨rfl, h1⟩
  | true =>
    simp only [if_true] at h2
    obtain ⟨b2, s2, h3, h4⟩ := bind_ok h2
    have := finish_ok h4
    obtain ⟨rfl, _⟩ := this
    exact .inr ⟨rfl, s1, b2, s2, h1, h3, h4⟩

theorem back_prefixedName : Back (prefixedName (escapes hex)) := by
  refine ⟨?_, fun s h => absurd h prefixedName_abort⟩
  intro s b s' h
  rcases prefixedName_ok h with ⟨_, h⟩ | ⟨_, s1, b2, s2, h1, h2, h3⟩
  · exact (tok_pnameNS (r := [])).back.ok _ _ _ h
  · have a1 := (tok_pnameNS (r := [])).back.ok _ _ _ h1
    have a2 := back_local.ok _ _ _ h2
    have := (finish_ok h3).2
    rw [this]
    exact ⟨a2.1.trans a1.1, fun d hd => a1.2 d (a2.2 d hd)⟩

theorem sure_prefixedName (hcut : CleanCut t r) : Sure t r (missing (isBase · = false)) (prefixedName (escapes hex)) := by
  intro s hs hf
  cases h : prefixedName (escapes hex) s with
  | ok b s' =>
    rw [h] at hf
    rcases prefixedName_ok h with ⟨rfl, h1⟩ | ⟨rfl, s1, b2, s2, h1, h2, h3⟩
    · have h1s : Same r pnameNS s := sure_pnameNS s hs (by rw [h1]; exact hf)
      refine h1s.bind fun b s1 hb => ?_
      rw [h1] at hb
      simp at hb
      obtain ⟨rfl, rfl⟩ := hb
      rfl
    · have ha2 : Alive s2.input := by rw [← (finish_ok h3).2]; exact hf.1
      have ha1 := back_local.alive h2 ha2
      have h1s : Same r pnameNS s := sure_pnameNS s hs (by rw [h1]; exact ⟨ha1, fun h => by simp at h⟩)
      refine h1s.bind fun b s1' hb => ?_
      rw [h1] at hb
      simp at hb
      obtain ⟨rfl, rfl⟩ := hb
      have hs1 := ((tok_pnameNS (r := [])).back.suffix h1).trans hs
      have h2s : Same r (parseTerminalWs false .pnLocal) s1 := sure_local hcut s1 hs1 (by rw [h2]; exact ⟨ha2, trivial⟩)
      exact h2s.bind fun b s3 _ => finish_same _ s3
  | error s' => rw [h] at hf; exact hf.elim
  | abort => exact absurd h prefixedName_abort
  | ub => rw [h] at hf; exact hf.elim
  | diverge => rw [h] at hf; exact hf.elim

theorem skips_prefixedName (e : Escapes) : Skips (prefixedName e) := by
  intro s s' h p hp
  rcases prefixedName_ok h with ⟨_, h⟩ | ⟨hb, _⟩
  · exact (tok_pnameNS (r := [])).skips s s' h p hp
  · simp at hb

theorem starts_prefixedName : Starts (isBase · = true) (prefixedName (escapes hex)) := by
  intro s h
  rcases h with ⟨s', h⟩ | h
  · rcases prefixedName_ok h with ⟨hb, _⟩ | ⟨_, s1, b2, s2, h1, h2, h3⟩
    · simp at hb
    · exact ((tok_pnameNS (r := [])).starts s (.inl ⟨s1, h1⟩)).mono fun c hc => can_pnameNS hc
  · exact absurd h prefixedName_abort

/-! ### Terms -/

/-- neither `<` nor the start of a name -/
def noIri (c : Char) : Prop := c ≠ '<' ∧ isBase c = false

theorem back_iri : Back (iri (escapes hex)) := (back_iriref _).por back_prefixedName
theorem skips_iri (e : Escapes) : Skips (iri e) := (skips_iriref e).por (skips_prefixedName e)
theorem starts_iri : Starts (fun c => c = '<' ∨ isBase c = true) (iri (escapes hex)) :=
  Starts.por (skips_iriref _) ((starts_iriref _).mono fun _ h => .inl h) (starts_prefixedName.mono fun _ h => .inr h)

theorem sure_iri (hcut : CleanCut t r) : Sure t r (missing noIri) (iri (escapes hex)) := by
  refine Sure.por (sure_iriref _) (back_iriref _)
    ((sure_prefixedName hcut).mono fun b y h hb => (h hb).mono fun c hc => hc.2) back_prefixedName ?_ ?_
  · intro x _ hb; simp at hb
  · intro s h _
    refine next (skips_prefixedName _) starts_prefixedName ?_ ?_ s h
    · rintro c hc rfl; revert hc; decide
    · intro c hc; exact hc.1

theorem plain_anon : Plain .anon := by unfold Plain; decide
theorem back_blankNode : Back blankNode := (tok_term (r := []) .blankNodeLabel).back.por (tok_anon (r := [])).back
theorem skips_blankNode : Skips blankNode := (tok_term (r := []) .blankNodeLabel).skips.por (tok_anon (r := [])).skips
theorem sure_blankNode (hcut : CleanCut t r) {q : Bool → Str → Prop} : Sure t r q blankNode := by
  refine Sure.por ((tok_term .blankNodeLabel).label hcut) (tok_term (r := []) .blankNodeLabel).back (tok_anon.plain plain_anon)
    (tok_anon (r := [])).back ?_ ?_
  · intro _ _; trivial
  · intro _ _; trivial

/-- no sign, digit or dot -/
def noNum (c : Char) : Prop := isNum c = false ∧ c ≠ '.'

theorem num_firm {id : TokId} (hid : id = .decimal ∨ id = .double) {y : Str} (h : ∃ d ∈ marks, d ∈ y) (hno : ¬ Cut y) : Firm (regex id) y r := by
  obtain ⟨d, hd, hm⟩ := h
  by_cases hdd : d = '.'
  · subst hdd
    apply firm_peek
    rw [Bool.eq_false_iff]
    intro hp
    rcases hid with rfl | rfl
    · exact hno (decimal_peek hm hp)
    · exact hno (double_peek hm hp)
  · refine firm_stop r ?_ hm
    simp only [marks, List.mem_cons, List.not_mem_nil, or_false, hdd, false_or] at hd
    rcases hid with rfl | rfl <;> rcases hd with rfl | rfl | rfl <;> decide

theorem cut_bare {y : Str} (h : Cut y) : skipWC y = y := by
  obtain ⟨c, x, rfl, hc⟩ := cut_head h
  refine skipWC_cons x ?_ ?_
  · rw [Bool.eq_false_iff]
    intro hw
    rcases hc with hc | rfl
    · have := ws_ind (P := fun c => isNum c = false) (by decide) hw
      rw [this] at hc; simp at hc
    · revert hw; decide
  · rintro rfl
    revert hc; decide

theorem cut_ahead {y : Str} (h : Cut y) (ha : Ahead noNum y) : False := by
  have hb := cut_bare h
  obtain ⟨c, x, rfl, hc⟩ := cut_head h
  have hn : noNum c := by
    refine ha.head ?_ ?_
    · rw [Bool.eq_false_iff]
      intro hw
      rcases hc with hc | rfl
      · have := ws_ind (P := fun c => isNum c = false) (by decide) hw
        rw [this] at hc; simp at hc
      · revert hw; decide
    · rintro rfl
      revert hc; decide
  rcases hc with hc | hc
  · rw [hn.1] at hc; simp at hc
  · exact hn.2 hc

theorem back_numeric : Back numericLiteral :=
  (tok_term (r := []) .integer).back.por ((tok_term (r := []) .decimal).back.por (tok_term (r := []) .double).back)

theorem sure_fraction : Sure t r (missing noNum) (por (parseTerminal .decimal) (parseTerminal .double)) := by
  intro s hs hf
  have td := tok_term (r := r) .decimal
  have te := tok_term (r := r) .double
  have ha := hf.back (td.back.por te.back)
  rcases td.cases s with ⟨w, y, h1, h2⟩ | ⟨h1, h2⟩
  · rw [por_hit h2] at hf
    have hm : ∃ d ∈ marks, d ∈ y := by
      obtain ⟨d, hd, hm⟩ := hf.1.mem
      exact ⟨d, hd, (skipWC_suffix _).subset hm⟩
    refine Same.por (td.same ha ?_) fun s1 h => by rw [h2] at h; simp at h
    obtain ⟨d, hd, hm⟩ := hm
    have hm' : d ∈ skipWC s.input := by rw [(mem_consume h1).2]; exact List.mem_append_right _ hm
    by_cases hdd : d = '.'
    · subst hdd
      exact num_firm (.inl rfl) ⟨_, hd, hm'⟩ (no_cut has_decimal h1 hm)
    · refine firm_stop r ?_ hm'
      simp only [marks, List.mem_cons, List.not_mem_nil, or_false, hdd, false_or] at hd
      rcases hd with rfl | rfl | rfl <;> decide
  · rw [por_miss h2] at hf
    have ha1 : Alive (skipWC s.input) := hf.back te.back
    have main : (¬ Cut (skipWC s.input)) ∧ Firm (regex .double) (skipWC (skipWC s.input)) r ∨
        (∃ d ∈ marks, d ≠ '.' ∧ d ∈ skipWC (skipWC s.input)) := by
      rcases te.cases { s with input := skipWC s.input } with ⟨w, y, h3, h4⟩ | ⟨h3, h4⟩
      · rw [h4] at hf
        obtain ⟨d, hd, hm⟩ := hf.1.mem
        have hm : d ∈ y := (skipWC_suffix _).subset hm
        have hm' : d ∈ skipWC (skipWC s.input) := by
          have := (mem_consume h3).2
          simp only at this
          rw [this]; exact List.mem_append_right _ hm
        by_cases hdd : d = '.'
        · subst hdd
          left
          have hno : ¬ Cut (skipWC (skipWC s.input)) := no_cut has_double h3 hm
          exact ⟨fun hc => hno (by rw [cut_bare hc]; exact hc), num_firm (.inr rfl) ⟨_, hd, hm'⟩ hno⟩
        · exact .inr ⟨d, hd, hdd, hm'⟩
      · rw [h4] at hf
        have hah : Ahead noNum (skipWC (skipWC s.input)) := hf.2 rfl
        left
        obtain ⟨d, hd, hm⟩ := ha1.mem
        exact ⟨fun hc => cut_ahead hc (.skip hah), num_firm (.inr rfl) ⟨d, hd, hm⟩ fun hc => cut_ahead hc hah⟩
    have hfd : Firm (regex .decimal) (skipWC s.input) r ∧ Firm (regex .double) (skipWC (skipWC s.input)) r := by
      rcases main with ⟨h3, h4⟩ | ⟨d, hd, hdd, hm⟩
      · exact ⟨num_firm (.inl rfl) ha.mem h3, h4⟩
      · simp only [marks, List.mem_cons, List.not_mem_nil, or_false, hdd, false_or] at hd
        have hm' := (skipWC_suffix _).subset hm
        refine ⟨firm_stop r ?_ hm', firm_stop r ?_ hm⟩ <;> rcases hd with rfl | rfl | rfl <;> decide
    refine Same.por (td.same ha hfd.1) fun s1 h => ?_
    rw [h2] at h
    simp at h
    subst h
    exact te.same ha1 hfd.2

theorem plain_integer : Plain .integer := by unfold Plain; decide

theorem sure_numeric : Sure t r (missing noNum) numericLiteral := by
  refine Sure.por (q1 := any) ((tok_term .integer).plain plain_integer) (tok_term (r := []) .integer).back sure_fraction
    ((tok_term (r := []) .decimal).back.por (tok_term (r := []) .double).back) ?_ ?_
  · intro _ _; trivial
  · intro _ _; trivial

theorem back_bool : Back booleanLiteral := (tok_term (r := []) .true_).back.por (tok_term (r := []) .false_).back
theorem skips_bool : Skips booleanLiteral := (tok_term (r := []) .true_).skips.por (tok_term (r := []) .false_).skips
theorem starts_bool : Starts (fun c => c = 't' ∨ c = 'f') booleanLiteral := by
  refine Starts.por (tok_term (r := []) .true_).skips ((tok_term (r := []) .true_).starts.mono ?_)
    ((tok_term (r := []) .false_).starts.mono ?_) <;> intro c hc <;> simp [regex, Re.lit, Re.can, Re.chr, Re.nullable] at hc <;> simp [hc]
theorem sure_bool {q : Bool → Str → Prop} : Sure t r q booleanLiteral := by
  refine Sure.por (q1 := any) ((tok_term .true_).plain (by unfold Plain; decide)) (tok_term (r := []) .true_).back ((tok_term .false_).plain (by unfold Plain; decide))
    (tok_term (r := []) .false_).back ?_ ?_
  · intro _ _; trivial
  · intro _ _; trivial

/-! ### Literals -/

/-- What follows the string. -/
def litTail (e : Escapes) (lit : Str) : P := fun s => (parseTerminal .langtag s).bind fun b s =>
  if b then .ok true { s with last := lit ++ s.last }
  else (pand (skip .doubleCircumflex) (check (iri e)) s).bind fun b s =>
    if b then .ok true { s with last := lit ++ ['^', '^'] ++ s.last } else .ok true s

theorem rdfLiteral_eq (e : Escapes) (s : State) : rdfLiteral e s = (stringParse s).bind fun b s =>
    if b then lift (e.literal s.last) fun lit => litTail e lit { s with last := lit } else .ok false s := rfl

theorem back_litTail (lit : Str) : Back (litTail (escapes hex) lit) := by
  refine (tok_term (r := []) .langtag).back.bind fun b => back_ite (back_ok _ true fun _ => rfl) ?_
  refine ((tok_skip (r := []) .doubleCircumflex).back.pand back_iri.check).bind fun b => ?_
  exact back_ite (back_ok _ true fun _ => rfl) (back_ok (fun s => s) true fun _ => rfl)

theorem sure_litTail (hcut : CleanCut t r) (lit : Str) : Sure t r any (litTail (escapes hex) lit) := by
  have bp : Back (pand (skip .doubleCircumflex) (check (iri (escapes hex)))) := (tok_skip (r := []) .doubleCircumflex).back.pand back_iri.check
  have bt : ∀ b : Bool, Back fun s : State => if b then .ok true { s with last := lit ++ ['^', '^'] ++ s.last } else .ok true s := fun b =>
    back_ite (back_ok _ true fun _ => rfl) (back_ok (fun s => s) true fun _ => rfl)
  refine Sure.bind (q1 := any) ((tok_term .langtag).plain (by unfold Plain; decide)) (tok_term (r := []) .langtag).back (fun b => ?_) (fun b => ?_) ?_
  · refine Sure.ite (sure_const fun s => rfl) ?_
    refine Sure.bind (q1 := any) ?_ bp (fun b => Sure.ite (sure_const fun s => rfl) (sure_const fun s => rfl)) bt ?_
    · refine Sure.pand (q1 := any) ((tok_skip .doubleCircumflex).plain (by unfold Plain; decide)) (tok_skip (r := []) .doubleCircumflex).back
        (Sure.check (sure_iri hcut) back_iri ?_) back_iri.check ?_ ?_
      · intro x _ hb; simp at hb
      · intro _ _; trivial
      · intro _ _; trivial
    · intro _ _ _; trivial
  · exact back_ite (back_ok _ true fun _ => rfl) (bp.bind bt)
  · intro _ _ _; trivial

theorem back_rdfLiteral : Back (rdfLiteral (escapes hex)) := by
  refine ⟨?_, ?_⟩
  · intro s b s' h
    rw [rdfLiteral_eq] at h
    obtain ⟨b1, s1, h1, h2⟩ := bind_ok h
    have a1 := back_string.ok _ _ _ h1
    cases b1 with
    | false =>
      simp at h2
      obtain ⟨_, rfl⟩ := h2
      exact a1
    | true =>
      simp only [if_true] at h2
      obtain ⟨lit, _, h3⟩ := lift_ok h2
      have a2 := (back_litTail lit).ok _ _ _ h3
      exact ⟨a2.1.trans a1.1, fun d hd => a1.2 d (a2.2 d hd)⟩
  · intro s h
    rw [rdfLiteral_eq] at h
    rcases stringParse_cases s with ⟨_, h1⟩ | ⟨q, pos, hq, _, _, h1, _⟩ | ⟨s1, h1⟩
    · rw [h1] at h; simp [Res.bind] at h
    · exact live_quote hq
    · rw [h1] at h; simp [Res.bind] at h

theorem sure_rdfLiteral (hcut : CleanCut t r) {q : Bool → Str → Prop} : Sure t r q (rdfLiteral (escapes hex)) := by
  intro s hs hf
  have ha := hf.back back_rdfLiteral
  rw [rdfLiteral_eq] at hf
  have he : ∀ s', stringParse s ≠ .error s' := by
    intro s' h
    rw [h] at hf
    exact hf
  -- what happens after the string
  have hafter : ∀ s1, stringParse s = .ok true s1 → ∀ lit, normalizeRDFLiteral hex s1.last = .ok lit →
      Fine any (litTail (escapes hex) lit { s1 with last := lit }) := by
    intro s1 h1 lit hlit
    rw [h1] at hf
    have hf : Fine q (lift (normalizeRDFLiteral hex s1.last) fun lit => litTail (escapes hex) lit { s1 with last := lit }) := hf
    rw [hlit] at hf
    exact hf.mono fun _ _ _ => trivial
  have hlen : ∀ s1, stringParse s = .ok true s1 → 3 ≤ s.input.length := by
    intro s1 h1
    rcases stringParse_cases s with ⟨_, h2⟩ | ⟨qq, pos, hq, hp1, hp2, h2, _⟩ | ⟨s2, h2⟩
    · rw [h2] at h1; simp at h1
    · obtain ⟨c, u, hx, hc, hl⟩ := quoteOf_head hq
      have hs1 := h1
      rw [h2] at h1
      simp at h1
      cases hlit : normalizeRDFLiteral hex s1.last with
      | ok lit =>
        have := (hafter s1 hs1 lit hlit).back (back_litTail lit)
        have hne := this.ne
        have : s1.input = s.input.drop (pos + qq.length) := by rw [← h1]
        simp only at hne
        rw [this] at hne
        have := List.length_pos_iff.mpr hne
        rw [List.length_drop] at this
        omega
      | throw =>
        by_cases h3 : 3 ≤ s.input.length
        · exact h3
        · exfalso
          have hpos : pos = 1 ∧ qq.length = 1 ∧ s.input.length = 2 := by omega
          have hl2 : s1.last = s.input := by
            rw [← h1]
            show s.input.take (pos + qq.length) = s.input
            apply List.take_of_length_le
            omega
          obtain ⟨d, hd⟩ : ∃ d, u = [d] := by
            have : u.length = 1 := by rw [hx] at hpos; simpa using hpos.2.2
            exact List.length_eq_one_iff.mp this
          subst hd
          have hdc : d = c := by
            have hqq : qq = [c] := by
              have h1 := List.mem_of_find?_eq_some hq
              have h2 := List.find?_some hq
              rw [hx] at h2
              simp only [List.mem_cons, List.not_mem_nil, or_false] at h1
              rcases h1 with rfl | rfl | rfl | rfl <;> simp [List.isPrefixOf] at h2 <;> rw [h2]
            subst hqq
            have h5 : closing [c] s.input (s.input.length + 1) (find [c] s.input (s.input.length + 1 - 1) 1) = some pos := by
              have := hs1
              simp only [stringParse, hq] at this
              cases hcl : closing [c] s.input (s.input.length + 1) (find [c] s.input (s.input.length + 1 - [c].length) [c].length) with
              | none => rw [hcl] at this; simp at this
              | some p' =>
                rw [hcl] at this
                simp at this
                have e1 : s1.input = s.input.drop (p' + 1) := by rw [← this]
                have e2 : s1.input = s.input.drop (pos + 1) := by rw [← h1]; rfl
                have hb := closing_some _ _ p' 1 (fun x hx => find_some _ _ _ hx) hcl
                have hle := (List.isPrefixOf_iff_prefix.mp hb.2).length_le
                simp only [List.length_drop, List.length_cons, List.length_nil] at hle
                have : p' = pos := by omega
                rw [← this]
            have hb := closing_some _ _ pos 1 (fun x hx => find_some _ _ _ hx) h5
            have := hb.2
            rw [hpos.1, hx] at this
            simp [List.isPrefixOf] at this
            exact this.symm
          subst hdc
          rw [hl2, hx] at hlit
          exact normalize_two hc hlit
      | ub =>
        have hff := hf
        rw [hs1] at hff
        have hff : Fine q (lift (normalizeRDFLiteral hex s1.last) _) := hff
        rw [hlit] at hff
        exact hff.elim
      | diverge =>
        have hff := hf
        rw [hs1] at hff
        have hff : Fine q (lift (normalizeRDFLiteral hex s1.last) _) := hff
        rw [hlit] at hff
        exact hff.elim
    · exact absurd h2 (he s2)
  refine (string_same ha hlen he).bind fun b s1 h1 => ?_
  cases b with
  | false => rfl
  | true =>
    show lift (normalizeRDFLiteral hex s1.last) (fun lit => litTail (escapes hex) lit { s1.add r with last := lit }) =
      (lift (normalizeRDFLiteral hex s1.last) fun lit => litTail (escapes hex) lit { s1 with last := lit }).add r
    have := hafter s1 h1
    cases hlit : normalizeRDFLiteral hex s1.last with
    | ok lit => exact sure_litTail hcut lit { s1 with last := lit } ((back_string.suffix h1).trans hs) (this lit hlit)
    | throw => rfl
    | ub => rfl
    | diverge => rfl

theorem back_literal : Back (literal (escapes hex)) := back_rdfLiteral.por (back_numeric.por back_bool)

theorem sure_literal (hcut : CleanCut t r) : Sure t r (missing noNum) (literal (escapes hex)) := by
  refine Sure.por (q1 := any) (sure_rdfLiteral hcut) back_rdfLiteral ?_ (back_numeric.por back_bool) ?_ ?_
  · refine Sure.por sure_numeric back_numeric sure_bool back_bool ?_ ?_
    · intro x _ hb; simp at hb
    · intro s h _
      refine next skips_bool starts_bool ?_ (fun c hc => hc) s h
      rintro c (rfl | rfl) <;> exact ⟨by decide, by decide⟩
  · intro _ _; trivial
  · intro _ _; trivial


theorem num_ind {P : Char → Prop} (h : ∀ c ∈ ['+', '-', '0', '1', '2', '3', '4', '5', '6', '7', '8', '9'], P c) {c : Char} (hc : isNum c = true) : P c := by
  apply h
  simp only [isNum, isSign, isDigit, between, Bool.or_eq_true, beq_iff_eq, Bool.and_eq_true, decide_eq_true_eq] at hc
  rcases hc with (rfl | rfl) | ⟨h1, h2⟩
  · simp
  · simp
  · have hc : c = Char.ofNat c.toNat := (Char.ofNat_toNat c).symm
    have : c.toNat = 48 ∨ c.toNat = 49 ∨ c.toNat = 50 ∨ c.toNat = 51 ∨ c.toNat = 52 ∨ c.toNat = 53 ∨ c.toNat = 54 ∨ c.toNat = 55 ∨
      c.toNat = 56 ∨ c.toNat = 57 := by
      have : '0'.toNat = 48 := rfl
      have : '9'.toNat = 57 := rfl
      omega
    rcases this with h | h | h | h | h | h | h | h | h | h <;> rw [h] at hc <;> rw [hc] <;> decide

theorem base_noNum {c : Char} (h : isBase c = true) : noNum c := by
  constructor
  · rw [Bool.eq_false_iff]
    intro hn
    have := num_ind (P := fun c => isBase c = false) (by decide) hn
    rw [this] at h; simp at h
  · rintro rfl; revert h; decide

/-! ### Lists -/

/-- the objects that are no lists -/
def core (e : Escapes) : P := por blankNode (por (literal e) (iri e))

theorem back_core : Back (core (escapes hex)) := back_blankNode.por (back_literal.por back_iri)

theorem sure_core (hcut : CleanCut t r) : Sure t r (missing (· = '[')) (core (escapes hex)) := by
  refine Sure.por (q1 := any) (sure_blankNode hcut) back_blankNode ?_ (back_literal.por back_iri) ?_ ?_
  · refine Sure.por (sure_literal hcut) back_literal ((sure_iri hcut).mono ?_) back_iri ?_ ?_
    · intro b y h hb
      refine (h hb).mono ?_
      rintro c rfl
      exact ⟨by decide, by decide⟩
    · intro x _ hb; simp at hb
    · intro s h _
      refine next (skips_iri _) starts_iri ?_ ?_ s h
      · rintro c (rfl | hc)
        · exact ⟨by decide, by decide⟩
        · exact base_noNum hc
      · rintro c rfl
        exact ⟨by decide, by decide⟩
  · intro _ _; trivial
  · intro _ _; trivial

theorem back_collection : Back collection :=
  (tok_skip (r := []) .openRound).back.bind fun _ => back_ite back_error (back_ok (fun s => s) false fun _ => rfl)
theorem sure_collection {q : Bool → Str → Prop} : Sure t r q collection := by
  refine Sure.bind (q1 := any) ((tok_skip .openRound).plain (by unfold Plain; decide)) (tok_skip (r := []) .openRound).back
    (fun b => Sure.ite (sure_const fun s => rfl) (sure_const fun s => rfl))
    (fun b => back_ite back_error (back_ok (fun s => s) false fun _ => rfl)) ?_
  intro _ _ _; trivial
theorem skips_collection : Skips collection := by
  intro s s' h p hp
  obtain ⟨b, s1, h1, h2⟩ := bind_ok h
  cases b with
  | true => simp at h2
  | false => simp at h2; subst h2; exact (tok_skip (r := []) .openRound).skips s s1 h1 p hp
theorem starts_collection {p : Char → Prop} : Starts p collection := by
  intro s h
  exfalso
  rcases h with ⟨s', h⟩ | h
  · obtain ⟨b, s1, h1, h2⟩ := bind_ok h
    cases b <;> simp at h2
  · rcases bind_abort h with h | ⟨b, s1, h1, h2⟩
    · rcases (tok_skip (r := []) .openRound).cases s with ⟨w, y, _, h2⟩ | ⟨_, h2⟩ <;> (rw [h2] at h; simp at h)
    · cases b <;> simp at h2

theorem back_verb : Back (verb (escapes hex)) := (tok_a (r := [])).back.por (back_iri.set _ fun _ => rfl)
theorem sure_verb (hcut : CleanCut t r) : Sure t r (missing noIri) (verb (escapes hex)) := by
  refine Sure.por (q1 := any) (tok_a.plain (by unfold Plain; decide)) (tok_a (r := [])).back
    ((sure_iri hcut).set back_iri _ (fun _ => rfl) fun _ => rfl) (back_iri.set _ fun _ => rfl) ?_ ?_
  · intro _ _; trivial
  · intro _ _; trivial

theorem back_subject : Back (subject (escapes hex)) := (back_blankNode.por (back_iri.por back_collection)).set _ fun _ => rfl
theorem sure_subject (hcut : CleanCut t r) : Sure t r (missing (· = '[')) (subject (escapes hex)) := by
  refine Sure.set ?_ (back_blankNode.por (back_iri.por back_collection)) _ (fun _ => rfl) fun _ => rfl
  refine Sure.por (q1 := any) (sure_blankNode hcut) back_blankNode ?_ (back_iri.por back_collection) ?_ ?_
  · refine Sure.por (sure_iri hcut) back_iri sure_collection back_collection ?_ ?_
    · intro x _ hb; simp at hb
    · intro s h _
      refine next skips_collection (starts_collection (p := (· = '['))) ?_ ?_ s h <;>
      · rintro c rfl
        exact ⟨by decide, by decide⟩
  · intro _ _; trivial
  · intro _ _; trivial

/-- what follows a list of predicates and objects -/
def sym (c : Char) : Prop := c = ';' ∨ c = '.' ∨ c = ']'
def ends : Bool → Str → Prop := fun _ x => Ahead sym x
def hits : Bool → Str → Prop := fun b _ => b = true

theorem sym_noIri {c : Char} (h : sym c) : noIri c := by
  rcases h with rfl | rfl | rfl <;> exact ⟨by decide, by decide⟩

structure Steady (t r : Str) (run : Task → P) : Prop where
  back : ∀ k, Back (run k)
  pol : Sure t r ends (run .predicateObjectList)
  semi : Sure t r ends (run .semicolons)
  semiEnds : ∀ s, Fine ends (run .semicolons s) → Ahead sym s.input
  olist : Sure t r hits (run .objectList)
  commas : Sure t r any (run .commas)
  object : Sure t r hits (run .object)
  bnpl : Sure t r any (run .blankNodePropertyList)
  skips : Skips (run .blankNodePropertyList)
  starts : Starts (· = '[') (run .blankNodePropertyList)

/-- the inside of the brackets -/
def inside (call : Task → P) (a b : Str) : P := fun s =>
  (check (call .predicateObjectList) s).bind fun _ t => (check (skip .closeSquared) t).bind fun _ t =>
    .ok true { t with activeSubject := a, activePredicate := b }

def enter (s : State) : State :=
  { emitTriple { s with numBlank := s.numBlank + 1, last := anonName s.numBlank } with activeSubject := anonName s.numBlank }

theorem bnpl_eq (e : Escapes) (call : Task → P) (s : State) : step e call .blankNodePropertyList s =
    (skip .openSquared s).bind fun b s =>
      if b then (fun s : State => inside call s.activeSubject s.activePredicate (enter s)) s else .ok false s := rfl

theorem Starts.bind_true {p : Char → Prop} {f : P} {g h : P} (hf : Starts p f) (hh : ∀ s, h s ≠ .abort ∧ ∀ s', h s ≠ .ok true s') :
    Starts p fun s => (f s).bind fun b s => if b then g s else h s := by
  intro s hs
  rcases hs with ⟨s', hs⟩ | hs
  · obtain ⟨b, s1, h1, h2⟩ := bind_ok hs
    cases b with
    | true => exact hf s (.inl ⟨s1, h1⟩)
    | false => exact absurd h2 ((hh s1).2 s')
  · rcases bind_abort hs with h1 | ⟨b, s1, h1, h2⟩
    · exact hf s (.inr h1)
    · cases b with
      | true => exact hf s (.inl ⟨s1, h1⟩)
      | false => exact absurd h2 (hh s1).1

theorem good_step (hcut : CleanCut t r) {call : Task → P} (h : Steady t r call) : Steady t r (step (escapes hex) call) := by
  have bsq := (tok_skip (r := []) .openSquared).back
  have bin : ∀ a b, Back (inside call a b) := fun a b =>
    (h.back .predicateObjectList).check.bind fun _ => (tok_skip (r := []) .closeSquared).back.check.bind fun _ => back_ok _ true fun _ => rfl
  have bent : Back fun s : State => inside call s.activeSubject s.activePredicate (enter s) := by
    refine ⟨?_, ?_⟩
    · intro s b s' hs
      exact (bin s.activeSubject s.activePredicate).ok (enter s) b s' hs
    · intro s hs
      exact (bin s.activeSubject s.activePredicate).abort (enter s) hs
  have bobj : Back fun s => (core (escapes hex) s).bind fun b s =>
      if b then .ok true (emitTriple s) else por collection (call .blankNodePropertyList) s :=
    back_core.bind fun _ => back_ite (back_ok emitTriple true fun _ => rfl) (back_collection.por (h.back .blankNodePropertyList))
  have bvo := (back_verb (hex := hex)).pand (h.back .objectList).check
  have bsem : Back fun s => (skip .semicolon s).bind fun b s =>
      if b then (pand (verb (escapes hex)) (check (call .objectList)) s).bind fun _ s => call .semicolons s else .ok true s :=
    (tok_skip (r := []) .semicolon).back.bind fun _ => back_ite (bvo.bind fun _ => h.back .semicolons) (back_ok (fun s => s) true fun _ => rfl)
  have bco := (tok_skip (r := []) .comma).back.pand (h.back .object).check
  have scheck : Sure t r any (check (call .objectList)) := Sure.check h.olist (h.back .objectList) fun _ _ => rfl
  refine ⟨?_, ?_, ?_, ?_, ?_, ?_, ?_, ?_, ?_, ?_⟩
  · intro k
    cases k with
    | predicateObjectList => exact back_verb.pand ((h.back .objectList).check.pand (h.back .semicolons))
    | semicolons => exact bsem
    | objectList => exact (h.back .object).pand (h.back .commas)
    | commas => exact bco.bind fun _ => back_ite (h.back .commas) (back_ok (fun s => s) true fun _ => rfl)
    | object => exact bobj
    | blankNodePropertyList => exact bsq.bind fun _ => back_ite bent (back_ok (fun s => s) false fun _ => rfl)
  · refine Sure.pand (sure_verb hcut) back_verb ?_ ((h.back .objectList).check.pand (h.back .semicolons)) ?_ ?_
    · refine Sure.pand scheck (h.back .objectList).check h.semi (h.back .semicolons) ?_ ?_
      · intro _ _; trivial
      · intro _ _; trivial
    · intro x hx _
      exact Ahead.mono hx fun c hc => sym_noIri hc
    · intro s _ hb; simp at hb
  · refine Sure.bind (q1 := any) ((tok_skip .semicolon).plain (by unfold Plain; decide)) (tok_skip (r := []) .semicolon).back (fun b => ?_)
      (fun b => back_ite (bvo.bind fun _ => h.back .semicolons) (back_ok (fun s => s) true fun _ => rfl)) ?_
    · refine Sure.ite ?_ (sure_const fun s => rfl)
      refine Sure.bind (q1 := missing sym) ?_ bvo (fun _ => h.semi) (fun _ => h.back .semicolons) ?_
      · refine Sure.pand (sure_verb hcut) back_verb (scheck.mono fun _ _ _ => trivial) (h.back .objectList).check ?_ ?_
        · intro x hx hb
          exact (hx hb).mono fun c hc => sym_noIri hc
        · intro s _ hb; simp at hb
      · intro b s hs _
        exact h.semiEnds s hs
    · intro _ _ _; trivial
  · intro s hs
    have hs : Fine ends ((skip .semicolon s).bind fun b s =>
      if b then (pand (verb (escapes hex)) (check (call .objectList)) s).bind fun _ s => call .semicolons s else .ok true s) := hs
    rcases (tok_skip (r := []) .semicolon).cases s with ⟨w, y, h1, h2⟩ | ⟨_, h2⟩
    · exact ((tok_skip (r := []) .semicolon).starts s (.inl ⟨_, h2⟩)).mono fun c hc => by
        simp [regex, Re.can, Re.chr] at hc
        exact .inl hc
    · rw [h2] at hs
      exact .skip hs.2
  · refine Sure.pand h.object (h.back .object) (h.commas.mono fun _ _ _ => trivial) (h.back .commas) ?_ ?_
    · intro _ hx; exact hx
    · intro _ _; rfl
  · refine Sure.bind (q1 := any) ?_ bco (fun b => Sure.ite h.commas (sure_const fun s => rfl))
      (fun b => back_ite (h.back .commas) (back_ok (fun s => s) true fun _ => rfl)) ?_
    · refine Sure.pand (q1 := any) ((tok_skip .comma).plain (by unfold Plain; decide)) (tok_skip (r := []) .comma).back
        (Sure.check h.object (h.back .object) fun _ _ => rfl) (h.back .object).check ?_ ?_
      · intro _ _; trivial
      · intro _ _; trivial
    · intro _ _ _; trivial
  · have hst : Starts (· = '[') (por collection (call .blankNodePropertyList)) := Starts.por skips_collection starts_collection h.starts
    refine Sure.bind (sure_core hcut) back_core (fun b => ?_)
      (fun b => back_ite (back_ok emitTriple true fun _ => rfl) (back_collection.por (h.back .blankNodePropertyList))) ?_
    · refine Sure.ite (sure_const fun s => rfl) ?_
      refine Sure.por (q1 := any) sure_collection back_collection (h.bnpl.mono fun _ _ _ => trivial) (h.back .blankNodePropertyList) ?_ ?_
      · intro _ _; trivial
      · intro _ _; trivial
    · intro b s hf hb
      subst hb
      have hf : Fine hits (por collection (call .blankNodePropertyList) s) := hf
      apply hst s
      cases hr : por collection (call .blankNodePropertyList) s with
      | ok b s' =>
        rw [hr] at hf
        have hb : b = true := hf.2
        subst hb
        exact .inl ⟨s', rfl⟩
      | abort => exact .inr rfl
      | error _ => rw [hr] at hf; exact hf.elim
      | ub => rw [hr] at hf; exact hf.elim
      | diverge => rw [hr] at hf; exact hf.elim
  · refine Sure.bind (q1 := any) ((tok_skip .openSquared).plain (by unfold Plain; decide)) bsq (fun b => ?_)
      (fun b => back_ite bent (back_ok (fun s => s) false fun _ => rfl)) ?_
    · refine Sure.ite ?_ (sure_const fun s => rfl)
      intro s hs hf
      have hf : Fine any (inside call s.activeSubject s.activePredicate (enter s)) := hf
      have key : Sure t r any (inside call s.activeSubject s.activePredicate) := by
        have bclose := (tok_skip (r := []) .closeSquared).back.check
        have bfin : Back fun s' => (check (skip .closeSquared) s').bind fun _ t =>
            .ok true { t with activeSubject := s.activeSubject, activePredicate := s.activePredicate } :=
          bclose.bind fun _ => back_ok _ true fun _ => rfl
        refine Sure.bind (q1 := fun b x => b = true → Ahead sym x) ?_ (h.back .predicateObjectList).check (fun b => ?_) (fun b => bfin) ?_
        · exact Sure.check h.pol (h.back .predicateObjectList) fun x hx => hx rfl
        · refine Sure.bind (q1 := any) ?_ bclose (fun b => sure_const fun s => rfl) (fun b => back_ok _ true fun _ => rfl) ?_
          · refine Sure.check (q1 := any) ((tok_skip .closeSquared).plain (by unfold Plain; decide)) (tok_skip (r := []) .closeSquared).back ?_
            intro _ _; trivial
          · intro _ _ _; trivial
        · intro b s1 hf1 _
          rcases (tok_skip (r := []) .closeSquared).cases s1 with ⟨w, y, h1, h2⟩ | ⟨_, h2⟩
          · exact ((tok_skip (r := []) .closeSquared).starts s1 (.inl ⟨_, h2⟩)).mono fun c hc => by
              simp [regex, Re.can, Re.chr] at hc
              exact .inr (.inr hc)
          · simp only [check, h2] at hf1
            exact hf1.elim
      exact key (enter s) hs hf
    · intro _ _ _; trivial
  · intro s s' hs p hp
    obtain ⟨b, s1, h1, h2⟩ := bind_ok hs
    cases b with
    | true =>
      exfalso
      obtain ⟨_, _, _, h3⟩ := bind_ok h2
      obtain ⟨_, _, _, h4⟩ := bind_ok h3
      simp at h4
    | false =>
      simp at h2
      subst h2
      exact (tok_skip (r := []) .openSquared).skips s s1 h1 p hp
  · refine Starts.bind_true ((tok_skip (r := []) .openSquared).starts.mono fun c hc => ?_) fun s => ⟨by simp, by simp⟩
    simp [regex, Re.can, Re.chr] at hc
    exact hc

theorem good_run (hcut : CleanCut t r) : ∀ n, Steady t r (run (escapes hex) n)
  | 0 => by
    have hb : Back fun _ => .diverge := ⟨fun _ _ _ h => by simp at h, fun _ h => by simp at h⟩
    have hs : ∀ {q : Bool → Str → Prop}, Sure t r q fun _ => .diverge := fun s _ h => h.elim
    exact ⟨fun _ => hb, hs, hs, fun s h => h.elim, hs, hs, hs, hs, fun s s' h => by simp [run] at h, fun s h => by simp [run] at h⟩
  | n + 1 => good_step hcut (good_run hcut n)

end Verif.Turtle
