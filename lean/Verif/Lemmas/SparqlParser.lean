import Verif.Lemmas.SparqlWords
/-
The parts of a query: literals, SELECT, filters, BIND, VALUES, modifiers.
-/
namespace Verif.SparqlParser
open Verif.SparqlSpec
open Verif.SparqlLexer (Ty Token Lexer isSpace)

attribute [local congr] thenW_congr

variable {E : Env} (tr : Bool) [Lawful E]

/-! ### Literals -/

omit [Lawful E] in
theorem inner_quoted (v : Str) : inner ('"' :: v ++ ['"']) = v := by
  simp [inner]

theorem quotedPart_eq (d : Char) : ∀ (e : Bool) (v s : Str), d ∉ v → (v = [] → e = false) → v.getLast? ≠ some '\\' →
    quotedPart d e (v ++ d :: s) = (v, d :: s)
  | e, [], s, _, he, _ => by rw [he rfl]; simp [quotedPart]
  | e, c :: v, s, h, _, hl => by
    have hc : c ≠ d := fun h' => h (by simp [h'])
    have hv : d ∉ v := fun h' => h (by simp [h'])
    have hb : (c == '\\' && (v ++ d :: s).head? == some d) = false := by
      cases v with
      | nil =>
        have : c ≠ '\\' := by simpa using hl
        simp [this]
      | cons a v =>
        have : a ≠ d := fun h' => hv (by simp [h'])
        simp [this]
    have hl' : v.getLast? ≠ some '\\' := by
      cases v with
      | nil => simp
      | cons a v => rw [List.getLast?_cons_cons] at hl; exact hl
    rw [List.cons_append, quotedPart, if_neg (by simp [hc]), if_neg (by rw [hb]; simp), quotedPart_eq d false v s hv (fun _ => rfl) hl']

theorem not_space {c : Char} (h : 0x20 < c.toNat) : isSpace c = false := by
  rw [← space_iff]
  simp only [Item.space, List.mem_cons, List.not_mem_nil, or_false, decide_eq_false_iff_not]
  omega

theorem nameChar_gt {c : Char} (h : TurtleSpec.nameChar c = true) : 0x22 < c.toNat := by
  have h1 : (c == '_') = decide (c.toNat = 95) := by
    rw [Bool.eq_iff_iff, beq_iff_eq, decide_eq_true_eq]; exact ⟨fun h => by rw [h]; rfl, fun h => Char.toNat_inj.1 h⟩
  have h2 : (c == '-') = decide (c.toNat = 45) := by
    rw [Bool.eq_iff_iff, beq_iff_eq, decide_eq_true_eq]; exact ⟨fun h => by rw [h]; rfl, fun h => Char.toNat_inj.1 h⟩
  simp only [TurtleSpec.nameChar, TurtleSpec.nameStart, TurtleSpec.digit, TurtleSpec.inRanges, List.any_cons, List.any_nil, h1, h2,
    Bool.or_eq_true, Bool.and_eq_true, decide_eq_true_eq, Bool.or_false] at h
  omega

theorem prefix_gt {p : Str} (hp : Prefix p) : ∀ c ∈ p, 0x22 < c.toNat := by
  rcases hp with rfl | ⟨c, s, rfl, hc, hs, _⟩
  · simp
  · intro d hd
    rcases List.mem_cons.1 hd with rfl | hd
    · exact nameChar_gt (by simp [TurtleSpec.nameChar, hc])
    · have := hs d hd
      simp only [Bool.or_eq_true, beq_iff_eq] at this
      rcases this with h | rfl
      · exact nameChar_gt h
      · decide

theorem local_gt {p : Str} (hp : Local p) : ∀ c ∈ p, 0x22 < c.toNat := by
  rcases hp with rfl | ⟨c, s, rfl, hc, hs, _⟩
  · simp
  · intro d hd
    rcases List.mem_cons.1 hd with rfl | hd
    · simp only [Bool.or_eq_true, beq_iff_eq] at hc
      rcases hc with ((hc | rfl) | rfl) | hc
      · exact nameChar_gt (by simp [TurtleSpec.nameChar, hc])
      · decide
      · decide
      · exact nameChar_gt (by simp [TurtleSpec.nameChar, hc])
    · have := hs d hd
      simp only [Bool.or_eq_true, beq_iff_eq] at this
      rcases this with (h | rfl) | rfl
      · exact nameChar_gt h
      · decide
      · decide

theorem letter_alpha {c : Char} (h : TurtleSpec.letter c = true) : isAlpha c = true := by
  simpa [TurtleSpec.letter, TurtleSpec.inRanges, isAlpha, Turtle.between] using h

theorem takeWhile_all {p : Char → Bool} {s : Str} (h : ∀ c ∈ s, p c = true) : s.takeWhile p = s := by
  have := SparqlLexer.dropWhile_all (v := []) h (by simp)
  have h2 := List.takeWhile_append_dropWhile (p := p) (l := s)
  rw [List.append_nil] at this
  rw [this, List.append_nil] at h2
  exact h2

theorem typed_eq {v u : Str} (h1 : '"' ∉ v) (h2 : v.getLast? ≠ some '\\') (h : ∀ c ∈ u, isSpace c = false) :
    parseLiteral ('"' :: v ++ '"' :: '^' :: '^' :: u) = .ok ('"' :: v ++ '"' :: '^' :: '^' :: u) := by
  have hd : ('"' :: v ++ '"' :: '^' :: '^' :: u).dropWhile isSpace = '"' :: (v ++ '"' :: '^' :: '^' :: u) := by
    rw [List.cons_append, List.dropWhile_cons_of_neg (by decide)]
  have ht : ('^' :: '^' :: u).takeWhile (fun c => !isSpace c) = '^' :: '^' :: u := by
    apply takeWhile_all
    intro c hc
    simp only [List.mem_cons] at hc
    rcases hc with rfl | rfl | hc
    · decide
    · decide
    · rw [h c hc]; rfl
  unfold parseLiteral
  rw [hd]
  simp only [quotedPart_eq '"' false v _ h1 (fun _ => rfl) h2, List.drop_one, List.tail_cons, List.head?_cons]
  have e1 : (some '^' = some '@') = False := by simp
  simp only [e1, if_false, List.length_nil, List.drop_zero, List.head?_cons, List.tail_cons, and_self, if_true, ht]
  simp

theorem parseLiteral_simple {v : Str} {x : Suffix} (h : (Term.literal v x).Simple) :
    parseLiteral ('"' :: v ++ '"' :: x.text) = .ok ('"' :: v ++ '"' :: x.text) := by
  obtain ⟨h1, h2, hx, h3⟩ := h
  have hd : ('"' :: v ++ '"' :: x.text).dropWhile isSpace = '"' :: (v ++ '"' :: x.text) := by
    rw [List.cons_append, List.dropWhile_cons_of_neg (by decide)]
  cases x with
  | none =>
    unfold parseLiteral
    rw [hd]
    simp only [quotedPart_eq '"' false v _ h1 (fun _ => rfl) h2]
    simp [Suffix.text]
  | lang t parts =>
    have := h3 t parts rfl
    subst this
    have ht : t.takeWhile isAlpha = t := takeWhile_all fun c hc => letter_alpha (hx.2.1 c hc)
    unfold parseLiteral
    rw [hd]
    simp only [quotedPart_eq '"' false v _ h1 (fun _ => rfl) h2]
    simp [Suffix.text, ht]
  | ref t =>
    exact typed_eq h1 h2 (u := '<' :: t ++ ['>']) fun c hc => by
      simp only [List.mem_append, List.mem_cons, List.not_mem_nil, or_false] at hc
      rcases hc with (rfl | hc) | rfl
      · decide
      · have := (hx c hc).1
        simp only [TurtleSpec.iriChar, Bool.and_eq_true, decide_eq_true_eq] at this
        exact not_space this.1
      · decide
  | pname p l =>
    exact typed_eq h1 h2 (u := p ++ ':' :: l) fun c hc => by
      simp only [List.mem_append, List.mem_cons] at hc
      rcases hc with hc | rfl | hc
      · exact not_space (by have := prefix_gt hx.1 c hc; omega)
      · decide
      · exact not_space (by have := local_gt hx.2 c hc; omega)

theorem node_eq {x : Term} (hx : x.Simple) (ws : List Word) : runW tr node (x.word :: ws) = .ok (x.str, ws) := by
  cases x with
  | literal v x =>
    have := parseLiteral_simple hx
    simp only [List.cons_append] at this
    pwsimp [node, Term.word, Term.token, Term.str, this]
  | _ => pwsimp [node, Term.word, Term.token, Term.str]

theorem predicate_eq {p : Pred} (hp : p.Ok) (ws : List Word) : runW tr predicate (p.word :: ws) = .ok (p.text, ws) := by
  cases p with
  | var n => pwsimp [predicate, Pred.word, Pred.text]
  | path s l m =>
    obtain ⟨_, _, ht, hl⟩ := hp
    have key : l.token.type ≠ .var → l.token.type ≠ .literal → l.token.raw = l.text →
        runW tr predicate ((Pred.path s l m).word :: ws) = .ok ((Pred.path s l m).text, ws) := by
      intro h1 h2 h3
      unfold predicate
      rw [runW_bind, acceptTy_no tr (show (nextOf ((Pred.path s l m).word :: ws)).type ≠ .var from h1)]
      rw [thenW_ok]
      rw [runW_bind, acceptTy_no tr (show (nextOf ((Pred.path s l m).word :: ws)).type ≠ .literal from h2)]
      rw [thenW_ok]
      show Outcome.ok (l.token.raw ++ m, ws) = _
      rw [h3, ← ht]
      rfl
    cases l with
    | iri t => exact key (by simp [Lexeme.token]) (by simp [Lexeme.token]) rfl
    | pname p l => exact key (by simp [Lexeme.token]) (by simp [Lexeme.token]) rfl
    | symbol c => exact key (by simp [Lexeme.token]) (by simp [Lexeme.token]) rfl
    | _ => exact hl.elim

theorem pred_text_ne {p : Pred} (hp : p.Ok) : p.text ≠ [] := by
  cases p with
  | var n => simp [Pred.text]
  | path s l m =>
    obtain ⟨_, _, ht, hl⟩ := hp
    rw [Pred.text, ht]
    cases l with
    | iri t => simp [Lexeme.text]
    | pname p l => simp [Lexeme.text]
    | symbol c => simp [Lexeme.text]
    | _ => exact hl.elim

theorem term_str_ne (x : Term) : x.str ≠ [] := by
  cases x <;> simp [Term.str, Term.token]

/-! ### Aliases and SELECT -/

theorem parenVar_eq (n : Str) (ws : List Word) : runW tr (parenVar E) (sym '(' :: varWord n :: sym ')' :: ws) = .ok ('?' :: n, ws) := by
  pwsimp [parenVar]

theorem aggType_eq (a : Agg) : aggType (aggName a).toList = .ok a := by cases a <;> decide

theorem upper_eq (a : Agg) : (aggName a).toList.map upper = (aggUpper a).toList := by cases a <;> decide

theorem as_eq (s : Str) : ") as ?".toList ++ s = ") as ".toList ++ '?' :: s := rfl
theorem sep_eq (s : Str) : ";SEPARATOR=\"".toList ++ s = ";SEPARATOR=".toList ++ '"' :: s := rfl
theorem concat_eq : (¬ (aggName Agg.groupConcat).toList = "group_concat".toList) = False := by simp [aggName]

theorem empty_app (a : List Word) (b c : Word) (ws : List Word) : emptyOf tr (a ++ b :: c :: ws) = false := by
  rcases a with _ | ⟨x, a⟩
  · cases b <;> rfl
  · have : (a ++ b :: c :: ws).isEmpty = false := by cases a <;> rfl
    cases x <;> simp [emptyOf]

theorem parseAlias_eq {a : AliasE} (ha : a.Ok) (ws : List Word) : runW tr (parseAlias E) (a.words ++ ws) = .ok (a.alias_, ws) := by
  obtain ⟨agg, distinct, v, sep, out⟩ := a
  cases sep with
  | none =>
    cases distinct <;> pwsimp [parseAlias, AliasE.words, aggType_eq, upper_eq, AliasE.alias_, parseSeparator, Option.getD_none, as_eq]
  | some s =>
    have hs : agg = .groupConcat := ha (by simp)
    subst hs
    have hi := inner_quoted s
    rw [List.cons_append] at hi
    cases distinct <;>
      pwsimp [parseAlias, AliasE.words, aggType_eq, upper_eq, AliasE.alias_, parseSeparator, hi, Option.getD_some, as_eq, sep_eq, concat_eq]

theorem text_eq (s : Str) : "TEXT(?".toList ++ s = "TEXT(".toList ++ '?' :: s := rfl
theorem score_eq (s : Str) : "SCORE(?".toList ++ s = "SCORE(".toList ++ '?' :: s := rfl

theorem selectLoop_var (v : Str) (n : Nat) (q : Info) (a : List Word) (b c : Word) (ws : List Word) :
    runW tr (selectLoop E (n + 1) q) (varWord v :: (a ++ b :: c :: ws)) =
      runW tr (selectLoop E n { q with selected := q.selected ++ ['?' :: v] }) (a ++ b :: c :: ws) := by
  rw [selectLoop]
  pwsimp [empty_app]

theorem selectLoop_text (v : Str) (n : Nat) (q : Info) (a : List Word) (b c : Word) (ws : List Word) :
    runW tr (selectLoop E (n + 1) q) (kw "text" :: sym '(' :: varWord v :: sym ')' :: (a ++ b :: c :: ws)) =
      runW tr (selectLoop E n { q with selected := q.selected ++ ["TEXT(?".toList ++ v ++ [')']] }) (a ++ b :: c :: ws) := by
  rw [selectLoop]
  pwsimp [empty_app, parenVar, text_eq]

theorem selectLoop_score (v : Str) (n : Nat) (q : Info) (a : List Word) (b c : Word) (ws : List Word) :
    runW tr (selectLoop E (n + 1) q) (kw "score" :: sym '(' :: varWord v :: sym ')' :: (a ++ b :: c :: ws)) =
      runW tr (selectLoop E n { q with selected := q.selected ++ ["SCORE(?".toList ++ v ++ [')']] }) (a ++ b :: c :: ws) := by
  rw [selectLoop]
  pwsimp [empty_app, parenVar, score_eq]

theorem selectLoop_alias {x : AliasE} (hx : x.Ok) (n : Nat) (q : Info) (a : List Word) (b c : Word) (ws : List Word) :
    runW tr (selectLoop E (n + 1) q) ((sym '(' :: (x.words ++ [sym ')'])) ++ (a ++ b :: c :: ws)) =
      runW tr (selectLoop E n { q with selected := q.selected ++ ['?' :: x.out], aliases := q.aliases ++ [x.alias_] }) (a ++ b :: c :: ws) := by
  have ha := parseAlias_eq (E := E) tr (a := x) hx
  rw [selectLoop]
  pwsimp [empty_app, ha]
  rfl

theorem selectLoop_step {x : Sel} (hx : x.Ok) (n : Nat) (q : Info) (a : List Word) (b c : Word) (ws : List Word) :
    runW tr (selectLoop E (n + 1) q) (x.words ++ (a ++ b :: c :: ws)) =
      runW tr (selectLoop E n { q with selected := q.selected ++ [x.name], aliases := q.aliases ++ x.aliases }) (a ++ b :: c :: ws) := by
  cases x with
  | var v =>
    rw [show (Sel.var v).aliases = [] from rfl, List.append_nil]
    exact selectLoop_var tr v n q a b c ws
  | text v =>
    rw [show (Sel.text v).aliases = [] from rfl, List.append_nil]
    exact selectLoop_text tr v n q a b c ws
  | score v =>
    rw [show (Sel.score v).aliases = [] from rfl, List.append_nil]
    exact selectLoop_score tr v n q a b c ws
  | aliased x => exact selectLoop_alias tr hx n q a b c ws

theorem selectLoop_eq (ws : List Word) (sels : List Sel) (n : Nat) (q : Info) (h : ∀ s ∈ sels, s.Ok) (hn : sels.length < n) :
    runW tr (selectLoop E n q) (sels.flatMap Sel.words ++ (kw "where" :: sym '{' :: ws)) =
      .ok ({ q with selected := q.selected ++ sels.map Sel.name, aliases := q.aliases ++ sels.flatMap Sel.aliases }, sym '{' :: ws) := by
  induction sels generalizing n q with
  | nil =>
    obtain ⟨n, rfl⟩ : ∃ m, n = m + 1 := ⟨n - 1, by simp at hn; omega⟩
    pwsimp [selectLoop, List.map_nil]
  | cons x sels ih =>
    obtain ⟨n, rfl⟩ : ∃ m, n = m + 1 := ⟨n - 1, by simp at hn; omega⟩
    rw [List.flatMap_cons, List.append_assoc, selectLoop_step tr (h x (by simp)), ih _ _ (fun s hs => h s (by simp [hs])) (by simpa using hn)]
    simp only [List.map_cons, List.flatMap_cons, List.append_assoc, List.cons_append, List.nil_append]

theorem parseSelect_eq {distinct reduced : Bool} {sels : List Sel} {n : Nat} {q : Info} {ws : List Word} (hd : q.distinct = false)
    (hr : q.reduced = false) (h : ∀ s ∈ sels, s.Ok) (hn : sels.length < n) :
    runW tr (parseSelect E n q) ((if distinct then [kw "distinct"] else []) ++ ((if reduced then [kw "reduced"] else []) ++
      (sels.flatMap Sel.words ++ (kw "where" :: sym '{' :: ws)))) =
      .ok ({ q with selected := q.selected ++ sels.map Sel.name, aliases := q.aliases ++ sels.flatMap Sel.aliases, distinct := distinct,
                    reduced := reduced }, sym '{' :: ws) := by
  have key : ∀ w, w = "distinct" ∨ w = "reduced" → ∀ rest, runW tr (accept E w) (sels.flatMap Sel.words ++ (kw "where" :: rest)) =
      .ok (false, sels.flatMap Sel.words ++ (kw "where" :: rest)) := by
    intro w hw rest
    have hw' : IsWord w ∧ "where" ≠ w ∧ "text" ≠ w ∧ "score" ≠ w ∧ "(" ≠ w := by rcases hw with rfl | rfl <;> simp
    obtain ⟨h0, h1, h2, h3, h4⟩ := hw'
    cases sels with
    | nil => pwsimp [h1]
    | cons x sels => cases x <;> pwsimp [Sel.words, h0, h2, h3, h4]
  have e := fun q => selectLoop_eq (E := E) tr ws sels n q h hn
  cases distinct <;> cases reduced <;> pwsimp [parseSelect, key, e, hd, hr, true_or, or_true, Bool.or_self, Bool.or_true]

/-! ### Filters -/

theorem openParens_eq {ws : List Word} (h : runW tr (accept E "(") ws = .ok (false, ws)) : ∀ (k n : Nat), k < n →
    runW tr (openParens E n) (List.replicate k (sym '(') ++ ws) = .ok (k, ws)
  | 0, n + 1, _ => by
    rw [openParens]
    pwsimp [h, List.replicate_zero]
  | k + 1, n + 1, hn => by
    have ih := openParens_eq h k n (by omega)
    rw [openParens, List.replicate_succ]
    pwsimp [ih]

theorem expectClose_eq {ws : List Word} : ∀ k : Nat, runW tr (expectClose E k) (List.replicate k (sym ')') ++ ws) = .ok ((), ws)
  | 0 => by rw [expectClose, runW_pure]; rfl
  | k + 1 => by
    have ih := expectClose_eq (ws := ws) k
    rw [expectClose, List.replicate_succ]
    pwsimp [ih]

theorem operand_eq (x : Operand) (ws : List Word) : runW tr operand (.tok x.token :: ws) = .ok (x.token.raw, ws) := by
  unfold operand
  rw [runW]
  have h : x.token.type = .iri ∨ x.token.type = .var ∨ x.token.type = .literal ∨ x.token.type = .integer ∨ x.token.type = .float := by
    rcases x with x | _ | _
    · cases x <;> simp [Operand.token, Term.token]
    · simp [Operand.token]
    · simp [Operand.token]
  rw [show nextOf (Word.tok x.token :: ws) = x.token from rfl, if_pos h]
  rfl

theorem accept_op {x : Operand} (hx : x.Ok) {w : String} (hw : IsWord w) (ws : List Word) :
    runW tr (accept E w) (.tok x.token :: ws) = .ok (false, .tok x.token :: ws) := accept_no tr (not_is_operand E hx hw)

theorem comparison_eq {x : Operand} (hx : x.Ok) (op : Cmp) (ws : List Word) :
    runW tr (comparison E) (op.words ++ .tok x.token :: ws) = .ok (op.type, .tok x.token :: ws) := by
  have h := accept_op (E := E) tr hx (w := "=") (by simp) ws
  rw [comparison]
  rcases op <;> pwsimp [Cmp.words, Cmp.type, h]

theorem isControl_iff (c : Char) : isControl c = true ↔ c ∈ controls := by
  rw [isControl, List.contains_iff_mem]
  rfl

theorem simplePrefix_escaped {t s : Str} (h : Escaped t s) : simplePrefix false t = .ok (some s) := by
  induction h with
  | nil => rfl
  | plain hc hb _ ih =>
    rw [← isControl_iff, Bool.not_eq_true] at hc
    rw [simplePrefix, if_neg hb, hc, ih]
    rfl
  | @escape c s v hc _ ih =>
    rw [simplePrefix, if_pos rfl]
    have : simplePrefix true (c :: s) = .ok (some (c :: v)) := by
      rw [simplePrefix]
      by_cases hb : c = '\\'
      · rw [if_pos hb, Bool.not_true, ih]; rfl
      · have := (isControl_iff c).2 (hc.resolve_right hb)
        rw [if_neg hb, this, ih]; rfl
    rw [Bool.not_false, this]
    rfl

theorem simplePrefix_control {t s : Str} (h : Escaped t s) {c : Char} (hc : c ∈ controls) (u : Str) : simplePrefix false (t ++ c :: u) = .ok none := by
  have hb : c ≠ '\\' := by rintro rfl; revert hc; decide
  induction h with
  | nil =>
    rw [← isControl_iff] at hc
    rw [List.nil_append, simplePrefix, if_neg hb, hc]
    rfl
  | plain hd hd' _ ih =>
    rw [← isControl_iff, Bool.not_eq_true] at hd
    rw [List.cons_append, simplePrefix, if_neg hd', hd, ih]
    rfl
  | @escape d s v hd _ ih =>
    rw [List.cons_append, List.cons_append, simplePrefix, if_pos rfl]
    have : simplePrefix true (d :: (s ++ c :: u)) = .ok none := by
      rw [simplePrefix]
      by_cases hb : d = '\\'
      · rw [if_pos hb, Bool.not_true, ih]; rfl
      · have := (isControl_iff d).2 (hd.resolve_right hb)
        rw [if_neg hb, this, ih]; rfl
    rw [Bool.not_false, this]
    rfl

theorem expect_i (ws : List Word) : runW tr (expect E "\"i\"") (litWord ['i'] :: ws) = .ok ((), ws) :=
  expect_yes tr (map_low_word E (w := "\"i\"") (by simp))

/-- the end of `parseRegexFilter` -/
theorem regex_end {r : Regex} (hr : r.Ok) (ws : List Word) :
    runW tr (if r.pattern.head? = some '^' ∧ r.ignoreCase = false then (do
        match ← Prog.lift (simplePrefix false r.pattern.tail) with
        | some s => pure { type := .pre, lhs := '?' :: r.v, rhs := '^' :: s, ignoreCase := r.ignoreCase, lhsAsString := r.str }
        | none => pure { type := .regex, lhs := '?' :: r.v, rhs := r.pattern, ignoreCase := r.ignoreCase, lhsAsString := r.str })
      else pure { type := .regex, lhs := '?' :: r.v, rhs := r.pattern, ignoreCase := r.ignoreCase, lhsAsString := r.str }) ws =
      .ok (r.filter, ws) := by
  unfold Regex.Ok at hr
  unfold Regex.filter
  cases hs : r.start with
  | some s =>
    rw [hs] at hr
    obtain ⟨h1, t, h2, h3⟩ := hr
    rw [h2, if_pos ⟨rfl, h1⟩, List.tail_cons, simplePrefix_escaped h3, runW_bind, runW_lift, thenW_ok]
    rfl
  | none =>
    rw [hs] at hr
    by_cases hc : r.pattern.head? = some '^' ∧ r.ignoreCase = false
    · rw [if_pos hc]
      rcases hr with h | h | ⟨t, s, c, u, h1, h2, h3⟩
      · rw [hc.2] at h; cases h
      · exact absurd hc.1 h
      · rw [h1, List.cons_append, List.tail_cons, simplePrefix_control h2 h3, runW_bind, runW_lift, thenW_ok]
        rfl
    · rw [if_neg hc]
      rfl

theorem parseRegexFilter_eq {r : Regex} (hr : r.Ok) (ws : List Word) : runW tr (parseRegexFilter E) (r.words ++ ws) = .ok (r.filter, ws) := by
  have e := regex_end tr hr ws
  obtain ⟨str, v, pattern, ignoreCase, start⟩ := r
  have hi := inner_quoted pattern
  rw [List.cons_append] at hi
  rw [parseRegexFilter, ← e]
  cases str <;> cases ignoreCase <;> pwsimp [Regex.words, hi, expect_i]
  all_goals rfl

theorem moreRegex_eq {ws : List Word} (h : (nextOf ws).type ≠ .logicalOr) : ∀ (more : List Regex) (n : Nat), (∀ r ∈ more, r.Ok) →
    more.length < n → runW tr (moreRegex E n) (more.flatMap (fun r => .tok ⟨.logicalOr, ['|', '|']⟩ :: kw "regex" :: r.words) ++ ws) =
      .ok (more.map Regex.filter, ws)
  | [], n + 1, _, _ => by
    have := acceptTy_no tr h
    rw [moreRegex]
    pwsimp [this, List.map_nil]
  | r :: more, n + 1, hr, hn => by
    have ih := moreRegex_eq h more n (fun r' h' => hr r' (by simp [h'])) (by simpa using hn)
    have e := parseRegexFilter_eq (E := E) tr (hr r (by simp))
    rw [moreRegex]
    pwsimp [ih, e, List.map_cons]

theorem pre_type {r : Regex} (h : r.start ≠ none) : r.filter.type = .pre := by
  unfold Regex.filter
  cases hs : r.start with
  | some s => rfl
  | none => exact absurd hs h

theorem filter_lhs (r : Regex) : r.filter.lhs = '?' :: r.v := by
  unfold Regex.filter
  cases r.start <;> rfl

theorem parseFilter_compare (k : Nat) (str : Bool) {lhs rhs : Operand} (op : Cmp) (hl : lhs.Ok) (hr : rhs.Ok) {n : Nat} (hn : k + 1 < n)
    (fs : List Filter) (cs : List Op) (ws : List Word) :
    runW tr (parseFilter E n fs cs) ((FilterE.compare k str lhs op rhs).words ++ ws) =
      .ok (some (fs ++ [(FilterE.compare k str lhs op rhs).filter], cs), ws) := by
  have h1 : ∀ {w : String}, IsWord w → ∀ ws, _ := fun {w} hw ws => accept_op (E := E) tr hl hw ws
  have e0 := fun w => openParens_eq (E := E) tr (ws := kw "str" :: w) (by pwsimp []) (k + 1) n hn
  have e1 := fun w => openParens_eq (E := E) tr (h1 (by simp) w) (k + 1) n hn
  have e2 := comparison_eq (E := E) tr hr op
  have e3 := operand_eq tr lhs
  have e4 := operand_eq tr rhs
  have e5 := expectClose_eq (E := E) tr (ws := ws) (k + 1)
  have hk : (k + 1 = 0) = False := by simp
  rw [parseFilter]
  cases str <;> pwsimp [FilterE.words, FilterE.filter, e0, e1, h1, e2, e3, e4, e5, hk, Nat.reduceEqDiff]

theorem parseFilter_regex (k : Nat) {r : Regex} {more : List Regex} (h : (FilterE.regex k r more).Ok) {n : Nat} (hn : k < n) (hm : more.length < n)
    (fs : List Filter) (cs : List Op) (ws : List Word) :
    runW tr (parseFilter E n fs cs) ((FilterE.regex k r more).words ++ ws) =
      .ok (some (fs ++ [(FilterE.regex k r more).filter], cs), ws) := by
  have e1 := fun w => openParens_eq (E := E) tr (ws := kw "regex" :: w) (by pwsimp []) k n hn
  have e2 := parseRegexFilter_eq (E := E) tr (h.1 r (by simp))
  have e3 : k ≠ 0 → runW tr (moreRegex E n) (more.flatMap (fun r => .tok ⟨.logicalOr, ['|', '|']⟩ :: kw "regex" :: r.words) ++ (List.replicate k (sym ')') ++ ws)) =
      .ok (more.map Regex.filter, List.replicate k (sym ')') ++ ws) := by
    intro hk
    refine moreRegex_eq tr ?_ more n (fun x hx => h.1 x (by simp [hx])) hm
    obtain ⟨j, rfl⟩ : ∃ j, k = j + 1 := ⟨k - 1, by omega⟩
    exact (by decide : Ty.symbol ≠ .logicalOr)
  have e4 : k = 0 → more = [] := by
    intro hk
    apply Classical.byContradiction
    intro hm
    exact (h.2 hm).1 hk
  have e5 := expectClose_eq (E := E) tr (ws := ws) k
  have e6 : ¬ (more.map Regex.filter ≠ [] ∧ ¬ ((r.filter :: more.map Regex.filter).all (fun f => f.type = .pre)) = true) := by
    rintro ⟨h1, h2⟩
    apply h2
    have hm : more ≠ [] := by rintro rfl; exact h1 rfl
    rw [List.all_eq_true]
    intro f hf
    rw [← List.map_cons, List.mem_map] at hf
    obtain ⟨x, hx, rfl⟩ := hf
    exact decide_eq_true (pre_type ((h.2 hm).2 x hx))
  rw [parseFilter]
  by_cases hk : k = 0
  · obtain rfl := e4 hk
    subst hk
    pwsimp [FilterE.words, FilterE.filter, e1, e2]
    rw [e5]
    rfl
  · have e3 := e3 hk
    have e7 : Filter.lhs ∘ Regex.filter = fun x => '?' :: x.v := funext filter_lhs
    have e8 : Filter.rhs ∘ Regex.filter = fun x => x.filter.rhs := rfl
    pwsimp [FilterE.words, FilterE.filter, e1, e2, e3, e5, hk]
    rw [if_neg e6, runW_bind, e5, thenW_ok, runW_pure, List.map_map, List.map_map, e7, e8]

theorem parseFilter_eq {f : FilterE} (hf : f.Ok) {n : Nat} (hn : f.words.length ≤ n) (fs : List Filter) (cs : List Op) (ws : List Word) :
    runW tr (parseFilter E n fs cs) (f.words ++ ws) = .ok (some (fs ++ [f.filter], cs), ws) := by
  cases f with
  | compare k str lhs op rhs =>
    refine parseFilter_compare tr k str op hf.1 hf.2 ?_ fs cs ws
    simp only [FilterE.words, List.length_append, List.length_replicate, List.length_cons] at hn
    omega
  | regex k r more =>
    have h : more.length ≤ (more.flatMap fun r => Word.tok ⟨.logicalOr, ['|', '|']⟩ :: kw "regex" :: r.words).length := by
      clear hf hn
      induction more with
      | nil => simp
      | cons r more ih => simp only [List.flatMap_cons, List.length_append, List.length_cons] at ih ⊢; omega
    simp only [FilterE.words, List.length_append, List.length_replicate, List.length_cons] at hn
    exact parseFilter_regex tr k hf (by omega) (by omega) fs cs ws

/-! ### BIND -/

theorem digit_val {d : Nat} (h : d < 10) : (Char.ofNat (48 + d)).toNat - 48 = d ∧ Char.ofNat (48 + d) ≠ '-' := by
  rcases d with _ | _ | _ | _ | _ | _ | _ | _ | _ | _ | d <;> first | (exfalso; omega) | decide

theorem digits_eq (ds : List Nat) (h : ∀ d ∈ ds, d < 10) (k : Nat) :
    (BindE.digitChars ds).foldl (fun n c => 10 * n + (c.toNat - 48)) k = ds.foldl (fun n d => 10 * n + d) k := by
  induction ds generalizing k with
  | nil => rfl
  | cons d ds ih =>
    rw [BindE.digitChars, List.map_cons, List.foldl_cons, List.foldl_cons, (digit_val (h d (by simp))).1]
    exact ih (fun x hx => h x (by simp [hx])) _

theorem number_eq {m : Bool} {ds : List Nat} (h : (BindE.integer m ds).Ok) :
    Bind.strtoll (bindExpr.number ((if m then ['-'] else []) ++ BindE.digitChars ds)) =
      if m then - (PropertyPathSpec.natOf ds : Int) else PropertyPathSpec.natOf ds := by
  obtain ⟨h1, h2, h3⟩ := h
  have hd : bindExpr.digits (BindE.digitChars ds) = PropertyPathSpec.natOf ds := digits_eq ds h2 0
  have e : bindExpr.number ((if m then ['-'] else []) ++ BindE.digitChars ds) =
      if m then - (PropertyPathSpec.natOf ds : Int) else PropertyPathSpec.natOf ds := by
    cases m with
    | true =>
      rw [if_pos rfl, if_pos rfl, bindExpr.number]
      show (if some '-' = some '-' then -((bindExpr.digits (BindE.digitChars ds) : Nat) : Int) else _) = _
      rw [if_pos rfl, hd]
    | false =>
      rw [if_neg (by simp), if_neg (by simp), List.nil_append, bindExpr.number, if_neg, hd]
      cases ds with
      | nil => exact absurd rfl h1
      | cons d ds =>
        intro h
        exact (digit_val (h2 d (by simp))).2 (Option.some.inj h)
  rw [e, Bind.strtoll]
  have : (PropertyPathSpec.natOf ds : Int) < 2 ^ 63 := by exact_mod_cast h3
  cases m with
  | true =>
    rw [if_pos rfl, if_neg (by omega), if_neg (by omega)]
  | false =>
    simp only [Bool.false_eq_true, if_false]
    rw [if_neg (by omega), if_neg (by omega)]

theorem bindExpr_eq {e : BindE} (he : e.Ok) (ws : List Word) : runW tr bindExpr (e.words ++ kw "as" :: ws) = .ok (e.expr, kw "as" :: ws) := by
  unfold bindExpr
  cases e with
  | rename v => pwsimp [BindE.words, BindE.expr]
  | binary v op w =>
    have h := acceptTy_yes tr (t := ⟨.symbol, [op]⟩) rfl (ws := varWord w :: kw "as" :: ws)
    have h' : op ∈ ['+', '-', '*', '/'] := he
    have : runW tr (acceptTy .symbol) (sym op :: varWord w :: kw "as" :: ws) = .ok (some ⟨.symbol, [op]⟩, varWord w :: kw "as" :: ws) := h
    pwsimp [BindE.words, BindE.expr, this, List.head?_cons, h']
  | literal v x =>
    have := parseLiteral_simple he
    simp only [List.cons_append] at this
    pwsimp [BindE.words, BindE.expr, Term.word, Term.token, Term.str, this]
  | iri t => pwsimp [BindE.words, BindE.expr, Term.word, Term.token, Term.str]
  | pname p l => pwsimp [BindE.words, BindE.expr, Term.word, Term.token, Term.str]
  | integer m ds =>
    have := number_eq he
    pwsimp [BindE.words, BindE.expr, this]

theorem parseBind_eq {e : BindE} (he : e.Ok) (v : Str) (ws : List Word) :
    runW tr (parseBind E) (sym '(' :: (e.words ++ (kw "as" :: varWord v :: sym ')' :: ws))) = .ok (.bind e.expr ('?' :: v), ws) := by
  have h := bindExpr_eq tr he
  rw [parseBind]
  pwsimp [h]

/-! ### VALUES -/

theorem varList_eq {ws : List Word} (h : (nextOf ws).type ≠ .var) : ∀ (vs : List Str) (n : Nat), vs.length < n →
    runW tr (varList n) (vs.map varWord ++ ws) = .ok (vs.map ('?' :: ·), ws)
  | [], n + 1, _ => by
    have := acceptTy_no tr h
    rw [varList]
    pwsimp [this, List.map_nil]
  | v :: vs, n + 1, hn => by
    have ih := varList_eq h vs n (by simpa using hn)
    rw [varList]
    pwsimp [List.map_cons, ih]

theorem valuesRow_eq (ws : List Word) : ∀ (r : List Term), (∀ x ∈ r, x.Const) →
    runW tr (valuesRow r.length) (r.map Term.word ++ ws) = .ok (r.map Term.str, ws)
  | [], _ => rfl
  | x :: r, h => by
    have ih := valuesRow_eq ws r (fun y hy => h y (by simp [hy]))
    have hx := h x (by simp)
    rw [List.length_cons, valuesRow]
    rcases x with v | t | ⟨p, l⟩ | ⟨v, x⟩
    · exact hx.elim
    all_goals pwsimp [List.map_cons, Term.word, Term.token, Term.str, ih]

theorem valuesRows_eq (k : Nat) (ws : List Word) : ∀ (rows : List (List Term)) (n : Nat), (∀ r ∈ rows, r.length = k ∧ ∀ x ∈ r, x.Const) →
    rows.length < n → runW tr (valuesRows E k n) (rows.flatMap (fun r => sym '(' :: (r.map Term.word ++ [sym ')'])) ++ sym '}' :: ws) =
      .ok (rows.map (·.map Term.str), sym '}' :: ws)
  | [], n + 1, _, _ => by
    rw [valuesRows]
    pwsimp [List.map_nil]
  | r :: rows, n + 1, h, hn => by
    have ih := valuesRows_eq k ws rows n (fun y hy => h y (by simp [hy])) (by simpa using hn)
    have hr := h r (by simp)
    have e := fun ws => valuesRow_eq tr ws r hr.2
    rw [hr.1] at e
    rw [valuesRows]
    pwsimp [List.map_cons, e, ih]

theorem valuesOne_eq (ws : List Word) : ∀ (xs : List Term) (n : Nat), (∀ x ∈ xs, x.Const) → xs.length < n →
    runW tr (valuesOne n) (xs.map Term.word ++ sym '}' :: ws) = .ok (xs.map fun x => [x.str], sym '}' :: ws)
  | [], n + 1, _, _ => by
    rw [valuesOne]
    pwsimp [List.map_nil]
  | x :: xs, n + 1, h, hn => by
    have ih := valuesOne_eq ws xs n (fun y hy => h y (by simp [hy])) (by simpa using hn)
    have hx := h x (by simp)
    rw [valuesOne]
    rcases x with v | t | ⟨p, l⟩ | ⟨v, x⟩
    · exact hx.elim
    all_goals pwsimp [List.map_cons, Term.word, Term.token, Term.str, ih]

theorem parseValues_eq {vs : List Str} {rows : List (List Term)} (h : ∀ r ∈ rows, r.length = vs.length ∧ ∀ x ∈ r, x.Const) {n : Nat}
    (h1 : vs.length < n) (h2 : rows.length < n) (ws : List Word) :
    runW tr (parseValues E n) (sym '(' :: (vs.map varWord ++ (sym ')' :: sym '{' ::
      (rows.flatMap (fun r => sym '(' :: (r.map Term.word ++ [sym ')'])) ++ (sym '}' :: ws))))) =
      .ok (.values (vs.map ('?' :: ·)) (rows.map (·.map Term.str)), ws) := by
  have e1 := fun w => varList_eq tr (ws := sym ')' :: w) (by exact (by decide : Ty.symbol ≠ .var)) vs n h1
  have e2 := fun w => valuesRows_eq (E := E) tr vs.length w rows n h h2
  rw [parseValues]
  pwsimp [e1, List.length_map, e2]

theorem parseValuesOne_eq (v : Str) {xs : List Term} (h : ∀ x ∈ xs, x.Const) {n : Nat} (h1 : xs.length < n) (ws : List Word) :
    runW tr (parseValues E n) (varWord v :: sym '{' :: (xs.map Term.word ++ (sym '}' :: ws))) =
      .ok (.values ['?' :: v] (xs.map fun x => [x.str]), ws) := by
  have e2 := fun w => valuesOne_eq tr w xs n h h1
  rw [parseValues]
  pwsimp [e2]

/-! ### Triples -/

theorem strip_quoted {v : Str} (h : '"' ∉ v) : strip '"' ('"' :: v ++ ['"']) = v := by
  have key : ∀ u : Str, '"' ∉ u → ∀ s, u ≠ [] → (u ++ s).dropWhile (· == '"') = u ++ s := by
    intro u hu s hn
    cases u with
    | nil => exact absurd rfl hn
    | cons c u =>
      have : (c == '"') = false := by
        rw [beq_eq_false_iff_ne]
        rintro rfl
        exact hu (by simp)
      rw [List.cons_append, List.dropWhile_cons, this]
      rfl
  unfold strip
  by_cases hv : v = []
  · subst hv; decide
  · have e1 : ('"' :: v ++ ['"']).dropWhile (· == '"') = v ++ ['"'] := by
      rw [List.cons_append, List.dropWhile_cons, if_pos (by decide)]
      exact key v h _ hv
    have e2 := key v.reverse (by simpa using h) [] (by simpa using hv)
    rw [List.append_nil] at e2
    rw [e1, List.reverse_append, List.reverse_singleton, List.singleton_append, List.dropWhile_cons, if_pos (by decide), e2, List.reverse_reverse]

theorem suffix_last {x : Suffix} (hx : x.Ok) (hn : x ≠ .none) (hl : ∀ t parts, x = .lang t parts → parts = []) (s : Str) :
    (s ++ x.text).getLast? ≠ some '"' := by
  have key : ∀ (a b : Str), b ≠ [] → '"' ∉ b → (a ++ b).getLast? ≠ some '"' := by
    intro a b hb hq h
    obtain ⟨c, u, rfl⟩ := List.exists_cons_of_ne_nil hb
    rw [List.getLast?_append, List.getLast?_cons, Option.some_or, Option.some.injEq] at h
    apply hq
    rw [← h]
    cases hu : u.getLast? with
    | none => simp
    | some d => simpa using Or.inr (List.mem_of_getLast? hu)
  cases x with
  | none => exact absurd rfl hn
  | lang t parts =>
    obtain rfl := hl t parts rfl
    refine key s _ (by simp [Suffix.text]) ?_
    intro h
    simp only [Suffix.text, List.flatMap_nil, List.append_nil, List.mem_cons] at h
    rcases h with h | h
    · revert h; decide
    · exact absurd (hx.2.1 _ h) (by decide)
  | ref t =>
    have := key (s ++ (['^', '^', '<'] ++ t)) ['>'] (by simp) (by decide)
    rwa [List.append_assoc] at this
  | pname p l =>
    have := key (s ++ (['^', '^'] ++ p)) (':' :: l) (by simp) (by
      intro h
      rcases List.mem_cons.1 h with h | h
      · revert h; decide
      · exact absurd (local_gt hx.2 _ h) (by decide))
    rwa [List.append_assoc] at this

omit [Lawful E] in
theorem object_eq {o : Term} (ho : o.Simple) (p : Pred) :
    (if p.text ∈ containsWord then stripAndLowercase E o.str else o.str) = objectStr E.low p o := by
  have hc : p.text ∈ containsWord ↔ (p.text = "ql:contains-word".toList ∨ p.text = "<QLever-internal-function/contains-word>".toList) := by
    simp only [containsWord, List.mem_cons, List.not_mem_nil, or_false]
    exact or_comm
  have hq : ∀ s : Str, s.head? ≠ some '"' → stripAndLowercase E s = s := by
    intro s hs
    rw [stripAndLowercase, if_neg]
    exact fun h => hs h.2.1
  have hk : ∀ o : Term, o.str.head? ≠ some '"' → (if p.text ∈ containsWord then stripAndLowercase E o.str else o.str) = o.str := by
    intro o h
    rw [hq _ h, ite_self]
  cases o with
  | var n => exact hk (.var n) (by simp [Term.str, Term.token])
  | iri n => exact hk (.iri n) (by simp [Term.str, Term.token])
  | pname q l =>
    apply hk (.pname q l)
    have : q.head? ≠ some '"' := ho
    cases q with
    | nil => simp [Term.str, Term.token]
    | cons c q => simpa [Term.str, Term.token] using this
  | literal v x =>
    obtain ⟨h1, h2, h3, h4⟩ := ho
    by_cases hx : x = .none
    · subst hx
      rw [objectStr]
      by_cases hp : p.text ∈ containsWord
      · rw [if_pos hp]
        have hp' := hc.1 hp
        have e : (Term.literal v .none).str = '"' :: v ++ ['"'] := by simp [Term.str, Term.token, Suffix.text]
        by_cases hv : v = []
        · subst hv
          rw [if_neg (by simp), e, stripAndLowercase, if_neg]
          simp
        · rw [if_pos ⟨hp', hv⟩, e, stripAndLowercase, if_pos, strip_quoted h1]
          refine ⟨?_, rfl, List.getLast?_concat ..⟩
          cases v with
          | nil => exact absurd rfl hv
          | cons c v => simp
      · rw [if_neg hp, if_neg]
        exact fun h => hp (hc.2 h.1)
    · have e : objectStr E.low p (.literal v x) = (Term.literal v x).str := by
        cases x with
        | none => exact absurd rfl hx
        | _ => rfl
      rw [e]
      have : stripAndLowercase E (Term.literal v x).str = (Term.literal v x).str := by
        rw [stripAndLowercase, if_neg]
        rintro ⟨_, _, h⟩
        refine suffix_last h3 hx h4 ('"' :: v ++ ['"']) ?_
        rw [← h]
        simp [Term.str, Term.token]
      rw [this, ite_self]

/-- a triple is added to the last basic graph pattern -/
def addTriple (cs : List Op) (t : Triple) : List Op := (lastBasic cs).1 ++ [.basic (addNew (lastBasic cs).2 t)]

theorem parseTriple_o {s : Str} (hs : s ≠ []) {p : Pred} (hp : p.Ok) {o : Term} (ho : o.Simple) (cs : List Op) (ws : List Word) :
    runW tr (parseTriple E s p.text cs) (o.word :: ws) =
      .ok ((s, p.text, addTriple cs ⟨s, p.tree, objectStr E.low p o⟩), ws) := by
  have e1 := node_eq tr ho
  have e2 := object_eq (E := E) ho p
  have e3 := Lawful.path (E := E) p hp
  have e4 := pred_text_ne hp
  rw [parseTriple]
  pwsimp [e1, e3, e4, hs]
  rw [e2]
  rfl

theorem parseTriple_po {s : Str} (hs : s ≠ []) {p : Pred} (hp : p.Ok) {o : Term} (ho : o.Simple) (cs : List Op) (ws : List Word) :
    runW tr (parseTriple E s [] cs) (p.word :: o.word :: ws) =
      .ok ((s, p.text, addTriple cs ⟨s, p.tree, objectStr E.low p o⟩), ws) := by
  have e0 := predicate_eq tr hp
  have e1 := node_eq tr ho
  have e2 := object_eq (E := E) ho p
  have e3 := Lawful.path (E := E) p hp
  rw [parseTriple]
  pwsimp [e0, e1, e3, hs]
  rw [e2]
  rfl

theorem parseTriple_spo {s : Term} (hs : s.Simple) {p : Pred} (hp : p.Ok) {o : Term} (ho : o.Simple) (cs : List Op) (ws : List Word) :
    runW tr (parseTriple E [] [] cs) (s.word :: p.word :: o.word :: ws) =
      .ok ((s.str, p.text, addTriple cs ⟨s.str, p.tree, objectStr E.low p o⟩), ws) := by
  have e0 := predicate_eq tr hp
  have e1 := node_eq tr ho
  have e1' := node_eq tr hs
  have e2 := object_eq (E := E) ho p
  have e3 := Lawful.path (E := E) p hp
  rw [parseTriple]
  pwsimp [e0, e1, e1', e3]
  rw [e2]
  rfl

theorem mem_firsts {t : Triple} : ∀ {ts : List Triple}, t ∈ firsts ts ↔ t ∈ ts
  | [] => Iff.rfl
  | x :: ts => by
    rw [firsts, List.mem_cons, List.mem_cons, List.mem_filter, mem_firsts]
    by_cases h : t = x
    · simp [h]
    · simp [h]

theorem firsts_append (t : Triple) : ∀ ts : List Triple, firsts (ts ++ [t]) = addNew (firsts ts) t
  | [] => rfl
  | x :: ts => by
    rw [List.cons_append, firsts, firsts_append t ts, firsts, addNew, addNew]
    by_cases h : t ∈ firsts ts
    · rw [if_pos h, if_pos]
      by_cases hx : t = x
      · simp [hx]
      · simp [hx, h]
    · rw [if_neg h]
      by_cases hx : t = x
      · subst hx
        rw [if_pos (by simp), List.filter_append]
        simp
      · rw [if_neg (by simp [hx, h]), List.filter_append]
        simp [hx]

/-- no basic graph pattern at the end -/
def Closed (cs : List Op) : Prop := ∀ ts, cs.getLast? ≠ some (.basic ts)

theorem addTriple_basics {done : List Op} (hd : Closed done) (pend : List Triple) (t : Triple) :
    addTriple (done ++ basics pend) t = done ++ basics (pend ++ [t]) := by
  unfold addTriple basics
  rw [if_neg (by simp : pend ++ [t] ≠ []), firsts_append]
  by_cases h : pend = []
  · subst h
    rw [if_pos rfl, List.append_nil]
    have : lastBasic done = (done, []) := by
      unfold lastBasic
      split
      · exact absurd (by assumption) (hd _)
      · rfl
    rw [this]
    rfl
  · rw [if_neg h]
    have : lastBasic (done ++ [.basic (firsts pend)]) = (done, firsts pend) := by
      unfold lastBasic
      rw [List.getLast?_append, List.getLast?_singleton, List.dropLast_concat]
      rfl
    rw [this]

theorem foldl_basics {done : List Op} (hd : Closed done) (ts pend : List Triple) :
    ts.foldl addTriple (done ++ basics pend) = done ++ basics (pend ++ ts) := by
  induction ts generalizing pend with
  | nil => rw [List.append_nil]; rfl
  | cons t ts ih => rw [List.foldl_cons, addTriple_basics hd, ih, List.append_assoc]; rfl

end Verif.SparqlParser
