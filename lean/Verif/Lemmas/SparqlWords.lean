import Verif.Lemmas.SparqlProg
/-
Single steps of the parser on words.
-/
namespace Verif.SparqlParser
open Verif.SparqlSpec
open Verif.SparqlLexer (Ty Token Lexer isSpace)

/-- What is assumed about the environment. -/
class Lawful (E : Env) : Prop where
  low : ∀ c : Char, c.toNat < 128 → E.low c = SparqlLexer.lower c
  path : ∀ p : Pred, p.Ok → E.path p.text = .ok p.tree

variable (E : Env)

/-- the words that the parser looks for -/
def parserWords : List String :=
  ["prefix", "select", "distinct", "reduced", "where", "as", "limit", "offset", "textlimit", "having", "asc", "desc", "filter", "values", "optional", "union", "minus", "bind", "lang", "langmatches", "regex", "str", "separator", "text", "score", "}", "{", "(", ")", ".", ";", ",", "=", "!", "<", ">"]

def IsWord (w : String) : Prop := w ∈ parserWords

/-- the comparison in `accept` -/
def Is (t : Token) (w : String) : Prop := t.raw.map E.low = w.toList

instance (t : Token) (w : String) : Decidable (Is E t w) := by unfold Is; infer_instance

@[pw, simp] theorem isWord_0 : IsWord "prefix" := by unfold IsWord; decide
@[pw, simp] theorem isWord_1 : IsWord "select" := by unfold IsWord; decide
@[pw, simp] theorem isWord_2 : IsWord "distinct" := by unfold IsWord; decide
@[pw, simp] theorem isWord_3 : IsWord "reduced" := by unfold IsWord; decide
@[pw, simp] theorem isWord_4 : IsWord "where" := by unfold IsWord; decide
@[pw, simp] theorem isWord_5 : IsWord "as" := by unfold IsWord; decide
@[pw, simp] theorem isWord_6 : IsWord "limit" := by unfold IsWord; decide
@[pw, simp] theorem isWord_7 : IsWord "offset" := by unfold IsWord; decide
@[pw, simp] theorem isWord_8 : IsWord "textlimit" := by unfold IsWord; decide
@[pw, simp] theorem isWord_9 : IsWord "having" := by unfold IsWord; decide
@[pw, simp] theorem isWord_10 : IsWord "asc" := by unfold IsWord; decide
@[pw, simp] theorem isWord_11 : IsWord "desc" := by unfold IsWord; decide
@[pw, simp] theorem isWord_12 : IsWord "filter" := by unfold IsWord; decide
@[pw, simp] theorem isWord_13 : IsWord "values" := by unfold IsWord; decide
@[pw, simp] theorem isWord_14 : IsWord "optional" := by unfold IsWord; decide
@[pw, simp] theorem isWord_15 : IsWord "union" := by unfold IsWord; decide
@[pw, simp] theorem isWord_16 : IsWord "minus" := by unfold IsWord; decide
@[pw, simp] theorem isWord_17 : IsWord "bind" := by unfold IsWord; decide
@[pw, simp] theorem isWord_18 : IsWord "lang" := by unfold IsWord; decide
@[pw, simp] theorem isWord_19 : IsWord "langmatches" := by unfold IsWord; decide
@[pw, simp] theorem isWord_20 : IsWord "regex" := by unfold IsWord; decide
@[pw, simp] theorem isWord_21 : IsWord "str" := by unfold IsWord; decide
@[pw, simp] theorem isWord_22 : IsWord "separator" := by unfold IsWord; decide
@[pw, simp] theorem isWord_23 : IsWord "text" := by unfold IsWord; decide
@[pw, simp] theorem isWord_24 : IsWord "score" := by unfold IsWord; decide
@[pw, simp] theorem isWord_25 : IsWord "}" := by unfold IsWord; decide
@[pw, simp] theorem isWord_26 : IsWord "{" := by unfold IsWord; decide
@[pw, simp] theorem isWord_27 : IsWord "(" := by unfold IsWord; decide
@[pw, simp] theorem isWord_28 : IsWord ")" := by unfold IsWord; decide
@[pw, simp] theorem isWord_29 : IsWord "." := by unfold IsWord; decide
@[pw, simp] theorem isWord_30 : IsWord ";" := by unfold IsWord; decide
@[pw, simp] theorem isWord_31 : IsWord "," := by unfold IsWord; decide
@[pw, simp] theorem isWord_32 : IsWord "=" := by unfold IsWord; decide
@[pw, simp] theorem isWord_33 : IsWord "!" := by unfold IsWord; decide
@[pw, simp] theorem isWord_34 : IsWord "<" := by unfold IsWord; decide
@[pw, simp] theorem isWord_35 : IsWord ">" := by unfold IsWord; decide

theorem words_lower : ∀ w ∈ "\"i\"" :: parserWords, ∀ c ∈ w.toList, c.toNat < 128 ∧ SparqlLexer.lower c = c := by decide

theorem words_head : ∀ w ∈ parserWords, ∃ c s, w.toList = c :: s ∧ c ≠ '?' ∧ c ≠ '"' ∧ c ≠ '-' ∧ c ≠ 'g' ∧ ¬ TurtleSpec.digit c ∧
    ':' ∉ w.toList ∧ (c = '<' → s = []) ∧ (c = 'o' → s.head? ≠ some 'r') := by
  intro w hw
  have h : ∀ w ∈ parserWords, (w.toList.head?.any fun c => c ≠ '?' ∧ c ≠ '"' ∧ c ≠ '-' ∧ c ≠ 'g' ∧ ¬ TurtleSpec.digit c ∧
    ':' ∉ w.toList ∧ (c = '<' → w.toList.tail = []) ∧ (c = 'o' → w.toList.tail.head? ≠ some 'r')) = true := by decide
  have := h w hw
  cases hl : w.toList with
  | nil => rw [hl] at this; cases this
  | cons c s =>
    rw [hl] at this
    simp only [List.head?_cons, Option.any_some, List.tail_cons] at this
    exact ⟨c, s, rfl, of_decide_eq_true this⟩

section
variable [Lawful E]

theorem map_low_word {w : String} (hw : w ∈ "\"i\"" :: parserWords) : w.toList.map E.low = w.toList := by
  have h := words_lower w hw
  conv => rhs; rw [← List.map_id w.toList]
  apply List.map_congr_left
  intro c hc
  rw [Lawful.low c (h c hc).1, (h c hc).2, id]

theorem is_word {ty : Ty} {v w : String} (hv : IsWord v) : Is E ⟨ty, v.toList⟩ w ↔ v = w := by
  unfold Is
  show v.toList.map E.low = _ ↔ _
  rw [map_low_word E (List.mem_cons_of_mem _ hv), String.toList_inj]

theorem low_eq {c d : Char} (hd : d.toNat < 128) (h : SparqlLexer.lower d ≠ c) : E.low d ≠ c := by
  rw [Lawful.low d hd]; exact h

theorem not_is_head {t : Token} {d : Char} {s : Str} {w : String} (ht : t.raw = d :: s) (hd : d.toNat < 128)
    (h : ∀ c r, w.toList = c :: r → SparqlLexer.lower d ≠ c) : ¬ Is E t w := by
  intro hi
  unfold Is at hi
  rw [ht, List.map_cons] at hi
  exact low_eq E hd (h _ _ hi.symm) rfl

theorem not_is_var {n : Str} {w : String} (hw : IsWord w) : ¬ Is E ⟨.var, '?' :: n⟩ w :=
  not_is_head E rfl (by decide) fun c r hc => by
    obtain ⟨c', s', h, h1, _⟩ := words_head w hw
    rw [h] at hc; cases hc
    exact fun he => h1 (he.symm.trans (by decide))

theorem not_is_quote {ty : Ty} {s : Str} {w : String} (hw : IsWord w) : ¬ Is E ⟨ty, '"' :: s⟩ w :=
  not_is_head E rfl (by decide) fun c r hc => by
    obtain ⟨c', s', h, _, h1, _⟩ := words_head w hw
    rw [h] at hc; cases hc
    exact fun he => h1 (he.symm.trans (by decide))

theorem not_is_term (x : Term) {w : String} (hw : IsWord w) : ¬ Is E x.token w := by
  obtain ⟨c', s', h, h1, h2, h3, h4, h5, h6, h7, h8⟩ := words_head w hw
  cases x with
  | var n => exact not_is_var E hw
  | iri t =>
    intro hi
    have hi : ('<' :: t ++ ['>']).map E.low = w.toList := hi
    rw [h] at hi
    have hc : E.low '<' = c' := by injection hi
    rw [Lawful.low '<' (by decide)] at hc
    have hs := h7 (hc.symm.trans (by decide))
    subst hs
    have := congrArg List.length hi
    simp at this
  | pname p l =>
    intro hi
    have hi : (p ++ ':' :: l).map E.low = w.toList := hi
    apply h6
    rw [← hi, List.mem_map]
    exact ⟨':', by simp, by rw [Lawful.low ':' (by decide)]; decide⟩
  | literal v x => exact not_is_quote E hw

theorem digit_cases {c : Char} (h : TurtleSpec.digit c) : c.toNat < 128 ∧ SparqlLexer.lower c = c := by
  rw [Turtle.digit_eq] at h
  have := SparqlLexer.digit_cases h
  simp only [List.mem_cons, List.not_mem_nil, or_false] at this
  rcases this with rfl | rfl | rfl | rfl | rfl | rfl | rfl | rfl | rfl | rfl <;> decide

theorem not_is_number {ty : Ty} {m : Bool} {d s : Str} {w : String} (hw : IsWord w) (hd : ∃ c s, d = c :: s ∧ TurtleSpec.digit c) :
    ¬ Is E ⟨ty, (if m then ['-'] else []) ++ d ++ s⟩ w := by
  obtain ⟨c', s', h, h1, h2, h3, h4, h5, h6, h7, h8⟩ := words_head w hw
  obtain ⟨c, r, rfl, hc⟩ := hd
  cases m with
  | true =>
    exact not_is_head E (d := '-') (s := c :: r ++ s) (by simp) (by decide) fun x y hx => by
      rw [h] at hx; cases hx
      exact fun he => h3 (he.symm.trans (by decide))
  | false =>
    exact not_is_head E (d := c) (s := r ++ s) (by simp) (digit_cases hc).1 fun x y hx => by
      rw [h] at hx; cases hx
      rw [(digit_cases hc).2]
      rintro rfl
      exact h5 hc

theorem not_is_operand {x : Operand} (hx : x.Ok) {w : String} (hw : IsWord w) : ¬ Is E x.token w := by
  cases x with
  | term x => exact not_is_term E x hw
  | integer m d =>
    have := not_is_number E (ty := .integer) (m := m) (s := []) hw hx
    rw [List.append_nil] at this
    exact this
  | decimal m d f => exact not_is_number E hw hx

theorem not_is_groupBy {sp : Str} {w : String} (hw : IsWord w) : ¬ Is E ⟨.groupBy, "group".toList ++ sp ++ "by".toList⟩ w :=
  not_is_head E (d := 'g') (s := "roup".toList ++ sp ++ "by".toList) rfl (by decide) fun c r hc => by
    obtain ⟨c', s', h, _, _, _, h1, _⟩ := words_head w hw
    rw [h] at hc; cases hc
    exact fun he => h1 (he.symm.trans (by decide))

theorem not_is_orderBy {sp : Str} {w : String} (hw : IsWord w) : ¬ Is E ⟨.orderBy, "order".toList ++ sp ++ "by".toList⟩ w := by
  obtain ⟨c', s', h, _, _, _, _, _, _, _, h8⟩ := words_head w hw
  intro hi
  have hi : ('o' :: 'r' :: ("der".toList ++ sp ++ "by".toList)).map E.low = w.toList := hi
  rw [h, List.map_cons, List.map_cons, Lawful.low 'o' (by decide), Lawful.low 'r' (by decide)] at hi
  cases hi
  exact h8 (by decide) (by simp; decide)

end

/-! ### Single steps -/

section
variable {E} (tr : Bool)

theorem accept_yes {t : Token} {w : String} {ws : List Word} (h : Is E t w) : runW tr (accept E w) (.tok t :: ws) = .ok (true, ws) := by
  unfold accept
  rw [runW]
  show runW tr (if Is E t w then _ else _) _ = _
  rw [if_pos h]
  rfl

theorem accept_no {w : String} {ws : List Word} (h : ¬ Is E (nextOf ws) w) : runW tr (accept E w) ws = .ok (false, ws) := by
  unfold accept
  rw [runW]
  show runW tr (if Is E (nextOf ws) w then _ else _) _ = _
  rw [if_neg h]
  rfl

theorem expect_yes {t : Token} {w : String} {ws : List Word} (h : Is E t w) : runW tr (expect E w) (.tok t :: ws) = .ok ((), ws) := by
  unfold expect
  rw [runW]
  show runW tr (if Is E t w then _ else _) _ = _
  rw [if_pos h]
  rfl

theorem dot_yes {t : Token} {ws : List Word} (h : Is E t ".") : runW tr (optionalDot E) (.tok t :: ws) = .ok ((), ws) := by
  unfold optionalDot
  rw [runW]
  show runW tr (if Is E t "." then _ else _) _ = _
  rw [if_pos h]
  rfl

theorem dot_no {ws : List Word} (h : ¬ Is E (nextOf ws) ".") : runW tr (optionalDot E) ws = .ok ((), ws) := by
  unfold optionalDot
  rw [runW]
  show runW tr (if Is E (nextOf ws) "." then _ else _) _ = _
  rw [if_neg h]
  rfl

theorem acceptTy_yes {t : Token} {ty : Ty} {ws : List Word} (h : t.type = ty) : runW tr (acceptTy ty) (.tok t :: ws) = .ok (some t, ws) := by
  unfold acceptTy
  rw [runW]
  show runW tr (if t.type = ty then _ else _) _ = _
  rw [if_pos h]
  rfl

theorem acceptTy_no {ty : Ty} {ws : List Word} (h : (nextOf ws).type ≠ ty) : runW tr (acceptTy ty) ws = .ok (none, ws) := by
  unfold acceptTy
  rw [runW, if_neg h]
  rfl

theorem expectTy_yes {t : Token} {ty : Ty} {ws : List Word} (h : t.type = ty) : runW tr (expectTy ty) (.tok t :: ws) = .ok (t, ws) := by
  unfold expectTy
  rw [runW]
  show runW tr (if t.type = ty then _ else _) _ = _
  rw [if_pos h]
  rfl

theorem acceptTy_tok {ty ty' : Ty} {r : Str} {ws : List Word} :
    runW tr (acceptTy ty) (.tok ⟨ty', r⟩ :: ws) = if ty' = ty then .ok (some ⟨ty', r⟩, ws) else .ok (none, .tok ⟨ty', r⟩ :: ws) := by
  by_cases h : ty' = ty
  · rw [if_pos h]; exact acceptTy_yes tr h
  · rw [if_neg h]; exact acceptTy_no tr h

theorem expectTy_tok {ty : Ty} {r : Str} {ws : List Word} : runW tr (expectTy ty) (.tok ⟨ty, r⟩ :: ws) = .ok (⟨ty, r⟩, ws) :=
  expectTy_yes tr rfl

theorem isEmpty_append {α : Type} (a b : List α) : (a ++ b).isEmpty = (a.isEmpty && b.isEmpty) := by cases a <;> rfl

theorem isEmpty_eq (ws : List Word) : runW tr isEmpty ws = .ok (emptyOf tr ws, ws) := rfl

variable [Lawful E]

theorem accept_w {ty : Ty} {v w : String} {ws : List Word} (hv : IsWord v) :
    runW tr (accept E w) (.tok ⟨ty, v.toList⟩ :: ws) = if v = w then .ok (true, ws) else .ok (false, .tok ⟨ty, v.toList⟩ :: ws) := by
  by_cases h : v = w
  · rw [if_pos h]; exact accept_yes tr ((is_word E hv).2 h)
  · rw [if_neg h]; exact accept_no tr fun hi => h ((is_word E hv).1 hi)

theorem accept_kw {v w : String} {ws : List Word} (hv : IsWord v) :
    runW tr (accept E w) (kw v :: ws) = if v = w then .ok (true, ws) else .ok (false, kw v :: ws) := accept_w tr hv

theorem expect_w {ty : Ty} {w : String} {ws : List Word} (hw : IsWord w) : runW tr (expect E w) (.tok ⟨ty, w.toList⟩ :: ws) = .ok ((), ws) :=
  expect_yes tr ((is_word E hw).2 rfl)

theorem expect_kw {w : String} {ws : List Word} (hw : IsWord w) : runW tr (expect E w) (kw w :: ws) = .ok ((), ws) := expect_w tr hw

theorem accept_var {w : String} {n : Str} {ws : List Word} (hw : IsWord w) :
    runW tr (accept E w) (varWord n :: ws) = .ok (false, varWord n :: ws) := accept_no tr (not_is_var E hw)

theorem accept_term {w : String} {x : Term} {ws : List Word} (hw : IsWord w) :
    runW tr (accept E w) (x.word :: ws) = .ok (false, x.word :: ws) := accept_no tr (not_is_term E x hw)

theorem accept_operand {w : String} {x : Operand} {ws : List Word} (hx : x.Ok) (hw : IsWord w) :
    runW tr (accept E w) (.tok x.token :: ws) = .ok (false, .tok x.token :: ws) := accept_no tr (not_is_operand E hx hw)

omit [Lawful E] in
theorem accept_nil {w : String} (hw : IsWord w) : runW tr (accept E w) [] = .ok (false, []) := by
  obtain ⟨c, s, h, _⟩ := words_head w hw
  refine accept_no tr fun hi => ?_
  unfold Is at hi
  rw [h] at hi
  cases hi

theorem dot_dots {dot : Bool} {ws : List Word} (h : ¬ Is E (nextOf ws) ".") : runW tr (optionalDot E) (dots dot ++ ws) = .ok ((), ws) := by
  cases dot with
  | false => exact dot_no tr h
  | true => exact dot_yes tr ((is_word (v := ".") E (by simp)).2 rfl)

theorem acceptTy_kw {ty : Ty} {v : String} {ws : List Word} (h : ty ≠ .keyword) : runW tr (acceptTy ty) (kw v :: ws) = .ok (none, kw v :: ws) :=
  acceptTy_no tr (Ne.symm h)

theorem acceptTy_sym {ty : Ty} {c : Char} {ws : List Word} (h : ty ≠ .symbol) : runW tr (acceptTy ty) (sym c :: ws) = .ok (none, sym c :: ws) :=
  acceptTy_no tr (Ne.symm h)

theorem acceptTy_var {ty : Ty} {n : Str} {ws : List Word} :
    runW tr (acceptTy ty) (varWord n :: ws) = if ty = .var then .ok (some ⟨.var, '?' :: n⟩, ws) else .ok (none, varWord n :: ws) := by
  by_cases h : ty = .var
  · rw [if_pos h]; exact acceptTy_yes tr h.symm
  · rw [if_neg h]; exact acceptTy_no tr (Ne.symm h)

theorem expectTy_var {n : Str} {ws : List Word} : runW tr (expectTy .var) (varWord n :: ws) = .ok (⟨.var, '?' :: n⟩, ws) :=
  expectTy_yes tr rfl

theorem expectTy_lit {v : Str} {ws : List Word} : runW tr (expectTy .literal) (litWord v :: ws) = .ok (⟨.literal, '"' :: v ++ ['"']⟩, ws) :=
  expectTy_yes tr rfl

theorem empty_kw {v : String} {ws : List Word} : emptyOf tr (kw v :: ws) = (ws.isEmpty && !tr) := rfl
theorem empty_sym {c : Char} {ws : List Word} : emptyOf tr (sym c :: ws) = (ws.isEmpty && !tr) := rfl
theorem empty_var {n : Str} {ws : List Word} : emptyOf tr (varWord n :: ws) = (ws.isEmpty && !tr) := rfl
theorem empty_term {x : Term} {ws : List Word} : emptyOf tr (x.word :: ws) = (ws.isEmpty && !tr) := rfl

theorem accept_sym0 {w : String} {ws : List Word} :
    runW tr (accept E w) (sym '}' :: ws) = if "}" = w then .ok (true, ws) else .ok (false, sym '}' :: ws) :=
  accept_w (E := E) tr (ty := .symbol) (v := "}") (by simp)
theorem expect_sym0 {ws : List Word} : runW tr (expect E "}") (sym '}' :: ws) = .ok ((), ws) := expect_w (E := E) tr (ty := .symbol) (w := "}") (by simp)
theorem accept_sym1 {w : String} {ws : List Word} :
    runW tr (accept E w) (sym '{' :: ws) = if "{" = w then .ok (true, ws) else .ok (false, sym '{' :: ws) :=
  accept_w (E := E) tr (ty := .symbol) (v := "{") (by simp)
theorem expect_sym1 {ws : List Word} : runW tr (expect E "{") (sym '{' :: ws) = .ok ((), ws) := expect_w (E := E) tr (ty := .symbol) (w := "{") (by simp)
theorem accept_sym2 {w : String} {ws : List Word} :
    runW tr (accept E w) (sym '(' :: ws) = if "(" = w then .ok (true, ws) else .ok (false, sym '(' :: ws) :=
  accept_w (E := E) tr (ty := .symbol) (v := "(") (by simp)
theorem expect_sym2 {ws : List Word} : runW tr (expect E "(") (sym '(' :: ws) = .ok ((), ws) := expect_w (E := E) tr (ty := .symbol) (w := "(") (by simp)
theorem accept_sym3 {w : String} {ws : List Word} :
    runW tr (accept E w) (sym ')' :: ws) = if ")" = w then .ok (true, ws) else .ok (false, sym ')' :: ws) :=
  accept_w (E := E) tr (ty := .symbol) (v := ")") (by simp)
theorem expect_sym3 {ws : List Word} : runW tr (expect E ")") (sym ')' :: ws) = .ok ((), ws) := expect_w (E := E) tr (ty := .symbol) (w := ")") (by simp)
theorem accept_sym4 {w : String} {ws : List Word} :
    runW tr (accept E w) (sym '.' :: ws) = if "." = w then .ok (true, ws) else .ok (false, sym '.' :: ws) :=
  accept_w (E := E) tr (ty := .symbol) (v := ".") (by simp)
theorem expect_sym4 {ws : List Word} : runW tr (expect E ".") (sym '.' :: ws) = .ok ((), ws) := expect_w (E := E) tr (ty := .symbol) (w := ".") (by simp)
theorem accept_sym5 {w : String} {ws : List Word} :
    runW tr (accept E w) (sym ';' :: ws) = if ";" = w then .ok (true, ws) else .ok (false, sym ';' :: ws) :=
  accept_w (E := E) tr (ty := .symbol) (v := ";") (by simp)
theorem expect_sym5 {ws : List Word} : runW tr (expect E ";") (sym ';' :: ws) = .ok ((), ws) := expect_w (E := E) tr (ty := .symbol) (w := ";") (by simp)
theorem accept_sym6 {w : String} {ws : List Word} :
    runW tr (accept E w) (sym ',' :: ws) = if "," = w then .ok (true, ws) else .ok (false, sym ',' :: ws) :=
  accept_w (E := E) tr (ty := .symbol) (v := ",") (by simp)
theorem expect_sym6 {ws : List Word} : runW tr (expect E ",") (sym ',' :: ws) = .ok ((), ws) := expect_w (E := E) tr (ty := .symbol) (w := ",") (by simp)
theorem accept_sym7 {w : String} {ws : List Word} :
    runW tr (accept E w) (sym '=' :: ws) = if "=" = w then .ok (true, ws) else .ok (false, sym '=' :: ws) :=
  accept_w (E := E) tr (ty := .symbol) (v := "=") (by simp)
theorem expect_sym7 {ws : List Word} : runW tr (expect E "=") (sym '=' :: ws) = .ok ((), ws) := expect_w (E := E) tr (ty := .symbol) (w := "=") (by simp)
theorem accept_sym8 {w : String} {ws : List Word} :
    runW tr (accept E w) (sym '!' :: ws) = if "!" = w then .ok (true, ws) else .ok (false, sym '!' :: ws) :=
  accept_w (E := E) tr (ty := .symbol) (v := "!") (by simp)
theorem expect_sym8 {ws : List Word} : runW tr (expect E "!") (sym '!' :: ws) = .ok ((), ws) := expect_w (E := E) tr (ty := .symbol) (w := "!") (by simp)
theorem accept_sym9 {w : String} {ws : List Word} :
    runW tr (accept E w) (sym '<' :: ws) = if "<" = w then .ok (true, ws) else .ok (false, sym '<' :: ws) :=
  accept_w (E := E) tr (ty := .symbol) (v := "<") (by simp)
theorem expect_sym9 {ws : List Word} : runW tr (expect E "<") (sym '<' :: ws) = .ok ((), ws) := expect_w (E := E) tr (ty := .symbol) (w := "<") (by simp)
theorem accept_sym10 {w : String} {ws : List Word} :
    runW tr (accept E w) (sym '>' :: ws) = if ">" = w then .ok (true, ws) else .ok (false, sym '>' :: ws) :=
  accept_w (E := E) tr (ty := .symbol) (v := ">") (by simp)
theorem expect_sym10 {ws : List Word} : runW tr (expect E ">") (sym '>' :: ws) = .ok ((), ws) := expect_w (E := E) tr (ty := .symbol) (w := ">") (by simp)

attribute [pw] thenW_ok runW_bind runW_pure runW_lift isEmpty_eq accept_kw expect_kw accept_var accept_term accept_nil acceptTy_kw acceptTy_sym
  acceptTy_var expectTy_var expectTy_lit empty_kw empty_sym empty_var empty_term acceptTy_tok expectTy_tok List.cons_append List.nil_append List.append_nil List.append_assoc Bool.false_eq_true
  if_true if_false List.isEmpty_cons isEmpty_append Bool.false_and Bool.and_false ne_eq not_false_eq_true List.flatMap_cons List.flatMap_nil
  reduceCtorEq not_true_eq_false and_true and_false false_and true_and
attribute [pw] accept_sym0 expect_sym0 accept_sym1 expect_sym1 accept_sym2 expect_sym2 accept_sym3 expect_sym3 accept_sym4 expect_sym4 accept_sym5 expect_sym5 accept_sym6 expect_sym6 accept_sym7 expect_sym7 accept_sym8 expect_sym8 accept_sym9 expect_sym9 accept_sym10 expect_sym10

end

/-- Run the parser on words. -/
macro "pwsimp" "[" ls:Lean.Parser.Tactic.simpLemma,* "]" : tactic =>
  `(tactic| simp only [pw, String.reduceEq, reduceIte, $ls,*])

end Verif.SparqlParser
