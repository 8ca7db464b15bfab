import Verif.Spec.SparqlQuery
import Verif.Lemmas.SparqlLexer
import Verif.Lemmas.SparqlSimp
/-
The parser on a list of words, and its relation to the parser on a text.
-/
namespace Verif.SparqlParser
open Verif.SparqlSpec
open Verif.SparqlLexer (Ty Token Lexer isSpace)

/-- the next token -/
def nextOf : List Word → Token
  | [] => ⟨.ws, []⟩
  | .tok t :: _ => t
  | .path t _ :: _ => t

/-- nothing is left behind the next token -/
def emptyOf (tr : Bool) : List Word → Bool
  | [] => true
  | .tok _ :: ws => ws.isEmpty && !tr
  | .path _ _ :: _ => false

/-- A program runs on a list of words. -/
def runW {α : Type} (tr : Bool) : Prog α → List Word → Outcome (α × List Word)
  | .lift o, ws => o.map fun a => (a, ws)
  | .peek k, ws => runW tr (k (nextOf ws) (emptyOf tr ws)) ws
  | .advance p, .tok _ :: ws => runW tr p ws
  | .advance _, _ => .ub
  | .expand p, .path t m :: ws => runW tr p (.tok ⟨t.type, t.raw ++ m⟩ :: ws)
  | .expand _, _ => .ub

/-- The lexer stands in front of the words. -/
def Ready (tr : Bool) (l : Lexer) (ws : List Word) : Prop :=
  l.next = nextOf ws ∧
  match ws with
  | [] => l.rest = []
  | .tok _ :: ws => QueryText ws tr l.rest
  | .path _ m :: ws => ∃ r c, l.rest = m ++ r ∧ (∀ c ∈ m, ¬ Item.space c) ∧ r.head? = some c ∧ Item.space c ∧ QueryText ws tr r

theorem space_iff (c : Char) : Item.space c = isSpace c := by
  rw [Bool.eq_iff_iff]
  simp only [Item.space, isSpace, Turtle.between, Bool.or_eq_true, Bool.and_eq_true, beq_iff_eq, decide_eq_true_eq, List.mem_cons,
    List.not_mem_nil, or_false]
  have : c = ' ' ↔ c.toNat = 32 := ⟨fun h => by rw [h]; rfl, fun h => Char.toNat_inj.1 h⟩
  rw [this]
  omega

theorem lexeme_text_ne {l : Lexeme} (h : l.Ok) : l.text ≠ [] := by
  cases l with
  | keyword w t =>
    intro ht
    have ht : t = [] := ht
    subst ht
    have hk : ∀ w ∈ keywords, [] ≠ w.toList := by decide
    exact hk w h.1 h.2
  | aggregate w t =>
    intro ht
    have ht : t = [] := ht
    subst ht
    have hk : ∀ w ∈ aggregates, [] ≠ w.toList := by decide
    exact hk w h.1 h.2
  | groupBy a s b =>
    intro ht
    have ht : (a ++ s) ++ b = [] := ht
    simp only [List.append_eq_nil_iff] at ht
    have := h.1
    rw [ht.1.1] at this
    exact absurd this (by unfold Spells; decide)
  | orderBy a s b =>
    intro ht
    have ht : (a ++ s) ++ b = [] := ht
    simp only [List.append_eq_nil_iff] at ht
    have := h.1
    rw [ht.1.1] at this
    exact absurd this (by unfold Spells; decide)
  | integer m d =>
    intro ht
    have ht : (if m then ['-'] else []) ++ d = [] := ht
    exact h.1 (List.append_eq_nil_iff.1 ht).2
  | _ => simp [Lexeme.text]

theorem item_text_ne {i : Item} (h : i.Ok) : i.text ≠ [] := by
  cases i with
  | lex l => exact lexeme_text_ne h
  | path l m => intro he; exact lexeme_text_ne h.1 (List.append_eq_nil_iff.1 he).1

theorem queryText_ne {w : Word} {ws : List Word} {tr : Bool} {s : Str} (h : QueryText (w :: ws) tr s) : s ≠ [] := by
  cases h with
  | cons _ hi _ _ => intro he; simp only [List.append_eq_nil_iff] at he; exact item_text_ne hi he.2.1

theorem empty_eq {tr : Bool} {l : Lexer} {ws : List Word} (h : Ready tr l ws) : l.empty = emptyOf tr ws := by
  obtain ⟨_, h⟩ := h
  cases ws with
  | nil =>
    have h : l.rest = [] := h
    simp [Lexer.empty, emptyOf, h]
  | cons w ws =>
    cases w with
    | tok t =>
      have h : QueryText ws tr l.rest := h
      rw [Lexer.empty, emptyOf]
      cases ws with
      | nil =>
        generalize hw : ([] : List Word) = w, l.rest = r at h
        cases h with
        | nil => simp
        | cons => cases hw
      | cons w ws =>
        have := queryText_ne h
        simp [this]
    | path t m =>
      obtain ⟨r, c, hr, _, hc, _⟩ := h
      cases r with
      | nil => simp at hc
      | cons => simp [Lexer.empty, emptyOf, hr]

variable {norm : Str → Outcome Str}

theorem read_words (hn : ∀ t v, StringText t v → norm ('"' :: t ++ ['"']) = .ok ('"' :: v ++ ['"'])) {ws : List Word} {tr : Bool} {s : Str}
    (h : QueryText ws tr s) (cur : Token) :
    ∃ r, SparqlLexer.read norm s = .ok (nextOf ws, r) ∧ Ready tr ⟨r, cur, nextOf ws⟩ ws := by
  cases h with
  | nil ht => exact ⟨[], SparqlLexer.read_trailing norm ht, rfl, rfl⟩
  | @cons g i ws _ s hg hi he h =>
    cases i with
    | lex l => exact ⟨s, SparqlLexer.read_cons norm hn hg hi he, rfl, h⟩
    | path l m =>
      obtain ⟨he, c, hc, hs⟩ := he
      refine ⟨m ++ s, ?_, rfl, s, c, rfl, hi.2, hc, hs, h⟩
      have := SparqlLexer.read_cons norm hn hg hi.1 he
      show SparqlLexer.read norm (g ++ (l.text ++ m ++ s)) = _
      rw [List.append_assoc]
      exact this

/-- What a program does on the words, it does on the text. -/
theorem run_of_runW (hn : ∀ t v, StringText t v → norm ('"' :: t ++ ['"']) = .ok ('"' :: v ++ ['"'])) {α : Type} {tr : Bool}
    (p : Prog α) : ∀ (l : Lexer) (ws : List Word) (a : α) (ws' : List Word), Ready tr l ws → runW tr p ws = .ok (a, ws') →
      ∃ l', p.run norm l = .ok (a, l') ∧ Ready tr l' ws' := by
  induction p with
  | lift o =>
    intro l ws a ws' hl h
    cases o with
    | ok b => cases h; exact ⟨l, rfl, hl⟩
    | _ => cases h
  | peek k ih =>
    intro l ws a ws' hl h
    rw [runW] at h
    rw [Prog.run, hl.1, empty_eq hl]
    exact ih _ _ l ws a ws' hl h
  | advance p ih =>
    intro l ws a ws' hl h
    cases ws with
    | nil => cases h
    | cons w ws =>
      cases w with
      | path => cases h
      | tok t =>
        obtain ⟨r, h1, h2⟩ := read_words hn hl.2 l.next
        obtain ⟨l', h3, h4⟩ := ih _ ws a ws' h2 h
        refine ⟨l', ?_, h4⟩
        simp only [Prog.run, Lexer.readNext, h1, Outcome.map, Outcome.bind]
        exact h3
  | expand p ih =>
    intro l ws a ws' hl h
    cases ws with
    | nil => cases h
    | cons w ws =>
      cases w with
      | tok => cases h
      | path t m =>
        obtain ⟨hx, r, c, hr, hm, hc, hs, hq⟩ := hl
        have hm' : ∀ c ∈ m, (!isSpace c) = true := fun c hc => by
          have := hm c hc
          rw [space_iff] at this
          simpa using this
        have hr' : ∀ c, r.head? = some c → (!isSpace c) = false := fun d hd => by
          rw [hc, Option.some_inj] at hd
          subst hd
          rw [space_iff] at hs
          simp [hs]
        have ht : (m ++ r).takeWhile (fun c => !isSpace c) = m := by
          have := SparqlLexer.dropWhile_all hm' hr'
          have h2 := List.takeWhile_append_dropWhile (p := fun c => !isSpace c) (l := m ++ r)
          rw [this] at h2
          exact List.append_cancel_right h2
        have hd : (m ++ r).dropWhile (fun c => !isSpace c) = r := SparqlLexer.dropWhile_all hm' hr'
        refine ih _ (.tok ⟨t.type, t.raw ++ m⟩ :: ws) a ws' ⟨?_, ?_⟩ h
        · show Token.mk l.next.type (l.next.raw ++ l.rest.takeWhile _) = _
          rw [hr, ht, hx]
          rfl
        · show QueryText ws tr (l.rest.dropWhile _)
          rw [hr, hd]
          exact hq

/-! ### Running programs on words -/

section
variable {α β : Type} (tr : Bool)

/-- the next part of a program, behind a part with result `o` -/
def thenW (o : Outcome (α × List Word)) (f : α → Prog β) : Outcome (β × List Word) := o.bind fun r => runW tr (f r.1) r.2

theorem thenW_ok (a : α) (ws : List Word) (f : α → Prog β) : thenW tr (.ok (a, ws)) f = runW tr (f a) ws := rfl

/-- `simp` leaves the next part alone. -/
theorem thenW_congr {o o' : Outcome (α × List Word)} {f : α → Prog β} (h : o = o') : thenW tr o f = thenW tr o' f := by rw [h]

theorem runW_bind (p : Prog α) (f : α → Prog β) : ∀ ws, runW tr (p >>= f) ws = thenW tr (runW tr p ws) f := by
  show ∀ ws, runW tr (p.bind f) ws = _
  induction p with
  | lift o => intro ws; cases o <;> rfl
  | peek k ih => intro ws; exact ih _ _ ws
  | advance p ih =>
    intro ws
    cases ws with
    | nil => rfl
    | cons w ws => cases w with
      | tok => exact ih ws
      | path => rfl
  | expand p ih =>
    intro ws
    cases ws with
    | nil => rfl
    | cons w ws => cases w with
      | tok => rfl
      | path => exact ih _

theorem runW_pure (a : α) (ws : List Word) : runW tr (pure a : Prog α) ws = .ok (a, ws) := rfl

theorem runW_lift (a : α) (ws : List Word) : runW tr (Prog.lift (.ok a) : Prog α) ws = .ok (a, ws) := rfl

end

end Verif.SparqlParser
