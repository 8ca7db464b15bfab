import Verif.Model.Turtle
import Verif.Spec.Turtle
/-
The parser in a form that can be evaluated on concrete documents, and one way to write a document.
-/
namespace Verif.Turtle
open Verif.TurtleSpec
open Verif.RdfEscaping

/-- `unescapeGen` with a bound on the number of steps -/
def unescapeF (m : Mode) (hex : List Char → List Char) : Nat → List Char → Outcome (List Char)
  | 0, _ => .diverge
  | n + 1, s =>
    match s with
    | [] => .ok []
    | c :: cs =>
      if c ≠ '\\' then (unescapeF m hex n cs).map (c :: ·)
      else
        match cs with
        | [] => .throw
        | e :: rest =>
          let push (ok : Bool) (x : Char) : Outcome (List Char) :=
            if ok then (unescapeF m hex n rest).map (x :: ·) else .throw
          let num (len : Nat) : Outcome (List Char) :=
            if m.numericOk then
              if len < rest.length then
                (unescapeF m hex n (rest.drop len)).map (hex (rest.take len) ++ ·)
              else .throw
            else .throw
          if e = 't' then push m.otherOk '\t'
          else if e = 'n' then push m.newlineOk '\n'
          else if e = 'r' then push m.otherOk '\r'
          else if e = 'b' then push m.otherOk '\x08'
          else if e = 'f' then push m.otherOk '\x0c'
          else if e = '"' then push m.otherOk '"'
          else if e = '\'' then push m.otherOk '\''
          else if e = '\\' then push m.newlineOk '\\'
          else if e = 'u' then num 4
          else if e = 'U' then num 8
          else .throw

theorem unescapeF_eq (m : Mode) (hex : List Char → List Char) : ∀ (n : Nat) (s : List Char), s.length < n →
    unescapeF m hex n s = unescapeGen m hex s := by
  intro n
  induction n with
  | zero => intro s h; omega
  | succ n ih =>
    intro s h
    rw [unescapeF.eq_def, unescapeGen.eq_def]
    cases s with
    | nil => rfl
    | cons c cs =>
      simp only [List.length_cons] at h
      cases cs with
      | nil => simp only [ih [] (by simp; omega)]
      | cons e rest =>
        simp only [List.length_cons] at h
        simp only [ih (e :: rest) (by simp; omega), ih rest (by omega),
          ih (rest.drop 4) (by simp; omega), ih (rest.drop 8) (by simp; omega)]

/-- `normalizeRDFLiteral`, to be evaluated -/
def normalizeF (hex : List Char → List Char) (lit : List Char) : Outcome (List Char) :=
  let inner : Outcome (List Char) :=
    if startsWith lit ['"', '"', '"'] || startsWith lit ['\'', '\'', '\''] then
      if endsWith lit (lit.take 3) then removeBoth 3 lit else .throw
    else if startsWith lit ['"'] || startsWith lit ['\''] then
      if endsWith lit (lit.take 1) then removeBoth 1 lit else .throw
    else .throw
  inner.bind fun s =>
    (unescapeF ⟨false, false⟩ hex (s.length + 1) s).map fun r => ['"'] ++ r ++ ['"']

/-- `unescapeIriref`, to be evaluated -/
def irirefF (hex : List Char → List Char) (iri : List Char) : Outcome (List Char) :=
  if startsWith iri ['<'] then
    if endsWith iri ['>'] then
      (removeBoth 1 iri).bind fun s =>
        (unescapeF ⟨true, false⟩ hex (s.length + 1) s).map fun r => ['<'] ++ r ++ ['>']
    else .throw
  else .throw

/-- the functions to be evaluated -/
def escapesF (hex : List Char → List Char) : Escapes := ⟨normalizeF hex, irirefF hex, unescapePrefixedIri⟩

theorem escapesF_eq (hex : List Char → List Char) : escapesF hex = escapes hex := by
  have h1 : ∀ m s, unescapeF m hex (s.length + 1) s = unescapeGen m hex s := fun m s => unescapeF_eq m hex _ s (by omega)
  simp only [escapesF, escapes]
  congr 1
  · funext lit; simp only [normalizeF, normalizeRDFLiteral, h1]
  · funext lit; simp only [irirefF, unescapeIriref, h1]

/-- A blank after every token. -/
def plain (ts : List Tok) : Str := ts.flatMap fun t => t.text ++ [' ']

theorem plain_layout {sep : Str → Prop} (h0 : sep []) (h1 : sep [' ']) (ts : List Tok) : Layout sep ts (plain ts) := by
  have key : ∀ ts : List Tok, Layout sep ts (' ' :: plain ts) := by
    intro ts
    induction ts with
    | nil => exact .nil h1
    | cons t ts ih =>
      have := Layout.cons (s := [' ']) (t := t) h1 (fun _ => by simp [Ends, blank]) ih
      simpa [plain] using this
  cases ts with
  | nil => exact .nil h0
  | cons t ts =>
    have := Layout.cons (s := []) (t := t) h0 (fun _ => by simp [Ends, blank]) (key ts)
    simpa [plain] using this

end Verif.Turtle
