/-
N-Triples (W3C RDF 1.1 N-Triples), as far as needed: terms, lines, and files.  Independent of the model of the reader.
-/
namespace Verif.NTriplesSpec

abbrev Str := List Char

def blank (c : Char) : Prop := c = ' ' ∨ c = '\t'
/-- no character is a blank -/
def Solid (s : Str) : Prop := ∀ c ∈ s, ¬ blank c
def Blanks (s : Str) : Prop := ∀ c ∈ s, blank c

/-- `<...>` -/
def Iri (w : Str) : Prop := ∃ u, w = '<' :: (u ++ ['>']) ∧ Solid u ∧ '>' ∉ u
/-- `_:...` -/
def Label (w : Str) : Prop := ∃ u, w = '_' :: ':' :: u ∧ Solid u
/-- What may stand between the quotation marks of a literal. -/
inductive Text : Str → Prop where
  | nil : Text []
  | chr {c s} : c ≠ '"' → c ≠ '\\' → Text s → Text (c :: s)
  | esc {c s} : Text s → Text ('\\' :: c :: s)
/-- A literal with the text `t` and the language or type `x`. -/
def lit (t x : Str) : Str := '"' :: (t ++ '"' :: x)
def Literal (w : Str) : Prop := ∃ t x, w = lit t x ∧ Text t ∧ Solid x

def Subject (w : Str) : Prop := Iri w ∨ Label w
def Object (w : Str) : Prop := Iri w ∨ Label w ∨ Literal w

/-- The line states the triple `s`, `p`, `o`, with `gap` between the object and the dot. -/
def States (line s p o gap : Str) : Prop :=
  ∃ b0 b1 b2 rest, line = b0 ++ (s ++ (b1 ++ (p ++ (b2 ++ (o ++ (gap ++ '.' :: rest)))))) ∧ Subject s ∧ Iri p ∧ Object o ∧
    Blanks b0 ∧ Blanks b1 ∧ b1 ≠ [] ∧ Blanks b2 ∧ b2 ≠ [] ∧ Blanks gap

/-- If the object is a literal, there is no blank after the first escaped quotation mark in its text. -/
def Tame (o : Str) : Prop := ∀ t x u v, o = lit t x → Text t → t = u ++ '"' :: v → Solid v

end Verif.NTriplesSpec
