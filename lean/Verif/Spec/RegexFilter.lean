import Verif.Spec.Collation
/-
What simple regular expressions mean (ECMAScript): sequences of characters, where a backslash takes the meaning from a syntax character.
-/
namespace Verif.RegexSpec

/-- The syntax characters of ECMAScript. -/
def Syntax (c : Char) : Prop := c ∈ ['^', '$', '\\', '.', '*', '+', '?', '(', ')', '[', ']', '{', '}', '|']

instance (c : Char) : Decidable (Syntax c) := by unfold Syntax; infer_instance

/-- The pattern stands for this text alone. -/
inductive Means : List Char → List Char → Prop
  | nil : Means [] []
  | char (c : Char) (p t : List Char) (hc : ¬ Syntax c) (h : Means p t) : Means (c :: p) (c :: t)
  | escape (c : Char) (p t : List Char) (hc : Syntax c) (h : Means p t) : Means ('\\' :: c :: p) (c :: t)

/-- What the parser takes for a text: braces are ordinary characters that cannot be escaped, and a backslash at the end is ignored. -/
inductive Taken : List Char → List Char → Prop
  | nil : Taken [] []
  | last : Taken ['\\'] []
  | char (c : Char) (p t : List Char) (hc : ¬ Syntax c ∨ c = '{' ∨ c = '}') (h : Taken p t) : Taken (c :: p) (c :: t)
  | escape (c : Char) (p t : List Char) (hc : Syntax c ∧ c ≠ '{' ∧ c ≠ '}') (h : Taken p t) : Taken ('\\' :: c :: p) (c :: t)

end Verif.RegexSpec
