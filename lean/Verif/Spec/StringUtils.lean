/-
Specifications for string functions, independent of positions and loops.
-/
namespace Verif.StringSpec

/-- `ws` are the maximal runs of characters of `s` that are not separators, in order. -/
inductive Words (p : Char → Bool) : List Char → List (List Char) → Prop
  | nil : Words p [] []
  | sep {c s ws} : p c = true → Words p s ws → Words p (c :: s) ws
  | word {w s ws} : w ≠ [] → (∀ c ∈ w, p c = false) → (∀ c, s.head? = some c → p c = true) → Words p s ws →
      Words p (w ++ s) (w :: ws)

/-- The position of the first quote that is not escaped, reading from left to right; a backslash escapes the next character. -/
def scanEnd (q : Char) : List Char → Option Nat
  | [] => none
  | [c] => if c = q then some 0 else none
  | c :: d :: cs =>
    if c = q then some 0 else if c = '\\' then (scanEnd q cs).map (· + 2) else (scanEnd q (d :: cs)).map (· + 1)

/-- The value of a hexadecimal digit in either case. -/
def hexValue (c : Char) : Option Nat := (['0','1','2','3','4','5','6','7','8','9','a','b','c','d','e','f'].idxOf? c).or
  (['0','1','2','3','4','5','6','7','8','9','A','B','C','D','E','F'].idxOf? c)

/-- `Encodes s e`: `e` is a percent-encoded form of `s`. Spaces may be written as `+`, all bytes may be escaped with digits in
either case; a percent sign not followed by two hexadecimal digits stands for itself. -/
inductive Encodes : List Char → List Char → Prop
  | nil : Encodes [] []
  | raw {c s e} : c ≠ '+' → c ≠ '%' → Encodes s e → Encodes (c :: s) (c :: e)
  | plus {s e} : Encodes s e → Encodes (' ' :: s) ('+' :: e)
  | escape {h1 h2 a b s e} : hexValue h1 = some a → hexValue h2 = some b → Encodes s e →
      Encodes (Char.ofNat (16 * a + b) :: s) ('%' :: h1 :: h2 :: e)
  | stray {s e} : (∀ h1 h2 r, e = h1 :: h2 :: r → hexValue h1 = none ∨ hexValue h2 = none) → Encodes s e →
      Encodes ('%' :: s) ('%' :: e)

/-- A hexadecimal digit. -/
def hexChar (n : Nat) : Char := ['0','1','2','3','4','5','6','7','8','9','A','B','C','D','E','F'].getD n '0'

/-- Characters that need no escape in a URL (RFC 3986, section 2.3). -/
def unreserved (c : Char) : Bool :=
  (48 ≤ c.toNat && c.toNat ≤ 57) || (65 ≤ c.toNat && c.toNat ≤ 90) || (97 ≤ c.toNat && c.toNat ≤ 122) ||
  c = '-' || c = '_' || c = '.' || c = '~'

/-- The usual encoding of a byte string, as of `encodeURIComponent`. -/
def encode (s : List Char) : List Char :=
  s.flatMap fun c => if unreserved c then [c] else ['%', hexChar (c.toNat / 16), hexChar (c.toNat % 16)]

end Verif.StringSpec
