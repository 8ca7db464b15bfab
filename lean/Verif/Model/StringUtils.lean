import Verif.Model.Loop
/-
Model of string functions of `/repo/src/util/StringUtils.h`. Strings are lists of characters, a character stands for one byte.
`npos` is `none`. Positions are natural numbers; differences that can wrap around are taken modulo 2^64.

Simplification: `tolower` and `isspace` are those of the C locale; `tolower` leaves bytes from 128 on as they are (for a negative
`char` it is not defined by the standard).
-/
namespace Verif.StringUtils
open Outcome

/-- `a - b` for `size_t`. -/
def sub64 (a b : Nat) : Nat := (a + 2 ^ 64 - b) % 2 ^ 64

/-- `s.substr(pos, n)`: throws if `pos` is behind the end. -/
def substr (s : List Char) (pos n : Nat) : Outcome (List Char) :=
  if pos ≤ s.length then .ok ((s.drop pos).take n) else .throw

/-- `s.find(c, start)`, `s.find_first_not_of(set)`: the first position with a property. -/
def findPos (p : Char → Bool) (s : List Char) (start : Nat) : Option Nat := ((s.drop start).findIdx? p).map (· + start)

/-- `s.find_last_not_of(set)`. -/
def findLastPos (p : Char → Bool) (s : List Char) : Option Nat := (s.reverse.findIdx? p).map (s.length - 1 - ·)

/-- `s.find(sub, start)`. -/
def find (sub s : List Char) (start : Nat) : Option Nat :=
  ((List.range (s.length + 1 - start)).find? fun k => sub.isPrefixOf (s.drop (start + k))).map (start + ·)

/-- The loop of `split`, StringUtils.h:453-457; the state is `result`, `from`, `sepIndex`. -/
def splitBody (orig : List Char) (sep : Char) (s : List (List Char) × Nat × Option Nat) :
    Outcome ((List (List Char) × Nat × Option Nat) ⊕ (List (List Char) × Nat)) :=
  match s.2.2 with
  | none => .ok (.inr (s.1, s.2.1))
  | some i => (substr orig s.2.1 (i - s.2.1)).map fun part => .inl (s.1 ++ [part], i + 1, findPos (· == sep) orig (i + 1))

/-- `split`, StringUtils.h:448-461. -/
def split (fuel : Nat) (orig : List Char) (sep : Char) : Outcome (List (List Char)) :=
  if orig.length > 0 then
    (loop fuel (splitBody orig sep) ([], 0, findPos (· == sep) orig 0)).bind fun r =>
      (substr orig r.2 orig.length).map fun part => r.1 ++ [part]
  else .ok []

/-- `isspace`. -/
def isSpace (c : Char) : Bool := c = ' ' || (9 ≤ c.toNat && c.toNat ≤ 13)

/-- The loop of `splitWs`, StringUtils.h:469-482, with the inner loop that skips spaces as one step; the state is `result`, `start`,
`pos`. -/
def splitWsBody (orig : List Char) (s : List (List Char) × Nat × Nat) :
    Outcome ((List (List Char) × Nat × Nat) ⊕ (List (List Char) × Nat)) :=
  if s.2.2 < orig.length then
    (read orig s.2.2).bind fun c =>
    if isSpace c then
      let next := s.2.2 + ((orig.drop s.2.2).takeWhile isSpace).length
      if s.2.1 ≠ s.2.2 then (substr orig s.2.1 (s.2.2 - s.2.1)).map fun part => .inl (s.1 ++ [part], next, next + 1)
      else .ok (.inl (s.1, next, next + 1))
    else .ok (.inl (s.1, s.2.1, s.2.2 + 1))
  else .ok (.inr (s.1, s.2.1))

/-- `splitWs`, StringUtils.h:464-489. -/
def splitWs (fuel : Nat) (orig : List Char) : Outcome (List (List Char)) :=
  if orig.length > 0 then
    (loop fuel (splitWsBody orig) ([], 0, 0)).bind fun r =>
      if r.2 ≠ orig.length then (substr orig r.2 orig.length).map fun part => r.1 ++ [part] else .ok r.1
  else .ok []

/-- The loop of `splitAny`, StringUtils.h:546-554; the state is `result`, `from`, `i`. -/
def splitAnyBody (seps orig : List Char) (s : List (List Char) × Nat × Nat) :
    Outcome ((List (List Char) × Nat × Nat) ⊕ (List (List Char) × Nat)) :=
  if s.2.2 < orig.length then
    (read orig s.2.2).bind fun c =>
    if seps.contains c then
      if s.2.1 < s.2.2 then (substr orig s.2.1 (s.2.2 - s.2.1)).map fun part => .inl (s.1 ++ [part], s.2.2 + 1, s.2.2 + 1)
      else .ok (.inl (s.1, s.2.2 + 1, s.2.2 + 1))
    else .ok (.inl (s.1, s.2.1, s.2.2 + 1))
  else .ok (.inr (s.1, s.2.1))

/-- `splitAny`, StringUtils.h:531-560. A separator from 128 on is negative as a `char` and writes outside of the array (line 540). -/
def splitAny (fuel : Nat) (orig seps : List Char) : Outcome (List (List Char)) :=
  if seps.any fun c => 128 ≤ c.toNat then .ub
  else if orig.length > 0 then
    (loop fuel (splitAnyBody seps orig) ([], 0, 0)).bind fun r =>
      if r.2 < orig.length then (substr orig r.2 orig.length).map fun part => r.1 ++ [part] else .ok r.1
  else .ok []

/-- The loop of `join`, StringUtils.h:571-574. -/
def joinLoop (joiner res : List Char) : List (List Char) → List Char
  | [] => res
  | x :: xs => joinLoop joiner (res ++ joiner ++ x) xs

/-- `join`, StringUtils.h:564-576. -/
def join (joiner : List Char) : List (List Char) → List Char
  | [] => []
  | x :: xs => joinLoop joiner x xs

/-- `lstrip`, StringUtils.h:580-586. -/
def lstrip (text set : List Char) : Outcome (List Char) :=
  match findPos (fun c => !set.contains c) text 0 with
  | none => .ok []
  | some pos => substr text pos text.length

/-- `rstrip`, StringUtils.h:590-597. -/
def rstrip (text set : List Char) : Outcome (List Char) :=
  match findLastPos (fun c => !set.contains c) text with
  | none => .ok []
  | some pos => substr text 0 (pos + 1)

/-- `strip`, StringUtils.h:601-608; `none - pos` cannot happen. -/
def strip (text set : List Char) : Outcome (List Char) :=
  match findPos (fun c => !set.contains c) text 0 with
  | none => .ok []
  | some pos =>
    match findLastPos (fun c => !set.contains c) text with
    | none => .ub
    | some last => substr text pos (last - pos + 1)

/-- `tolower`. -/
def toLower (c : Char) : Char := if 65 ≤ c.toNat ∧ c.toNat ≤ 90 then Char.ofNat (c.toNat + 32) else c

/-- The value of a hexadecimal digit, StringUtils.h:617-625. -/
def hexDigit (c : Char) : Option Nat :=
  let h := (toLower c).toNat
  if 48 ≤ h ∧ h ≤ 57 then some (h - 48) else if 97 ≤ h ∧ h ≤ 102 then some (h - 97 + 10) else none

/-- The body of the loop of `decodeUrl`, StringUtils.h:613-640; the state is `i`, `decoded`. -/
def decodeBody (url : List Char) (s : Nat × List Char) : Outcome ((Nat × List Char) ⊕ List Char) :=
  if s.1 < url.length then
    (read url s.1).bind fun c =>
    if c = '+' then .ok (.inl (s.1 + 1, s.2 ++ [' ']))
    else if c = '%' ∧ s.1 + 2 < url.length then
      (read url (s.1 + 1)).bind fun c1 =>
      match hexDigit c1 with
      | none => .ok (.inl (s.1 + 1, s.2 ++ ['%']))
      | some h1 =>
        (read url (s.1 + 2)).bind fun c2 =>
        match hexDigit c2 with
        | none => .ok (.inl (s.1 + 1, s.2 ++ ['%']))
        | some h2 => .ok (.inl (s.1 + 2 + 1, s.2 ++ [Char.ofNat (h1 * 16 + h2)]))
    else .ok (.inl (s.1 + 1, s.2 ++ [c]))
  else .ok (.inr s.2)

/-- `decodeUrl`, StringUtils.h:611-642. -/
def decodeUrl (fuel : Nat) (url : List Char) : Outcome (List Char) := loop fuel (decodeBody url) (0, [])

/-- The loop of `findClosingBracket`, StringUtils.h:653-664, over the characters from position `i` on. -/
def closingLoop (opening closing : Char) : Nat → Nat → List Char → Outcome Nat
  | _, _, [] => .throw
  | i, depth, x :: xs =>
    let depth := if x = opening then depth + 1 else depth
    if x = closing then if depth = 0 then .ok i else closingLoop opening closing (i + 1) (depth - 1) xs
    else closingLoop opening closing (i + 1) depth xs

/-- `findClosingBracket`, StringUtils.h:644-671; the character behind the end is zero. -/
def findClosingBracket (haystack : List Char) (start : Nat) (opening closing : Char) : Outcome Nat :=
  if start > haystack.length then .ub
  else if (haystack[start]?).getD '\x00' ≠ opening then .throw
  else closingLoop opening closing (start + 1) 0 (haystack.drop (start + 1))

/-- The number of backslashes directly before a position, StringUtils.h:678-684. -/
def backslashes (input : List Char) (pos : Nat) : Nat := ((input.take pos).reverse.takeWhile (· == '\\')).length

/-- The loop of `findLiteralEnd`, StringUtils.h:676-695; the state is `endPos`. -/
def literalEndBody (input literalEnd : List Char) (endPos : Option Nat) : Outcome (Option Nat ⊕ Option Nat) :=
  match endPos with
  | none => .ok (.inr none)
  | some pos =>
    if 0 < pos ∧ input[pos - 1]? = some '\\' then
      if backslashes input pos % 2 = 0 then .ok (.inr (some pos)) else .ok (.inl (find literalEnd input (pos + 1)))
    else .ok (.inr (some pos))

/-- `findLiteralEnd`, StringUtils.h:673-697. -/
def findLiteralEnd (fuel : Nat) (input literalEnd : List Char) : Outcome (Option Nat) :=
  loop fuel (literalEndBody input literalEnd) (find literalEnd input 0)

end Verif.StringUtils
