import Verif.Model.TextIndex
import Verif.Model.StringUtils
import Verif.Model.PrefixCompression
import Verif.Model.Modifiers
/-
Model of reading the context file (src/parser/ContextFileParser.cpp).  Asserts are off (Release build).  `npos` is
2^64 - 1; positions are computed modulo 2^64.  Lower-casing is a parameter.
-/
namespace Verif.ContextFile
open Verif.StringUtils Verif.TextIndex

/-- `string::npos`. -/
def npos : Nat := 2 ^ 64 - 1

/-- `l.find('\t', start)`. -/
def findTab (l : Str) (start : Nat) : Nat := (findPos (· == '\t') l start).getD npos

/-- `l[i]` for a `const` position: the character behind the last one is 0. -/
def charAt (l : Str) (i : Nat) : Outcome Char := if i = l.length then .ok (Char.ofNat 0) else Outcome.read l i

/-- `atol`, with spaces at the beginning. -/
def atol (s : Str) : Outcome Int := Modifiers.atol (s.dropWhile isSpace)

/-- `getLine` for one line (ContextFileParser.cpp:19-45).  `lower` is `getLowercaseUtf8`. -/
def parseLine (lower : Str → Str) (l : Str) : Outcome Line :=
  let i := findTab l 0
  let j := (i + 2) % 2 ^ 64
  let k := findTab l ((j + 2) % 2 ^ 64)
  (charAt l ((i + 1) % 2 ^ 64)).bind fun flag =>
  let isEntity := decide (flag = '1')
  (substr l 0 i).bind fun w =>
  let word := if isEntity then w else lower w
  (substr l ((j + 1) % 2 ^ 64) (sub64 (sub64 k j) 1)).bind fun ctx =>
  (atol ctx).bind fun c =>
  (substr l ((k + 1) % 2 ^ 64) npos).bind fun score =>
  (atol score).bind fun s =>
  .ok ⟨word, isEntity, (c % 2 ^ 64).toNat, (s % 2 ^ 16).toNat⟩

/-- The lines of the file one after the other, until an exception. -/
def parseLines (lower : Str → Str) : List Str → Outcome (List Line)
  | [] => .ok []
  | l :: ls => (parseLine lower l).bind fun x => (parseLines lower ls).map (x :: ·)

/-- All lines of the file (`while (p.getLine(line))`, Index.Text.cpp:103, 147). -/
def parseFile (lower : Str → Str) (file : Str) : Outcome (List Line) := parseLines lower (PrefixCompression.getlines file)

end Verif.ContextFile
