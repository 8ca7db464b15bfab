import Verif.Model.Outcome
import Verif.Model.RdfEscaping
/-
Model of the prefix compression of the vocabulary (`src/index/Vocabulary.cpp`) and of the files it goes through
(`src/index/Index.cpp`).  A character stands for one byte.
-/
namespace Verif.PrefixCompression
open Verif.RdfEscaping

/-- `MIN_COMPRESSION_PREFIX` (Constants.h:101). -/
def minPrefix : Nat := 129
/-- `NUM_COMPRESSION_PREFIXES` (Constants.h:102). -/
def numPrefixes : Nat := 126
/-- `NO_PREFIX_CHAR` (Constants.h:105-106). -/
def noPrefixChar : Char := Char.ofNat (minPrefix + numPrefixes)

/-- `_prefixMap` after `initializePrefixes` (Vocabulary.cpp:250-265): entry `i`, `""` where no prefix is given. -/
def prefixMap (ps : List (List Char)) (i : Nat) : List Char := (ps.take numPrefixes).getD i []

/-- `_prefixVec` before it is sorted (Vocabulary.cpp:254-265): code character and full text. -/
def prefixVecUnsorted (ps : List (List Char)) : List (Char × List Char) :=
  (ps.take numPrefixes).zipIdx.map fun x => (Char.ofNat (minPrefix + x.2), x.1)

/-- `pv` is a possible `_prefixVec` (Vocabulary.cpp:270-274): `std::sort` is not stable, so any permutation ordered by
decreasing length is possible. -/
def IsPrefixVec (ps : List (List Char)) (pv : List (Char × List Char)) : Prop :=
  pv.Perm (prefixVecUnsorted ps) ∧ pv.Pairwise (fun a b => b.2.length ≤ a.2.length)

/-- `compressPrefix` (Vocabulary.cpp:235-245). -/
def compress (pv : List (Char × List Char)) (w : List Char) : List Char :=
  match pv with
  | [] => noPrefixChar :: w
  | (c, p) :: pv => if startsWith w p then c :: w.drop p.length else compress pv w

/-- `expandPrefix` (Vocabulary.cpp:222-230).  The first byte of an empty string is undefined. -/
def expand (ps : List (List Char)) (w : List Char) : Outcome (List Char) :=
  match w with
  | [] => .ub
  | c :: cs =>
    if minPrefix ≤ c.toNat ∧ c.toNat - minPrefix < numPrefixes then .ok (prefixMap ps (c.toNat - minPrefix) ++ cs)
    else .ok cs

/-- The lines that repeated `std::getline` returns for a file content. -/
def getlines : List Char → List (List Char)
  | [] => []
  | c :: cs =>
    if c = '\n' then [] :: getlines cs
    else
      match getlines cs with
      | [] => [[c]]
      | l :: ls => (c :: l) :: ls

/-- `out << x << '\n'` for all `x`. -/
def writeLines (ls : List (List Char)) : List Char := (ls.map (· ++ ['\n'])).flatten

/-- The vocabulary file the merger writes (VocabularyGeneratorImpl.h:155-160): escaped words, one per line. -/
def vocabFile (words : List (List Char)) : List Char := writeLines (words.map escapeNB)

/-- `prefixCompressFile` (Vocabulary.cpp:297-310). -/
def prefixCompressFile (pv : List (Char × List Char)) (infile : List Char) : List Char :=
  writeLines ((getlines infile).map (compress pv))

/-- Writing the prefix file (Index.cpp:108-112) and reading it (Index.cpp:1349-1354). -/
def prefixFile (ps : List (List Char)) : List Char := writeLines ps
/-- See `prefixFile`. -/
def readPrefixFile (f : List Char) : List (List Char) := getlines f

/-- One line of `readFromFile` (Vocabulary.cpp:31-38) followed by the access of the word (`at`,
Vocabulary.cpp:357-366 or `idToOptionalString`): expand, unescape, compress for memory, expand for output. -/
def loadLine (ps : List (List Char)) (pv : List (Char × List Char)) (line : List Char) : Outcome (List Char) :=
  (expand ps line).bind fun e => (unescapeNB e).bind fun w => expand ps (compress pv w)

/-- `readFromFile` (Vocabulary.cpp:22-53) followed by reading all words. -/
def load (ps : List (List Char)) (pv : List (Char × List Char)) (file : List Char) : Outcome (List (List Char)) :=
  let rec go : List (List Char) → Outcome (List (List Char))
    | [] => .ok []
    | l :: ls => (loadLine ps pv l).bind fun w => (go ls).map (w :: ·)
  go (getlines file)

end Verif.PrefixCompression
