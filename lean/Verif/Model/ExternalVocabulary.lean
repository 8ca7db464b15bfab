import Verif.Model.Bytes
import Verif.Model.Loop
import Verif.Model.RdfEscaping
/-
Model of the on-disk vocabulary: `src/index/ExternalVocabulary.{h,cpp}` and the functions of `src/util/File.h` it uses.
A word is a list of characters, a character stands for one byte.
-/
namespace Verif.ExternalVocabulary
open Verif.Bytes

/-- A word. -/
abbrev Word := List Char

/-- Conversion of 64 bits to a signed number (`off_t`). -/
def toSigned (n : Nat) : Int := if n < 2 ^ 63 then n else n - 2 ^ 64

/-- Conversion of a signed number to `size_t`. -/
def toUnsigned (i : Int) : Nat := (i % 2 ^ 64).toNat

/-- `File::read` with an offset (File.h:196-220).  `pread` fails for negative offsets; none of the callers below looks at the
error, so that the target buffer stays uninitialised (`ub`).  At the end of the file `pread` returns 0 and the loop in
lines 206-218 does not end. -/
def fileRead (file : List Nat) (off : Int) (n : Nat) : Outcome (List Nat) :=
  if n = 0 then .ok []
  else if off < 0 then .ub
  else if off.toNat + n ≤ file.length then .ok ((file.drop off.toNat).take n)
  else .diverge

/-- An initialised `ExternalVocabulary`: content of `_file`, `_startOfOffsets` and `_size` (ExternalVocabulary.h:57-59). -/
structure Vocab where
  bytes : List Nat
  start : Int
  size : Nat
  deriving DecidableEq, Repr

/-- `operator[]` (ExternalVocabulary.cpp:13-26).  A failing `assert` is a `throw` here. -/
def get (v : Vocab) (id : Nat) : Outcome Word :=
  (fileRead v.bytes (toSigned ((toUnsigned v.start + id * 8) % 2 ^ 64)) 16).bind fun ft =>
    let fromPos := toSigned (ofLE (ft.take 8))
    let toPos := toSigned (ofLE (ft.drop 8))
    if toPos ≤ fromPos then .throw
    else (fileRead v.bytes fromPos (toPos - fromPos).toNat).map fun bs => bs.map Char.ofNat

/-- One iteration of the loop of `binarySearchInVocab` (ExternalVocabulary.cpp:33-45); `cmp` is
`_caseComparator.compare(_, _, TOTAL)`. -/
def searchStep (cmp : Word → Word → Int) (v : Vocab) (word : Word) (s : Nat × Nat) : Outcome ((Nat × Nat) ⊕ Nat) :=
  if s.1 < s.2 then
    let i := (s.1 + s.2) % 2 ^ 64 / 2
    (get v i).bind fun w =>
      if cmp w word < 0 then .ok (.inl (i + 1, s.2))
      else if cmp w word > 0 then .ok (.inl (s.1, (i + 2 ^ 64 - 1) % 2 ^ 64))
      else .ok (.inr i)
  else .ok (.inr s.1)

/-- `binarySearchInVocab` (ExternalVocabulary.cpp:29-46). -/
def binarySearch (fuel : Nat) (cmp : Word → Word → Int) (v : Vocab) (word : Word) : Outcome Nat :=
  loop fuel (searchStep cmp v word) (0, v.size)

/-- `getId` (ExternalVocabulary.h:47-51): the id and whether it is the id of the word. -/
def getId (fuel : Nat) (cmp : Word → Word → Int) (v : Vocab) (word : Word) : Outcome (Nat × Bool) :=
  (binarySearch fuel cmp v word).bind fun id =>
    if id < v.size then (get v id).map fun w => (id, w == word) else .ok (id, false)

/-- The offsets collected while the words are written (ExternalVocabulary.cpp:52-61), starting at offset `cur`. -/
def offsets (cur : Nat) : List Word → List Nat
  | [] => [cur]
  | w :: ws => cur :: offsets (cur + w.length) ws

/-- The file written by `buildFromVector` (ExternalVocabulary.cpp:49-64). -/
def fileOf (ws : List Word) : List Nat := ws.flatten.map Char.toNat ++ ofArr 8 (offsets 0 ws)

/-- `initFromFile` (ExternalVocabulary.cpp:96-107) with `File::getLastOffset` (File.h:245-252). -/
def initFromFile (file : List Nat) : Outcome Vocab :=
  if file = [] then .ok ⟨[], 0, 0⟩
  else
    let pos : Int := file.length - 8
    (fileRead file pos 8).map fun b =>
      let start := toSigned (ofLE b)
      ⟨file, start, toUnsigned (pos - start) / 8⟩

/-- `buildFromVector` (ExternalVocabulary.cpp:49-66). -/
def buildFromVector (ws : List Word) : Outcome Vocab := initFromFile (fileOf ws)

/-- `std::getline` until the end of the file: `cur` are the characters of the current line in reverse order. -/
def getLines (cur : List Char) : List Char → List (List Char)
  | [] => if cur = [] then [] else [cur.reverse]
  | c :: cs => if c = '\n' then cur.reverse :: getLines [] cs else getLines (c :: cur) cs

/-- The words of the lines (ExternalVocabulary.cpp:78-86). -/
def unescapeLines : List (List Char) → Outcome (List Word)
  | [] => .ok []
  | l :: ls => (RdfEscaping.unescapeNB l).bind fun w => (unescapeLines ls).map fun ws => w :: ws

/-- `buildFromTextFile` (ExternalVocabulary.cpp:69-93).  The words are written in the same way as in `buildFromVector`. -/
def buildFromTextFile (text : List Char) : Outcome Vocab :=
  (unescapeLines (getLines [] text)).bind buildFromVector

end Verif.ExternalVocabulary
