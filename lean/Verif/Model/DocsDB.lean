import Verif.Model.ExternalVocabulary
/-
Model of the documents: `Index::buildDocsDB` (src/index/Index.Text.cpp:31-68), `src/index/DocsDB.cpp` and `Index::getTextExcerpt` (src/index/Index.h:263-269).
-/
namespace Verif.DocsDB
open Verif.Bytes Verif.ExternalVocabulary

/-- `BUFFER_SIZE_DOCSFILE_LINE` (Constants.h:31). -/
def bufferSize : Nat := 1024 * 1024 * 100

/-- `std::isspace`, which `atol` uses. -/
def isSpace (c : Char) : Bool := c = ' ' || (9 ≤ c.toNat && c.toNat ≤ 13)

/-- `atol`: spaces, a sign and digits at the beginning, 0 without digits; values that do not fit into a `long` are undefined. -/
def atol (w : Word) : Outcome Int :=
  let w := w.dropWhile isSpace
  let neg : Bool := w.head? = some '-'
  let w := if w.head? = some '-' ∨ w.head? = some '+' then w.drop 1 else w
  let n : Nat := (w.takeWhile fun c => '0' ≤ c ∧ c ≤ '9').foldl (fun n c => 10 * n + (c.toNat - 48)) 0
  if n < 2 ^ 63 then .ok (if neg then -(n : Int) else n) else .ub

/-- `docsFile.readLine` until the end of the file (Index.Text.cpp:43, File.h:131-148): throws if a line does not fit into the buffer.  Simplified:
no line contains the character 0. -/
def readLines (text : List Char) : Outcome (List Word) :=
  if (getLines [] text).all fun l => l.length + 1 < bufferSize then .ok (getLines [] text) else .throw

/-- A line: the id before the first tab and the text after it (Index.Text.cpp:44-46).  Without a tab both are taken from the whole line. -/
def parseLine (line : Word) : Outcome (Nat × Word) :=
  match line.findIdx? (· = '\t') with
  | some tab => (atol (line.take tab)).map fun i => (toUnsigned i, line.drop (tab + 1))
  | none => (atol line).map fun i => (toUnsigned i, line)

/-- The state of the loop (Index.Text.cpp:38-40): what has been written, `offsets`, `currentOffset` and `currentContextId`. -/
structure State where
  written : Word
  offsets : List Nat
  currentOffset : Nat
  currentContextId : Nat
  deriving DecidableEq, Repr

/-- One line (Index.Text.cpp:47-54).  The ids that are missing get the current offset. -/
def addLine (s : State) (doc : Nat × Word) : State :=
  { written := s.written ++ doc.2
    offsets := s.offsets ++ List.replicate (doc.1 - s.currentContextId) s.currentOffset ++ [s.currentOffset]
    currentOffset := s.currentOffset + doc.2.length
    currentContextId := s.currentContextId + (doc.1 - s.currentContextId) + 1 }

/-- All lines, one after the other (Index.Text.cpp:43-54). -/
def addLines (s : State) : List Word → Outcome State
  | [] => .ok s
  | l :: ls => (parseLine l).bind fun doc => addLines (addLine s doc) ls

/-- `buildDocsDB` (Index.Text.cpp:31-68): the content of the file `.text.docsDB`. -/
def buildDocsDB (text : List Char) : Outcome (List Nat) :=
  (readLines text).bind fun lines =>
    (addLines ⟨[], [], 0, 0⟩ lines).map fun s => s.written.map Char.toNat ++ ofArr 8 (s.offsets ++ [s.currentOffset])

/-- `DocsDB`: the content of the file and `_startOfOffsets` (DocsDB.h:22-24); `_size` is not used. -/
structure DB where
  bytes : List Nat
  start : Int
  deriving DecidableEq, Repr

/-- `DocsDB::init` (DocsDB.cpp:10-18); the file is not empty. -/
def init (file : List Nat) : Outcome DB := (fileRead file ((file.length : Int) - 8) 8).map fun b => ⟨file, toSigned (ofLE b)⟩

/-- The loop of `DocsDB::getTextExcerpt` (DocsDB.cpp:27-29): the state is `to` and `at`. -/
def excerptStep (db : DB) (fromPos : Int) (s : Int × Nat) : Outcome ((Int × Nat) ⊕ Int) :=
  if s.1 = fromPos then (fileRead db.bytes (toSigned s.2) 8).map fun b => .inl (toSigned (ofLE b), (s.2 + 8) % 2 ^ 64) else .ok (.inr s.1)

/-- `DocsDB::getTextExcerpt` (DocsDB.cpp:21-36).  The assertion is off; a string of negative size throws. -/
def excerpt (fuel : Nat) (db : DB) (cid : Nat) : Outcome Word :=
  let pos := (toUnsigned db.start + cid * 8) % 2 ^ 64
  (fileRead db.bytes (toSigned pos) 16).bind fun ft =>
    let fromPos := toSigned (ofLE (ft.take 8))
    (loop fuel (excerptStep db fromPos) (toSigned (ofLE (ft.drop 8)), (pos + 16) % 2 ^ 64)).bind fun toPos =>
      if toPos < fromPos then .throw
      else (fileRead db.bytes fromPos (toPos - fromPos).toNat).map fun bs => bs.map Char.ofNat

/-- `ID_NO_VALUE` (Id.h:14). -/
def idNoValue : Nat := 2 ^ 64 - 3

/-- `Index::getTextExcerpt` (Index.h:263-269). -/
def getTextExcerpt (fuel : Nat) (db : DB) (cid : Nat) : Outcome Word := if cid = idNoValue then .ok [] else excerpt fuel db cid

end Verif.DocsDB
