import Verif.Model.Bytes
import Verif.Model.Simple8b
/-
Model of writing and reading the posting lists of one text block (src/index/Index.Text.cpp).
`Id` is 8 bytes, `Score` 2 bytes.
-/
namespace Verif.PostingLists
open Verif.Bytes Verif.Simple8b

/-- `Index::Posting`: context id, word id, score. -/
structure Posting where
  ctx : Nat
  word : Nat
  score : Nat
  deriving DecidableEq, Repr

/-- `ContextListMetaData` (TextMetaData.h).  Simplification: `endByte` stands for `_lastByte + 1`. -/
structure Meta where
  nofElements : Nat
  startContextlist : Nat
  startWordlist : Nat
  startScorelist : Nat
  endByte : Nat
  deriving DecidableEq

/-- `hasMultipleWords` (TextMetaData.h). -/
def Meta.hasMultipleWords (m : Meta) : Bool := m.startScorelist > m.startWordlist

/-- A possible codebook of `createCodebooks` (Index.Text.cpp:466-509) for the values `xs`: each occurring value once.
The order comes from hash map iteration and an unstable sort by frequency, so every order is admitted. -/
def IsCodebook (xs cb : List Nat) : Prop := cb.Nodup ∧ ∀ x, x ∈ cb ↔ x ∈ xs

/-- The code map belonging to a codebook (Index.Text.cpp:502-509): position in the codebook. -/
def code (cb : List Nat) (x : Nat) : Nat := cb.idxOf x

/-- The gap list (Index.Text.cpp:335-351), from the second posting on; `last` is `lastContext`. -/
def gaps (last : Nat) : List Nat → List Nat
  | [] => []
  | c :: cs => (c + 2 ^ 64 - last) % 2 ^ 64 :: gaps c cs

/-- The context list to write (Index.Text.cpp:335-351). -/
def contextList : List Nat → List Nat
  | [] => []
  | c :: cs => c :: gaps c cs

/-- `writeList` (Index.Text.cpp:449-463): the bytes appended to the file. -/
def writeList (xs : List Nat) : Outcome (List Nat) := (encode xs).map (ofArr 8)

/-- `writeCodebook` (Index.Text.cpp:512-519); `k = sizeof(T)`. -/
def writeCodebook (k : Nat) (cb : List Nat) : List Nat := toLE 8 (k * cb.length) ++ ofArr k cb

/-- `writePostings` (Index.Text.cpp:308-388): the bytes appended and the meta data.  `off` is `_currentoff_t`, the
size of the file so far; `wcb`, `scb` are the codebooks built for these postings. -/
def writePostings (off : Nat) (ps : List Posting) (skip : Bool) (wcb scb : List Nat) :
    Outcome (List Nat × Meta) :=
  if ps = [] then .ok ([], ⟨0, off, off, off, off⟩)
  else
    (writeList (contextList (ps.map Posting.ctx))).bind fun ctxB =>
    (if !skip || wcb.length > 1 then
        (writeList (ps.map fun p => code wcb p.word)).map (writeCodebook 8 wcb ++ ·)
      else .ok []).bind fun wordB =>
    (writeList (ps.map fun p => code scb p.score % 2 ^ 16)).map fun scoreB =>
    (ctxB ++ wordB ++ (writeCodebook 2 scb ++ scoreB),
     ⟨ps.length, off, off + ctxB.length, off + ctxB.length + wordB.length,
      off + ctxB.length + wordB.length + (writeCodebook 2 scb ++ scoreB).length⟩)

/-- `Simple8bCode::decode` into a vector of `n + 250` elements of `k` bytes; more would be out of range. -/
def decodeInto (k : Nat) (ws : List Nat) (n : Nat) : Outcome (List Nat) :=
  (decodeLoop ws n).bind fun r => if r.length ≤ n + 250 then .ok ((r.map (· % 256 ^ k)).take n) else .ub

/-- The prefix sums that revert the gaps (Index.Text.cpp:890-894). -/
def sumUp (acc : Nat) : List Nat → List Nat
  | [] => []
  | g :: gs => (acc + g) % 2 ^ 64 :: sumUp ((acc + g) % 2 ^ 64) gs

/-- `readGapComprList` (Index.Text.cpp:879-899) for 8-byte elements. -/
def readGap (file : List Nat) (n frm nofBytes : Nat) : Outcome (List Nat) :=
  (decodeInto 8 (toArr 8 (nofBytes / 8) (pread file frm nofBytes)) n).map (sumUp 0)

/-- `codebook[result[i]]` for all i (Index.Text.cpp:936-938). -/
def lookupAll (cb : List Nat) : List Nat → Outcome (List Nat)
  | [] => .ok []
  | c :: cs => (Outcome.read cb c).bind fun x => (lookupAll cb cs).map (x :: ·)

/-- `readFreqComprList` (Index.Text.cpp:904-943) for `k`-byte elements; the checks throw. -/
def readFreq (k : Nat) (file : List Nat) (n frm nofBytes : Nat) : Outcome (List Nat) :=
  if nofBytes = 0 then .throw
  else
    let b := pread file frm 8
    if b.length ≠ 8 then .throw
    else
      let cbBytes := ofLE b
      let cb := pread file (frm + 8) cbBytes
      if cb.length ≠ cbBytes then .throw
      else
        let rest := nofBytes - (8 + cbBytes)
        let enc := pread file (frm + 8 + cbBytes) rest
        if enc.length > 8 * n then .ub       -- buffer `new uint64_t[nofElements]`
        else if 8 + cbBytes + enc.length ≠ nofBytes then .throw
        else
          (decodeInto k (toArr 8 (enc.length / 8) enc) n).bind fun r => lookupAll (toArr k (cbBytes / k) cb) r

end Verif.PostingLists
