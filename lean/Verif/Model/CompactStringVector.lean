import Verif.Model.Bytes
/-
Model of `CompactStringVector<IndexT, DataT>` (src/global/Pattern.h:92-200), with `iw = sizeof(IndexT)` and
`dw = sizeof(DataT)`, down to the bytes of its memory block.
-/
namespace Verif.CompactStringVector
open Verif.Bytes

/-- The members (Pattern.h:196-199). -/
structure CSV where
  data : List Nat
  size : Nat
  indexEnd : Nat
  dataSize : Nat
  deriving DecidableEq

/-- The loop of `build` (Pattern.h:130-140), starting at list `i`; `cur` is `currentLength`, `indPos = i`. -/
def buildLoop (iw dw indexEnd : Nat) : List (List Nat) → Nat → Nat → List Nat → Outcome (List Nat × Nat × Nat)
  | [], i, cur, buf => .ok (buf, i, cur)
  | l :: ls, i, cur, buf =>
    (blit buf (i * iw) (toLE iw cur)).bind fun buf =>
    (blit buf (indexEnd + cur * dw) (ofArr dw l)).bind fun buf =>
    buildLoop iw dw indexEnd ls (i + 1) ((cur + l.length) % 256 ^ iw) buf

/-- `build` (Pattern.h:113-144).  `init` is the content of the freshly allocated block (indeterminate in C++).
The loop variable has type `IndexT`: if it cannot reach `_size` the loop runs past the block, which is undefined
behaviour. -/
def build (iw dw : Nat) (ls : List (List Nat)) (init : Nat → List Nat) : Outcome CSV :=
  let size := ls.length
  let indexEnd := (size + 1) * iw
  let dataCount := (ls.map List.length).sum
  if dataCount > 256 ^ iw - 1 then .throw
  else if size > 256 ^ iw - 1 then .ub
  else
    let dataSize := indexEnd + dw * dataCount
    (buildLoop iw dw indexEnd ls 0 0 (init dataSize)).bind fun r =>
    (blit r.1 (r.2.1 * iw) (toLE iw r.2.2)).map fun buf => ⟨buf, size, indexEnd, dataSize⟩

/-- `operator[]` (Pattern.h:186-193) and reading the elements it points to. -/
def get (iw dw : Nat) (v : CSV) (i : Nat) : Outcome (List Nat) :=
  (peek v.data (i * iw) iw).bind fun a =>
  (peek v.data ((i + 1) * iw) iw).bind fun b =>
  let n := (ofLE b + 256 ^ iw - ofLE a) % 256 ^ iw
  (peek v.data (v.indexEnd + dw * ofLE a) (dw * n)).map fun bs => toArr dw n bs

/-- `write` (Pattern.h:166-171): the bytes appended to the file. -/
def write (v : CSV) : List Nat := toLE 8 v.size ++ toLE 8 v.dataSize ++ v.data

/-- `load` (Pattern.h:146-152).  Simplification: a short read leaves the missing bytes indeterminate; here a file that
is too short is reported as undefined behaviour. -/
def load (iw : Nat) (file : List Nat) (offset : Nat) : Outcome CSV :=
  let s := ofLE (pread file offset 8)
  let d := ofLE (pread file (offset + 8) 8)
  if (pread file (offset + 16) d).length = d then .ok ⟨pread file (offset + 16) d, s, (s + 1) * iw, d⟩ else .ub

end Verif.CompactStringVector
