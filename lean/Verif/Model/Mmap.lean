import Verif.Model.Outcome
/-
Model of `MmapVector` (`/repo/src/util/MmapVector.h`, `MmapVectorImpl.h`) and `BufferedVector` (`/repo/src/util/BufferedVector.h`).

The file is a list of bytes; the mapping is shared, so a write to an element is a write to the file. The model records every content that
the file has had (`seen`): when the process dies, the file keeps the content that it has at this moment. An element is the list of its
`sizeof(T)` bytes. System calls and the assignment of one element are single steps; the five `write`s of the metadata go into the buffer of
the stream and reach the file as one system call when it is closed.

Simplifications: sizes are natural numbers, a file of 2^63 bytes or more is refused by `truncate`; other errors of the operating system
do not happen. Access behind the end of the file is undefined behaviour also inside its last page. `madvise` is left out.
-/
namespace Verif.Mmap

/-- `sizeof(T)`, the page size, and `size_t(_capacity * ResizeFactor)`, a product of `float`s (MmapVectorImpl.h:171 and 182). -/
structure Cfg where
  w : Nat
  page : Nat
  grow : Nat → Nat

/-- The bytes of a number, little endian. -/
def leBytes : Nat → Nat → List Nat
  | 0, _ => []
  | k + 1, n => n % 256 :: leBytes k (n / 256)

/-- The number of a list of bytes. -/
def leNum : List Nat → Nat
  | [] => 0
  | b :: bs => b + 256 * leNum bs

/-- MmapVector.h:276-277. -/
def magicNumber : Nat := 7601577
def version : Nat := 0

/-- The object and its file. `mapped` is `_ptr != nullptr`. -/
structure State where
  disk : List Nat
  seen : List (List Nat)
  mapped : Bool
  size : Nat
  capacity : Nat
  bytesize : Nat

/-- A change of the file. -/
def State.put (s : State) (d : List Nat) : State := { s with disk := d, seen := s.seen ++ [d] }

/-- `truncate(2)`. -/
def truncated (d : List Nat) (n : Nat) : List Nat := d.take n ++ List.replicate (n - d.length) 0

/-- A write at a position that is not behind the end. -/
def writeAt (d : List Nat) (pos : Nat) (b : List Nat) : List Nat := d.take pos ++ b ++ d.drop (pos + b.length)

/-- The metadata, MmapVectorImpl.h:41-45. -/
def metaBytes (size capacity bytesize : Nat) : List Nat :=
  leBytes 8 size ++ leBytes 8 capacity ++ leBytes 8 bytesize ++ leBytes 4 magicNumber ++ leBytes 4 version

/-- `writeMetaDataToEnd`, MmapVectorImpl.h:29-47. -/
def writeMeta (s : State) : State :=
  let s := s.put (truncated s.disk s.bytesize)
  s.put (writeAt s.disk s.bytesize (metaBytes s.size s.capacity s.bytesize))

/-- `readMetaDataFromEnd`, MmapVectorImpl.h:51-76; `none` is `InvalidFileException`. -/
def readMeta (d : List Nat) : Option (Nat × Nat × Nat) :=
  if d.length < 32 then none
  else
    let m := d.drop (d.length - 32)
    if leNum ((m.drop 24).take 4) ≠ magicNumber ∨ leNum ((m.drop 28).take 4) ≠ version then none
    else some (leNum (m.take 8), leNum ((m.drop 8).take 8), leNum ((m.drop 16).take 8))

/-- `convertArraySizeToFileSize`, MmapVectorImpl.h:122-137: capacity and size in bytes. -/
def convert (c : Cfg) (targetSize : Nat) : Nat × Nat :=
  let bytesize := (targetSize * c.w / c.page + 1) * c.page
  (bytesize / c.w, bytesize)

/-- `adaptCapacity`, MmapVectorImpl.h:140-158. An object without a file has no file name, and `truncate` fails. -/
def adaptCapacity (c : Cfg) (newCapacity : Nat) (s : State) : Outcome State :=
  if s.mapped = false ∨ 2 ^ 63 ≤ (convert c newCapacity).2 then .throw
  else .ok (writeMeta { s with capacity := (convert c newCapacity).1, bytesize := (convert c newCapacity).2 })

/-- `resize`, MmapVectorImpl.h:161-165; `clear` is `resize(0)`, MmapVector.h:198. -/
def resize (c : Cfg) (newSize : Nat) (s : State) : Outcome State := adaptCapacity c newSize { s with size := newSize }

/-- `reserve`, MmapVector.h:203-207. -/
def reserve (c : Cfg) (newCapacity : Nat) (s : State) : Outcome State :=
  if newCapacity > s.capacity then adaptCapacity c newCapacity s else .ok s

/-- `_ptr[i] = e`. -/
def store (c : Cfg) (i : Nat) (e : List Nat) (s : State) : Outcome State :=
  if s.mapped = true ∧ (i + 1) * c.w ≤ s.bytesize ∧ (i + 1) * c.w ≤ s.disk.length then .ok (s.put (writeAt s.disk (i * c.w) e)) else .ub

/-- `operator[]` on the left side, MmapVector.h:98-101. -/
def set (c : Cfg) (i : Nat) (e : List Nat) (s : State) : Outcome State := if s.mapped then store c i e s else .throw

/-- `push_back`, MmapVectorImpl.h:168-187. -/
def pushBack (c : Cfg) (e : List Nat) (s : State) : Outcome State :=
  (if s.size = s.capacity then
    (adaptCapacity c (c.grow s.capacity) s).bind fun s => if s.capacity > s.size then .ok s else .throw
  else .ok s).bind fun s => (store c s.size e s).map fun s => { s with size := s.size + 1 }

/-- `v.push_back(v[i])`: the reference is read after the mapping was adapted, which may have moved it
(`MREMAP_MAYMOVE`, MmapVectorImpl.h:113). -/
def pushOwn (c : Cfg) (i : Nat) (s : State) : Outcome State :=
  if s.size = s.capacity then .ub else pushBack c ((s.disk.drop (i * c.w)).take c.w) s

/-- `open(size, filename)`, MmapVectorImpl.h:217-236, for a new object. -/
def create (c : Cfg) (size : Nat) : Outcome State :=
  let info := convert c (max size 100)
  if 2 ^ 63 ≤ info.2 then .throw
  else .ok { writeMeta ⟨[], [[]], false, size, info.1, info.2⟩ with mapped := true }

/-- The loop of the other variants of `open`, MmapVectorImpl.h:195-197 and 208-211: elements from position `i` on. -/
def fill (c : Cfg) : Nat → List (List Nat) → State → Outcome State
  | _, [], s => .ok s
  | i, e :: es, s => (store c i e s).bind (fill c (i + 1) es)

/-- `open(begin, end, filename)`, MmapVectorImpl.h:202-213; `open(size, value, filename)`, 190-199, is the case of equal elements. -/
def createFrom (c : Cfg) (es : List (List Nat)) : Outcome State := (create c es.length).bind (fill c 0 es)

/-- `open(filename, ReuseTag)`, MmapVectorImpl.h:239-246, and `MmapVectorView::open`, MmapVector.h:322-329, for a new object. `mmap` fails
for length 0. -/
def reuse (d : List Nat) : Outcome State :=
  match readMeta d with
  | none => .throw
  | some (size, capacity, bytesize) => if bytesize = 0 then .throw else .ok ⟨d, [], true, size, capacity, bytesize⟩

/-- `close`, MmapVectorImpl.h:249-261. What remains is the file. -/
def close (s : State) : State :=
  let s := if s.mapped then writeMeta s else s
  { s with mapped := false, size := 0, capacity := 0, bytesize := 0 }

/-- `operator[]`, MmapVector.h:102-105. -/
def get (c : Cfg) (i : Nat) (s : State) : Outcome (List Nat) :=
  if s.mapped then
    if (i + 1) * c.w ≤ s.bytesize ∧ (i + 1) * c.w ≤ s.disk.length then .ok ((s.disk.drop (i * c.w)).take c.w) else .ub
  else .throw

/-- `at`, MmapVector.h:108-124. -/
def getAt (c : Cfg) (i : Nat) (s : State) : Outcome (List Nat) :=
  if s.mapped ∧ i < s.size then get c i s else .throw

/-- The operations of a program on a vector. `reopen` is `close` and then `open(filename, ReuseTag)`. -/
inductive Op where
  | push (e : List Nat)
  | set (i : Nat) (e : List Nat)
  | resize (n : Nat)
  | reserve (n : Nat)
  | reopen

def exec (c : Cfg) : Op → State → Outcome State
  | .push e, s => pushBack c e s
  | .set i e, s => set c i e s
  | .resize n, s => resize c n s
  | .reserve n, s => reserve c n s
  | .reopen, s => (reuse (close s).disk).map fun t => { t with seen := (close s).seen }

/-- A sequence of operations. -/
def run (c : Cfg) : List Op → State → Outcome State
  | [], s => .ok s
  | op :: ops, s => (exec c op s).bind (run c ops)

/-! `BufferedVector` -/

/-- BufferedVector.h:105-115. -/
structure Buffered where
  threshold : Nat
  isInternal : Bool
  vec : List (List Nat)
  ext : State

/-- The constructor, BufferedVector.h:26-27, with `MmapVectorTmp::open`, MmapVector.h:352-354. -/
def Buffered.make (c : Cfg) (threshold : Nat) : Outcome Buffered := (create c 0).map fun s => ⟨threshold, true, [], s⟩

/-- `size`, BufferedVector.h:30. -/
def Buffered.size (b : Buffered) : Nat := if b.isInternal then b.vec.length else b.ext.size

/-- `operator[]`, BufferedVector.h:55-58. -/
def Buffered.get (c : Cfg) (i : Nat) (b : Buffered) : Outcome (List Nat) :=
  if b.isInternal then Outcome.read b.vec i else Mmap.get c i b.ext

/-- `clear`, BufferedVector.h:75-80. -/
def Buffered.clear (b : Buffered) : Buffered := { b with vec := [], isInternal := true }

/-- The loop of `push_back`, BufferedVector.h:92-94: from position `i` on. -/
def copyOut (c : Cfg) : Nat → List (List Nat) → State → Outcome State
  | _, [], s => .ok s
  | i, e :: es, s => (Mmap.set c i e s).bind (copyOut c (i + 1) es)

/-- `push_back`, BufferedVector.h:84-99. -/
def Buffered.push (c : Cfg) (e : List Nat) (b : Buffered) : Outcome Buffered :=
  let oldSize := b.size
  if b.isInternal = false then (pushBack c e b.ext).map fun s => { b with ext := s }
  else if oldSize < b.threshold then .ok { b with vec := b.vec ++ [e] }
  else (resize c (oldSize + 1) b.ext).bind fun s =>
    (copyOut c 0 b.vec s).bind fun s =>
    (Mmap.set c oldSize e s).map fun s => { b with ext := s, isInternal := false, vec := [] }

/-- `operator[]` on the left side, BufferedVector.h:55. -/
def Buffered.set (c : Cfg) (i : Nat) (e : List Nat) (b : Buffered) : Outcome Buffered :=
  if b.isInternal then if i < b.vec.length then .ok { b with vec := b.vec.set i e } else .ub
  else (Mmap.set c i e b.ext).map fun s => { b with ext := s }

/-- `at`, BufferedVector.h:61-64. -/
def Buffered.getAt (c : Cfg) (i : Nat) (b : Buffered) : Outcome (List Nat) :=
  if b.isInternal then if i < b.vec.length then Outcome.read b.vec i else .throw else Mmap.getAt c i b.ext

/-- The operations of a program on a buffered vector. -/
inductive BOp where
  | push (e : List Nat)
  | set (i : Nat) (e : List Nat)
  | clear

def Buffered.exec (c : Cfg) : BOp → Buffered → Outcome Buffered
  | .push e, b => b.push c e
  | .set i e, b => b.set c i e
  | .clear, b => .ok b.clear

def Buffered.run (c : Cfg) : List BOp → Buffered → Outcome Buffered
  | [], b => .ok b
  | op :: ops, b => (b.exec c op).bind (run c ops)

end Verif.Mmap
