import Verif.Model.MetaData
import Verif.Model.Filter
/-
Model of the meta data of the text index: src/index/TextMetaData.h and TextMetaData.cpp.
-/
namespace Verif.TextMetaData
open Verif.Bytes Verif.MetaData

/-- `ContextListMetaData` (TextMetaData.h:14-49); `off_t` as bit pattern. -/
structure CtxList where
  nofElements : Nat
  startContextlist : Nat
  startWordlist : Nat
  startScorelist : Nat
  lastByte : Nat
  deriving DecidableEq, Repr

/-- `operator<<` (TextMetaData.cpp:163-171). -/
def CtxList.write (m : CtxList) : List Nat :=
  toLE 8 m.nofElements ++ toLE 8 m.startContextlist ++ toLE 8 m.startWordlist ++ toLE 8 m.startScorelist ++
    toLE 8 m.lastByte

/-- `ContextListMetaData::createFromByteBuffer` (TextMetaData.cpp:174-187). -/
def CtxList.create (buf : List Nat) : Outcome CtxList :=
  (rd64 buf 0).bind fun n =>
  (rd64 buf 8).bind fun c =>
  (rd64 buf (8 + 8)).bind fun w =>
  (rd64 buf (8 + (8 + 8))).bind fun s =>
  (rd64 buf (8 + (8 + (8 + 8)))).bind fun l =>
  .ok ⟨n, c, w, s, l⟩

/-- `ContextListMetaData::sizeOnDisk` (TextMetaData.h:43-45). -/
def CtxList.sizeOnDisk : Nat := 8 + 4 * 8

/-- `TextBlockMetaData` (TextMetaData.h:54-81). -/
structure TBlock where
  firstWordId : Nat
  lastWordId : Nat
  cl : CtxList
  entityCl : CtxList
  deriving DecidableEq, Repr

/-- `operator<<` (TextMetaData.cpp:141-146). -/
def TBlock.write (m : TBlock) : List Nat :=
  toLE 8 m.firstWordId ++ toLE 8 m.lastWordId ++ m.cl.write ++ m.entityCl.write

/-- `TextBlockMetaData::createFromByteBuffer` (TextMetaData.cpp:149-160). -/
def TBlock.create (buf : List Nat) : Outcome TBlock :=
  (rd64 buf 0).bind fun f =>
  (rd64 buf 8).bind fun l =>
  (CtxList.create (buf.drop (8 + 8))).bind fun cl =>
  (CtxList.create (buf.drop (8 + 8 + CtxList.sizeOnDisk))).bind fun ecl =>
  .ok ⟨f, l, cl, ecl⟩

/-- `TextBlockMetaData::sizeOnDisk` (TextMetaData.h:71-73). -/
def TBlock.sizeOnDisk : Nat := 2 * 8 + 2 * CtxList.sizeOnDisk

/-- `TextMetaData` (TextMetaData.h:85-151). -/
structure TextMeta where
  wordBounds : List Nat
  entityBounds : List Nat
  nofEntities : Nat
  nofEntityContexts : Nat
  nofTextRecords : Nat
  nofWordPostings : Nat
  nofEntityPostings : Nat
  name : List Nat
  blocks : List TBlock
  deriving DecidableEq, Repr

def TextMeta.fresh : TextMeta := ⟨[], [], 0, 0, 0, 0, 0, [], []⟩

/-- `addBlock` (TextMetaData.cpp:259-262). -/
def TextMeta.addBlock (m : TextMeta) (b : TBlock) : TextMeta :=
  { m with blocks := m.blocks ++ [b], wordBounds := m.wordBounds ++ [b.lastWordId] }

/-- `getOffsetAfter` (TextMetaData.cpp:265-267). -/
def TextMeta.getOffsetAfter (m : TextMeta) : Outcome Nat :=
  match m.blocks.getLast? with
  | some b => .ok ((b.entityCl.lastByte + 1) % 2 ^ 64)
  | none => .ub

/-- `operator<<` (TextMetaData.cpp:84-99). -/
def TextMeta.write (m : TextMeta) : List Nat :=
  toLE 8 m.blocks.length ++ m.blocks.flatMap TBlock.write ++ toLE 8 m.nofEntities ++ toLE 8 m.nofEntityContexts ++
    toLE 8 m.nofTextRecords ++ toLE 8 m.nofWordPostings ++ toLE 8 m.nofEntityPostings ++ toLE 8 m.name.length ++ m.name

/-- The body of the loop in `createFromByteBuffer` (TextMetaData.cpp:107-121) after the block has been read; the
state is the object and `stepEntity`.  Simplification: `_lastWordId + 1` does not wrap. -/
def classify (st : TextMeta × Bool) (b : TBlock) : TextMeta × Bool :=
  let m := st.1
  if !st.2 then
    if m.blocks.isEmpty || m.blocks.getLast?.any (fun l => l.lastWordId + 1 == b.firstWordId) then
      ({ m with wordBounds := m.wordBounds ++ [b.lastWordId], blocks := m.blocks ++ [b] }, false)
    else ({ m with entityBounds := m.entityBounds ++ [b.lastWordId], blocks := m.blocks ++ [b] }, true)
  else ({ m with entityBounds := m.entityBounds ++ [b.lastWordId], blocks := m.blocks ++ [b] }, true)

/-- The loop (TextMetaData.cpp:106-122). -/
def readBlocks : Nat → TextMeta × Bool → List Nat → Outcome ((TextMeta × Bool) × List Nat)
  | 0, st, buf => .ok (st, buf)
  | n + 1, st, buf =>
    (TBlock.create buf).bind fun b => readBlocks n (classify st b) (buf.drop TBlock.sizeOnDisk)

/-- `TextMetaData::createFromByteBuffer` (TextMetaData.cpp:102-138) on a fresh object. -/
def TextMeta.create (buf : List Nat) : Outcome TextMeta :=
  (rd64 buf 0).bind fun nofBlocks =>
  (readBlocks nofBlocks (TextMeta.fresh, false) (buf.drop 8)).bind fun p =>
  let m := p.1.1
  let buf := p.2
  (rd64 buf 0).bind fun a =>
  (rd64 buf 8).bind fun b =>
  (rd64 buf (8 + 8)).bind fun c =>
  (rd64 buf (8 + (8 + 8))).bind fun d =>
  (rd64 buf (8 + (8 + (8 + 8)))).bind fun e =>
  (rd64 buf (8 + (8 + (8 + (8 + 8))))).bind fun n =>
  (peek buf (8 + (8 + (8 + (8 + (8 + 8))))) n).bind fun name =>
  .ok { m with nofEntities := a, nofEntityContexts := b, nofTextRecords := c, nofWordPostings := d,
               nofEntityPostings := e, name := name }

/-- The end of `createTextIndex` (Index.Text.cpp:300-304): meta data and trailer after the posting lists. -/
def TextMeta.appendToFile (m : TextMeta) (postings : List Nat) : Outcome (List Nat) :=
  m.getOffsetAfter.map fun off => postings ++ m.write ++ toLE 8 off

/-- The beginning of `addTextFromOnDiskIndex` (Index.Text.cpp:74-80). -/
def TextMeta.readFromFile (file : List Nat) : Outcome TextMeta := (metaPart file).bind TextMeta.create

/-- `std::lower_bound` in a vector of ids. -/
def lowerBound (l : List Nat) (v : Nat) : Outcome Nat := Filter.partitionPoint (fun x => decide (x < v)) l

/-- `getBlockInfoByWordRange` (TextMetaData.cpp:10-44). -/
def TextMeta.blockByWordRange (m : TextMeta) (lower upper : Nat) : Outcome TBlock :=
  if ¬ upper ≥ lower then .throw
  else (lowerBound m.wordBounds lower).bind fun it =>
    if it = m.wordBounds.length ∧ it = 0 then .ub
    else
      let it := if it = m.wordBounds.length then it - 1 else it
      (Outcome.read m.wordBounds it).bind fun bound =>
      if upper > bound then .throw else Outcome.read m.blocks it

/-- `existsTextBlockForEntityId` (TextMetaData.cpp:47-57): the iterator is dereferenced without a check. -/
def TextMeta.existsEntityBlock (m : TextMeta) (eid : Nat) : Outcome Bool :=
  (lowerBound m.entityBounds eid).bind fun it =>
  (Outcome.read m.entityBounds it).bind fun b => .ok (b == eid)

/-- `getBlockInfoByEntityId` (TextMetaData.cpp:60-78). -/
def TextMeta.blockByEntityId (m : TextMeta) (eid : Nat) : Outcome TBlock :=
  (lowerBound m.entityBounds eid).bind fun it => Outcome.read m.blocks (it + m.wordBounds.length)

end Verif.TextMetaData
