import Verif.Model.Bytes
/-
Model of the per-relation meta data and of the meta data of a permutation:
src/index/MetaDataTypes.h, MetaDataTypes.cpp, MetaDataHandler.h, IndexMetaData.h, IndexMetaDataImpl.h.
`Id`, `size_t`, `uint64_t` and `off_t` are 8 bytes; an `off_t` is represented by its bit pattern.
A pointer into a buffer is represented by the rest of the buffer.
-/
namespace Verif.MetaData
open Verif.Bytes

/-! ### The packed word -/

/-- `IS_FUNCTIONAL_MASK` (MetaDataTypes.h:24). -/
def IS_FUNCTIONAL_MASK : Nat := 0x0100000000000000
/-- `HAS_BLOCKS_MASK` (MetaDataTypes.h:25). -/
def HAS_BLOCKS_MASK : Nat := 0x0200000000000000
/-- `NOF_ELEMENTS_MASK` (MetaDataTypes.h:26). -/
def NOF_ELEMENTS_MASK : Nat := 0x000000FFFFFFFFFF
/-- `MAX_NOF_ELEMENTS` (MetaDataTypes.h:27). -/
def MAX_NOF_ELEMENTS : Nat := NOF_ELEMENTS_MASK

/-- `~m` for a `uint64_t`. -/
def bnot (m : Nat) : Nat := 2 ^ 64 - 1 - m

/-- `FullRelationMetaData` (MetaDataTypes.h:39-103); `word` is `_typeMultAndNofElements`. -/
structure Full where
  relId : Nat
  start : Nat
  word : Nat
  deriving DecidableEq, Repr

/-- `isFunctional` (MetaDataTypes.cpp:44-46). -/
def Full.isFunctional (m : Full) : Bool := (m.word &&& IS_FUNCTIONAL_MASK) != 0

/-- `hasBlocks` (MetaDataTypes.cpp:49-51). -/
def Full.hasBlocks (m : Full) : Bool := (m.word &&& HAS_BLOCKS_MASK) != 0

/-- `getNofElements` (MetaDataTypes.cpp:54-56). -/
def Full.nofElements (m : Full) : Nat := m.word &&& NOF_ELEMENTS_MASK

/-- `setIsFunctional` (MetaDataTypes.cpp:59-65). -/
def Full.setIsFunctional (m : Full) (b : Bool) : Full :=
  if b then { m with word := m.word ||| IS_FUNCTIONAL_MASK }
  else { m with word := m.word &&& bnot IS_FUNCTIONAL_MASK }

/-- `setHasBlocks` (MetaDataTypes.cpp:68-74). -/
def Full.setHasBlocks (m : Full) (b : Bool) : Full :=
  if b then { m with word := m.word ||| HAS_BLOCKS_MASK }
  else { m with word := m.word &&& bnot HAS_BLOCKS_MASK }

/-- `setCol1LogMultiplicity` (MetaDataTypes.cpp:77-82); the argument is a `uint8_t`. -/
def Full.setCol1 (m : Full) (mult : Nat) : Full :=
  let w := m.word &&& 0xFF00FFFFFFFFFFFF
  { m with word := w ||| ((mult % 256) <<< 48) % 2 ^ 64 }

/-- `setCol2LogMultiplicity` (MetaDataTypes.cpp:85-90). -/
def Full.setCol2 (m : Full) (mult : Nat) : Full :=
  let w := m.word &&& 0xFFFF00FFFFFFFFFF
  { m with word := w ||| ((mult % 256) <<< 40) % 2 ^ 64 }

/-- `getCol1LogMultiplicity` (MetaDataTypes.cpp:93-95). -/
def Full.col1 (m : Full) : Nat := ((m.word &&& 0x00FF000000000000) >>> 48) % 256

/-- `getCol2LogMultiplicity` (MetaDataTypes.cpp:98-100). -/
def Full.col2 (m : Full) : Nat := ((m.word &&& 0x0000FF0000000000) >>> 40) % 256

/-- The constructor (MetaDataTypes.cpp:19-36).  Simplification: `l1`, `l2` are the integer parts of
`log2(col1Mult)`, `log2(col2Mult)` (floating point is not modelled). -/
def Full.mk' (relId start nof l1 l2 : Nat) (isFunctional hasBlocks : Bool) : Full :=
  let c1 := if l1 ≥ 255 then 255 else l1
  let c2 := if l2 ≥ 255 then 255 else l2
  ((((Full.mk relId start nof).setIsFunctional isFunctional).setHasBlocks hasBlocks).setCol1 c1).setCol2 c2

/-- `FullRelationMetaData::empty` (MetaDataTypes.cpp:12-13). -/
def Full.empty : Full := Full.mk' (2 ^ 64 - 1) (2 ^ 64 - 1) (2 ^ 64 - 1) 0 0 false false

/-- `getNofBytesForFulltextIndex` (MetaDataTypes.cpp:39-41). -/
def Full.nofBytes (m : Full) : Nat := m.nofElements * 2 * 8

/-- `getStartOfLhs` (MetaDataTypes.cpp:203-206). -/
def Full.startOfLhs (m : Full) : Outcome Nat :=
  if m.hasBlocks then .ok ((m.start + 2 * 8 * m.nofElements) % 2 ^ 64) else .throw

/-! ### Serialisation of one relation's meta data -/

/-- `*reinterpret_cast<uint64_t*>(buffer + off)`. -/
def rd64 (buf : List Nat) (off : Nat) : Outcome Nat := (peek buf off 8).map ofLE

/-- `operator<<` for `FullRelationMetaData` (MetaDataTypes.h:105-111). -/
def Full.write (m : Full) : List Nat := toLE 8 m.relId ++ toLE 8 m.start ++ toLE 8 m.word

/-- `FullRelationMetaData::createFromByteBuffer` (MetaDataTypes.cpp:172-179). -/
def Full.create (buf : List Nat) : Outcome Full :=
  (rd64 buf 0).bind fun relId =>
  (rd64 buf 8).bind fun start =>
  (rd64 buf (8 + 8)).bind fun word =>
  .ok ⟨relId, start, word⟩

/-- `FullRelationMetaData::bytesRequired` (MetaDataTypes.cpp:197-200). -/
def Full.bytesRequired (_ : Full) : Nat := 8 + 8 + 8

/-- `BlockMetaData` (MetaDataTypes.h:29-37). -/
structure Block where
  firstLhs : Nat
  startOffset : Nat
  deriving DecidableEq, Repr

/-- `BlockBasedRelationMetaData` (MetaDataTypes.h:113-147). -/
structure Blocks where
  startRhs : Nat
  offsetAfter : Nat
  blocks : List Block
  deriving DecidableEq, Repr

/-- The default-constructed `BlockBasedRelationMetaData` (MetaDataTypes.cpp:215-216). -/
def Blocks.default : Blocks := ⟨0, 0, []⟩

/-- The memory of a `vector<BlockMetaData>`: 16 bytes per element. -/
def blockBytes (bs : List Block) : List Nat := bs.flatMap fun b => toLE 8 b.firstLhs ++ toLE 8 b.startOffset

/-- Interpreting memory as `n` elements of type `BlockMetaData`. -/
def blocksOf : Nat → List Nat → List Block
  | 0, _ => []
  | n + 1, m => ⟨ofLE (m.take 8), ofLE ((m.drop 8).take 8)⟩ :: blocksOf n (m.drop 16)

/-- `operator<<` for `BlockBasedRelationMetaData` (MetaDataTypes.h:149-157). -/
def Blocks.write (m : Blocks) : List Nat :=
  toLE 8 m.startRhs ++ toLE 8 m.offsetAfter ++ toLE 8 m.blocks.length ++ blockBytes m.blocks

/-- `BlockBasedRelationMetaData::createFromByteBuffer` (MetaDataTypes.cpp:182-194). -/
def Blocks.create (buf : List Nat) : Outcome Blocks :=
  (rd64 buf 0).bind fun startRhs =>
  (rd64 buf 8).bind fun offsetAfter =>
  (rd64 buf (8 + 8)).bind fun nofBlocks =>
  (peek buf (8 + 8 + 8) (nofBlocks * 16)).bind fun mem =>
  .ok ⟨startRhs, offsetAfter, blocksOf nofBlocks mem⟩

/-- `BlockBasedRelationMetaData::bytesRequired` (MetaDataTypes.cpp:209-212). -/
def Blocks.bytesRequired (m : Blocks) : Nat := 8 + 8 + 8 + m.blocks.length * 16

/-! ### Maps from relation ids to meta data -/

/-- A hash map: its entries in iteration order. -/
abbrev Map (α : Type) := List (Nat × α)

/-- `find`. -/
def Map.get (m : Map α) (k : Nat) : Option α := (m.find? fun e => e.1 == k).map Prod.snd

/-- `m[k] = v`.  (The iteration order after an insertion is not specified by the library; the theorems below allow
any order when the map is written.) -/
def Map.set (m : Map α) (k : Nat) (v : α) : Map α := (k, v) :: m.filter fun e => e.1 != k

/-- The types `MapType` of `IndexMetaData`: `MetaDataWrapperHashMap` (MetaDataHandler.h:193-250) and
`MetaDataWrapperDense` over an mmapped vector (MetaDataHandler.h:94-190). -/
inductive Data where
  | sparse (m : Map Full)
  | dense (size : Nat) (vec : List Full)

/-- `_isMmapBased` (IndexMetaData.h:115-121). -/
def Data.isMmap : Data → Bool
  | .sparse _ => false
  | .dense _ _ => true

/-- `size` (MetaDataHandler.h:120, 210). -/
def Data.size : Data → Nat
  | .sparse m => m.length
  | .dense n _ => n

/-- `set` (MetaDataHandler.h:145-158, 228). -/
def Data.set (d : Data) (id : Nat) (v : Full) : Outcome Data :=
  match d with
  | .sparse m => .ok (.sparse (m.set id v))
  | .dense n vec =>
    if id ≥ vec.length then .throw
    else (Outcome.read vec id).bind fun old =>
      .ok (.dense (if old = Full.empty then n + 1 else n) (vec.set id v))

/-- `getAsserted` (MetaDataHandler.h:161-165, 231-235). -/
def Data.getAsserted (d : Data) (id : Nat) : Outcome Full :=
  match d with
  | .sparse m => match m.get id with
    | some v => .ok v
    | none => .throw
  | .dense _ vec => (Outcome.read vec id).bind fun v => if v = Full.empty then .throw else .ok v

/-- `count` (MetaDataHandler.h:175-178, 245-248), as used by `relationExists` (IndexMetaDataImpl.h:126-128). -/
def Data.exists (d : Data) (id : Nat) : Outcome Bool :=
  match d with
  | .sparse m => .ok (m.get id).isSome
  | .dense _ vec => (Outcome.read vec id).bind fun v => .ok (decide (v ≠ Full.empty))

/-- Iteration from `cbegin` to `cend` (the dense map skips empty entries, MetaDataHandler.h:57-62, 126-130). -/
def Data.entries : Data → List (Nat × Full)
  | .sparse m => m
  | .dense _ vec => (vec.zipIdx.filter fun e => decide (e.1 ≠ Full.empty)).map fun e => (e.2, e.1)

/-- `IndexMetaData` (IndexMetaData.h:77-185). -/
structure Index where
  data : Data
  blockData : Map Blocks
  offsetAfter : Nat
  name : List Nat
  totalElements : Nat
  totalBytes : Nat
  totalBlocks : Nat

/-- A default-constructed `IndexMetaData` after `setup`. -/
def Index.fresh (d : Data) : Index := ⟨d, [], 0, [], 0, 0, 0⟩

/-- The part of `add` (IndexMetaDataImpl.h:15-32) after `_data.set`, i.e. `add<true>`.
Simplification: offsets are compared as non-negative numbers. -/
def Index.addPersistent (s : Index) (rmd : Full) (b : Blocks) : Index :=
  let afterExpected := if rmd.hasBlocks then b.offsetAfter else (rmd.start + rmd.nofBytes) % 2 ^ 64
  { s with
    blockData := if rmd.hasBlocks then s.blockData.set rmd.relId b else s.blockData
    offsetAfter := if afterExpected > s.offsetAfter then afterExpected else s.offsetAfter }

/-- `add` (IndexMetaDataImpl.h:15-32). -/
def Index.add (s : Index) (rmd : Full) (b : Blocks) : Outcome Index :=
  (s.data.set rmd.relId rmd).bind fun d => .ok ({ s with data := d }.addPersistent rmd b)

/-- `getNofBlocksForRelation` (IndexMetaDataImpl.h:241-249). -/
def Index.nofBlocksOf (s : Index) (id : Nat) : Nat :=
  match s.blockData.get id with
  | some b => b.blocks.length
  | none => 0

/-- `getTotalBytesForRelation` (IndexMetaDataImpl.h:252-260). -/
def Index.totalBytesOf (s : Index) (m : Full) : Nat :=
  match s.blockData.get m.relId with
  | some b => (b.offsetAfter + 2 ^ 64 - m.start) % 2 ^ 64
  | none => m.nofBytes

/-- `calculateExpensiveStatistics` (IndexMetaDataImpl.h:269-280). -/
def Index.calcStats (s : Index) : Index :=
  { s with
    totalElements := (s.data.entries.map fun e => e.2.nofElements).sum % 2 ^ 64
    totalBytes := (s.data.entries.map fun e => s.totalBytesOf e.2).sum % 2 ^ 64
    totalBlocks := (s.data.entries.map fun e => s.nofBlocksOf e.1).sum % 2 ^ 64 }

/-- `getRmd` (IndexMetaDataImpl.h:114-122): the pair meta data and, for a relation with blocks, the block meta data
(dereferencing `end()` when there is none). -/
def Index.getRmd (s : Index) (id : Nat) : Outcome (Full × Option Blocks) :=
  (s.data.getAsserted id).bind fun full =>
  if full.hasBlocks then
    match s.blockData.get id with
    | some b => .ok (full, some b)
    | none => .ub
  else .ok (full, none)

/-! ### Serialisation of the meta data of a permutation -/

/-- Magic numbers (IndexMetaData.h:55-62). -/
def MAGIC_MMAP : Nat := 2 ^ 64 - 1
def MAGIC_SPARSE : Nat := 2 ^ 64 - 1 - 1
def MAGIC_MMAP_VERSION : Nat := 2 ^ 64 - 1 - 2
def MAGIC_SPARSE_VERSION : Nat := 2 ^ 64 - 1 - 3
/-- Versions (IndexMetaData.h:65-69). -/
def V_NO_VERSION : Nat := 0
def V_BLOCK_LIST_AND_STATISTICS : Nat := 1
def V_CURRENT : Nat := V_BLOCK_LIST_AND_STATISTICS

/-- One entry of the relation list of sparse meta data (IndexMetaDataImpl.h:151-160). -/
def writeEntry (blockData : Map Blocks) (m : Full) : Outcome (List Nat) :=
  if m.hasBlocks then
    match blockData.get m.relId with
    | some b => .ok (m.write ++ b.write)
    | none => .throw
  else .ok m.write

/-- The relation list of sparse meta data (IndexMetaDataImpl.h:150-161). -/
def writeEntries (blockData : Map Blocks) : List (Nat × Full) → Outcome (List Nat)
  | [] => .ok []
  | e :: es => (writeEntry blockData e.2).bind fun b => (writeEntries blockData es).map (b ++ ·)

/-- `operator<<` for `IndexMetaData` (IndexMetaDataImpl.h:131-174). -/
def Index.write (s : Index) : Outcome (List Nat) :=
  let header := toLE 8 (if s.data.isMmap then MAGIC_MMAP_VERSION else MAGIC_SPARSE_VERSION) ++ toLE 8 V_CURRENT ++
    toLE 8 s.name.length ++ s.name ++ toLE 8 s.data.size ++ toLE 8 s.offsetAfter
  let stats := toLE 8 s.totalElements ++ toLE 8 s.totalBytes ++ toLE 8 s.totalBlocks
  match s.data with
  | .sparse m => (writeEntries s.blockData m).map fun b => header ++ b ++ stats
  | .dense _ _ => .ok (header ++ (toLE 8 s.blockData.length ++
      s.blockData.flatMap fun e => toLE 8 e.1 ++ e.2.write) ++ stats)

/-- The distinction by magic number in `parseMagicNumberAndVersioning` (IndexMetaDataImpl.h:288-323): whether a
version follows and the number of bytes used. -/
def parseMagicKind (mmap : Bool) (magic : Nat) : Outcome (Bool × Nat) :=
  if !mmap then
    if magic = MAGIC_MMAP ∨ magic = MAGIC_MMAP_VERSION then .throw
    else if magic = MAGIC_SPARSE then .ok (false, 8)
    else if magic = MAGIC_SPARSE_VERSION then .ok (true, 8)
    else .ok (false, 0)
  else
    if magic = MAGIC_MMAP then .ok (false, 8)
    else if magic = MAGIC_MMAP_VERSION then .ok (true, 8)
    else .throw

/-- `parseMagicNumberAndVersioning` (IndexMetaDataImpl.h:284-346): version and number of bytes used. -/
def parseMagic (mmap : Bool) (buf : List Nat) : Outcome (Nat × Nat) :=
  (rd64 buf 0).bind fun magic =>
  (parseMagicKind mmap magic).bind fun k =>
  if !k.1 then .ok (V_NO_VERSION, k.2)
  else (rd64 buf k.2).bind fun v => if v > V_CURRENT then .throw else .ok (v, k.2 + 8)

/-- The loop over the relation list of sparse meta data (IndexMetaDataImpl.h:64-76); returns also the rest of the
buffer. -/
def readEntries : Nat → Index → List Nat → Outcome (Index × List Nat)
  | 0, s, buf => .ok (s, buf)
  | n + 1, s, buf =>
    (Full.create buf).bind fun rmd =>
    let buf := buf.drop rmd.bytesRequired
    if rmd.hasBlocks then
      (Blocks.create buf).bind fun b =>
      let buf := buf.drop b.bytesRequired
      (s.add rmd b).bind fun s => readEntries n s buf
    else (s.add rmd Blocks.default).bind fun s => readEntries n s buf

/-- The loop over the block data of mmap-based meta data (IndexMetaDataImpl.h:98-107). -/
def readBlockData : Nat → Index → List Nat → Outcome (Index × List Nat)
  | 0, s, buf => .ok (s, buf)
  | n + 1, s, buf =>
    (rd64 buf 0).bind fun id =>
    let buf := buf.drop 8
    (Blocks.create buf).bind fun b =>
    let buf := buf.drop b.bytesRequired
    (s.data.getAsserted id).bind fun rmd => readBlockData n (s.addPersistent rmd b) buf

/-- The loop over all relations of old mmap-based meta data (IndexMetaDataImpl.h:80-93). -/
def readBlockDataOld : List (Nat × Full) → Index → List Nat → Outcome (Index × List Nat)
  | [], s, buf => .ok (s, buf)
  | e :: es, s, buf =>
    if e.2.hasBlocks then
      (Blocks.create buf).bind fun b => readBlockDataOld es (s.addPersistent e.2 b) (buf.drop b.bytesRequired)
    else readBlockDataOld es (s.addPersistent e.2 Blocks.default) buf

/-- The relation part of `createFromByteBuffer` (IndexMetaDataImpl.h:55-107). -/
def readRelations (vec : Option (List Full)) (version nofRelations : Nat) (name : List Nat) (offsetAfter : Nat)
    (buf : List Nat) : Outcome (Index × List Nat) :=
  match vec with
  | none => readEntries nofRelations { Index.fresh (.sparse []) with name := name, offsetAfter := offsetAfter } buf
  | some vec =>
    let s := { Index.fresh (.dense nofRelations vec) with name := name, offsetAfter := offsetAfter }
    if version < V_BLOCK_LIST_AND_STATISTICS then
      (readBlockDataOld s.data.entries s buf).bind fun p => .ok (p.1.calcStats, p.2)
    else
      (rd64 buf 0).bind fun numBlockData => readBlockData numBlockData s (buf.drop 8)

/-- `createFromByteBuffer` (IndexMetaDataImpl.h:43-112) on a fresh object; for mmap-based meta data `vec` is the
content of the mmapped vector. -/
def Index.create (vec : Option (List Full)) (buf : List Nat) : Outcome Index :=
  (parseMagic vec.isSome buf).bind fun v =>
  let buf := buf.drop v.2
  (rd64 buf 0).bind fun nameLength =>
  let buf := buf.drop 8
  (peek buf 0 nameLength).bind fun name =>
  let buf := buf.drop nameLength
  (rd64 buf 0).bind fun nofRelations =>
  let buf := buf.drop 8
  (rd64 buf 0).bind fun offsetAfter =>
  let buf := buf.drop 8
  (readRelations vec v.1 nofRelations name offsetAfter buf).bind fun p =>
  let s := p.1
  let buf := p.2
  if v.1 ≥ V_BLOCK_LIST_AND_STATISTICS then
    (rd64 buf 0).bind fun e =>
    let buf := buf.drop 8
    (rd64 buf 0).bind fun b =>
    let buf := buf.drop 8
    (rd64 buf 0).bind fun k =>
    .ok { s with totalElements := e, totalBytes := b, totalBlocks := k }
  else .ok s.calcStats

/-- `appendToFile` (IndexMetaDataImpl.h:186-193). -/
def Index.appendToFile (s : Index) (file : List Nat) : Outcome (List Nat) :=
  (s.write).map fun b => file ++ b ++ toLE 8 file.length

/-- The bytes between the offset stored in the last 8 bytes of the file and those 8 bytes
(`File::getLastOffset`, File.h:245-252, and the read in IndexMetaDataImpl.h:206-211, Index.Text.cpp:75-79). -/
def metaPart (file : List Nat) : Outcome (List Nat) :=
  if file.length < 8 then .ub
  else
    let metaTo := file.length - 8
    let metaFrom := ofLE (pread file metaTo 8)
    if metaTo < metaFrom then .ub else .ok (pread file metaFrom (metaTo - metaFrom))

/-- `readFromFile` (IndexMetaDataImpl.h:205-213). -/
def Index.readFromFile (vec : Option (List Full)) (file : List Nat) : Outcome Index :=
  (metaPart file).bind (Index.create vec)

end Verif.MetaData
