import Verif.Model.MetaData
import Verif.Model.Filter
/-
Model of the six on-disk permutations of the triples and of the scans on them:
src/index/Index.cpp (writeSwitchedRel, createPermutationPairImpl, createPermutations, createPermutationPair,
exchangeMultiplicities, writeRel, writeFunctionalRelation, writeNonFunctionalRelation, scanFunctionalRelation,
scanNonFunctionalRelation), Index.h (scan), Index.Text.cpp (getRhsForSingleLhs), MetaDataTypes.cpp (block lookup),
Permutations.h, StxxlSortFunctors.h.
A file is the list of its bytes; output files are only appended to.
-/
namespace Verif.Permutation
open Verif.Bytes Verif.MetaData

/-- A pair of ids `array<Id, 2>`. -/
abbrev Pair := Nat × Nat

/-- `DISTINCT_LHS_PER_BLOCK` (/repo/src/global/Constants.h:32). -/
def DISTINCT_LHS_PER_BLOCK : Nat := 10 * 1000
/-- `USE_BLOCKS_INDEX_SIZE_TRESHOLD` (Constants.h:33). -/
def USE_BLOCKS_INDEX_SIZE_TRESHOLD : Nat := 20 * 1000
/-- `std::numeric_limits<Id>::max()`. -/
def MAX_ID : Nat := 2 ^ 64 - 1

/-! ### Bytes of arrays of pairs -/

/-- The memory of an array of pairs of 8-byte integers (`array<Id, 2>`, `pair<Id, off_t>`). -/
def pairBytes (l : List Pair) : List Nat := l.flatMap fun p => toLE 8 p.1 ++ toLE 8 p.2

/-- Interpreting memory as `n` pairs of 8-byte integers. -/
def toPairs : Nat → List Nat → List Pair
  | 0, _ => []
  | n + 1, m => (ofLE (m.take 8), ofLE ((m.drop 8).take 8)) :: toPairs n (m.drop 16)

/-- `File::read(target, n, offset)` (/repo/src/util/File.h:196-218): repeats `pread` until all bytes have been read,
so it does not terminate beyond the end of the file. -/
def fileRead (file : List Nat) (off n : Nat) : Outcome (List Nat) :=
  if n = 0 then .ok [] else if off + n ≤ file.length then .ok ((file.drop off).take n) else .diverge

/-! ### Writing a relation -/

/-- The loop of `writeNonFunctionalRelation` filling `bufLhs` (Index.cpp:943-951), from row `i` on. -/
def lhsList : List Pair → Nat → Nat → List Pair
  | [], _, _ => []
  | d :: ds, i, lastLhs =>
    if d.1 ≠ lastLhs then (d.1, i * 8) :: lhsList ds (i + 1) d.1 else lhsList ds (i + 1) lastLhs

/-- The loop creating the block list of a non-functional relation (Index.cpp:971-979). -/
def makeBlocks (startOfLhs : Nat) (bufLhs : List Pair) : List Block :=
  bufLhs.zipIdx.filterMap fun e =>
    if e.2 % DISTINCT_LHS_PER_BLOCK = 0 then some ⟨e.1.1, (startOfLhs + e.2 * 16) % 2 ^ 64⟩ else none

/-- `writeNonFunctionalRelation` (Index.cpp:930-983): the bytes written and the block meta data. -/
def writeNonFunctionalRelation (data : List Pair) (rmd : Full) (b : Blocks) : Outcome (List Nat × Blocks) :=
  if rmd.hasBlocks then
    let bufLhs := lhsList data 0 MAX_ID
    let bufRhs := data.map Prod.snd
    rmd.startOfLhs.bind fun startOfLhs =>
    let startRhs := (startOfLhs + bufLhs.length * (8 + 8)) % 2 ^ 64
    let bufLhs := bufLhs.map fun e => (e.1, (e.2 + startRhs) % 2 ^ 64)
    .ok (pairBytes bufLhs ++ ofArr 8 bufRhs,
      { startRhs := startRhs, offsetAfter := (startRhs + rmd.nofElements * 8) % 2 ^ 64,
        blocks := b.blocks ++ makeBlocks startOfLhs bufLhs })
  else .ok ([], b)

/-- The loop creating the block list of a functional relation (Index.cpp:915-925); `lastLhs` is never updated
there. -/
def functionalBlocks (start : Nat) : List Pair → Nat → Nat → List Block
  | [], _, _ => []
  | d :: ds, i, nofDistinctLhs =>
    if d.1 ≠ MAX_ID then
      if nofDistinctLhs % DISTINCT_LHS_PER_BLOCK = 0 then
        ⟨d.1, (start + i * 2 * 8) % 2 ^ 64⟩ :: functionalBlocks start ds (i + 1) (nofDistinctLhs + 1)
      else functionalBlocks start ds (i + 1) (nofDistinctLhs + 1)
    else functionalBlocks start ds (i + 1) nofDistinctLhs

/-- `writeFunctionalRelation` (Index.cpp:901-927). -/
def writeFunctionalRelation (data : List Pair) (rmd : Full) (b : Blocks) : Blocks :=
  if rmd.hasBlocks then
    let startRhs := (rmd.start + rmd.nofBytes) % 2 ^ 64
    ⟨startRhs, startRhs, b.blocks ++ functionalBlocks rmd.start data 0 0⟩
  else b

/-- `writeRel` (Index.cpp:871-898): the file afterwards and the meta data.  Simplification: `lg size distinct` is the
integer part of `log2(size / double(distinct))`, any function; that of the dummy `42.42` is 5. -/
def writeRel (lg : Nat → Nat → Nat) (out : List Nat) (currentOffset relId : Nat) (data : List Pair) (distinctC1 : Nat)
    (functional : Bool) : Outcome (List Nat × Full × Blocks) :=
  if data.length > 0 then
    let multC1 := if functional then 0 else lg data.length distinctC1
    let rmd := Full.mk' relId currentOffset data.length multC1 5 functional
      (!functional && decide (data.length > USE_BLOCKS_INDEX_SIZE_TRESHOLD))
    let out := out ++ pairBytes data
    if functional then .ok (out, rmd, writeFunctionalRelation data rmd Blocks.default)
    else (writeNonFunctionalRelation data rmd Blocks.default).bind fun r => .ok (out ++ r.1, rmd, r.2)
  else .throw

/-- The comparison in `writeSwitchedRel` (Index.cpp:336-338). -/
def pairLt (a b : Pair) : Bool := if a.1 == b.1 then decide (a.2 < b.2) else decide (a.1 < b.1)

/-- `std::sort` / `stxxl::sort` with a comparison that is a total order: there is only one sorted permutation. -/
def sortBy (lt : α → α → Bool) (l : List α) : List α := l.mergeSort fun a b => !lt b a

/-- The loop computing `functional` and `distinctC1` in `writeSwitchedRel` (Index.cpp:340-350). -/
def countLhs : List Pair → Nat → Bool → Nat → Bool × Nat
  | [], _, functional, distinctC1 => (functional, distinctC1)
  | el :: els, lastLhs, functional, distinctC1 =>
    if el.1 == lastLhs then countLhs els el.1 false distinctC1 else countLhs els el.1 functional (distinctC1 + 1)

/-- `writeSwitchedRel` (Index.cpp:327-353). -/
def writeSwitchedRel (lg : Nat → Nat → Nat) (out : List Nat) (lastOffset currentRel : Nat) (buffer : List Pair) :
    Outcome (List Nat × Full × Blocks) :=
  let buffer := sortBy pairLt (buffer.map fun el => (el.2, el.1))
  let c := countLhs buffer MAX_ID true 0
  writeRel lg out lastOffset currentRel buffer c.2 c.1

/-! ### Building a pair of permutations -/

/-- A triple `array<Id, 3>`: subject, predicate, object. -/
structure Triple where
  s : Nat
  p : Nat
  o : Nat
  deriving DecidableEq, Repr

/-- `t[i]`. -/
def Triple.at (t : Triple) : Fin 3 → Nat
  | 0 => t.s
  | 1 => t.p
  | 2 => t.o

/-- The state of the loop in `createPermutationPairImpl`. -/
structure PairState where
  out1 : List Nat
  out2 : List Nat
  meta1 : Index
  meta2 : Index
  lastOffset1 : Nat
  lastOffset2 : Nat
  currentRel : Nat
  buffer : List Pair
  functional : Bool
  distinctC1 : Nat
  lastLhs : Nat

/-- Writing the finished relation to both files (Index.cpp:395-399 and 418-424). -/
def PairState.flush (lg : Nat → Nat → Nat) (st : PairState) : Outcome PairState :=
  (writeRel lg st.out1 st.lastOffset1 st.currentRel st.buffer st.distinctC1 st.functional).bind fun r =>
  (st.meta1.add r.2.1 r.2.2).bind fun meta1 =>
  (writeSwitchedRel lg st.out2 st.lastOffset2 st.currentRel st.buffer).bind fun r2 =>
  (st.meta2.add r2.2.1 r2.2.2).bind fun meta2 =>
  .ok { st with out1 := r.1, meta1 := meta1, out2 := r2.1, meta2 := meta2 }

/-- Appending a triple to the buffer (Index.cpp:414-415). -/
def PairState.push (st : PairState) (c1 c2 : Fin 3) (t : Triple) : PairState :=
  { st with buffer := st.buffer ++ [(t.at c1, t.at c2)], lastLhs := t.at c1 }

/-- The body of the loop (Index.cpp:393-416).  (`sizeOfRelation` is not used.) -/
def PairState.step (lg : Nat → Nat → Nat) (c0 c1 c2 : Fin 3) (st : PairState) (t : Triple) : Outcome PairState :=
  if t.at c0 ≠ st.currentRel then
    (st.flush lg).bind fun st =>
    .ok ({ st with buffer := [], distinctC1 := 1, lastOffset1 := st.meta1.offsetAfter, lastOffset2 := st.meta2.offsetAfter,
                   currentRel := t.at c0, functional := true }.push c1 c2 t)
  else
    .ok ((if t.at c1 = st.lastLhs then { st with functional := false } else { st with distinctC1 := st.distinctC1 + 1 }).push
      c1 c2 t)

/-- The loop over all triples. -/
def PairState.run (lg : Nat → Nat → Nat) (c0 c1 c2 : Fin 3) (st : PairState) : List Triple → Outcome PairState
  | [] => .ok st
  | t :: ts => (st.step lg c0 c1 c2 t).bind fun st => st.run lg c0 c1 c2 ts

/-- A permutation: the bytes of its file and its meta data. -/
structure Perm where
  file : List Nat
  md : Index

/-- Meta data for the hash map dispatcher and, with the size of the vocabulary, for the mmap dispatcher
(Index.cpp:363-370). -/
def freshMeta : Option Nat → Index
  | none => Index.fresh (.sparse [])
  | some n => Index.fresh (.dense 0 (List.replicate n Full.empty))

/-- `createPermutationPairImpl` (Index.cpp:356-440); nothing is written for an empty vector. -/
def createPermutationPairImpl (lg : Nat → Nat → Nat) (vocabSize : Option Nat) (vec : List Triple) (c0 c1 c2 : Fin 3) :
    Outcome (Option (Perm × Perm)) :=
  match vec with
  | [] => .ok none
  | t :: _ =>
    (PairState.run lg c0 c1 c2 ⟨[], [], freshMeta vocabSize, freshMeta vocabSize, 0, 0, t.at c0, [], true, 1, MAX_ID⟩ vec).bind fun st =>
    (st.flush lg).bind fun st =>
    .ok (some (⟨st.out1, st.meta1.calcStats⟩, ⟨st.out2, st.meta2.calcStats⟩))

/-- `operator[]` of the meta data maps followed by an update in place (MetaDataHandler.h:168-172, 238-242). -/
def modify (d : Data) (id : Nat) (f : Full → Full) : Outcome Data :=
  match d with
  | .sparse m => match m.get id with
    | some _ => .ok (.sparse (m.map fun e => if e.1 = id then (e.1, f e.2) else e))
    | none => .throw
  | .dense n vec => (Outcome.read vec id).bind fun v => if v = Full.empty then .throw else .ok (.dense n (vec.set id (f v)))

/-- The loop of `exchangeMultiplicities` (Index.cpp:509-521) over the keys of the first map. -/
def exchangeLoop : List Nat → Data → Data → Outcome (Data × Data)
  | [], d1, d2 => .ok (d1, d2)
  | k :: ks, d1, d2 =>
    (d1.getAsserted k).bind fun r1 =>
    (modify d2 k fun r => r.setCol2 r1.col1).bind fun d2 =>
    (d2.getAsserted k).bind fun r2 =>
    (modify d1 k fun r => r.setCol2 r2.col1).bind fun d1 =>
    exchangeLoop ks d1 d2

/-- `exchangeMultiplicities` (Index.cpp:507-522). -/
def exchangeMultiplicities (m1 m2 : Index) : Outcome (Index × Index) :=
  (exchangeLoop (m1.data.entries.map Prod.fst) m1.data m2.data).bind fun d =>
  .ok ({ m1 with data := d.1 }, { m2 with data := d.2 })

/-- `std::unique` followed by `resize`. -/
def unique : List Triple → List Triple
  | [] => []
  | [a] => [a]
  | a :: b :: l => if a = b then unique (b :: l) else a :: unique (b :: l)

/-- `SortByPSO` (StxxlSortFunctors.h:13-22). -/
def sortByPSO (a b : Triple) : Bool :=
  if a.p == b.p then (if a.s == b.s then decide (a.o < b.o) else decide (a.s < b.s)) else decide (a.p < b.p)
/-- `SortBySPO` (StxxlSortFunctors.h:59-68). -/
def sortBySPO (a b : Triple) : Bool :=
  if a.s == b.s then (if a.p == b.p then decide (a.o < b.o) else decide (a.p < b.p)) else decide (a.s < b.s)
/-- `SortByOSP` (StxxlSortFunctors.h:105-114). -/
def sortByOSP (a b : Triple) : Bool :=
  if a.o == b.o then (if a.s == b.s then decide (a.p < b.p) else decide (a.s < b.s)) else decide (a.o < b.o)

/-- The sorting part of `createPermutations` (Index.cpp:452-467): the triple vector afterwards. -/
def sortTriples (vec : List Triple) (comp : Triple → Triple → Bool) (performUnique : Bool) : List Triple :=
  let vec := sortBy comp vec
  if performUnique then unique vec else vec

/-- The rest of `createPermutations` and `createPermutationPair` (Index.cpp:469-504) up to writing the meta data. -/
def createPermutationPair (lg : Nat → Nat → Nat) (vocabSize : Option Nat) (vec : List Triple) (c0 c1 c2 : Fin 3) :
    Outcome (Option (Perm × Perm)) :=
  (createPermutationPairImpl lg vocabSize vec c0 c1 c2).bind fun r =>
  match r with
  | none => .ok none
  | some (p1, p2) =>
    (exchangeMultiplicities p1.md p2.md).bind fun m =>
    .ok (some (⟨p1.file, m.1⟩, ⟨p2.file, m.2⟩))

/-- The six permutations. -/
inductive Name where | pso | pos | spo | sop | osp | ops
  deriving DecidableEq, Repr

/-- The members `_PSO`, `_POS`, ... of the index (Index.h:98-115). -/
def pick (a b c : Perm × Perm) : Name → Perm
  | .pso => a.1
  | .pos => a.2
  | .spo => b.1
  | .sop => b.2
  | .osp => c.1
  | .ops => c.2

/-- The pairs of permutations created by `createFromFile` (Index.cpp:88-94): PSO and POS, SPO and SOP, OSP and OPS, with the
key orders of Index.h:98-115.  The triple vector is sorted again for each pair. -/
def createIndex (lg : Nat → Nat → Nat) (vocabSize : Nat) (triples : List Triple) :
    Outcome (Option (Name → Perm)) :=
  let vec := sortTriples triples sortByPSO true
  (createPermutationPair lg none vec 1 0 2).bind fun a =>
  let vec := sortTriples vec sortBySPO false
  (createPermutationPair lg (some vocabSize) vec 0 1 2).bind fun b =>
  let vec := sortTriples vec sortByOSP false
  (createPermutationPair lg (some vocabSize) vec 2 0 1).bind fun c =>
  match a, b, c with
  | some a, some b, some c => .ok (some (pick a b c))
  | _, _, _ => .ok none

/-! ### Scans -/

/-- `scan(key)` (Index.h:376-386): all pairs for a first key. -/
def scan (p : Perm) (key : Nat) : Outcome (List Pair) :=
  (p.md.data.exists key).bind fun ex =>
  if ex then
    (p.md.getRmd key).bind fun rmd =>
    (fileRead p.file rmd.1.start (rmd.1.nofElements * 2 * 8)).bind fun bytes =>
    .ok (toPairs rmd.1.nofElements bytes)
  else .ok []

/-- The common part of the block lookups (MetaDataTypes.cpp:105-124 and 138-155): either the position of the block or an early
result. -/
def findBlock (b : Blocks) (lhs : Nat) : Outcome (Nat ⊕ (Nat × Nat)) :=
  (Filter.partitionPoint (fun x : Block => decide (x.firstLhs < lhs)) b.blocks).bind fun it =>
  let back : Outcome (Nat ⊕ (Nat × Nat)) :=
    if it = 0 then (Outcome.read b.blocks it).bind fun x => .ok (.inr (x.startOffset, 0)) else .ok (.inl (it - 1))
  if it = b.blocks.length then back
  else (Outcome.read b.blocks it).bind fun x => if x.firstLhs > lhs then back else .ok (.inl it)

/-- The range of a block (MetaDataTypes.cpp:126-133 and 160-168). -/
def blockRange (b : Blocks) (it : Nat) : Outcome (Nat × Nat) :=
  (if it + 1 ≠ b.blocks.length then (Outcome.read b.blocks (it + 1)).bind fun x => .ok x.startOffset else .ok b.startRhs).bind fun after =>
  (Outcome.read b.blocks it).bind fun x =>
  .ok (x.startOffset, (after + 2 ^ 64 - x.startOffset) % 2 ^ 64)

/-- `getBlockStartAndNofBytesForLhs` (MetaDataTypes.cpp:103-133). -/
def blockFor (b : Blocks) (lhs : Nat) : Outcome (Nat × Nat) :=
  (findBlock b lhs).bind fun r =>
  match r with
  | .inl it => blockRange b it
  | .inr x => .ok x

/-- `getFollowBlockForLhs` (MetaDataTypes.cpp:136-169). -/
def followBlockFor (b : Blocks) (lhs : Nat) : Outcome (Nat × Nat) :=
  (findBlock b lhs).bind fun r =>
  match r with
  | .inl it => blockRange b (if it + 1 ≠ b.blocks.length then it + 1 else it)
  | .inr x => .ok x

/-- Reading a block of pairs: the vector is resized to the number of whole pairs, more bytes would overflow it. -/
def readPairs (file : List Nat) (off size : Nat) : Outcome (List Pair) :=
  if size % 16 ≠ 0 then .ub else (fileRead file off size).bind fun bytes => .ok (toPairs (size / 16) bytes)

/-- `scanFunctionalRelation` (Index.cpp:1136-1156). -/
def scanFunctionalRelation (file : List Nat) (blockOff : Nat × Nat) (lhsId : Nat) : Outcome (List Nat) :=
  if blockOff.2 = 0 then .ok []
  else
    (readPairs file blockOff.1 blockOff.2).bind fun block =>
    (Filter.partitionPoint (fun e : Pair => decide (e.1 < lhsId)) block).bind fun it =>
    (Outcome.read block it).bind fun e =>
    if e.1 = lhsId then .ok [e.2] else .ok []

/-- The number of bytes of the right hand sides (Index.cpp:1178-1192). -/
def rhsBytes (file : List Nat) (blockOff followBlock : Nat × Nat) (upperBound : Nat) (block : List Pair) (it : Nat) (e : Pair) :
    Outcome Nat :=
  if it + 1 ≠ block.length then (Outcome.read block (it + 1)).bind fun n => .ok ((n.2 + 2 ^ 64 - e.2) % 2 ^ 64)
  else if followBlock.1 = blockOff.1 then .ok ((upperBound + 2 ^ 64 - e.2) % 2 ^ 64)
  else (readPairs file followBlock.1 16).bind fun f => (Outcome.read f 0).bind fun f => .ok ((f.2 + 2 ^ 64 - e.2) % 2 ^ 64)

/-- `scanNonFunctionalRelation` (Index.cpp:1159-1198). -/
def scanNonFunctionalRelation (file : List Nat) (blockOff followBlock : Nat × Nat) (lhsId upperBound : Nat) :
    Outcome (List Nat) :=
  if blockOff.2 = 0 then .ok []
  else
    (readPairs file blockOff.1 blockOff.2).bind fun block =>
    (Filter.partitionPoint (fun e : Pair => decide (e.1 < lhsId)) block).bind fun it =>
    (Outcome.read block it).bind fun e =>
    if e.1 = lhsId then
      (rhsBytes file blockOff followBlock upperBound block it e).bind fun nofBytes =>
      if nofBytes % 8 ≠ 0 then .ub
      else (fileRead file e.2 nofBytes).bind fun bytes => .ok (toArr 8 (nofBytes / 8) bytes)
    else .ok []

/-- `getRhsForSingleLhs` (Index.Text.cpp:1406-1426). -/
def getRhsForSingleLhs (table : List Pair) (lhsId : Nat) : Outcome (List Nat) :=
  (Filter.partitionPoint (fun e : Pair => decide (e.1 < lhsId)) table).bind fun it =>
  .ok (((table.drop it).takeWhile fun e => decide (e.1 = lhsId)).map Prod.snd)

/-- `scan(keyFirst, keySecond)` (Index.h:425-467) for keys that are in the vocabulary. -/
def scan2 (p : Perm) (relId subjId : Nat) : Outcome (List Nat) :=
  (p.md.data.exists relId).bind fun ex =>
  if ex then
    (p.md.getRmd relId).bind fun rmd =>
    match rmd.2 with
    | some b =>
      (blockFor b subjId).bind fun blockOff =>
      if rmd.1.isFunctional then scanFunctionalRelation p.file blockOff subjId
      else
        (followBlockFor b subjId).bind fun block2 =>
        scanNonFunctionalRelation p.file blockOff block2 subjId b.offsetAfter
    | none =>
      (fileRead p.file rmd.1.start (rmd.1.nofElements * 2 * 8)).bind fun bytes =>
      getRhsForSingleLhs (toPairs rmd.1.nofElements bytes) subjId
  else .ok []

/-- `scan(keyFirst, keySecond)` (Index.h:425-467) with the result of the vocabulary lookups. -/
def scanKeys (p : Perm) (relId subjId : Option Nat) : Outcome (List Nat) :=
  match relId, subjId with
  | some r, some s => scan2 p r s
  | _, _ => .ok []

end Verif.Permutation
