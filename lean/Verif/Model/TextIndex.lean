import Verif.Model.PostingLists
import Verif.Model.TextMetaData
import Verif.Model.FTSAlgorithms
import Verif.Model.Collation
/-
Model of building the text index and of looking up terms in it (src/index/Index.Text.cpp).

`Id` is `uint64_t`, `Score` is `uint16_t`.  The lines of the context file are taken as parsed (`ContextFileParser`), the
vocabulary of the knowledge base is the function `kb` that gives the id of a word.  The order in which hash maps and
hash sets are iterated only matters for the order of the elements of the vector before it is sorted; the vector is
any sorted arrangement of these elements.
-/
namespace Verif.TextIndex
open Verif.PostingLists Verif.TextMetaData

abbrev Str := List Char

/-- `ContextFileParser::Line` (ContextFileParser.h). -/
structure Line where
  word : Str
  isEntity : Bool
  ctx : Nat
  score : Nat
  deriving DecidableEq, Repr

/-- The text vocabulary after `passContextFileForVocabulary` (Index.Text.cpp:95-115): every word that is not an entity
once.  `createFromSet` sorts it; the order is not needed here, so that every order is admitted.  The id of a word is its
position. -/
def IsVocab (lines : List Line) (vocab : List Str) : Prop :=
  vocab.Nodup ∧ ∀ w, w ∈ vocab ↔ ∃ l ∈ lines, l.isEntity = false ∧ l.word = w

/-- The loop of `calculateBlockBoundaries` (Index.Text.cpp:409-422); `i` is the loop variable, `cur` the word whose
prefix is `currentLenAndPrefix`, the list the words after `i`.  `short` says that a word has fewer than
`MIN_WORD_PREFIX_SIZE` code points; `gt` compares the prefixes of that length of two words.  Simplification: words
that are no valid UTF-8, for which `getUTF8Prefix` throws, are left out. -/
def boundariesLoop (short : Str → Bool) (gt : Str → Str → Bool) : Nat → Str → List Str → List Nat
  | i, _, [] => [i]
  | i, cur, next :: rest =>
    if short cur || short next || gt cur next then i :: boundariesLoop short gt (i + 1) next rest
    else boundariesLoop short gt (i + 1) cur rest

/-- `calculateBlockBoundaries` (Index.Text.cpp:390-425). -/
def boundaries (short : Str → Bool) (gt : Str → Str → Bool) : List Str → List Nat
  | [] => []
  | w :: ws => boundariesLoop short gt 0 w ws

/-- `getWordBlockId` (Index.Text.cpp:428-432).  Simplification: `std::lower_bound` in the ascending boundaries is the
number of smaller ones (`wordBlockId_lowerBound` in Lemmas/TextIndex.lean). -/
def wordBlockId (bounds : List Nat) (wid : Nat) : Nat := (bounds.filter fun b => decide (b < wid)).length

/-- `getEntityBlockId` (Index.Text.cpp:435-437). -/
def entityBlockId (bounds : List Nat) (eid : Nat) : Nat := (eid + bounds.length) % 2 ^ 64

/-- `isEntityBlockId` (Index.Text.cpp:440-442). -/
def isEntityBlockId (bounds : List Nat) (blockId : Nat) : Bool := decide (blockId ≥ bounds.length)

/-- An element of `TextVec`: `tuple<Id, Id, Id, Score, bool>`. -/
structure Tuple where
  block : Nat
  ctx : Nat
  word : Nat
  score : Nat
  ent : Bool
  deriving DecidableEq, Repr

/-- `SortText::operator()` (StxxlSortFunctors.h:147-166). -/
def sortText (a b : Tuple) : Bool :=
  if a.block = b.block then
    if a.ent = b.ent then
      if a.ctx = b.ctx then
        if a.word = b.word then decide (a.score < b.score) else decide (a.word < b.word)
      else decide (a.ctx < b.ctx)
    else !a.ent
  else decide (a.block < b.block)

/-- `map[id] += score` for a hash map of scores. -/
def addScore (id score : Nat) : List (Nat × Nat) → List (Nat × Nat)
  | [] => [(id, (0 + score) % 2 ^ 16)]
  | (i, s) :: m => if i = id then (i, (s + score) % 2 ^ 16) :: m else (i, s) :: addScore id score m

/-- `addContextToVector` (Index.Text.cpp:193-228): the elements written. -/
def addContext (bounds : List Nat) (ctx : Nat) (words entities : List (Nat × Nat)) : List Tuple :=
  let touched := (words.map fun p => wordBlockId bounds p.1) ++ entities.map fun p => entityBlockId bounds p.1
  (words.map fun p => ⟨wordBlockId bounds p.1, ctx, p.1, p.2, false⟩) ++
  (entities.map fun p => ⟨entityBlockId bounds p.1, ctx, p.1, p.2, false⟩) ++
  touched.eraseDups.flatMap fun b => entities.map fun p => ⟨b, ctx, p.1, p.2, true⟩

/-- The variables of `passContextFileIntoVector`. -/
structure Pass where
  cur : Nat
  words : List (Nat × Nat)
  entities : List (Nat × Nat)
  out : List Tuple
  nofContexts : Nat
  nofWordPostings : Nat
  nofEntityPostings : Nat
  deriving DecidableEq, Repr

/-- The values of the variables before the loop (Index.Text.cpp:139-146). -/
def Pass.start : Pass := ⟨0, [], [], [], 0, 0, 0⟩

/-- `if (line._contextId != currentContext)` (Index.Text.cpp:149-156). -/
def Pass.change (bounds : List Nat) (st : Pass) (ctx : Nat) : Pass :=
  if ctx ≠ st.cur then
    { st with nofContexts := st.nofContexts + 1, out := st.out ++ addContext bounds st.cur st.words st.entities,
              cur := ctx, words := [], entities := [] }
  else st

/-- The rest of the loop body (Index.Text.cpp:157-184). -/
def Pass.add (vocab : List Str) (kb : Str → Option Nat) (st : Pass) (l : Line) : Pass :=
  if l.isEntity then
    match kb l.word with
    | some eid => { st with nofEntityPostings := st.nofEntityPostings + 1, entities := addScore eid l.score st.entities }
    | none => { st with nofEntityPostings := st.nofEntityPostings + 1 }
  else { st with nofWordPostings := st.nofWordPostings + 1, words := addScore (vocab.idxOf l.word) l.score st.words }

def Pass.step (bounds : List Nat) (vocab : List Str) (kb : Str → Option Nat) (st : Pass) (l : Line) : Pass :=
  (st.change bounds l.ctx).add vocab kb l

/-- After the loop (Index.Text.cpp:185-189). -/
def Pass.finish (bounds : List Nat) (st : Pass) : Pass :=
  { st with nofContexts := st.nofContexts + 1, out := st.out ++ addContext bounds st.cur st.words st.entities }

/-- `passContextFileIntoVector` (Index.Text.cpp:118-190). -/
def pass (bounds : List Nat) (vocab : List Str) (kb : Str → Option Nat) (lines : List Line) : Pass :=
  (lines.foldl (Pass.step bounds vocab kb) Pass.start).finish bounds

/-- The vector after `stxxl::sort` (Index.Text.cpp:23): the elements written, in ascending order.  Simplification: the
vector, which is created with a size in Index.Text.cpp:20, has exactly the elements written to it. -/
def IsSortedVec (written vec : List Tuple) : Prop := vec.Perm written ∧ vec.Pairwise fun a b => sortText b a = false

/-- The codebooks that `createCodebooks` finds for words and scores; they may be different for each position in the
file. -/
structure Codebooks where
  word : Nat → List Nat → List Nat
  score : Nat → List Nat → List Nat

def Codebooks.Right (cb : Codebooks) : Prop := ∀ off xs, IsCodebook xs (cb.word off xs) ∧ IsCodebook xs (cb.score off xs)

/-- `ContextListMetaData` as 64-bit numbers. -/
def ctxList (m : Meta) : CtxList :=
  ⟨m.nofElements, m.startContextlist, m.startWordlist, m.startScorelist, (m.endByte + 2 ^ 64 - 1) % 2 ^ 64⟩

def Codebooks.write (cb : Codebooks) (file : List Nat) (ps : List Posting) (skip : Bool) : Outcome (List Nat × CtxList) :=
  (writePostings file.length ps skip (cb.word file.length (ps.map Posting.word))
    (cb.score file.length (ps.map Posting.score))).map fun r => (file ++ r.1, ctxList r.2)

/-- The variables of `createTextIndex` (Index.Text.cpp:231-243). -/
structure Create where
  file : List Nat
  blocks : List TBlock
  cur : Nat
  minId : Nat
  maxId : Nat
  classic : List Posting
  entity : List Posting
  nofEntities : Nat
  nofEntityContexts : Nat
  deriving DecidableEq

def Create.start : Create := ⟨[], [], 0, 2 ^ 64 - 1, 0, [], [], 0, 0⟩

/-- Writing the current block (Index.Text.cpp:246-257, 281-291).  `addBlock` appends to the list of blocks. -/
def Create.flush (bounds : List Nat) (cb : Codebooks) (st : Create) : Outcome Create :=
  if ¬ st.classic.length > 0 then .throw
  else
    let isE := isEntityBlockId bounds st.cur
    (cb.write st.file st.classic true).bind fun r1 =>
    (cb.write r1.1 st.entity false).bind fun r2 =>
    .ok { st with file := r2.1, blocks := st.blocks ++ [⟨st.minId, st.maxId, r1.2, r2.2⟩], classic := [], entity := [],
                  nofEntities := if isE then st.nofEntities + 1 else st.nofEntities,
                  nofEntityContexts := if isE then st.nofEntityContexts + st.classic.length else st.nofEntityContexts }

/-- Adding one element to the current block (Index.Text.cpp:262-277). -/
def Create.add (st : Create) (x : Tuple) : Create :=
  if !x.ent then
    { st with classic := st.classic ++ [⟨x.ctx, x.word, x.score⟩],
              minId := if x.word < st.minId then x.word else st.minId,
              maxId := if x.word > st.maxId then x.word else st.maxId }
  else { st with entity := st.entity ++ [⟨x.ctx, x.word, x.score⟩] }

/-- The body of the loop (Index.Text.cpp:244-278). -/
def Create.step (bounds : List Nat) (cb : Codebooks) (st : Create) (x : Tuple) : Outcome Create :=
  if x.block ≠ st.cur then
    (st.flush bounds cb).map fun st => { st with cur := x.block, minId := x.word, maxId := x.word }.add x
  else .ok (st.add x)

/-- The loop (Index.Text.cpp:244-278). -/
def Create.loop (bounds : List Nat) (cb : Codebooks) : Create → List Tuple → Outcome Create
  | st, [] => .ok st
  | st, x :: xs => (st.step bounds cb x).bind fun st => Create.loop bounds cb st xs

/-- `createTextIndex` (Index.Text.cpp:231-305): the content of the file. -/
def createTextIndex (bounds : List Nat) (cb : Codebooks) (p : Pass) (name : List Nat) (vec : List Tuple) :
    Outcome (List Nat) :=
  (Create.loop bounds cb Create.start vec).bind fun st =>
  (st.flush bounds cb).bind fun st =>
  let m : TextMeta := ⟨st.blocks.map TBlock.lastWordId, [], st.nofEntities, st.nofEntityContexts, p.nofContexts,
    p.nofWordPostings, p.nofEntityPostings, name, st.blocks⟩
  m.appendToFile st.file

/-- What a term of a query stands for (Index.Text.cpp:582-601, 800-817): nothing, the word ids of a range, or an
entity.  The first and the last character of an empty term do not exist. -/
inductive Found where
  | nothing
  | words (first last : Nat)
  | entity (eid : Nat)
  deriving DecidableEq, Repr

/-- Resolving a term (Index.Text.cpp:582-601, 800-817).  `C` is the comparator of the text vocabulary.  Simplification:
`getId` of the text vocabulary finds the position of the word (see C58 for the lookup of words). -/
def resolve (C : Collation.Comparator) (vocab : List Str) (kb : Str → Option Nat) (term : Str) : Outcome Found :=
  if term = [] then .ub
  else if term.getLast? = some '*' then
    (Collation.fullTextPrefix C vocab term).map fun r => if r.1 then .words r.2.1 r.2.2 else .nothing
  else if term.head? = some '<' ∧ term.getLast? = some '>' then
    match kb term with
    | some e => .ok (.entity e)
    | none => .ok .nothing
  else if term ∈ vocab then .ok (.words (vocab.idxOf term) (vocab.idxOf term))
  else .ok .nothing

/-- `readGapComprList` with the position of the context list. -/
def readCids (file : List Nat) (c : CtxList) : Outcome (List Nat) :=
  readGap file c.nofElements c.startContextlist (c.startWordlist - c.startContextlist)

/-- `readFreqComprList` with the position of the word list. -/
def readWids (file : List Nat) (c : CtxList) : Outcome (List Nat) :=
  readFreq 8 file c.nofElements c.startWordlist (c.startScorelist - c.startWordlist)

/-- `readFreqComprList` with the position of the score list. -/
def readScores (file : List Nat) (c : CtxList) : Outcome (List Nat) :=
  readFreq 2 file c.nofElements c.startScorelist ((c.lastByte + 1) % 2 ^ 64 - c.startScorelist)

/-- `hasMultipleWords` (TextMetaData.h). -/
def multiple (c : CtxList) : Bool := decide (c.startScorelist > c.startWordlist)

/-- Reading the contexts and scores of the words of a range from a block (Index.Text.cpp:611-641). -/
def readBlock (fuel : Nat) (file : List Nat) (b : TBlock) (first last : Nat) : Outcome (List Nat × List Nat) :=
  if multiple b.cl && !(b.firstWordId == first && b.lastWordId == last) then
    (readCids file b.cl).bind fun blockCids =>
    (readWids file b.cl).bind fun blockWids =>
    (readScores file b.cl).bind fun blockScores =>
    FTS.filterByRange fuel first last blockCids blockWids blockScores
  else
    (readCids file b.cl).bind fun cids =>
    (readScores file b.cl).bind fun scores => .ok (cids, scores)

/-- `getWordPostingsForTerm` (Index.Text.cpp:573-642) after the term has been resolved: contexts and scores. -/
def wordPostings (fuel : Nat) (file : List Nat) (t : TextMeta) : Found → Outcome (List Nat × List Nat)
  | .nothing => .ok ([], [])
  | .words first last => (t.blockByWordRange first last).bind fun b => readBlock fuel file b first last
  | .entity e =>
    (t.existsEntityBlock e).bind fun ex =>
    if !ex then .ok ([], [])
    else (t.blockByEntityId e).bind fun b => readBlock fuel file b e e

/-- Reading the entity postings of a block (Index.Text.cpp:822-872). -/
def readEntities (fuel : Nat) (file : List Nat) (t : TextMeta) (f : Found) (b : TBlock) (first last : Nat) :
    Outcome FTS.Triple :=
  if !multiple b.cl || (b.firstWordId == first && b.lastWordId == last) then
    (readCids file b.entityCl).bind fun cids =>
    (readWids file b.entityCl).bind fun eids =>
    (readScores file b.entityCl).bind fun scores => .ok ⟨cids, eids, scores⟩
  else
    (wordPostings fuel file t f).bind fun matching =>
    (readCids file b.entityCl).bind fun cids =>
    (readWids file b.entityCl).bind fun eids =>
    (readScores file b.entityCl).bind fun scores =>
    FTS.intersect fuel matching.1 cids eids scores ⟨[], [], []⟩

/-- `getEntityPostingsForTerm` (Index.Text.cpp:797-872) after the term has been resolved. -/
def entityPostings (fuel : Nat) (file : List Nat) (t : TextMeta) : Found → Outcome FTS.Triple
  | .nothing => .ok ⟨[], [], []⟩
  | .words first last =>
    (t.blockByWordRange first last).bind fun b => readEntities fuel file t (.words first last) b first last
  | .entity e => (t.blockByEntityId e).bind fun b => readEntities fuel file t (.entity e) b e e

/-- `getContextEntityScoreListsForWords` (Index.Text.cpp:645-692) for two terms; `useEl` is the term
`getIndexOfBestSuitedElTerm` chooses and `onlyWords` the other one. -/
def entityPostingsTwo (fuel : Nat) (file : List Nat) (t : TextMeta) (onlyWords useEl : Found) : Outcome FTS.Triple :=
  (wordPostings fuel file t onlyWords).bind fun w =>
  (entityPostings fuel file t useEl).bind fun e =>
  FTS.intersect fuel w.1 e.cids e.eids e.scores ⟨[], [], []⟩

/-- The contexts and scores for a term: the metadata are read (Index.Text.cpp:71-80), the term is resolved, the
lists are read. -/
def queryWords (fuel : Nat) (C : Collation.Comparator) (vocab : List Str) (kb : Str → Option Nat) (file : List Nat)
    (term : Str) : Outcome (List Nat × List Nat) :=
  (TextMeta.readFromFile file).bind fun t => (resolve C vocab kb term).bind fun f => wordPostings fuel file t f

/-- The contexts, entities and scores for a term. -/
def queryEntities (fuel : Nat) (C : Collation.Comparator) (vocab : List Str) (kb : Str → Option Nat) (file : List Nat)
    (term : Str) : Outcome FTS.Triple :=
  (TextMeta.readFromFile file).bind fun t => (resolve C vocab kb term).bind fun f => entityPostings fuel file t f

/-- The contexts, entities and scores for two terms. -/
def queryTwo (fuel : Nat) (C : Collation.Comparator) (vocab : List Str) (kb : Str → Option Nat) (file : List Nat)
    (onlyWords useEl : Str) : Outcome FTS.Triple :=
  (TextMeta.readFromFile file).bind fun t => (resolve C vocab kb onlyWords).bind fun f1 =>
  (resolve C vocab kb useEl).bind fun f2 => entityPostingsTwo fuel file t f1 f2

end Verif.TextIndex
