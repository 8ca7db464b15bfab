import Verif.Model.ExternalVocabulary
import Verif.Model.MetaData
import Mathlib.Data.List.Forall2
/-
Model of the first phase of the index build, which turns the words of the triples into ids: the item maps
(`src/index/IndexBuilderTypes.h`), the partial vocabularies (`writeNextPartialVocabulary` in `src/index/Index.cpp`), their merge
(`src/index/VocabularyGeneratorImpl.h`) and the translation of the ids (`convertPartialToGlobalIds` in `src/index/Index.cpp`).
Words are lists of characters, a character stands for one byte.
-/
namespace Verif.VocabularyMerger
open Verif.Bytes Verif.MetaData
open Verif.ExternalVocabulary (Word getLines unescapeLines)

/-- `std::array<Id, 3>`. -/
abbrev Ids := Nat × Nat × Nat

/-- An element of an `ItemMap` or `ItemVec`: a word and its id (IndexBuilderTypes.h:20-27).  The `SplitVal` is a function of the
word. -/
abbrev Entry := Word × Nat

/-- `LangtagAndTriple` (IndexBuilderTypes.h:70-73). -/
structure Item where
  langtag : List Char
  s : Word
  p : Word
  o : Word
  deriving DecidableEq, Repr

/-- `LANGUAGE_PREDICATE` (Constants.h:52-54). -/
def languagePredicate : Word := "<QLever-internal-function/langtag>".toList

/-- `convertLangtagToEntityUri` (Conversions.h:644-646). -/
def langtagEntity (tag : List Char) : Word := "<QLever-internal-function/".toList ++ '@' :: tag ++ ['>']

/-- `convertToLanguageTaggedPredicate` (Conversions.h:658-661). -/
def taggedPredicate (pred : Word) (tag : List Char) : Word := '@' :: tag ++ '@' :: pred

/-! ### Item maps -/

/-- Lookup in an `ItemMap`. -/
def findId (m : List Entry) (key : Word) : Option Nat := (m.find? fun e => e.1 == key).map Prod.snd

/-- `ItemMapManager::assignNextId` (IndexBuilderTypes.h:50-59) with `_minId = minId`. -/
def assignNextId (minId : Nat) (m : List Entry) (key : Word) : List Entry × Nat :=
  match findId m key with
  | none => (m ++ [(key, (m.length + minId) % 2 ^ 64)], (m.length + minId) % 2 ^ 64)
  | some id => (m, id)

/-- One call of the lambda of `getIdMapLambdas` (IndexBuilderTypes.h:123-148): the new map and the ids of the triple and of the
two extra triples. -/
def processItem (minId : Nat) (m : List Entry) (it : Item) : List Entry × List Ids :=
  let (m, s) := assignNextId minId m it.s
  let (m, p) := assignNextId minId m it.p
  let (m, o) := assignNextId minId m it.o
  if it.langtag = [] then (m, [(s, p, o)])
  else
    let (m, tag) := assignNextId minId m (langtagEntity it.langtag)
    let (m, tp) := assignNextId minId m (taggedPredicate it.p it.langtag)
    let (m, lp) := assignNextId minId m languagePredicate
    (m, [(s, p, o), (s, tp, o), (o, lp, tag)])

/-- The minimal id of the `j`-th map (IndexBuilderTypes.h:110). -/
def minId (maxTriples : Nat) (j : Fin 4) : Nat := j.val * 100 * maxTriples % 2 ^ 64

/-- The maps at the start of a partial vocabulary (IndexBuilderTypes.h:109-116). -/
def initMaps (maxTriples : Nat) : Fin 4 → List Entry := fun j => (assignNextId (minId maxTriples j) [] languagePredicate).1

/-- The pipeline of `passFileForVocabulary` for one partial vocabulary (Index.cpp:163-206): every triple is handled by one of the
four lambdas; the results keep the order of the triples.  Which lambda handles which triple is part of the input, so the
theorems hold for every scheduling. -/
def processAll (maxTriples : Nat) (maps : Fin 4 → List Entry) : List (Fin 4 × Item) → (Fin 4 → List Entry) × List Ids
  | [] => (maps, [])
  | (j, it) :: rest =>
    let (m, ids) := processItem (minId maxTriples j) (maps j) it
    let (maps', ids') := processAll maxTriples (fun k => if k = j then m else maps k) rest
    (maps', ids ++ ids')

/-- `vocabMapsToVector` (VocabularyGeneratorImpl.h:301-310), up to the iteration order of the maps. -/
def allEntries (maps : Fin 4 → List Entry) : List Entry := maps 0 ++ maps 1 ++ maps 2 ++ maps 3

/-! ### Partial vocabularies -/

/-- The loop of `createInternalMapping` (VocabularyGeneratorImpl.h:240-249). -/
def mappingLoop (first : Bool) (lastWord : Word) (next : Nat) (res : Map Nat) : List Entry → Outcome (Map Nat × List Entry)
  | [] => .ok (res, [])
  | el :: els =>
    let new := !first && lastWord != el.1
    let next := if new then next + 1 else next
    let lastWord := if new then el.1 else lastWord
    if (res.get el.2).isSome then .throw
    else (mappingLoop false lastWord next (res.set el.2 next) els).map fun r => (r.1, (el.1, next) :: r.2)

/-- `createInternalMapping` (VocabularyGeneratorImpl.h:234-251): the map and the vector with the new ids. -/
def createInternalMapping (els : List Entry) : Outcome (Map Nat × List Entry) := mappingLoop true [] 0 [] els

/-- `std::unique` comparing ids (Index.cpp:1561-1566). -/
def uniqueIds : List Entry → List Entry
  | [] => []
  | [a] => [a]
  | a :: b :: l => if a.2 = b.2 then uniqueIds (a :: l) else a :: uniqueIds (b :: l)
termination_by l => l.length

/-- Lookup of the three ids of a triple (VocabularyGeneratorImpl.h:259-269, Index.cpp:303-315). -/
def mapTriple (m : Map Nat) (t : Ids) : Outcome Ids :=
  match m.get t.1, m.get t.2.1, m.get t.2.2 with
  | some a, some b, some c => .ok (a, b, c)
  | _, _, _ => .throw

/-- `writeMappedIdsToExtVec` (VocabularyGeneratorImpl.h:254-273). -/
def mapTriples (m : Map Nat) : List Ids → Outcome (List Ids)
  | [] => .ok []
  | t :: ts => (mapTriple m t).bind fun t' => (mapTriples m ts).map fun ts' => t' :: ts'

/-- One entry of a partial vocabulary file (VocabularyGeneratorImpl.h:280-287). -/
def encodeEntry (e : Entry) : List Nat := toLE 8 e.1.length ++ e.1.map Char.toNat ++ toLE 8 e.2

/-- `writePartialVocabularyToFile` (VocabularyGeneratorImpl.h:276-290). -/
def encodeVocab (els : List Entry) : List Nat := els.flatMap encodeEntry

/-- Reading one entry (VocabularyGeneratorImpl.h:59-66, 108-116). -/
def readEntry (bs : List Nat) : Option (Entry × List Nat) :=
  if bs.length < 8 then none
  else
    let len := ofLE (bs.take 8)
    let r := bs.drop 8
    some (((r.take len).map Char.ofNat, ofLE ((r.drop len).take 8)), r.drop (len + 8))

/-- The entries that the merge reads from a file.  Simplification: the merge reads an entry when its predecessor has been
removed from the queue. -/
def readVocab : Nat → List Nat → List Entry
  | 0, _ => []
  | fuel + 1, bs =>
    match readEntry bs with
    | none => []
    | some (e, rest) => e :: readVocab fuel rest

/-- `writeNextPartialVocabulary` (Index.cpp:1540-1583) after sorting: the partial vocabulary file and the mapped triples.
(The second file, for the prefix compression, is not modelled.) -/
def partialVocab (vec : List Entry) (localIds : List Ids) : Outcome (List Nat × List Ids) :=
  (createInternalMapping vec).bind fun r =>
  (mapTriples r.1 localIds).map fun ids => (encodeVocab (uniqueIds r.2), ids)

/-! ### Merging -/

/-- The k-way merge (VocabularyGeneratorImpl.h:53-120) with comparison `cmp`: `fs` are the remaining entries of the files, the first of
each is in the queue.  `std::priority_queue::top` is any element that no other element precedes. -/
inductive Merged (cmp : Word → Word → Int) : List (List Entry) → List (Nat × Entry) → Prop
  | done {fs} : (∀ f ∈ fs, f = []) → Merged cmp fs []
  | pop {fs out} (i : Nat) (e : Entry) (r : List Entry) : fs[i]? = some (e :: r) →
      (∀ f ∈ fs, ∀ e' r', f = e' :: r' → ¬ cmp e'.1 e.1 < 0) →
      Merged cmp (fs.set i r) out → Merged cmp fs ((i, e) :: out)

/-- The members of `VocabularyMerger` (VocabularyGenerator.h:93-111); the files are the characters written so far. -/
structure Merger where
  total : Nat
  last : Word
  outfile : List Char
  outfileExternal : List Char
  idVecs : List (List (Nat × Nat))
  langSeen : Bool
  langLower : Nat
  langUpper : Nat
  deriving DecidableEq, Repr

/-- `w < EXTERNALIZED_LITERALS_PREFIX` (comparison of `std::string`s, unsigned bytes). -/
def isInternal : Word → Bool
  | [] => true
  | c :: _ => c.toNat < 127

/-- Replacing the first character of an externalised word (VocabularyGeneratorImpl.h:160-174). -/
def stripExternal : Word → Outcome Word
  | [] => .ub
  | c :: cs => if c.toNat = 127 then .ok ('"' :: cs) else if c.toNat = 128 then .ok ('<' :: cs) else .throw

/-- `doActualWrite` for one pair (VocabularyGeneratorImpl.h:223-229). -/
def pushId (vecs : List (List (Nat × Nat))) (i : Nat) (p : Nat × Nat) : Outcome (List (List (Nat × Nat))) :=
  (Outcome.read vecs i).map fun v => vecs.set i (v ++ [p])

/-- One iteration of the loop of `writeQueueWordsToIdVec` (VocabularyGeneratorImpl.h:147-209).  Simplification: the batches of
`mergeVocabulary` and `writeQueueWordsToIdVec` are processed one after the other (lines 86-99, 203-209), hence like one sequence. -/
def mergeStep (st : Merger) (top : Nat × Entry) : Outcome Merger :=
  if top.2.1 ≠ st.last then
    (if isInternal top.2.1 then
      .ok { st with last := top.2.1, outfile := st.outfile ++ RdfEscaping.escapeNB top.2.1 ++ ['\n'] }
    else
      (stripExternal top.2.1).map fun w =>
        { st with last := w, outfileExternal := st.outfileExternal ++ RdfEscaping.escapeNB w ++ ['\n'] }).bind fun st =>
    (pushId st.idVecs top.1 (top.2.2, st.total)).map fun vecs =>
      if top.2.1.head? = some '@' then
        { st with idVecs := vecs, total := st.total + 1, langSeen := true,
                  langLower := if st.langSeen then st.langLower else st.total, langUpper := st.total + 1 }
      else { st with idVecs := vecs, total := st.total + 1 }
  else
    (pushId st.idVecs top.1 (top.2.2, (st.total + 2 ^ 64 - 1) % 2 ^ 64)).map fun vecs => { st with idVecs := vecs }

/-- `mergeVocabulary` after the merge order has been fixed. -/
def mergeAll (st : Merger) : List (Nat × Entry) → Outcome Merger
  | [] => .ok st
  | q :: qs => (mergeStep st q).bind fun st => mergeAll st qs

/-- A fresh `VocabularyMerger` with `n` id vectors. -/
def Merger.init (n : Nat) : Merger := ⟨0, [], [], [], List.replicate n [], false, 0, 0⟩

/-- `IdMapFromPartialIdMapFile` (VocabularyGeneratorImpl.h:329-336). -/
def idMap (v : List (Nat × Nat)) : Map Nat := v.foldl (fun m e => m.set e.1 e.2) []

/-- `convertPartialToGlobalIds` (Index.cpp:275-325): `sizes` is `actualLinesPerPartial`, `vecs` the id vectors.  Reading behind the
data is undefined. -/
def convert : List (List (Nat × Nat)) → List Nat → List Ids → Outcome (List Ids)
  | _, [], rest => .ok rest
  | [], _ :: _, _ => .throw
  | v :: vs, n :: ns, data =>
    if n ≤ data.length then
      (mapTriples (idMap v) (data.take n)).bind fun a => (convert vs ns (data.drop n)).map fun b => a ++ b
    else .ub

/-- The result of the first phase: `VocabularyData` (Index.h), the two vocabulary files and the triples with global ids. -/
structure Result where
  nofWords : Nat
  langLower : Nat
  langUpper : Nat
  outfile : List Char
  outfileExternal : List Char
  data : List Ids
  deriving DecidableEq, Repr

/-- After the partial vocabularies have been written and a merge order has been fixed (Index.cpp:222-250 and the call of
`convertPartialToGlobalIds` in `createFromFile`). -/
def finish (ps : List (List Nat × List Ids)) (out : List (Nat × Entry)) : Outcome Result :=
  (mergeAll (Merger.init ps.length) out).bind fun st =>
  (convert st.idVecs (ps.map fun p => p.2.length) (ps.map fun p => p.2).flatten).map fun data =>
    ⟨st.total, st.langLower, st.langUpper, st.outfile, st.outfileExternal, data⟩

/-- All partial vocabularies, given the sorted vectors. -/
def partials : List (List Entry × List Ids) → Outcome (List (List Nat × List Ids))
  | [] => .ok []
  | p :: ps => (partialVocab p.1 p.2).bind fun a => (partials ps).map fun as => a :: as

/-- `vec` is what `sortVocabVector` (VocabularyGeneratorImpl.h:313-326) may return for the maps of `part`: `std::sort` (or the parallel sort)
with the comparison of the split values, starting from the maps in any iteration order. -/
def SortOf (cmp : Word → Word → Int) (maxTriples : Nat) (part : List (Fin 4 × Item)) (q : List Entry × List Ids) : Prop :=
  q.1.Perm (allEntries (processAll maxTriples (initMaps maxTriples) part).1) ∧
  q.1.Pairwise (fun a b => ¬ cmp b.1 a.1 < 0) ∧
  q.2 = (processAll maxTriples (initMaps maxTriples) part).2

/-- The executions of the first phase (`passFileForVocabulary`, Index.cpp:139-262, then `convertPartialToGlobalIds`) for the triples
`parts`, divided into partial vocabularies. -/
inductive Run (cmp : Word → Word → Int) (maxTriples : Nat) (parts : List (List (Fin 4 × Item))) : Outcome Result → Prop
  | ok (qs ps out) : List.Forall₂ (SortOf cmp maxTriples) parts qs → partials qs = .ok ps →
      Merged cmp (ps.map fun p => readVocab p.1.length p.1) out → Run cmp maxTriples parts (finish ps out)
  | throw (qs) : List.Forall₂ (SortOf cmp maxTriples) parts qs → partials qs = .throw → Run cmp maxTriples parts .throw
  | ub (qs) : List.Forall₂ (SortOf cmp maxTriples) parts qs → partials qs = .ub → Run cmp maxTriples parts .ub
  | diverge (qs) : List.Forall₂ (SortOf cmp maxTriples) parts qs → partials qs = .diverge → Run cmp maxTriples parts .diverge

/-! ### Reading the vocabulary -/

/-- `Vocabulary::readFromFile` (Vocabulary.cpp:22-66) and the external vocabulary built from the second file
(`createFromFile`).  Simplification: without prefix compression (see C04). -/
structure Loaded where
  words : List Word
  ext : ExternalVocabulary.Vocab

/-- Loading the two files. -/
def load (r : Result) : Outcome Loaded :=
  (unescapeLines (getLines [] r.outfile)).bind fun ws =>
  (ExternalVocabulary.buildFromTextFile r.outfileExternal).map fun v => ⟨ws, v⟩

/-- `idToOptionalString` (Vocabulary.cpp:427-439); `ID_NO_VALUE` is `2 ^ 64 - 3`. -/
def idToOptionalString (l : Loaded) (id : Nat) : Outcome (Option Word) :=
  if h : id < l.words.length then .ok (some l.words[id])
  else if id = 2 ^ 64 - 3 then .ok none
  else if id - l.words.length < l.ext.size then (ExternalVocabulary.get l.ext (id - l.words.length)).map some
  else .throw

end Verif.VocabularyMerger
