import Verif.Model.Loop
/-
Model of the algorithms for text search of QLever, `/repo/src/index/FTSAlgorithms.cpp`, and of the functions of
`/repo/src/index/Index.Text.cpp` that call the intersections.

Parallel `std::vector`s are parallel lists; an access behind the end is undefined behaviour. `Score` is `uint16_t`
(`/repo/src/global/Id.h:10`), so sums of scores are taken modulo 2^16. `fuel` bounds the number of iterations of each
loop; theorems hold for every sufficiently large `fuel`.
-/
namespace Verif.FTS
open Outcome

/-- Conversion to `Score` = `uint16_t`. -/
def toScore (n : Nat) : Nat := n % 65536

/-- The loop of `filterByRange`, `FTSAlgorithms.cpp:31-36`; the result arrays, written at position
`nofResultElements`, are the accumulated lists. -/
def filterByRangeBody (first last : Nat) (blockCids blockWids blockScores : List Nat) (s : Nat × List Nat × List Nat) :
    Outcome ((Nat × List Nat × List Nat) ⊕ (List Nat × List Nat)) :=
  let (i, resultCids, resultScores) := s
  if i < blockWids.length then
    (read blockWids i).bind fun w =>
    if first ≤ w ∧ w ≤ last then
      (read blockCids i).bind fun c =>
      (read blockScores i).bind fun sc =>
      .ok (.inl (i + 1, resultCids ++ [c], resultScores ++ [sc]))
    else .ok (.inl (i + 1, resultCids, resultScores))
  else .ok (.inr (resultCids, resultScores))

/-- `FTSAlgorithms::filterByRange`, `FTSAlgorithms.cpp:16-46`. The id range is inclusive on both ends. -/
def filterByRange (fuel : Nat) (first last : Nat) (blockCids blockWids blockScores : List Nat) :
    Outcome (List Nat × List Nat) :=
  if blockCids.length ≠ blockWids.length then .throw
  else if blockCids.length ≠ blockScores.length then .throw
  else loop fuel (filterByRangeBody first last blockCids blockWids blockScores) (0, [], [])

/-- The body of `while (l[i] < x) { ++i; if (i >= l.size()) return; }`, which occurs in `FTSAlgorithms.cpp:75-80, 81-86,
125-130, 131-136`. `none` stands for the `return`. -/
def skipBody (l : List Nat) (x : Nat) (i : Nat) : Outcome (Nat ⊕ Option Nat) :=
  (read l i).bind fun a =>
  if a < x then
    if i + 1 ≥ l.length then .ok (.inr none) else .ok (.inl (i + 1))
  else .ok (.inr (some i))

def skip (fuel : Nat) (l : List Nat) (x i : Nat) : Outcome (Option Nat) := loop fuel (skipBody l x) i

/-- Three result vectors: contexts, entities (or words), scores. -/
structure Triple where
  cids : List Nat
  eids : List Nat
  scores : List Nat
  deriving DecidableEq, Repr

/-- The loop that copies all postings of the current context, `FTSAlgorithms.cpp:87-100`. -/
def copyBody (c : Nat) (eCids eWids eScores : List Nat) (s : Nat × Triple) : Outcome ((Nat × Triple) ⊕ (Nat × Triple)) :=
  let (j, res) := s
  (read eCids j).bind fun e =>
  if c = e then
    (read eWids j).bind fun w =>
    (read eScores j).bind fun sc =>
    let res' : Triple := ⟨res.cids ++ [e], res.eids ++ [w], res.scores ++ [sc]⟩
    if j + 1 ≥ eCids.length then .ok (.inr (j + 1, res')) else .ok (.inl (j + 1, res'))
  else .ok (.inr (j, res))

/-- The outer loop of `intersect`, `FTSAlgorithms.cpp:74-102`. -/
def intersectBody (fuel : Nat) (matching eCids eWids eScores : List Nat) (s : Nat × Nat × Triple) :
    Outcome ((Nat × Nat × Triple) ⊕ Triple) :=
  let (i, j, res) := s
  if i < matching.length ∧ j < eCids.length then
    (read eCids j).bind fun e =>
    (skip fuel matching e i).bind fun
    | none => .ok (.inr res)
    | some i =>
      (read matching i).bind fun m =>
      (skip fuel eCids m j).bind fun
      | none => .ok (.inr res)
      | some j =>
        (loop fuel (copyBody m eCids eWids eScores) (j, res)).bind fun (j, res) =>
        .ok (.inl (i + 1, j, res))
  else .ok (.inr res)

/-- `FTSAlgorithms::intersect`, `FTSAlgorithms.cpp:49-103`. `old` is the content of the result vectors before the call,
which is kept if one of the lists is empty. -/
def intersect (fuel : Nat) (matching eCids eWids eScores : List Nat) (old : Triple) : Outcome Triple :=
  if matching = [] ∨ eCids = [] then .ok old
  else loop fuel (intersectBody fuel matching eCids eWids eScores) (0, 0, ⟨[], [], []⟩)

/-- The loop over equal contexts, `FTSAlgorithms.cpp:137-145`. -/
def equalBody (cids1 scores1 cids2 scores2 : List Nat) (s : Nat × Nat × List Nat × List Nat) :
    Outcome ((Nat × Nat × List Nat × List Nat) ⊕ (Nat × Nat × List Nat × List Nat)) :=
  let (i, j, rc, rs) := s
  (read cids1 i).bind fun a =>
  (read cids2 j).bind fun b =>
  if a = b then
    (read scores1 i).bind fun x =>
    (read scores2 j).bind fun y =>
    let s' := (i + 1, j + 1, rc ++ [b], rs ++ [toScore (x + y)])
    if i + 1 ≥ cids1.length ∨ j + 1 ≥ cids2.length then .ok (.inr s') else .ok (.inl s')
  else .ok (.inr (i, j, rc, rs))

/-- The outer loop of `intersectTwoPostingLists`, `FTSAlgorithms.cpp:124-146`. -/
def intersectTwoBody (fuel : Nat) (cids1 scores1 cids2 scores2 : List Nat) (s : Nat × Nat × List Nat × List Nat) :
    Outcome ((Nat × Nat × List Nat × List Nat) ⊕ (List Nat × List Nat)) :=
  let (i, j, rc, rs) := s
  if i < cids1.length ∧ j < cids2.length then
    (read cids2 j).bind fun b =>
    (skip fuel cids1 b i).bind fun
    | none => .ok (.inr (rc, rs))
    | some i =>
      (read cids1 i).bind fun a =>
      (skip fuel cids2 a j).bind fun
      | none => .ok (.inr (rc, rs))
      | some j =>
        (loop fuel (equalBody cids1 scores1 cids2 scores2) (i, j, rc, rs)).bind fun s => .ok (.inl s)
  else .ok (.inr (rc, rs))

/-- `FTSAlgorithms::intersectTwoPostingLists`, `FTSAlgorithms.cpp:106-147`; `old` as in `intersect`. -/
def intersectTwo (fuel : Nat) (cids1 scores1 cids2 scores2 : List Nat) (old : List Nat × List Nat) :
    Outcome (List Nat × List Nat) :=
  if cids1 = [] ∨ cids2 = [] then .ok old
  else loop fuel (intersectTwoBody fuel cids1 scores1 cids2 scores2) (0, 0, [], [])

/-- The local variables of `intersectKWay`, `FTSAlgorithms.cpp:207-212`; `n` is the length of the lists in `res`. -/
structure KState where
  next : List Nat
  cur : Nat
  list : Nat
  streak : Nat
  res : Triple

/-- The body of `while (cidVecs[currentList][nextIndices[currentList]] < currentContext)`,
`FTSAlgorithms.cpp:218-223`, together with the test that follows it (224-226). -/
def kSkipBody (l : List Nat) (x : Nat) (i : Nat) : Outcome (Nat ⊕ Option Nat) :=
  (read l i).bind fun a =>
  if a < x then
    if i + 1 = l.length then .ok (.inr none) else .ok (.inl (i + 1))
  else .ok (.inr (some i))

/-- The sum over the lists before the last, `FTSAlgorithms.cpp:230-234`; `i` counts down the lists still to be added. -/
def kScore (scoreVecs : List (List Nat)) (next : List Nat) (list : Nat) : Nat → Outcome Nat
  | 0 => .ok 0
  | i + 1 =>
    (kScore scoreVecs next list i).bind fun s =>
    (read scoreVecs i).bind fun v =>
    (read next i).bind fun ix =>
    if i ≠ list ∧ ix = 0 then .ub else
    (read v (if i = list then ix else ix - 1)).bind fun x => .ok (toScore (s + x))

/-- The loop that writes all postings of the last list for the current context, `FTSAlgorithms.cpp:240-246`.
`cap` is the size of the result vectors (190-196). -/
def kEmitBody (cap c sc : Nat) (cids eids scores : List Nat) (s : Nat × Triple) :
    Outcome ((Nat × Triple) ⊕ (Nat × Triple)) :=
  let (m, res) := s
  if m < cids.length then
    (read cids m).bind fun a =>
    if a = c then
      if res.cids.length < cap then
        (read eids m).bind fun e =>
        (read scores m).bind fun x =>
        .ok (.inl (m + 1, ⟨res.cids ++ [c], res.eids ++ [e], res.scores ++ [toScore (sc + x)]⟩))
      else .ub
    else .ok (.inr (m, res))
  else .ok (.inr (m, res))

/-- The position of the current context in the last list, `FTSAlgorithms.cpp:238-239` and `252-253`. -/
def kMatch (k : Nat) (s : KState) : Outcome Nat :=
  (read s.next (k - 1)).bind fun ix =>
  if k - 1 = s.list then .ok ix else if ix = 0 then .ub else .ok (ix - 1)

/-- What happens when the current context has been found in all lists, `FTSAlgorithms.cpp:229-258`. -/
def kFound (fuel cap : Nat) (cidVecs scoreVecs : List (List Nat)) (eids : Option (List Nat)) (s : KState) :
    Outcome KState :=
  let k := cidVecs.length
  (kScore scoreVecs s.next s.list (k - 1)).bind fun sc =>
  (kMatch k s).bind fun m =>
  (read cidVecs (k - 1)).bind fun last =>
  (read scoreVecs (k - 1)).bind fun lastScores =>
  match eids with
  | some es =>
    (loop fuel (kEmitBody cap s.cur sc last es lastScores) (m, s.res)).bind fun (m', res) =>
    .ok { s with next := s.next.set (k - 1) m', res, list := k - 1 }
  | none =>
    if s.res.cids.length < cap then
      (read lastScores m).bind fun x =>
      .ok { s with
        res := ⟨s.res.cids ++ [s.cur], s.res.eids, s.res.scores ++ [toScore (sc + x)]⟩, list := k - 1 }
    else .ub

/-- One iteration of the main loop of `intersectKWay`, `FTSAlgorithms.cpp:213-271`. -/
def kBody (fuel cap : Nat) (cidVecs scoreVecs : List (List Nat)) (eids : Option (List Nat)) (s : KState) :
    Outcome (KState ⊕ Triple) :=
  let k := cidVecs.length
  (read cidVecs s.list).bind fun l =>
  (read s.next s.list).bind fun ix =>
  if ix = l.length then .ok (.inr s.res) else
  (loop fuel (kSkipBody l s.cur) ix).bind fun
  | none => .ok (.inr s.res)
  | some ix =>
    let s := { s with next := s.next.set s.list ix }
    (read l ix).bind fun atId =>
    let advance (s : KState) : KState :=
      { s with next := s.next.set s.list (ix + 1), list := if s.list + 1 = k then 0 else s.list + 1 }
    if atId = s.cur then
      let s := { s with streak := s.streak + 1 }
      if s.streak = k then (kFound fuel cap cidVecs scoreVecs eids s).map .inl
      else .ok (.inl (advance s))
    else .ok (.inl (advance { s with streak := 1, cur := atId }))

/-- `FTSAlgorithms::intersectKWay`, `FTSAlgorithms.cpp:150-279`. `eids` is the vector behind `lastListEids`, `none` for
`nullptr`; `old` is the content of the result vectors before the call. -/
def intersectKWay (fuel : Nat) (cidVecs scoreVecs : List (List Nat)) (eids : Option (List Nat)) (old : Triple) :
    Outcome Triple :=
  let k := cidVecs.length
  if k = 0 then .ub else
  (read cidVecs (k - 1)).bind fun last =>
  if last.length = 0 then .ok old else
  if eids = none ∧ [] ∈ cidVecs then .ok old else
  let cap := match eids with
    | some es => es.length
    | none => (cidVecs.map List.length).foldl min (2 ^ 64 - 1)
  (read last 0).bind fun c =>
  (loop fuel (kBody fuel cap cidVecs scoreVecs eids)
    ⟨List.replicate k 0, c, k - 1, 0, ⟨[], [], []⟩⟩).map fun r =>
  { r with eids := match eids with | some _ => r.eids | none => old.eids }

/-- `Index::getContextListForWords`, `/repo/src/index/Index.Text.cpp:526-570`, from the posting lists (contexts and
scores, results of `getWordPostingsForTerm`) of the terms on. The two-list case passes the scores of the second list for
both lists (line 545-546). -/
def contextListForWords (fuel : Nat) (terms : List (List Nat × List Nat)) : Outcome (List Nat × List Nat) :=
  match terms with
  | [] => .throw
  | [t] => .ok t
  | [t, u] => intersectTwo fuel t.1 u.2 u.1 u.2 ([], [])
  | terms =>
    (intersectKWay fuel (terms.map (·.1)) (terms.map (·.2)) none ⟨[], [], []⟩).map fun r => (r.cids, r.scores)

/-- `Index::getContextEntityScoreListsForWords`, `/repo/src/index/Index.Text.cpp:637-693`, from the posting lists on:
`words` are the posting lists of the terms that are only used as words, `ents` is the list of entity postings that co-occur
with the remaining term. -/
def contextEntityScoreLists (fuel : Nat) (words : List (List Nat × List Nat)) (ents : Triple) : Outcome Triple :=
  match words with
  | [] => .ok ents
  | [w] => intersect fuel w.1 ents.cids ents.eids ents.scores ⟨[], [], []⟩
  | words =>
    intersectKWay fuel (words.map (·.1) ++ [ents.cids]) (words.map (·.2) ++ [ents.scores]) (some ents.eids) ⟨[], [], []⟩

end Verif.FTS
