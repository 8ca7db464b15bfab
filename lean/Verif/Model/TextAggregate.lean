import Verif.Model.FTSAlgorithms
/-
Model of the second half of `/repo/src/index/FTSAlgorithms.cpp`: from the context-entity-score lists of a text query to
its result table.

A hash map is a list of entries in any order; `order` is the order in which the map is iterated (theorems assume only
that it permutes the entries). `std::set<pair<Score, Id>>` is the sorted list of its elements. The code aggregates each
posting (or each tuple of entities of a context) at once into the map; here the sequence of these items is computed
first. `pow(n, v)` is computed in floating point; here it is exact.
-/
namespace Verif.FTS
open Outcome

/-- `ad_utility::HashMap`. -/
abbrev HMap (κ α : Type) := List (κ × α)

/-- `map.find` / `map.count`. -/
def HMap.get [DecidableEq κ] (m : HMap κ α) (k : κ) : Option α := (m.find? fun e => e.1 = k).map Prod.snd

/-- `map[k] = v`. -/
def HMap.set [DecidableEq κ] (m : HMap κ α) (k : κ) (v : α) : HMap κ α := (k, v) :: m.filter fun e => e.1 ≠ k

/-- `std::pair::operator<`. -/
def pairLt (a b : Nat × Nat) : Bool := a.1 < b.1 || (a.1 == b.1 && a.2 < b.2)

/-- `std::set<pair<Score, Id>>::insert`. -/
def setInsert (x : Nat × Nat) : List (Nat × Nat) → List (Nat × Nat)
  | [] => [x]
  | y :: ys => if x = y then y :: ys else if pairLt x y then x :: y :: ys else y :: setInsert x ys

/-- The first posting of an entity, `FTSAlgorithms.cpp:331-333`: number of postings and set of (score, context). -/
def topKFirst (cid score : Nat) : Nat × List (Nat × Nat) := (1, [(score, cid)])

/-- Each further posting, `FTSAlgorithms.cpp:335-344`. The number of postings is a `Score`. Reading `*begin()` of an empty
set is undefined. -/
def topKNext (k : Nat) (v : Nat × List (Nat × Nat)) (cid score : Nat) : Outcome (Nat × List (Nat × Nat)) :=
  let count := toScore (v.1 + 1)
  if v.2.length < k then .ok (count, setInsert (score, cid) v.2)
  else match v.2 with
    | [] => .ub
    | b :: rest =>
      if b.1 < score then .ok (count, setInsert (score, cid) (if v.2.length = k then rest else v.2))
      else .ok (count, v.2)

/-- `aggScoresAndTakeTopContext`, `FTSAlgorithms.cpp:450`: number of postings, context, score. -/
def top1First (cid score : Nat) : Nat × Nat × Nat := (1, cid, score)

/-- `FTSAlgorithms.cpp:454-459`. -/
def top1Next (v : Nat × Nat × Nat) (cid score : Nat) : Outcome (Nat × Nat × Nat) :=
  .ok (toScore (v.1 + 1), if v.2.2 < score then (cid, score) else v.2)

/-- The loop over all items (key, context, score), `FTSAlgorithms.cpp:329-347` and the same loop in the other functions. -/
def aggregate [DecidableEq κ] (first : Nat → Nat → α) (next : α → Nat → Nat → Outcome α) :
    HMap κ α → List (κ × Nat × Nat) → Outcome (HMap κ α)
  | m, [] => .ok m
  | m, (key, cid, score) :: items =>
    match m.get key with
    | none => aggregate first next (m.set key (first cid score)) items
    | some v => (next v cid score).bind fun v => aggregate first next (m.set key v) items

/-- The rows for the entries of the map, `FTSAlgorithms.cpp:350-357`: the set is iterated from its end. `rows` makes the
rows for one context. -/
def topKRows (rows : Nat → Nat → κ → List ρ) (m : HMap κ (Nat × List (Nat × Nat))) : List ρ :=
  m.flatMap fun e => e.2.2.reverse.flatMap fun sc => rows sc.2 e.2.1 e.1

/-- `FTSAlgorithms.cpp:465-470`. -/
def top1Rows (rows : Nat → Nat → κ → List ρ) (m : HMap κ (Nat × Nat × Nat)) : List ρ :=
  m.flatMap fun e => rows e.2.2.1 e.2.1 e.1

/-- Aggregation with sets. -/
def aggTopK [DecidableEq κ] (order : HMap κ (Nat × List (Nat × Nat)) → HMap κ (Nat × List (Nat × Nat)))
    (rows : Nat → Nat → κ → List ρ) (k : Nat) (items : List (κ × Nat × Nat)) : Outcome (List ρ) :=
  (aggregate topKFirst (topKNext k) [] items).map fun m => topKRows rows (order m)

/-- Aggregation with one context for each key. -/
def aggTop1 [DecidableEq κ] (order : HMap κ (Nat × Nat × Nat) → HMap κ (Nat × Nat × Nat))
    (rows : Nat → Nat → κ → List ρ) (items : List (κ × Nat × Nat)) : Outcome (List ρ) :=
  (aggregate top1First top1Next [] items).map fun m => top1Rows rows (order m)

/-- The iteration orders of the two kinds of hash maps. -/
structure Orders (κ : Type) where
  sets : HMap κ (Nat × List (Nat × Nat)) → HMap κ (Nat × List (Nat × Nat))
  bests : HMap κ (Nat × Nat × Nat) → HMap κ (Nat × Nat × Nat)

/-- The postings as items. -/
def oneVarItems (cids eids scores : List Nat) : List (Nat × Nat × Nat) := eids.zip (cids.zip scores)

/-- The row of a context, an aggregated score and an entity, `FTSAlgorithms.cpp:355`. -/
def oneVarRow (cid count eid : Nat) : List (List Nat) := [[cid, count, eid]]

/-- `FTSAlgorithms::aggScoresAndTakeTopKContexts` for lists, `FTSAlgorithms.cpp:306-365`, with
`aggScoresAndTakeTopContext`, 439-477. The result table is empty before the call. -/
def aggScores (o : Orders Nat) (cids eids scores : List Nat) (k : Nat) : Outcome (List (List Nat)) :=
  if cids.length ≠ eids.length then .throw
  else if cids.length ≠ scores.length then .throw
  else if k = 1 then aggTop1 o.bests oneVarRow (oneVarItems cids eids scores)
  else aggTopK o.sets oneVarRow k (oneVarItems cids eids scores)

/-! ### Filtered by a subquery -/

/-- The hash set `fSet` of `Index::getFilteredECListForWordsWidthOne`, `/repo/src/index/Index.Text.cpp:773-776`, for a
filter table with one column, and `oneVarFilterAggScoresAndTakeTopKContexts`, `FTSAlgorithms.cpp:924-980`. -/
def oneVarFilterSet (o : Orders Nat) (cids eids scores : List Nat) (filter : List Nat) (k : Nat) :
    Outcome (List (List Nat)) :=
  if cids.length ≠ eids.length then .throw
  else if cids.length ≠ scores.length then .throw
  else if cids = [] ∨ filter = [] then .ok []
  else aggTopK o.sets oneVarRow k ((oneVarItems cids eids scores).filter fun i => i.1 ∈ filter)

/-- The hash map `fMap` of `Index::getFilteredECListForWords`, `/repo/src/index/Index.Text.cpp:732-745`: the
rows of the filter table with the entity in column `col`, in order. The map has an entry if there are any. -/
def filterRows (filter : List (List Nat)) (col : Nat) (eid : Nat) : List (List Nat) :=
  filter.filter fun r => r[col]?.getD 0 = eid

/-- `oneVarFilterAggScoresAndTakeTopKContexts` with map, `FTSAlgorithms.cpp:830-890`. All rows of `filter` have a column
`col`. -/
def oneVarFilterMap (o : Orders Nat) (cids eids scores : List Nat) (filter : List (List Nat)) (col k : Nat) :
    Outcome (List (List Nat)) :=
  if cids.length ≠ eids.length then .throw
  else if cids.length ≠ scores.length then .throw
  else if cids = [] ∨ filter = [] then .ok []
  else aggTopK o.sets (fun c n e => (filterRows filter col e).map fun r => c :: n :: r) k
    ((oneVarItems cids eids scores).filter fun i => filterRows filter col i.1 ≠ [])

/-! ### Several variables -/

/-- The `j`-th tuple of `v` entities, `FTSAlgorithms.cpp:534-540`. -/
def tupleKey (ents : List Nat) : Nat → Nat → List Nat
  | 0, _ => []
  | v + 1, j => (ents[j % ents.length]?).getD 0 :: tupleKey ents v (j / ents.length)

/-- The cross product of the entities of a context, `FTSAlgorithms.cpp:530-541`. -/
def crossProduct (v : Nat) (ents : List Nat) : List (List Nat) :=
  (List.range (ents.length ^ v)).map (tupleKey ents v)

/-- The loop over the postings (context, entity, score), `FTSAlgorithms.cpp:522-591`: `cid`, `score` and `ents` are
`currentCid`, `cscore` and `entitiesInContext`; `product` makes the tuples of a context. The score of a context is the
one of its first posting. -/
def contextItems (product : List Nat → List (List Nat)) (cid score : Nat) (ents : List Nat) :
    List (Nat × Nat × Nat) → List (List Nat × Nat × Nat)
  | [] => (product ents).map fun key => (key, cid, score)
  | (c, e, s) :: ps =>
    if c = cid then contextItems product cid score (ents ++ [e]) ps
    else (product ents).map (fun key => (key, cid, score)) ++ contextItems product c s [e] ps

/-- The items of all contexts; `cids[0]` and `scores[0]` are read first (519-520). -/
def multVarItems (product : List Nat → List (List Nat)) (ps : List (Nat × Nat × Nat)) : List (List Nat × Nat × Nat) :=
  match ps with
  | [] => []
  | (c, e, s) :: ps => contextItems product c s [e] ps

/-- The postings that the loops read. The functions for several variables do not compare the sizes of the lists, so that
they read behind the end of a list that is too short. -/
def postings (cids eids scores : List Nat) : Outcome (List (Nat × Nat × Nat)) :=
  if cids.length ≤ eids.length ∧ cids.length ≤ scores.length then .ok (cids.zip (eids.zip scores)) else .ub

/-- The row of a context, an aggregated score and a tuple, `FTSAlgorithms.cpp:597-604`. -/
def multVarRow (cid count : Nat) (key : List Nat) : List (List Nat) := [cid :: count :: key]

/-- `FTSAlgorithms::multVarsAggScoresAndTakeTopKContexts`, `FTSAlgorithms.cpp:497-611`, with
`multVarsAggScoresAndTakeTopContext`, 634-725. -/
def multVarsAgg (o : Orders (List Nat)) (cids eids scores : List Nat) (v k : Nat) : Outcome (List (List Nat)) :=
  if cids = [] then .ok [] else
  (postings cids eids scores).bind fun ps =>
  let items := multVarItems (crossProduct v) ps
  if k = 1 then aggTop1 o.bests multVarRow items else aggTopK o.sets multVarRow k items

/-- The cross product when the first entity is filtered, `FTSAlgorithms.cpp:1047-1062` and `1219-1234`: `v ≥ 1` variables.
Nothing is added if no entity of the context passes the filter. -/
def filteredProduct (pass : Nat → Bool) (v : Nat) (ents : List Nat) : List (List Nat) :=
  let fs := ents.filter pass
  if fs = [] then [] else
  (List.range (fs.length * ents.length ^ (v - 1))).map fun j =>
    (fs[j % fs.length]?).getD 0 :: tupleKey ents (v - 1) (j / fs.length)

/-- `FTSAlgorithms::multVarsFilterAggScoresAndTakeTopKContexts` with map, `FTSAlgorithms.cpp:1013-1151`, called by
`getFilteredECListForWords`, `/repo/src/index/Index.Text.cpp:726-763`. -/
def multVarsFilterMap (o : Orders (List Nat)) (cids eids scores : List Nat) (filter : List (List Nat)) (col v k : Nat) :
    Outcome (List (List Nat)) :=
  if cids = [] ∨ filter = [] then .ok [] else
  (postings cids eids scores).bind fun ps =>
  aggTopK o.sets (fun c n key => (filterRows filter col (key.headD 0)).map fun r => c :: n :: key.tail ++ r) k
    (multVarItems (filteredProduct (fun e => filterRows filter col e ≠ []) v) ps)

/-- The writes to a new row of the version with set, `FTSAlgorithms.cpp:1303-1311`; `none` is a cell that has not been
written (the memory of a new `IdTable` is zero, `/repo/src/engine/IdTable.h:1087`, so that the user sees the word with id 0).
`keyEids[i]` is written to column `2 + i` instead of `off`. -/
def setVersionRow (cid count : Nat) (key : List Nat) : List (Option Nat) :=
  let row := ((List.replicate (2 + key.length) none).set 0 (some cid)).set 1 (some count)
  let row := (List.range' 1 (key.length - 1)).foldl (fun row i => row.set (2 + i) key[i]?) row
  row.set (2 + (key.length - 1)) key[0]?

/-- `FTSAlgorithms::multVarsFilterAggScoresAndTakeTopKContexts` with set, `FTSAlgorithms.cpp:1185-1315`, called by
`getFilteredECListForWordsWidthOne`, `/repo/src/index/Index.Text.cpp:766-793`. -/
def multVarsFilterSet (o : Orders (List Nat)) (cids eids scores : List Nat) (filter : List Nat) (v k : Nat) :
    Outcome (List (List (Option Nat))) :=
  if cids = [] ∨ filter = [] then .ok [] else
  (postings cids eids scores).bind fun ps =>
  aggTopK o.sets (fun c n key => [setVersionRow c n key]) k
    (multVarItems (filteredProduct (· ∈ filter) v) ps)

/-! ### Contexts without entities -/

/-- The contract of `std::partial_sort(begin, begin + k, end, lt)`. -/
def PartialSorted (lt : Nat → Nat → Bool) (k : Nat) (before after : List Nat) : Prop :=
  after.Perm before ∧ (after.take k).Pairwise (fun a b => lt b a = false) ∧
    ∀ a ∈ after.take k, ∀ b ∈ after.drop k, lt b a = false

/-- The comparison of two indices by their score, `FTSAlgorithms.cpp:296`. -/
def scoreGt (scores : List Nat) (a b : Nat) : Bool := (scores[a]?).getD 0 > (scores[b]?).getD 0

/-- The loop that copies the contexts, `FTSAlgorithms.cpp:300-302`. -/
def readAll (cids : List Nat) : List Nat → Outcome (List Nat)
  | [] => .ok []
  | i :: is => (read cids i).bind fun c => (readAll cids is).map (c :: ·)

/-- `FTSAlgorithms::getTopKByScores`, `FTSAlgorithms.cpp:280-304`; `indices` is the vector after `std::partial_sort`. -/
def topKByScores (indices cids scores : List Nat) (k : Nat) : Outcome (List Nat) :=
  if cids.length ≠ scores.length then .throw
  else readAll cids (indices.take (min k cids.length))

/-! ### Aggregation of rows -/

/-- The comparison of two rows, `FTSAlgorithms.cpp:379-388`: entity, columns from 3 on, score. -/
def rowKey (r : List Nat) : List Nat := r.headD 0 :: r.drop 3

def rowLt (l r : List Nat) : Bool :=
  if rowKey l = rowKey r then (l[1]?).getD 0 < (r[1]?).getD 0 else (rowKey l) < (rowKey r)

/-- The loop over the sorted rows, `FTSAlgorithms.cpp:390-424`; `res` is the result and `n` is `contextsInResult`. -/
def rowsLoop (k : Nat) : List (List Nat) → Nat → List (List Nat) → Outcome (List (List Nat))
  | res, _, [] => .ok res
  | res, n, r :: rs =>
    match res.getLast? with
    | none => .ub
    | some last =>
      if rowKey r = rowKey last then
        rowsLoop k (if n + 1 ≤ k then res ++ [r] else res) (n + 1) rs
      else
        let from' := res.length - min n k
        rowsLoop k (res.take from' ++ (res.drop from').map (fun x => x.set 1 n) ++ [r]) 1 rs

/-- `FTSAlgorithms::aggScoresAndTakeTopKContexts` for rows (entity, score, context, further columns),
`FTSAlgorithms.cpp:368-428`; `sorted` are the rows after `std::sort`. Only functions that QLever does not call any more use
it (`/repo/src/index/Index.Text.cpp:1249, 1319, 1368`). -/
def aggRows (k : Nat) (sorted : List (List Nat)) : Outcome (List (List Nat)) :=
  match sorted with
  | [] => .ok []
  | r :: rs => rowsLoop k [r] 1 rs

end Verif.FTS
