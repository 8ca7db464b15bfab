import Verif.Model.CompactStringVector
import Verif.Model.MetaData
import Verif.Model.Filter
/-
Model of the predicate patterns: `createPatternsImpl` and the reading of the patterns file in `createFromOnDiskIndex`
(`src/index/Index.cpp`), the scans of `ql:has-predicate` (`src/engine/HasPredicateScan.cpp`) and the pattern trick
(`src/engine/CountAvailablePredicates.cpp`).
-/
namespace Verif.Patterns
open Verif.Bytes Verif.MetaData

/-- A triple of ids. -/
abbrev Triple := Nat × Nat × Nat

/-- `Pattern` (Pattern.h:30-87). -/
abbrev Pattern := List Nat

/-- `NO_PATTERN` (Pattern.h:18). -/
def NO_PATTERN : Nat := 2 ^ 32 - 1

/-- `Pattern::operator>` (Pattern.h:67-75). -/
def Pattern.gt : Pattern → Pattern → Bool
  | _, [] => true
  | [], _ => false
  | a :: _, b :: _ => a > b

/-- `patternCounts[pattern]++` for the hash map from patterns to counts. -/
def bump : List (Pattern × Nat) → Pattern → List (Pattern × Nat)
  | [], p => [(p, 1)]
  | e :: m, p => if e.1 = p then (p, e.2 + 1) :: m else e :: bump m p

/-- Adding the predicate of a triple to the pattern of the current subject (Index.cpp:593-599, 722-728; the second place uses
`patternIndex = pattern.size()`).  `lo` and `hi` are the bounds of the language predicates. -/
def extend (lo hi : Nat) (pattern : Pattern) (p : Nat) : Pattern :=
  if pattern = [] ∨ pattern.getLast? ≠ some p then
    if p < lo ∨ p ≥ hi then pattern ++ [p] else pattern
  else pattern

/-- The first loop (Index.cpp:584-602): counts of the patterns. -/
def countPatterns (lo hi : Nat) (cur : Nat) (pattern : Pattern) (counts : List (Pattern × Nat)) : List Triple → List (Pattern × Nat)
  | [] => bump counts pattern
  | t :: ts =>
    if t.1 ≠ cur then countPatterns lo hi t.1 (extend lo hi [] t.2.1) (bump counts pattern) ts
    else countPatterns lo hi cur (extend lo hi pattern t.2.1) counts ts

/-- `comparePatternCounts` (Index.cpp:616-621). -/
def compareCounts (a b : Pattern × Nat) : Bool := a.2 > b.2 || (a.2 == b.2 && Pattern.gt a.1 b.1)

/-- `l'` is a result of `std::sort` on `l` with `comparePatternCounts`. -/
def SortedCounts (l l' : List (Pattern × Nat)) : Prop := l'.Perm l ∧ l'.Pairwise fun a b => compareCounts b a = false

/-- The loop that selects the most frequent patterns (Index.cpp:622-643).  `counts` are the remaining entries of the hash map,
`sorted` is `sortedPatterns`. -/
inductive Select (maxNum : Nat) : List (Pattern × Nat) → List (Pattern × Nat) → Outcome (List (Pattern × Nat)) → Prop
  | done (sorted) : Select maxNum sorted [] (.ok sorted)
  | push {sorted it counts r} : sorted.length < maxNum → sorted.length + 1 ≠ maxNum →
      Select maxNum (sorted ++ [it]) counts r → Select maxNum sorted (it :: counts) r
  | pushSort {sorted sorted' it counts r} : sorted.length < maxNum → sorted.length + 1 = maxNum →
      SortedCounts (sorted ++ [it]) sorted' → Select maxNum sorted' counts r → Select maxNum sorted (it :: counts) r
  | empty {it counts} : ¬ 0 < maxNum → Select maxNum [] (it :: counts) .ub
  | skip {sorted last it counts r} : ¬ sorted.length < maxNum → sorted.getLast? = some last → compareCounts it last = false →
      Select maxNum sorted counts r → Select maxNum sorted (it :: counts) r
  | insert {sorted last it counts pos r} : ¬ sorted.length < maxNum → sorted.getLast? = some last → compareCounts it last = true →
      Filter.partitionPoint (fun x => compareCounts x it) sorted.dropLast = .ok pos →
      Select maxNum (sorted.dropLast.take pos ++ it :: sorted.dropLast.drop pos) counts r → Select maxNum sorted (it :: counts) r
  | insertUb {sorted last it counts} : ¬ sorted.length < maxNum → sorted.getLast? = some last → compareCounts it last = true →
      Filter.partitionPoint (fun x => compareCounts x it) sorted.dropLast = .ub → Select maxNum sorted (it :: counts) .ub

/-- The whole selection, with the last sort (Index.cpp:611-649), for the entries of the hash map in any order. -/
inductive Selected (maxNum : Nat) (counts : List (Pattern × Nat)) : Outcome (List (Pattern × Nat)) → Prop
  | full {order sorted} : order.Perm counts → Select maxNum [] order (.ok sorted) → ¬ sorted.length < maxNum →
      Selected maxNum counts (.ok sorted)
  | sort {order sorted sorted'} : order.Perm counts → Select maxNum [] order (.ok sorted) → sorted.length < maxNum →
      SortedCounts sorted sorted' → Selected maxNum counts (.ok sorted')
  | ub {order} : order.Perm counts → Select maxNum [] order .ub → Selected maxNum counts .ub

/-- `patternSet.find(pattern)` (Index.cpp:662-666): the map holds the position of each pattern. -/
def findPattern (sel : List (Pattern × Nat)) (p : Pattern) : Option Nat := (sel.map Prod.fst).idxOf? p

/-- The state of the second loop. -/
structure Second where
  hasPattern : List (Nat × Nat)
  hasPredicate : List (Nat × Nat)
  fullSize : Nat
  entities : Nat
  predicates : List Nat
  counted : List Nat
  deriving DecidableEq, Repr

/-- Adding predicates to `predicateHashSet`; its size is `fullHasPredicatePredicatesDistinctSize`. -/
def addPredicates (set : List Nat) : List Nat → List Nat
  | [] => set
  | p :: ps => addPredicates (if p ∈ set then set else set ++ [p]) ps

/-- The end of a subject (Index.cpp:684-719, 732-757).  `counted` are the patterns with `haveCountedPattern`; the last subject
does not look at it, which makes no difference. -/
def endSubject (sel : List (Pattern × Nat)) (st : Second) (cur : Nat) (pattern : Pattern) : Second :=
  match findPattern sel pattern with
  | none =>
    { st with entities := st.entities + 1, fullSize := st.fullSize + pattern.length,
              predicates := addPredicates st.predicates pattern,
              hasPredicate := st.hasPredicate ++ pattern.map fun p => (cur, p) }
  | some i =>
    { st with entities := st.entities + 1, fullSize := st.fullSize + pattern.length,
              hasPattern := st.hasPattern ++ [(cur, i)],
              predicates := if i ∈ st.counted then st.predicates else addPredicates st.predicates pattern,
              counted := if i ∈ st.counted then st.counted else i :: st.counted }

/-- The second loop (Index.cpp:696-757). -/
def assignPatterns (lo hi : Nat) (sel : List (Pattern × Nat)) (cur : Nat) (pattern : Pattern) (st : Second) : List Triple → Second
  | [] => endSubject sel st cur pattern
  | t :: ts =>
    if t.1 ≠ cur then assignPatterns lo hi sel t.1 (extend lo hi [] t.2.1) (endSubject sel st cur pattern) ts
    else assignPatterns lo hi sel cur (extend lo hi pattern t.2.1) st ts

/-! ### The lookup vectors -/

/-- Writing an element of a vector. -/
def writeAt (v : List Nat) (i x : Nat) : Outcome (List Nat) := if i < v.length then .ok (v.set i x) else .ub

/-- `while (entityHasPattern[i][0] > pos)` (Index.cpp:844-847), `n` times. -/
def fillGap : Nat → List Nat → Nat → Outcome (List Nat × Nat)
  | 0, v, pos => .ok (v, pos)
  | n + 1, v, pos => (writeAt v pos NO_PATTERN).bind fun v => fillGap n v (pos + 1)

/-- The loop of Index.cpp:843-850; a `PatternID` has 32 bits. -/
def fillPatterns (v : List Nat) (pos : Nat) : List (Nat × Nat) → Outcome (List Nat)
  | [] => .ok v
  | e :: es =>
    (fillGap (e.1 - pos) v pos).bind fun r =>
    (writeAt r.1 r.2 (e.2 % 2 ^ 32)).bind fun v => fillPatterns v (r.2 + 1) es

/-- The vector `hasPattern` (Index.cpp:840-851, 1038-1049). -/
def lookupPatterns (es : List (Nat × Nat)) : Outcome (List Nat) :=
  match es.getLast? with
  | none => .ok []
  | some last => fillPatterns (List.replicate (last.1 + 1) 0) 0 es

/-- Appending to the last element (`hasPredicateTmp.back().push_back`). -/
def appendLast : List (List Nat) → List Nat → List (List Nat)
  | [], _ => []
  | [l], x => [l ++ x]
  | l :: ls, x => l :: appendLast ls x

/-- The loop of Index.cpp:857-868: the inner loop consumes the entries of one subject, then the outer loop increments `i`
again. -/
def fillPredicates (tmp : List (List Nat)) : List (Nat × Nat) → List (List Nat)
  | [] => tmp
  | e :: es =>
    fillPredicates (appendLast tmp (((e :: es).takeWhile fun x => x.1 == e.1).map Prod.snd))
      (((e :: es).dropWhile fun x => x.1 == e.1).drop 1)
termination_by es => es.length
decreasing_by
  simp only [List.length_drop, List.dropWhile_cons, beq_self_eq_true, if_true, List.length_cons]
  have := (List.dropWhile_sublist (fun x : Nat × Nat => x.1 == e.1) (l := es)).length_le
  omega

/-- The vector `hasPredicateTmp` (Index.cpp:853-869, 1051-1067). -/
def lookupPredicates (es : List (Nat × Nat)) : List (List Nat) :=
  match es.getLast? with
  | none => []
  | some last => fillPredicates (List.replicate (last.1 + 1) []) es

/-- The members `_hasPattern`, `_hasPredicate`, `_patterns` (Index.h:502-506) and the statistics. -/
structure Index where
  hasPattern : List Nat
  hasPredicate : CompactStringVector.CSV
  patterns : CompactStringVector.CSV
  fullSize : Nat
  deriving DecidableEq

/-- The statistics behind the multiplicities (Index.cpp:759-764): number of entities and number of predicates. -/
structure Stats where
  fullSize : Nat
  entities : Nat
  predicates : Nat
  deriving DecidableEq, Repr

/-- The patterns file (Index.cpp:805-834); `mult` are the 16 bytes of the two multiplicities. -/
def fileBytes (mult : List Nat) (st : Second) (pats : CompactStringVector.CSV) : List Nat :=
  [255] ++ toLE 4 0 ++ mult ++ toLE 8 st.fullSize ++
  toLE 8 st.hasPattern.length ++ ofArr 8 (st.hasPattern.flatMap fun e => [e.1, e.2]) ++
  toLE 8 st.hasPredicate.length ++ ofArr 8 (st.hasPredicate.flatMap fun e => [e.1, e.2]) ++
  CompactStringVector.write pats

/-- The lookup vectors for given entries. -/
def makeIndex (init : Nat → List Nat) (hasPattern hasPredicate : List (Nat × Nat)) (pats : CompactStringVector.CSV) (fullSize : Nat) :
    Outcome Index :=
  (lookupPatterns hasPattern).bind fun hp =>
  (CompactStringVector.build 8 8 (lookupPredicates hasPredicate) init).map fun hpr => ⟨hp, hpr, pats, fullSize⟩

/-- `createPatternsImpl` (Index.cpp:557-870) for the triples in the order SPO: no file and no vectors for an empty input,
otherwise the members, the file and the statistics.  `init` gives the initial content of allocated memory, `mult` computes the bytes of the two multiplicities. -/
inductive Create (lo hi maxNum : Nat) (init : Nat → List Nat) (mult : Stats → List Nat) :
    List Triple → Outcome (Option (Index × List Nat × Stats)) → Prop
  | empty : Create lo hi maxNum init mult [] (.ok none)
  | ub {t ts} : Selected maxNum (countPatterns lo hi t.1 [] [] (t :: ts)) .ub → Create lo hi maxNum init mult (t :: ts) .ub
  | run {t ts sel} : Selected maxNum (countPatterns lo hi t.1 [] [] (t :: ts)) (.ok sel) →
      Create lo hi maxNum init mult (t :: ts)
        ((CompactStringVector.build 8 8 (sel.map Prod.fst) init).bind fun pats =>
          let st := assignPatterns lo hi sel t.1 [] ⟨[], [], 0, 0, [], []⟩ (t :: ts)
          let stats : Stats := ⟨st.fullSize, st.entities, st.predicates.length⟩
          (makeIndex init st.hasPattern st.hasPredicate pats st.fullSize).map fun ix =>
            some (ix, fileBytes (mult stats) st pats, stats))

/-- Pairs of consecutive elements (`array<Id, 2>`). -/
def toPairs : List Nat → List (Nat × Nat)
  | a :: b :: l => (a, b) :: toPairs l
  | _ => []

/-- Reading `n` pairs; `ub` if the file is too short (indeterminate content in C++). -/
def readPairs (file : List Nat) (off n : Nat) : Outcome (List (Nat × Nat)) :=
  if (pread file off (n * 16)).length = n * 16 then .ok (toPairs (toArr 8 (n * 2) (pread file off (n * 16)))) else .ub

/-- `createFromOnDiskIndex`, the part for patterns (Index.cpp:1000-1070). -/
def loadPatterns (init : Nat → List Nat) (file : List Nat) : Outcome Index :=
  if ofLE (pread file 1 4) ≠ 0 ∨ pread file 0 1 ≠ [255] then .throw
  else
    let fullSize := ofLE (pread file 21 8)
    let n := ofLE (pread file 29 8)
    (readPairs file 37 n).bind fun hasPattern =>
    let off := 37 + n * 16
    let m := ofLE (pread file off 8)
    (readPairs file (off + 8) m).bind fun hasPredicate =>
    (CompactStringVector.load 8 file (off + 8 + m * 16)).bind fun pats =>
    makeIndex init hasPattern hasPredicate pats fullSize

/-! ### Scans for `ql:has-predicate` -/

/-- Reading the predicates of one subject as in all scans (HasPredicateScan.cpp:278-300, 316-336, 351-375, 395-425).  `none`: the id
has no pattern and is beyond the explicit lists. -/
def predicatesOf (ix : Index) (id : Nat) : Outcome (Option (List Nat)) :=
  if id < ix.hasPattern.length ∧ (ix.hasPattern[id]?).getD NO_PATTERN ≠ NO_PATTERN then
    (CompactStringVector.get 8 8 ix.patterns ((ix.hasPattern[id]?).getD NO_PATTERN)).map some
  else if id < ix.hasPredicate.size then (CompactStringVector.get 8 8 ix.hasPredicate id).map some
  else .ok none

/-- `computeFreeS` (HasPredicateScan.cpp:265-303): `n` further ids starting at `id`. -/
def freeSLoop (ix : Index) (obj : Nat) : Nat → Nat → Outcome (List Nat)
  | 0, _ => .ok []
  | n + 1, id =>
    (predicatesOf ix id).bind fun ps =>
    (freeSLoop ix obj n (id + 1)).map fun rest => ((ps.getD []).filter (· = obj)).map (fun _ => id) ++ rest

/-- `computeFreeS`. -/
def computeFreeS (ix : Index) (obj : Nat) : Outcome (List Nat) := freeSLoop ix obj (max ix.hasPattern.length ix.hasPredicate.size) 0

/-- `computeFreeO` (HasPredicateScan.cpp:305-337). -/
def computeFreeO (ix : Index) (subj : Nat) : Outcome (List Nat) := (predicatesOf ix subj).map fun ps => ps.getD []

/-- The loop of `computeFullScan` (HasPredicateScan.cpp:349-377). -/
def fullLoop (ix : Index) : Nat → Nat → Outcome (List (Nat × Nat))
  | 0, _ => .ok []
  | n + 1, id =>
    (predicatesOf ix id).bind fun ps =>
    (fullLoop ix n (id + 1)).map fun rest => (ps.getD []).map (fun p => (id, p)) ++ rest

/-- `computeFullScan`. -/
def computeFullScan (ix : Index) : Outcome (List (Nat × Nat)) := fullLoop ix (max ix.hasPattern.length ix.hasPredicate.size) 0

/-- `computeSubqueryS` (HasPredicateScan.cpp:380-430). -/
def computeSubqueryS (ix : Index) (col : Nat) : List (List Nat) → Outcome (List (List Nat))
  | [] => .ok []
  | row :: rows =>
    (Outcome.read row col).bind fun id =>
    (predicatesOf ix id).bind fun ps =>
    match ps with
    | some ps => (computeSubqueryS ix col rows).map fun rest => ps.map (fun p => row ++ [p]) ++ rest
    | none => .ok []

/-! ### The pattern trick -/

/-- `map[key] += n` for a hash map with default 0. -/
def addTo (m : Map Nat) (k n : Nat) : Map Nat := m.set k ((m.get k).getD 0 + n)

/-- `predicateCounts[p]++` for some predicates. -/
def countAll (m : Map Nat) : List Nat → Map Nat
  | [] => m
  | p :: ps => countAll (addTo m p 1) ps

/-- Counting one subject (CountAvailablePredicates.cpp:189-207, 251-277): counts of predicates and of patterns. -/
def countSubject (ix : Index) (c : Map Nat × Map Nat) (id : Nat) : Outcome (Map Nat × Map Nat) :=
  if id < ix.hasPattern.length ∧ (ix.hasPattern[id]?).getD NO_PATTERN ≠ NO_PATTERN then
    .ok (c.1, addTo c.2 ((ix.hasPattern[id]?).getD NO_PATTERN) 1)
  else if id < ix.hasPredicate.size then
    (CompactStringVector.get 8 8 ix.hasPredicate id).map fun ps => (countAll c.1 ps, c.2)
  else .ok c

/-- The loop of `computePatternTrickAllEntities` (CountAvailablePredicates.cpp:188-208), `n` further ids. -/
def countRange (ix : Index) : Nat → Nat → Map Nat × Map Nat → Outcome (Map Nat × Map Nat)
  | 0, _, c => .ok c
  | n + 1, id, c => (countSubject ix c id).bind fun c => countRange ix n (id + 1) c

/-- The loop of `computePatternTrick` (CountAvailablePredicates.cpp:244-279); `last` is `lastSubject`. -/
def countInput (ix : Index) (last : Nat) (c : Map Nat × Map Nat) : List Nat → Outcome (Map Nat × Map Nat)
  | [] => .ok c
  | s :: ss => if s = last then countInput ix last c ss else (countSubject ix c s).bind fun c => countInput ix s c ss

/-- Adding the predicates of the patterns (CountAvailablePredicates.cpp:212-217, 285-292); `order` is the hash map of pattern
counts in iteration order. -/
def resolve (ix : Index) (m : Map Nat) : List (Nat × Nat) → Outcome (Map Nat)
  | [] => .ok m
  | e :: es =>
    (CompactStringVector.get 8 8 ix.patterns e.1).bind fun ps =>
    resolve ix (ps.foldl (fun m p => addTo m p e.2) m) es

/-- `ID_NO_VALUE` (Id.h). -/
def ID_NO_VALUE : Nat := 2 ^ 64 - 3

/-- The counts from the hash maps in any iteration order. -/
inductive Counts (ix : Index) (c : Outcome (Map Nat × Map Nat)) : Outcome (List (Nat × Nat)) → Prop
  | ok {m order r rows} : c = .ok m → order.Perm m.2 → resolve ix m.1 order = .ok r → rows.Perm r → Counts ix c (.ok rows)
  | resolveUb {m order} : c = .ok m → order.Perm m.2 → resolve ix m.1 order = .ub → Counts ix c .ub
  | ub : c = .ub → Counts ix c .ub

/-- `computePatternTrickAllEntities` (CountAvailablePredicates.cpp:178-224). -/
def TrickAll (ix : Index) : Outcome (List (Nat × Nat)) → Prop :=
  Counts ix (countRange ix (max ix.hasPattern.length ix.hasPredicate.size) 0 ([], []))

/-- `computePatternTrick` (CountAvailablePredicates.cpp:226-300) for the subject column `subjects`. -/
def Trick (ix : Index) (subjects : List Nat) : Outcome (List (Nat × Nat)) → Prop :=
  Counts ix (countInput ix ID_NO_VALUE ([], []) subjects)

end Verif.Patterns
