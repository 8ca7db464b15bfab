import Verif.Model.ResultTable
/-
Model of GROUP BY: `GroupBy::doGroupBy`, `GroupBy::processGroup`, `GroupBy::computeResult`, `GroupBy::computeSortColumns` and the
planner's `getGroupByRow`.

Simplifications: timeouts and run time information are left out; `distinctHashSet` is the list of its elements; `float` is an
abstract type with the operations the code uses, and the strings behind ids (vocabulary, text excerpts, number formatting) are
abstract functions, collected in `Env`.  The copies of one loop for the result types (VERBATIM, FLOAT, KB, ...) are one
loop with the type dependent step as a function of the type.  Column and row numbers are natural numbers.
-/
namespace Verif.GroupBy
open Verif.ResultTable

/-- `ParsedQuery::AggregateType` (/repo/src/parser/ParsedQuery.h:260-270). -/
inductive AggregateType where
  | count | groupConcat | first | last | sample | min | max | sum | avg
  deriving DecidableEq, Repr

/-- `GroupBy::Aggregate` (/repo/src/engine/GroupBy.h:24-32); `delim` is what `_userData` points to. -/
structure Aggregate where
  type : AggregateType
  inCol : Nat
  outCol : Nat
  delim : List Char
  distinct : Bool
  deriving DecidableEq, Repr

/-- What `processGroup` uses of `float`, of the index and of the streams. -/
structure Env (F : Type) where
  /-- `float res = 0` -/
  zero : F
  /-- `quiet_NaN()` -/
  nan : F
  /-- `numeric_limits<float>::lowest()` -/
  lowest : F
  /-- `numeric_limits<float>::max()` -/
  highest : F
  /-- `res += x` -/
  add : F → F → F
  /-- `res /= n` -/
  divBy : F → Nat → F
  /-- `x < y` -/
  lt : F → F → Bool
  /-- conversion of an id to `float` -/
  ofId : Nat → F
  /-- `memcpy(&f, &id, sizeof(float))` -/
  ofBits : Nat → F
  /-- `id = 0; memcpy(&id, &f, sizeof(float))` -/
  toBits : F → Nat
  /-- `index.idToOptionalString(id).value_or("")` -/
  word : Nat → List Char
  /-- `startsWith(entity, VALUE_FLOAT_PREFIX)` -/
  isFloatWord : List Char → Bool
  /-- `convertIndexWordToFloat` -/
  wordToFloat : List Char → F
  /-- `startsWith(entity, VALUE_PREFIX)` -/
  isValueWord : List Char → Bool
  /-- `convertIndexWordToValueLiteral` -/
  wordToLiteral : List Char → List Char
  /-- `index.getTextExcerpt` -/
  excerpt : Nat → List Char
  /-- `out << id` -/
  showId : Nat → List Char
  /-- `out << f` -/
  showFloat : F → List Char
  /-- `inTable->idToOptionalString(id).value_or("")` -/
  localWord : Nat → List Char

variable {F : Type}

/-- What a value contributes to SUM and AVG; `none` means that the result becomes NaN and the loop ends
(/repo/src/engine/GroupBy.cpp:198, 205, 217-218, 225-226, 241-248, 257-264 and the same in SUM, 518-591). -/
def addend (env : Env F) (type : RT) (v : Nat) : Option F :=
  match type with
  | .verbatim => some (env.ofId v)
  | .float => some (env.ofBits v)
  | .text | .localVocab => none
  | .kb => if !env.isFloatWord (env.word v) then none else some (env.wordToFloat (env.word v))

/-- The loops of SUM and AVG over `k` rows from `i` on (GroupBy.cpp:191-266, 518-591). -/
def sumLoop (env : Env F) (type : RT) (distinct : Bool) (t : Table) (c : Nat) : Nat → Nat → List Nat → F → Outcome F
  | _, 0, _, res => .ok res
  | i, k + 1, seen, res => (t.at i c).bind fun v =>
    if distinct && seen.contains v then sumLoop env type distinct t c (i + 1) k seen res
    else match addend env type v with
      | none => .ok env.nan
      | some x => sumLoop env type distinct t c (i + 1) k (if distinct then v :: seen else seen) (env.add res x)

/-- The sum of SUM and AVG with their cases for the types: for TEXT and LOCAL_VOCAB the loop is not entered
(GroupBy.cpp:229-231, 554-556). -/
def sumOf (env : Env F) (type : RT) (distinct : Bool) (t : Table) (c i k : Nat) : Outcome F :=
  match type with
  | .text | .localVocab => .ok env.nan
  | type => sumLoop env type distinct t c i k [] env.zero

/-- The loop of COUNT DISTINCT (GroupBy.cpp:276-286). -/
def countLoop (t : Table) (c : Nat) : Nat → Nat → List Nat → Nat → Outcome Nat
  | _, 0, _, count => .ok count
  | i, k + 1, seen, count => (t.at i c).bind fun v =>
    if seen.contains v then countLoop t c (i + 1) k seen count else countLoop t c (i + 1) k (v :: seen) (count + 1)

/-- How GROUP_CONCAT writes a value (GroupBy.cpp:301, 324-325, 350, 373-375, 403-410). -/
def render (env : Env F) (type : RT) (v : Nat) : List Char :=
  match type with
  | .verbatim => env.showId v
  | .float => env.showFloat (env.ofBits v)
  | .text => env.excerpt v
  | .localVocab => env.localWord v
  | .kb => if env.isValueWord (env.word v) then env.wordToLiteral (env.word v) else env.word v

/-- The loops of GROUP_CONCAT over all rows but the last: values with the delimiter behind each
(GroupBy.cpp:296-303, 310-313 and the copies for the other types).  Returns the hash set and the stream. -/
def concatLoop (env : Env F) (type : RT) (distinct : Bool) (delim : List Char) (t : Table) (c : Nat) :
    Nat → Nat → List Nat → List Char → Outcome (List Nat × List Char)
  | _, 0, seen, out => .ok (seen, out)
  | i, k + 1, seen, out => (t.at i c).bind fun v =>
    if distinct && seen.contains v then concatLoop env type distinct delim t c (i + 1) k seen out
    else concatLoop env type distinct delim t c (i + 1) k (if distinct then v :: seen else seen)
      (out ++ render env type v ++ delim)

/-- The string of GROUP_CONCAT (GroupBy.cpp:291-448): for distinct VERBATIM values the delimiter is also written behind the last
value (305-307). -/
def concatOf (env : Env F) (type : RT) (distinct : Bool) (delim : List Char) (t : Table) (c blockStart blockEnd : Nat) :
    Outcome (List Char) :=
  (concatLoop env type distinct delim t c blockStart (blockEnd - blockStart) [] []).bind fun (seen, out) =>
    (t.at blockEnd c).bind fun v =>
      if distinct then
        if seen.contains v then .ok out
        else .ok (out ++ render env type v ++ if type = .verbatim then delim else [])
      else .ok (out ++ render env type v)

/-- The loops of MAX and MIN on ids: `res = pick(res, input(i, inCol))` (GroupBy.cpp:455-458, 475-478, 485-488, 505-508). -/
def pickLoop (pick : Nat → Nat → Nat) (t : Table) (c : Nat) : Nat → Nat → Nat → Outcome Nat
  | _, 0, res => .ok res
  | i, k + 1, res => (t.at i c).bind fun v => pickLoop pick t c (i + 1) k (pick res v)

/-- The loops of MAX and MIN on floats (GroupBy.cpp:461-468, 491-498). -/
def pickLoopF (env : Env F) (pick : F → F → F) (t : Table) (c : Nat) : Nat → Nat → F → Outcome F
  | _, 0, res => .ok res
  | i, k + 1, res => (t.at i c).bind fun v => pickLoopF env pick t c (i + 1) k (pick res (env.ofBits v))

/-- `std::max(a, b)` and `std::min(a, b)` on floats. -/
def fmax (env : Env F) (a b : F) : F := if env.lt a b then b else a
def fmin (env : Env F) (a b : F) : F := if env.lt b a then b else a

/-- `processGroup` (GroupBy.cpp:176-607) for the rows `blockStart` to `blockEnd`, both included: the id to be written and the local
vocabulary afterwards. -/
def processGroup (env : Env F) (a : Aggregate) (blockStart blockEnd : Nat) (t : Table) (types : List RT)
    (vocab : List (List Char)) : Outcome (Nat × List (List Char)) :=
  let size := blockEnd - blockStart + 1
  match a.type with
  | .avg => (Outcome.read types a.inCol).bind fun type =>
    (sumOf env type a.distinct t a.inCol blockStart size).map fun res => (env.toBits (env.divBy res size), vocab)
  | .count =>
    if a.distinct then (countLoop t a.inCol blockStart size [] 0).map fun n => (n, vocab) else .ok (size, vocab)
  | .groupConcat => (Outcome.read types a.inCol).bind fun type =>
    (concatOf env type a.distinct a.delim t a.inCol blockStart blockEnd).map fun s => (vocab.length, vocab ++ [s])
  | .max => (Outcome.read types a.inCol).bind fun type => match type with
    | .float => (pickLoopF env (fmax env) t a.inCol blockStart size env.lowest).map fun f => (env.toBits f, vocab)
    | .text | .localVocab => .ok (ID_NO_VALUE, vocab)
    | _ => (pickLoop Nat.max t a.inCol blockStart size 0).map fun v => (v, vocab)
  | .min => (Outcome.read types a.inCol).bind fun type => match type with
    | .float => (pickLoopF env (fmin env) t a.inCol blockStart size env.highest).map fun f => (env.toBits f, vocab)
    | .text | .localVocab => .ok (ID_NO_VALUE, vocab)
    | _ => (pickLoop Nat.min t a.inCol blockStart size (2 ^ 64 - 1)).map fun v => (v, vocab)
  | .sample => (t.at blockEnd a.inCol).map fun v => (v, vocab)
  | .sum => (Outcome.read types a.inCol).bind fun type =>
    (sumOf env type a.distinct t a.inCol blockStart size).map fun res => (env.toBits res, vocab)
  | .first => (t.at blockStart a.inCol).map fun v => (v, vocab)
  | .last => (t.at blockEnd a.inCol).map fun v => (v, vocab)

/-- `(*result)(resultRow, outCol) = v` on the row just appended. -/
def writeCell (row : Row) (c v : Nat) : Outcome Row := if c < row.length then .ok (row.set c v) else .ub

/-- `for (a : aggregates) processGroup(a, ...)` (GroupBy.cpp:631-634, 663-666, 678-681). -/
def processAll (env : Env F) (blockStart blockEnd : Nat) (t : Table) (types : List RT) :
    List Aggregate → Row → List (List Char) → Outcome (Row × List (List Char))
  | [], row, vocab => .ok (row, vocab)
  | a :: as, row, vocab => (processGroup env a blockStart blockEnd t types vocab).bind fun (v, vocab) =>
    (writeCell row a.outCol v).bind fun row => processAll env blockStart blockEnd t types as row vocab

/-- `input(pos, col)` for all group by columns. -/
def readKey (t : Table) (pos : Nat) : List Nat → Outcome (List Nat)
  | [] => .ok []
  | c :: cs => (t.at pos c).bind fun v => (readKey t pos cs).map (v :: ·)

/-- Does row `pos` have the values of `currentGroupBlock` (GroupBy.cpp:650-657)? -/
def rowMatches (t : Table) (pos : Nat) : List (Nat × Nat) → Outcome Bool
  | [] => .ok true
  | (c, cur) :: cs => (t.at pos c).bind fun v => if v ≠ cur then .ok false else rowMatches t pos cs

/-- State of the loop over the rows. -/
structure St where
  blockStart : Nat
  current : List (Nat × Nat)
  result : Table
  vocab : List (List Char)
  deriving DecidableEq, Repr

/-- One iteration of the loop over the rows (GroupBy.cpp:648-673); `fresh` is what `emplace_back` puts into the new row. -/
def step (env : Env F) (fresh : Row) (t : Table) (types : List RT) (aggs : List Aggregate) (pos : Nat) (s : St) : Outcome St :=
  (rowMatches t pos s.current).bind fun m =>
    if m then .ok s
    else
      let blockEnd := pos - 1
      (processAll env s.blockStart blockEnd t types aggs fresh s.vocab).bind fun (row, vocab) =>
        (readKey t pos (s.current.map (·.1))).bind fun key =>
          .ok ⟨pos, (s.current.map (·.1)).zip key, s.result ++ [row], vocab⟩

/-- `for (size_t pos = 1; pos < input.size(); pos++)` -/
def rows (env : Env F) (fresh : Row) (t : Table) (types : List RT) (aggs : List Aggregate) : Nat → Nat → St → Outcome St
  | _, 0, s => .ok s
  | pos, k + 1, s => (step env fresh t types aggs pos s).bind fun s => rows env fresh t types aggs (pos + 1) k s

/-- `doGroupBy` (GroupBy.cpp:609-684). -/
def doGroupBy (env : Env F) (fresh : Row) (t : Table) (types : List RT) (groupByCols : List Nat) (aggs : List Aggregate) :
    Outcome (Table × List (List Char)) :=
  if t.length = 0 then .ok ([], [])
  else if groupByCols = [] then
    let blockEnd := t.length
    (processAll env 0 blockEnd t types aggs fresh []).map fun (row, vocab) => ([row], vocab)
  else
    (readKey t 0 groupByCols).bind fun key =>
      (rows env fresh t types aggs 1 (t.length - 1) ⟨0, groupByCols.zip key, [], []⟩).bind fun s =>
        let blockEnd := t.length - 1
        (processAll env s.blockStart blockEnd t types aggs fresh s.vocab).map fun (row, vocab) => (s.result ++ [row], vocab)

/-- The parts of `ParsedQuery::Alias` used here (/repo/src/parser/ParsedQuery.h:299-); only aggregate aliases reach the operation
(GroupBy.cpp:18-22). -/
structure Alias where
  type : AggregateType
  inVar : String
  outVar : String
  distinct : Bool
  delim : List Char
  deriving DecidableEq, Repr

/-- `_varColMap` as the constructor fills it (GroupBy.cpp:32-41): a later entry overwrites an earlier one.  The two lists are in the
order after sorting (24-30). -/
def varColMap (groupVars : List String) (aliases : List Alias) (v : String) : Option Nat :=
  ((groupVars ++ aliases.map (·.outVar)).zipIdx.reverse.find? fun p => p.1 = v).map (·.2)

/-- `getResultWidth` (GroupBy.cpp:77): the number of different names. -/
def resultWidth (groupVars : List String) (aliases : List Alias) : Nat :=
  (groupVars ++ aliases.map (·.outVar)).eraseDups.length

/-- The aggregates of `computeResult` (GroupBy.cpp:693-738), for a subtree with the columns `sub`; `none`: a name has no column
(exception for a group by variable, early return for an alias). -/
def aggregates (groupVars : List String) (aliases : List Alias) (sub : String → Option Nat) : Option (List Aggregate) :=
  (groupVars.mapM fun v => (sub v).bind fun c => (varColMap groupVars aliases v).map fun o =>
    (⟨.sample, c, o, [], false⟩ : Aggregate)).bind fun g =>
  (aliases.mapM fun a => (sub a.inVar).bind fun c => (varColMap groupVars aliases a.outVar).map fun o =>
    (⟨a.type, c, o, if a.type = .groupConcat then a.delim else [], a.distinct⟩ : Aggregate)).map fun l => g ++ l

/-- The type of a result column (GroupBy.cpp:747-777). -/
def resultType (types : List RT) (a : Aggregate) : Outcome RT :=
  match a.type with
  | .avg | .sum => .ok .float
  | .count => .ok .verbatim
  | .groupConcat => .ok .localVocab
  | .max | .min | .sample => Outcome.read types a.inCol
  | .first | .last => .ok .kb

/-- The types of the first `n` aggregates (GroupBy.cpp:747-777). -/
def resultTypes (types : List RT) : Nat → List Aggregate → Outcome (List RT)
  | 0, _ => .ok []
  | _ + 1, [] => .ub
  | n + 1, a :: as => (resultType types a).bind fun ty => (resultTypes types n as).map (ty :: ·)

/-- `computeResult` (GroupBy.cpp:686-824) for a subtree with the columns `sub` and the result `t`: rows, local vocabulary and types.
A group by variable without column is an exception (699-706), an alias on a variable without column ends the function early with an
empty result (731-735). -/
def computeResult (env : Env F) (fresh : Row) (groupVars : List String) (aliases : List Alias) (sub : String → Option Nat)
    (t : Table) (types : List RT) : Outcome (Table × List (List Char) × List RT) :=
  match groupVars.mapM sub with
  | none => .throw
  | some groupByCols =>
    match aggregates groupVars aliases sub with
    | none => .ok ([], [], [])
    | some aggs => (resultTypes types (resultWidth groupVars aliases) aggs).bind fun tys =>
      (doGroupBy env fresh t types groupByCols aggs).map fun (rows, vocab) => (rows, vocab, tys)

/-- The columns the input has to be sorted on (`computeSortColumns`, GroupBy.cpp:89-118), without repetitions. -/
def sortColumns (groupByCols : List Nat) (aggs : List Aggregate) : List Nat :=
  if groupByCols = [] then [] else (groupByCols ++ aggs.map (·.inCol)).eraseDups

/-- `QueryPlanner::getGroupByRow` (/repo/src/engine/QueryPlanner.cpp:993-1035): the input is sorted with OrderBy unless the plan
declares an order that starts with the sort columns. -/
def GroupByRow (env : Env F) (fresh : Row) (sortedOn : List Nat) (t : Table) (types : List RT) (groupByCols : List Nat)
    (aliases : List Aggregate) (aggs : List Aggregate) (o : Outcome (Table × List (List Char))) : Prop :=
  let sortCols := sortColumns groupByCols aliases
  if sortCols = [] ∨ Modifiers.isSorted sortedOn sortCols then o = doGroupBy env fresh t types groupByCols aggs
  else ∃ o', Modifiers.OrderByOp (sortCols.map fun c => (c, false)) t o' ∧
    o = o'.bind fun t' => doGroupBy env fresh t' types groupByCols aggs

end Verif.GroupBy
