import Verif.Model.TextIndexTerms
import Verif.Model.TextAggregate
import Verif.Model.StringUtils
/-
Model of the text operations of a query: how the planner makes them from the triples with `ql:contains-word` and
`ql:contains-entity` (/repo/src/engine/QueryPlanner.cpp:2495-2536, QueryPlanner.h:43-65), and what they return
(/repo/src/engine/TextOperationWithoutFilter.cpp, TextOperationWithFilter.cpp, /repo/src/index/Index.Text.cpp:533-793).

Simplifications: a variable is its name; `std::set` is a list without repetitions, in the order of its iteration.
-/
namespace Verif.TextIndex
open Verif.TextMetaData

/-- `isVariable` (/repo/src/parser/ParsedQuery.h:83-85): the string begins with a question mark. -/
def isVariable (s : Str) : Bool := s.head? == some '?'

/-- The fields of `TextOperationWithoutFilter` (TextOperationWithoutFilter.h:67-71): the words, the variables with that for
the text record, and the greatest number of records for a tuple of entities. -/
structure TextOp where
  words : Str
  vars : List Str
  cvar : Str
  limit : Nat

/-- `wordPart` of `collapseTextCliques` (QueryPlanner.cpp:2514-2535) for the objects of the triples with the same text record. -/
def wordPart (objects : List Str) : Str :=
  objects.foldl (fun part o => if isVariable o then part else (if part.length > 0 then part ++ [' '] else part) ++ o) []

/-- The text operation for the triples of a text record (QueryPlanner.cpp:2536, QueryPlanner.h:43-65, getTextLeafPlan in
QueryPlanner.cpp:1826-1839). -/
structure IsPlan (x : Str) (objects : List Str) (op : TextOp) : Prop where
  cvar : op.cvar = x
  words : op.words = wordPart objects
  distinct : op.vars.Nodup
  vars : ∀ v, v ∈ op.vars ↔ v = x ∨ v ∈ objects ∧ isVariable v = true

/-- `getNofVars` (TextOperationWithoutFilter.h:47-50, TextOperationWithFilter.h:48-51); `_variables` is not empty. -/
def TextOp.nofVars (op : TextOp) : Nat := op.vars.length - 1

/-- The name of the column for the score (TextOperationWithoutFilter.cpp:34). -/
def scoreName (cvar : Str) : Str := "SCORE(".toList ++ cvar ++ ")".toList

/-- A map from variables to columns; the first entry of a variable counts. -/
abbrev Columns := List (Str × Nat)

/-- `TextOperationWithoutFilter::getResultWidth` (TextOperationWithoutFilter.cpp:12-15) -/
def TextOp.width (op : TextOp) : Nat := 2 + op.nofVars

/-- `TextOperationWithoutFilter::getVariableColumns` (TextOperationWithoutFilter.cpp:30-42) -/
def TextOp.cols (op : TextOp) : Columns :=
  [(op.cvar, 0), (scoreName op.cvar, 1)] ++ (op.vars.filter (· ≠ op.cvar)).zipIdx 2

/-- What a text operation works with: the text index and the orders in which hash maps are iterated. -/
structure Source where
  fuel : Nat
  file : List Nat
  meta_ : TextMeta
  C : Collation.Comparator
  vocab : List Str
  kb : Str → Option Nat
  one : FTS.Orders Nat
  several : FTS.Orders (List Nat)

/-- The entities for the words, with something done with the lists (Index.Text.cpp:697-723). -/
def Source.withLists (S : Source) (terms : List Str) (f : FTS.Triple → Outcome (List α)) (out : Outcome (List α)) : Prop :=
  ∃ lists, Answer S.fuel S.file S.meta_ S.C S.vocab S.kb terms lists ∧ out = lists.bind f

/-- The words are split at spaces first (Index.Text.cpp:536, 643). -/
def Source.split (S : Source) (words : Str) (f : List Str → Outcome (List α) → Prop) (out : Outcome (List α)) : Prop :=
  match StringUtils.split S.fuel words ' ' with
  | .ok terms => f terms out
  | .throw => out = .throw
  | .ub => out = .ub
  | .diverge => out = .diverge

/-- `TextOperationWithoutFilter::computeResult` (TextOperationWithoutFilter.cpp:62-108) with `getContextListForWords`,
`getECListForWordsOneVar` and `getECListForWords` (Index.Text.cpp:533-570, 697-723): what may be returned. -/
def TextOp.Result (op : TextOp) (S : Source) : Outcome (List (List Nat)) → Prop :=
  S.split op.words fun terms out =>
    if op.nofVars = 0 then
      out = (recordsWith S.fuel S.file S.meta_ S.C S.vocab S.kb terms).map fun r => List.zipWith (fun c s => [c, s]) r.1 r.2
    else if op.nofVars = 1 then S.withLists terms (fun l => FTS.aggScores S.one l.cids l.eids l.scores op.limit) out
    else S.withLists terms (fun l => FTS.multVarsAgg S.several l.cids l.eids l.scores op.nofVars op.limit) out

/-- The operation that filters the entities of a variable: its result, the width of it, its columns and the column of the
variable. -/
structure Sub where
  table : List (List Nat)
  width : Nat
  cols : Columns
  column : Nat

/-- `TextOperationWithFilter::getResultWidth` (TextOperationWithFilter.cpp:13-15) -/
def TextOp.filteredWidth (op : TextOp) (F : Sub) : Nat := 1 + op.nofVars + F.width

/-- The variables that the filter does not have (TextOperationWithFilter.cpp:43-48). -/
def TextOp.own (op : TextOp) (F : Sub) : List Str :=
  (op.vars.filter (· ≠ op.cvar)).filter fun v => (F.cols.lookup v).isNone

/-- `TextOperationWithFilter::getVariableColumns` (TextOperationWithFilter.cpp:34-54); the assignments for the variables of
the filter are the last ones. -/
def TextOp.filteredCols (op : TextOp) (F : Sub) : Columns :=
  F.cols.map (fun p => (p.1, 2 + (op.own F).length + p.2)) ++ ([(op.cvar, 0), (scoreName op.cvar, 1)] ++ (op.own F).zipIdx 2)

/-- `TextOperationWithFilter::computeResult` (TextOperationWithFilter.cpp:79-105) with `getFilteredECListForWords` and
`getFilteredECListForWordsWidthOne` (Index.Text.cpp:726-793): what may be returned.  A cell that is `none` has not been
written. -/
def TextOp.FilteredResult (op : TextOp) (F : Sub) (S : Source) (out : Outcome (List (List (Option Nat)))) : Prop :=
  if op.nofVars < 1 then out = .throw
  else if F.width = 1 then
    S.split op.words (fun terms out =>
      if op.nofVars = 1 then
        S.withLists terms (fun l => (FTS.oneVarFilterSet S.one l.cids l.eids l.scores (F.table.map (·.headD 0)) op.limit).map
          fun rows => rows.map (·.map some)) out
      else S.withLists terms (fun l =>
        FTS.multVarsFilterSet S.several l.cids l.eids l.scores (F.table.map (·.headD 0)) op.nofVars op.limit) out) out
  else if F.table = [] then out = .ok []
  else
    S.split op.words (fun terms out =>
      if op.nofVars = 1 then
        S.withLists terms (fun l => (FTS.oneVarFilterMap S.one l.cids l.eids l.scores F.table F.column op.limit).map
          fun rows => rows.map (·.map some)) out
      else S.withLists terms (fun l =>
        (FTS.multVarsFilterMap S.several l.cids l.eids l.scores F.table F.column op.nofVars op.limit).map
          fun rows => rows.map (·.map some)) out) out

end Verif.TextIndex
