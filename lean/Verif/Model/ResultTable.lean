import Verif.Model.Modifiers
import Verif.Model.Join
import Verif.Model.Minus
/-
Model of the parts of `ResultTable` that decide how a cell is shown: result types and the local vocabulary (strings that
GROUP_CONCAT generates), and of how some operations fill them.
-/
namespace Verif.ResultTable

/-- `ResultTable::ResultType` (/repo/src/engine/ResultTable.h:24-41). -/
inductive RT where
  | kb | verbatim | text | float | localVocab
  deriving DecidableEq, Repr

/-- `ResultTable` (ResultTable.h:44-105); a fresh one has an empty local vocabulary (ResultTable.cpp:9-13). -/
structure Result where
  data : Table
  types : List RT
  localVocab : List String
  deriving DecidableEq, Repr

/-- What the export writes for the cell of a LOCAL_VOCAB column (/repo/src/engine/QueryExecutionTree.cpp:248-251, 300-303 and
`idToOptionalString`, ResultTable.h:80-87). -/
def idToOptionalString (r : Result) (id : Nat) : Option String := r.localVocab[id]?

/-- `Distinct::computeResult` (/repo/src/engine/Distinct.cpp:40-58) for an input of width `w`. -/
def distinctResult (w : Nat) (keep : List Nat) (sub : Result) : Outcome Result :=
  (Modifiers.distinct w keep sub.data).map fun d => ⟨d, sub.types, sub.localVocab⟩

/-- `Sort::computeResult` (/repo/src/engine/Sort.cpp:74-84). -/
def SortResult (c : Nat) (sub : Result) (o : Outcome Result) : Prop :=
  ∃ d, Modifiers.SortOp c sub.data d ∧ o = d.map fun d => ⟨d, sub.types, sub.localVocab⟩

/-- `OrderBy::computeResult` (/repo/src/engine/OrderBy.cpp:98-123). -/
def OrderByResult (keys : List (Nat × Bool)) (sub : Result) (o : Outcome Result) : Prop :=
  ∃ d, Modifiers.OrderByOp keys sub.data d ∧ o = d.map fun d => ⟨d, sub.types, sub.localVocab⟩

/-- `Join::computeResult` without full scan dummy (/repo/src/engine/Join.cpp:93-132): the local vocabulary of the result stays
empty. -/
def joinResult (fuel : Nat) (left : Result) (jc1 : Nat) (right : Result) (jc2 : Nat) : Outcome Result :=
  (Join.join fuel left.data jc1 right.data jc2).map fun d => ⟨d, left.types ++ right.types.eraseIdx jc2, []⟩

/-- `Minus::computeResult` (/repo/src/engine/Minus.cpp:48-83): the local vocabulary of the result stays empty. -/
def minusResult (fuel : Nat) (left right : Result) (jcs : MultiJoin.JoinCols) : Outcome Result :=
  (Minus.computeMinus fuel left.data right.data jcs).map fun d => ⟨d, left.types, []⟩

end Verif.ResultTable
