import Verif.Model.Export
import Verif.Model.GroupBy
/-
Model of the run time information in responses: class `RuntimeInformation` (/repo/src/engine/RuntimeInformation.h) and its use in
`Operation::getResult` and `Operation::createRuntimeInformation` (/repo/src/engine/Operation.cpp, Operation.h).

Simplifications: times are whole milliseconds, which doubles hold exactly below 2^53.  An operation is given by what its virtual
functions return; the number of rows of a result is a function of the cache key (equal keys have equal results).  `children` are the
subtrees whose result `computeResult` asks for, in the order of the calls of `addChild`.  The cache is used by one
query at a time (C46, C47 are about threads), each object of an operation computes its result at most once, and nothing is pinned.
-/
namespace Verif.RuntimeInfo
open JsonSpec
open Server (Str decimal)

/-- `class RuntimeInformation`, RuntimeInformation.h:150-160 -/
inductive Info where
  | mk (time : Int) (rows cols : Nat) (wasCached : Bool) (descriptor : Str) (columnNames : List Str) (details : List (Str × Json))
    (children : List Info)

namespace Info

def time : Info → Int | mk t _ _ _ _ _ _ _ => t
def rows : Info → Nat | mk _ n _ _ _ _ _ _ => n
def cols : Info → Nat | mk _ _ w _ _ _ _ _ => w
def wasCached : Info → Bool | mk _ _ _ b _ _ _ _ => b
def descriptor : Info → Str | mk _ _ _ _ d _ _ _ => d
def columnNames : Info → List Str | mk _ _ _ _ _ n _ _ => n
def details : Info → List (Str × Json) | mk _ _ _ _ _ _ d _ => d
def children : Info → List Info | mk _ _ _ _ _ _ _ c => c

/-- `getChildrenTime`, RuntimeInformation.h:122-128 -/
def childrenTime (i : Info) : Int := (i.children.map time).sum

/-- `getOperationTime`, RuntimeInformation.h:113-119 -/
def operationTime (i : Info) : Int := if i.wasCached then i.time else i.time - i.childrenTime

end Info

/-- The assignments of `setColumnNames` in the order of iteration, RuntimeInformation.h:92-94.  `operator[]` of a vector checks
nothing. -/
def assignNames (names : List α) : List (α × Nat) → Outcome (List α)
  | [] => .ok names
  | (v, c) :: l => if c < names.length then assignNames (names.set c v) l else .ub

/-- `setColumnNames`, RuntimeInformation.h:89-95, for the entries of the hash map in the order of iteration.  `blank` is the empty string. -/
def setColumnNames (blank : α) (m : List (α × Nat)) : Outcome (List α) := assignNames (List.replicate m.length blank) m

/-- How `dump` writes a `double` that is a whole number. -/
def double (t : Int) : Str := (if t < 0 then ['-'] else []) ++ decimal t.natAbs ++ ".0".toList

mutual
/-- `to_json`, RuntimeInformation.h:163-176.  The members are sorted by name when the value is assigned to a `json`, Server.cpp:386. -/
def toJson : Info → Json
  | .mk time rows cols wasCached descriptor columnNames details children => .obj [
    ("children".toList, .arr (toJsons children)),
    ("column_names".toList, .arr (columnNames.map .str)),
    ("description".toList, .str descriptor),
    ("details".toList, .obj details),
    ("operation_time".toList, .num (double (if wasCached then time else time - (children.map Info.time).sum))),
    ("result_cols".toList, .num (decimal cols)),
    ("result_rows".toList, .num (decimal rows)),
    ("total_time".toList, .num (double time)),
    ("was_cached".toList, .bool wasCached)]
def toJsons : List Info → List Json
  | [] => []
  | i :: l => toJson i :: toJsons l
end

/-- An operation: `asString`, `getDescriptor`, `getVariableColumns` in the order of iteration, `getResultWidth`, the details that
`computeResult` adds, its children, and the microseconds that this call of `getResult` takes without its children if the result is computed
or read from the cache. -/
inductive Op where
  | mk (key : Str) (descriptor : Str) (columns : List (Str × Nat)) (width : Nat) (notes : List (Str × Json)) (work lookup : Nat)
    (children : List Op)

/-- `CacheValue` (/repo/src/engine/QueryExecutionContext.h:24-41): the number of rows of the result, and `_runtimeInfo`. -/
structure Value where
  rows : Nat
  info : Info

abbrev Cache := List (Str × Value)

/-- What happens outside the operations: the numbers of rows of results, and what the cache keeps after an insertion. -/
structure Env where
  rows : Str → Nat
  keep : Cache → Cache

/-- The run time information of an operation when `computeResult` has returned (Operation.cpp:91-108): only its children and details have been
added. -/
def computed (notes : List (Str × Json)) (children : List Info) : Info := .mk 0 0 0 false [] [] notes children

/-- `createRuntimeInformation`, Operation.h:165-193 -/
def create (descriptor : Str) (columns : List (Str × Nat)) (width : Nat) (v : Value) (wasCached : Bool) (usecs : Nat) : Outcome Info :=
  (setColumnNames [] columns).map fun names =>
    .mk (usecs / 1000 : Nat) v.rows width wasCached descriptor names
      [("original_operation_time".toList, .num (double v.info.operationTime)), ("original_total_time".toList, .num (double v.info.time))]
      v.info.children

mutual
/-- `Operation::getResult`, Operation.cpp:59-114: the cache afterwards, the run time information of the operation, and the microseconds
of the call. -/
def getResult (E : Env) (c : Cache) : Op → Outcome (Cache × Info × Nat)
  | .mk key descriptor columns width notes work lookup children =>
    match c.lookup key with
    | some v => (create descriptor columns width v true lookup).map fun i => (c, i, lookup)
    | none =>
      (getResults E c children).bind fun (c', infos, t) =>
        let v : Value := ⟨E.rows key, computed notes infos⟩
        (create descriptor columns width v false (work + t)).map fun i => (E.keep ((key, v) :: c'), i, work + t)
/-- `getResult` of the subtrees, and `addChild` of their run time information -/
def getResults (E : Env) (c : Cache) : List Op → Outcome (Cache × List Info × Nat)
  | [] => .ok (c, [], 0)
  | o :: l =>
    (getResult E c o).bind fun (c', i, t) => (getResults E c' l).map fun (c'', is, u) => (c'', i :: is, t + u)
end

/-- Queries that are executed one after another, each with its root operation. -/
def queries (E : Env) (c : Cache) : List Op → Outcome (Cache × List Info)
  | [] => .ok (c, [])
  | o :: l => (getResult E c o).bind fun (c', i, _) => (queries E c' l).map fun (c'', is) => (c'', i :: is)

end Verif.RuntimeInfo
