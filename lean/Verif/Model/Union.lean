import Verif.Model.MultiJoin
/-
Model of `Union`, /repo/src/engine/Union.cpp.

Simplifications: timeouts and log output are left out; hash maps are association lists in iteration order (any order).
-/
namespace Verif.Union
open MultiJoin (VarMap)

/-- `map.find(v)` -/
def find (m : VarMap) (v : String) : Option Nat := (m.find? fun p => p.1 = v).map (·.2)

/-- `Union::getVariableColumns` (Union.cpp:62-75): the map of the left side plus the new variables of the right side, numbered
from the number of variables of the left side on. -/
def variableColumns (left right : VarMap) : VarMap :=
  left ++ ((right.filter fun p => (find left p.1).isNone).zipIdx left.length).map fun q => (q.1.1, q.2)

/-- The constructor (Union.cpp:17-38): `_columnOrigins`; `none` is `NO_COLUMN`.  Writing beyond the vector is undefined. -/
def columnOrigins (left right : VarMap) : Outcome (List (Option Nat × Option Nat)) :=
  let vc := variableColumns left right
  let rec go : VarMap → List (Option Nat × Option Nat) → Outcome (List (Option Nat × Option Nat))
    | [], acc => .ok acc
    | p :: ps, acc => if p.2 < acc.length then go ps (acc.set p.2 (find left p.1, find right p.1)) else .ub
  go vc (List.replicate vc.length (none, none))

/-- The chunked copy (Union.cpp:179-190): `numChunks` pieces of `chunkSize` rows and the rest.  The iterator arithmetic stays within
the table. -/
def appendChunked (chunkSize : Nat) (t : Table) : Outcome Table :=
  if chunkSize = 0 then .ub      -- `inputTable.size() / chunkSize`
  else
    let numChunks := t.length / chunkSize
    .ok ((List.range numChunks).flatMap (fun i => (t.drop (i * chunkSize)).take ((i + 1) * chunkSize - i * chunkSize))
      ++ t.drop (numChunks * chunkSize))

/-- One row cell by cell (Union.cpp:216-227, 249-260). -/
def mapRow (row : Row) : List (Option Nat) → Outcome Row
  | [] => .ok []
  | none :: os => (mapRow row os).map (ID_NO_VALUE :: ·)
  | some c :: os => (Outcome.read row c).bind fun v => (mapRow row os).map (v :: ·)

/-- All rows (Union.cpp:216-227). -/
def mapRows (os : List (Option Nat)) : Table → Outcome Table
  | [] => .ok []
  | r :: rs => (mapRow r os).bind fun x => (mapRows os rs).map (x :: ·)

/-- Do the columns match (Union.cpp:193-200, 232-239)?  `w` is the width of the input. -/
def columnsMatch (w : Nat) (os : List (Option Nat)) : Bool := w = os.length && os.zipIdx.all fun q => q.1 = some q.2

/-- One input (Union.cpp:192-229, 231-262). -/
def side (chunkSize w : Nat) (t : Table) (os : List (Option Nat)) : Outcome Table :=
  if t.length > 0 then
    if columnsMatch w os then appendChunked chunkSize t else mapRows os t
  else .ok []

/-- `computeUnion` (Union.cpp:160-265); `wl`, `wr` are the widths of the inputs. -/
def computeUnion (wl wr : Nat) (left right : Table) (origins : List (Option Nat × Option Nat)) : Outcome Table :=
  if origins.length = 0 then .ub      -- `100000 / res.cols()`
  else
    let chunkSize := 100000 / origins.length
    (side chunkSize wl left (origins.map (·.1))).bind fun l =>
    (side chunkSize wr right (origins.map (·.2))).map fun r => l ++ r

/-- `ResultTable::getResultType` (/repo/src/engine/ResultTable.h:96-101); `T` is the type of result types and `kb` its default. -/
def getResultType (kb : T) (types : List T) (col : Nat) : T := types.getD col kb

/-- The result types (Union.cpp:140-148).  Note that line 144 asks the left input for a column of the right input. -/
def resultTypes (kb : T) (types1 types2 : List T) (origins : List (Option Nat × Option Nat)) : List T :=
  let _ := types2
  origins.map fun
    | (some c, _) => getResultType kb types1 c
    | (none, some c) => getResultType kb types1 c
    | (none, none) => kb

end Verif.Union
