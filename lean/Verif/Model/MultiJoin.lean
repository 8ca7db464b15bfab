import Verif.Model.Table
/-
Model of `MultiColumnJoin::computeMultiColumnJoin` (/repo/src/engine/MultiColumnJoin.h:74-178) and
`OptionalJoin::optionalJoin` with `createOptionalResult` (/repo/src/engine/OptionalJoin.cpp:273-486).

The two functions contain the same loops; they differ in the row that is written for a match and in whether something is
written for rows without a match.  The loops are therefore modelled once, with three parameters: `pair`, `padA`, `padB`.
For `MultiColumnJoin` nothing is written for rows without match.

Simplifications: as for `Join` (no timeouts, no log output, no `size_t` overflow).
-/
namespace Verif.MultiJoin

/-- Pairs of join columns (`vector<array<Id, 2>>`). -/
abbrev JoinCols := List (Nat × Nat)

/-- `1 << col` for a 32 bit `int`. -/
def shiftOne (col : Nat) : Outcome Nat := if col < 32 then .ok (1 <<< col) else .ub

/-- `for (jc : joinColumns) bitmap |= (1 << jc)` (MultiColumnJoin.h:85-88, OptionalJoin.cpp:341-346). -/
def bitmap : List Nat → Outcome Nat
  | [] => .ok 0
  | c :: cs => (shiftOne c).bind fun s => (bitmap cs).bind fun m => .ok (m ||| s)

/-- The columns of a right row that are not join columns (MultiColumnJoin.h:144-149, OptionalJoin.cpp:295-300, 317-322);
`col` is the number of the first given column. -/
def keepCols (bm : Nat) : Nat → Row → Outcome Row
  | _, [] => .ok []
  | col, v :: vs => (shiftOne col).bind fun s => (keepCols bm (col + 1) vs).bind fun rest =>
      .ok (if bm &&& s = 0 then v :: rest else rest)

/-- Writing a row cell by cell to a new row of width `w`: too many values are written beyond the row, too few leave
uninitialised cells. -/
def writeRow (w : Nat) (r : Row) : Outcome Row := if r.length = w then .ok r else .ub

/-- The row written for a match (MultiColumnJoin.h:135-149, OptionalJoin.cpp:281, 310-322). -/
def pairRow (w bmB : Nat) (x y : Row) : Outcome Row :=
  (keepCols bmB 0 y).bind fun ys => writeRow w (x ++ ys)

section
variable (fuel : Nat) (a b : Table) (jcs : JoinCols)
variable (pair : Row → Row → Outcome Row) (padA padB : Row → Outcome Table)

/-- `while (a(ia, joinColumns[0][0]) < b(ib, joinColumns[0][1]))` (MultiColumnJoin.h:98-103, OptionalJoin.cpp:385-394).
The result says whether `goto finish` was executed. -/
def skipA (ia ib : Nat) (res : Table) : Outcome (Bool × Nat × Table) :=
  loop fuel (fun (s : Nat × Table) =>
    (Outcome.read jcs 0).bind fun jc =>
    (a.at s.1 jc.1).bind fun x => (b.at ib jc.2).bind fun y =>
    if x < y then
      (Outcome.read a s.1).bind fun r => (padA r).bind fun p =>
      if s.1 + 1 ≥ a.length then .ok (.inr (true, s.1 + 1, s.2 ++ p)) else .ok (.inl (s.1 + 1, s.2 ++ p))
    else .ok (.inr (false, s.1, s.2))) (ia, res)

/-- `while (b(ib, joinColumns[0][1]) < a(ia, joinColumns[0][0]))` (MultiColumnJoin.h:104-109, OptionalJoin.cpp:395-404). -/
def skipB (ia ib : Nat) (res : Table) : Outcome (Bool × Nat × Table) :=
  loop fuel (fun (s : Nat × Table) =>
    (Outcome.read jcs 0).bind fun jc =>
    (b.at s.1 jc.2).bind fun y => (a.at ia jc.1).bind fun x =>
    if y < x then
      (Outcome.read b s.1).bind fun r => (padB r).bind fun p =>
      if s.1 + 1 ≥ b.length then .ok (.inr (true, s.1 + 1, s.2 ++ p)) else .ok (.inl (s.1 + 1, s.2 ++ p))
    else .ok (.inr (false, s.1, s.2))) (ib, res)

/-- Check whether the rows match on all join columns (MultiColumnJoin.h:112-126, OptionalJoin.cpp:407-429): the first
difference decides. -/
def compareRows (a b : Table) (ia ib : Nat) : JoinCols → Outcome Ordering
  | [] => .ok .eq
  | jc :: jcs =>
    (a.at ia jc.1).bind fun x => (b.at ib jc.2).bind fun y =>
    if x < y then .ok .lt else if y < x then .ok .gt else compareRows a b ia ib jcs

/-- "do the rows still match?" (MultiColumnJoin.h:153-159, OptionalJoin.cpp:443-449). -/
def stillMatchB (a b : Table) (ia ib : Nat) : JoinCols → Outcome Bool
  | [] => .ok true
  | jc :: jcs =>
    if ib ≥ b.length then .ok false
    else (a.at ia jc.1).bind fun x => (b.at ib jc.2).bind fun y =>
      if x ≠ y then .ok false else stillMatchB a b ia ib jcs

/-- "Check if the next row in a also matches the initial row in b" (MultiColumnJoin.h:163-169, OptionalJoin.cpp:453-459). -/
def stillMatchA (a b : Table) (ia initIb : Nat) : JoinCols → Outcome Bool
  | [] => .ok true
  | jc :: jcs =>
    if ia ≥ a.length then .ok false
    else (a.at ia jc.1).bind fun x => (b.at initIb jc.2).bind fun y =>
      if x ≠ y then .ok false else stillMatchA a b ia initIb jcs

/-- `while (matched)`: all partners of row `ia` (MultiColumnJoin.h:134-160, OptionalJoin.cpp:437-450). -/
def partners (ia ib : Nat) (res : Table) : Outcome (Nat × Table) :=
  loop fuel (fun (s : Nat × Table) =>
    (Outcome.read a ia).bind fun x => (Outcome.read b s.1).bind fun y =>
    (pair x y).bind fun r =>
    (stillMatchB a b ia (s.1 + 1) jcs).bind fun m =>
    if m then .ok (.inl (s.1 + 1, s.2 ++ [r])) else .ok (.inr (s.1 + 1, s.2 ++ [r]))) (ib, res)

/-- `while (matched && ia < a.size() && ib < b.size())` (MultiColumnJoin.h:130-174, OptionalJoin.cpp:433-464). -/
def cross (ia ib : Nat) (res : Table) : Outcome (Nat × Nat × Table) :=
  loop fuel (fun (s : Nat × Nat × Table) =>
    let ia := s.1; let initIb := s.2.1; let res := s.2.2
    if ia < a.length ∧ initIb < b.length then
      (partners fuel a b jcs pair ia initIb res).bind fun p =>
      (stillMatchA a b (ia + 1) initIb jcs).bind fun m =>
      if m then .ok (.inl (ia + 1, initIb, p.2)) else .ok (.inr (ia + 1, p.1, p.2))
    else .ok (.inr (ia, initIb, res))) (ia, ib, res)

/-- The outer loop (MultiColumnJoin.h:94-175, OptionalJoin.cpp:381-465): the values of `ia`, `ib` and `result` at
`finish`. -/
def main : Outcome (Nat × Nat × Table) :=
  loop fuel (fun (s : Nat × Nat × Table) =>
    let ia := s.1; let ib := s.2.1; let res := s.2.2
    if ia < a.length ∧ ib < b.length then
      (skipA fuel a b jcs padA ia ib res).bind fun sa =>
      if sa.1 then .ok (.inr (sa.2.1, ib, sa.2.2))
      else
        let ia := sa.2.1
        (skipB fuel a b jcs padB ia ib sa.2.2).bind fun sb =>
        if sb.1 then .ok (.inr (ia, sb.2.1, sb.2.2))
        else
          let ib := sb.2.1; let res := sb.2.2
          (compareRows a b ia ib jcs).bind fun
          | .lt => (Outcome.read a ia).bind fun r => (padA r).bind fun p => .ok (.inl (ia + 1, ib, res ++ p))
          | .gt => (Outcome.read b ib).bind fun r => (padB r).bind fun p => .ok (.inl (ia, ib + 1, res ++ p))
          | .eq => (cross fuel a b jcs pair ia ib res).bind fun c => .ok (.inl c)
    else .ok (.inr (ia, ib, res))) (0, 0, [])

end

/-- Apply a row function to all rows and concatenate (a `for`/`while` loop over the remaining rows). -/
def forRows (f : Row → Outcome Table) : Table → Outcome Table
  | [] => .ok []
  | r :: rs => (f r).bind fun p => (forRows f rs).bind fun ps => .ok (p ++ ps)

/-- `MultiColumnJoin::computeMultiColumnJoin` (MultiColumnJoin.h:74-178); `w` is the width of the result table. -/
def multiColumnJoin (fuel : Nat) (a b : Table) (jcs : JoinCols) (w : Nat) : Outcome Table :=
  if a.length = 0 ∨ b.length = 0 then .ok []
  else
    (bitmap (jcs.map (·.2))).bind fun bmB =>
    (main fuel a b jcs (pairRow w bmB) (fun _ => .ok []) (fun _ => .ok [])).bind fun s => .ok s.2.2

/-- `joinColumnAToB` (OptionalJoin.cpp:350-362): a vector with `max + 1` entries, initially 0. -/
def joinColumnAToB (jcs : JoinCols) : List Nat :=
  jcs.foldl (fun v jc => v.set jc.1 jc.2) (List.replicate ((jcs.map (·.1)).foldl max 0 + 1) 0)

/-- The left part of a row without left partner (OptionalJoin.cpp:286-294): `for (col = 0; col < a.cols(); col++)`;
`n` is the number of columns still to write. -/
def padLeft (bmA : Nat) (aToB : List Nat) (y : Row) (col : Nat) : Nat → Outcome Row
  | 0 => .ok []
  | n + 1 =>
    (shiftOne col).bind fun s =>
    (if bmA &&& s = 0 then .ok ID_NO_VALUE
     else (Outcome.read aToB col).bind fun c => Outcome.read y c).bind fun v =>
    (padLeft bmA aToB y (col + 1) n).bind fun rest => .ok (v :: rest)

/-- The row written for a right row without partner (OptionalJoin.cpp:283-301). -/
def rowB (w wa bmA bmB : Nat) (aToB : List Nat) (y : Row) : Outcome Table :=
  (padLeft bmA aToB y 0 wa).bind fun xs => (keepCols bmB 0 y).bind fun ys =>
  (writeRow w (xs ++ ys)).bind fun r => .ok [r]

/-- The row written for a left row without partner (OptionalJoin.cpp:302-309). -/
def rowA (w : Nat) (x : Row) : Outcome Table :=
  (writeRow w (x ++ List.replicate (w - x.length) ID_NO_VALUE)).bind fun r => .ok [r]

/-- `OptionalJoin::optionalJoin` (OptionalJoin.cpp:325-486); `wa` is the width of `a`, `w` the width of the result. -/
def optionalJoin (fuel : Nat) (a b : Table) (wa : Nat) (aOpt bOpt : Bool) (jcs : JoinCols) (w : Nat) : Outcome Table :=
  if (a.length = 0 ∧ b.length = 0) ∨ (a.length = 0 ∧ ¬ aOpt) ∨ (b.length = 0 ∧ ¬ bOpt) then .ok []
  else
    (bitmap (jcs.map (·.1))).bind fun bmA =>
    (bitmap (jcs.map (·.2))).bind fun bmB =>
    let aToB := joinColumnAToB jcs
    let padA : Row → Outcome Table := if bOpt then rowA w else fun _ => .ok []
    let padB : Row → Outcome Table := if aOpt then rowB w wa bmA bmB aToB else fun _ => .ok []
    if a.length = 0 ∧ aOpt then forRows padB b
    else if b.length = 0 ∧ bOpt then forRows padA a
    else
      (main fuel a b jcs (pairRow w bmB) padA padB).bind fun s =>
      (forRows padB (b.drop s.2.1)).bind fun restB =>
      (forRows padA (a.drop s.1)).bind fun restA =>
      .ok (s.2.2 ++ restB ++ restA)

/-- A map from variables to columns, in the order in which it is iterated over (`ad_utility::HashMap<string, size_t>`; the
iteration order is unspecified). -/
abbrev VarMap := List (String × Nat)

/-- `MultiColumnJoin::getVariableColumns` (/repo/src/engine/MultiColumnJoin.cpp:122-142): the variables of the right side that
are not joined, in iteration order, get increasing numbers starting at the number of variables of the left side.  A variable
that is in both maps is joined by construction of the join columns, hence appending models `retVal[it.first] = ...`. -/
def multiVariableColumns (left right : VarMap) (jcs : JoinCols) : VarMap :=
  left ++ ((right.filter fun p => p.2 ∉ jcs.map (·.2)).zipIdx left.length).map fun q => (q.1.1, q.2)

/-- The loop over the join columns in `OptionalJoin::getVariableColumns` (/repo/src/engine/OptionalJoin.cpp:132-143): `none`
for a join column, else the number of the result column.  `columnIndex` cannot become negative. -/
def optionalColumn (col : Nat) : JoinCols → Nat → Option Nat
  | [], ci => some ci
  | jc :: jcs, ci => if jc.2 < col then optionalColumn col jcs (ci - 1)
      else if jc.2 = col then none else optionalColumn col jcs ci

/-- `OptionalJoin::getVariableColumns` (/repo/src/engine/OptionalJoin.cpp:127-149). -/
def optionalVariableColumns (left right : VarMap) (leftWidth : Nat) (jcs : JoinCols) : VarMap :=
  left ++ right.filterMap fun p => (optionalColumn p.2 jcs (leftWidth + p.2)).map fun c => (p.1, c)

end Verif.MultiJoin
