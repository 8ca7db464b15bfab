import Verif.Model.MultiJoin
/-
Model of `Minus::computeMinus` (/repo/src/engine/Minus.cpp:109-213) with `isRowEqSkipFirst` (lines 215-231), and of the
two-column `Engine::filter` (/repo/src/engine/Engine.h:35-97) that implements `TwoColumnJoin`
(/repo/src/engine/TwoColumnJoin.cpp:92-131).

Simplifications: no timeouts, no log output, no `size_t` overflow.
-/
namespace Verif.Minus
open MultiJoin (JoinCols)

section
variable (fuel : Nat) (a b : Table) (jcs : JoinCols)

/-- `isRowEqSkipFirst`: compares the join columns from the second on (Minus.cpp:215-231). -/
def isRowEqSkipFirst (ia ib : Nat) : Outcome Ordering := MultiJoin.compareRows a b ia ib jcs.tail

/-- `while (a(ia, ..) < b(ib, ..)) { writeResult(ia); ia++; if (ia >= a.size()) goto finish; }` (Minus.cpp:158-166); the
result says whether `goto finish` was executed. -/
def skipA (ia ib : Nat) (res : Table) : Outcome (Bool × Nat × Table) :=
  loop fuel (fun (s : Nat × Table) =>
    (Outcome.read jcs 0).bind fun jc =>
    (a.at s.1 jc.1).bind fun x => (b.at ib jc.2).bind fun y =>
    if x < y then
      (Outcome.read a s.1).bind fun r =>
      if s.1 + 1 ≥ a.length then .ok (.inr (true, s.1 + 1, s.2 ++ [r])) else .ok (.inl (s.1 + 1, s.2 ++ [r]))
    else .ok (.inr (false, s.1, s.2))) (ia, res)

/-- `while (b(ib, ..) < a(ia, ..)) { ib++; if (ib >= b.size()) goto finish; }` (Minus.cpp:167-173). -/
def skipB (ia ib : Nat) : Outcome (Bool × Nat) :=
  loop fuel (fun ib =>
    (Outcome.read jcs 0).bind fun jc =>
    (b.at ib jc.2).bind fun y => (a.at ia jc.1).bind fun x =>
    if y < x then
      if ib + 1 ≥ b.length then .ok (.inr (true, ib + 1)) else .ok (.inl (ib + 1))
    else .ok (.inr (false, ib))) ib

/-- `while (b(ib, ..) == a(ia, ..)) { switch (isRowEqSkipFirst(..)) ... }` (Minus.cpp:175-204). -/
def equalLoop (ia ib : Nat) (res : Table) : Outcome (Bool × Nat × Nat × Table) :=
  loop fuel (fun (s : Nat × Nat × Table) =>
    let ia := s.1; let ib := s.2.1; let res := s.2.2
    (Outcome.read jcs 0).bind fun jc =>
    (b.at ib jc.2).bind fun y => (a.at ia jc.1).bind fun x =>
    if y = x then
      (isRowEqSkipFirst a b jcs ia ib).bind fun
      | .eq => if ia + 1 ≥ a.length then .ok (.inr (true, ia + 1, ib, res)) else .ok (.inl (ia + 1, ib, res))
      | .lt => (Outcome.read a ia).bind fun r =>
          if ia + 1 ≥ a.length then .ok (.inr (true, ia + 1, ib, res ++ [r])) else .ok (.inl (ia + 1, ib, res ++ [r]))
      | .gt => if ib + 1 ≥ b.length then .ok (.inr (true, ia, ib + 1, res)) else .ok (.inl (ia, ib + 1, res))
    else .ok (.inr (false, ia, ib, res))) (ia, ib, res)

/-- The outer loop (Minus.cpp:155-205): `ia` and the result at `finish`. -/
def main : Outcome (Nat × Table) :=
  loop fuel (fun (s : Nat × Nat × Table) =>
    let ia := s.1; let ib := s.2.1; let res := s.2.2
    if ia < a.length ∧ ib < b.length then
      (skipA fuel a b jcs ia ib res).bind fun sa =>
      if sa.1 then .ok (.inr (sa.2.1, sa.2.2))
      else
        (skipB fuel a b jcs sa.2.1 ib).bind fun sb =>
        if sb.1 then .ok (.inr (sa.2.1, sa.2.2))
        else
          (equalLoop fuel a b jcs sa.2.1 sb.2 sa.2.2).bind fun e =>
          if e.1 then .ok (.inr (e.2.1, e.2.2.2)) else .ok (.inl e.2)
    else .ok (.inr (ia, res))) (0, 0, [])

/-- `Minus::computeMinus` (Minus.cpp:109-213); the last loop copies the remaining rows of `a` (lines 206-211). -/
def computeMinus : Outcome Table :=
  if a.length = 0 then .ok []
  else if b.length = 0 ∨ jcs = [] then .ok a
  else (main fuel a b jcs).bind fun s => .ok (s.2 ++ a.drop s.1)

end

namespace Filter
section
variable (fuel : Nat) (v : Table) (fc1 fc2 : Nat) (f : Table)

/-- `while (v(i, fc1) < filter(j, 0))` (Engine.h:59-64); `none` is `goto finish`. -/
def skipV (i j : Nat) : Outcome (Option Nat) :=
  loop fuel (fun i =>
    (v.at i fc1).bind fun x => (f.at j 0).bind fun y =>
    if x < y then
      if i + 1 ≥ v.length then .ok (.inr none) else .ok (.inl (i + 1))
    else .ok (.inr (some i))) i

/-- `while (filter(j, 0) < v(i, fc1))` (Engine.h:65-70). -/
def skipF (i j : Nat) : Outcome (Option Nat) :=
  loop fuel (fun j =>
    (f.at j 0).bind fun y => (v.at i fc1).bind fun x =>
    if y < x then
      if j + 1 ≥ f.length then .ok (.inr none) else .ok (.inl (j + 1))
    else .ok (.inr (some j))) j

/-- `while (v(i, fc1) == filter(j, 0))` (Engine.h:71-91); `break` leaves with `i` or `j` at the end. -/
def equalLoop (i j : Nat) (res : Table) : Outcome (Nat × Nat × Table) :=
  loop fuel (fun (s : Nat × Nat × Table) =>
    let i := s.1; let j := s.2.1; let res := s.2.2
    (v.at i fc1).bind fun x => (f.at j 0).bind fun y =>
    if x = y then
      (v.at i fc2).bind fun x2 => (f.at j 1).bind fun y2 =>
      if x2 = y2 then
        (Outcome.read v i).bind fun r =>
        if i + 1 ≥ v.length then .ok (.inr (i + 1, j, res ++ [r])) else .ok (.inl (i + 1, j, res ++ [r]))
      else if x2 < y2 then
        if i + 1 ≥ v.length then .ok (.inr (i + 1, j, res)) else .ok (.inl (i + 1, j, res))
      else
        if j + 1 ≥ f.length then .ok (.inr (i, j + 1, res)) else .ok (.inl (i, j + 1, res))
    else .ok (.inr s)) (i, j, res)

/-- The two-column `Engine::filter` (Engine.h:35-97). -/
def filter : Outcome Table :=
  if v.length = 0 ∨ f.length = 0 then .ok []
  else
    loop fuel (fun (s : Nat × Nat × Table) =>
      let i := s.1; let j := s.2.1; let res := s.2.2
      if i < v.length ∧ j < f.length then
        (skipV fuel v fc1 f i j).bind fun
        | none => .ok (.inr res)
        | some i =>
          (skipF fuel v fc1 f i j).bind fun
          | none => .ok (.inr res)
          | some j => (equalLoop fuel v fc1 fc2 f i j res).bind fun e => .ok (.inl e)
      else .ok (.inr res)) (0, 0, [])
end

/-- `TwoColumnJoin::computeResult` (/repo/src/engine/TwoColumnJoin.cpp:92-131): one of the two tables must have exactly two
columns, which are the join columns in order; it serves as the filter. Everything else is not implemented. -/
def twoColumnJoin (fuel : Nat) (left : Table) (wl jc1l jc2l : Nat) (right : Table) (wr jc1r jc2r : Nat) : Outcome Table :=
  if wr = 2 ∧ jc1r = 0 ∧ jc2r = 1 then filter fuel left jc1l jc2l right
  else if wl = 2 ∧ jc1l = 0 ∧ jc2l = 1 then filter fuel right jc1r jc2r left
  else .throw
end Filter

end Verif.Minus
