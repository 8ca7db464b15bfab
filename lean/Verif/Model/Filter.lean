import Verif.Model.ResultTable
import Verif.Model.Modifiers
import Verif.Spec.Filter
/-
Model of FILTER with a comparison or a prefix condition: `Filter::computeFilter`, `computeFilterRange`, `computeFilterFixedValue`,
`computeResultFixedValue` (/repo/src/engine/Filter.cpp) and the vocabulary functions that translate a constant to an id
(/repo/src/index/Vocabulary.h).

Simplifications: LANG_MATCHES and REGEX are left out.  Words are an abstract type with the comparison of the vocabulary at the level used
(QUARTERNARY); `float` is an abstract type.  `std::lower_bound` and `std::upper_bound` are modelled by their contract: the
partition point, undefined if the range is not partitioned.
-/
namespace Verif.Filter
open FilterSpec (Cmp)

/-- The first position for which `p` does not hold, for a range in which the elements with `p` come first: `std::lower_bound` with
`p e = comp(e, v)`, `std::upper_bound` with `p e = !comp(v, e)`. -/
def partitionPoint (p : α → Bool) (l : List α) : Outcome Nat :=
  if l.Pairwise (fun a b => p b = true → p a = true) then .ok (l.takeWhile p).length else .ub

/-- `ValueReader<T>` and the built-in comparisons of its result (/repo/src/engine/Filter.h:172-185). -/
structure Reader (V : Type) where
  get : Nat → V
  lt : V → V → Bool
  le : V → V → Bool
  eq : V → V → Bool

/-- `ValueReader` for all types but FLOAT. -/
def idReader : Reader Nat := ⟨id, fun a b => decide (a < b), fun a b => decide (a ≤ b), fun a b => decide (a = b)⟩

/-- `Engine::filter(v, comp, result)` (/repo/src/engine/Engine.h:20-33). -/
def engineFilter (comp : Row → Outcome Bool) : Table → Outcome Table
  | [] => .ok []
  | e :: v => (comp e).bind fun b => (engineFilter comp v).map fun res => if b then e :: res else res

/-- `computeFilter` (Filter.cpp:134-201): both sides are columns. -/
def computeFilter {V : Type} (rd : Reader V) (type : Cmp) (lhs rhs : Nat) (t : Table) : Outcome Table :=
  engineFilter (fun e => (Outcome.read e lhs).bind fun x => (Outcome.read e rhs).bind fun y =>
    .ok (match type with
      | .eq => rd.eq (rd.get x) (rd.get y)
      | .ne => !rd.eq (rd.get x) (rd.get y)
      | .lt => rd.lt (rd.get x) (rd.get y)
      | .le => rd.le (rd.get x) (rd.get y)
      | .gt => rd.lt (rd.get y) (rd.get x)
      | .ge => rd.le (rd.get y) (rd.get x))) t

/-- `res->insert(res->end(), begin, end)` with iterators into `t` (/repo/src/engine/IdTable.h:932-954): nothing if
`begin.row() >= end.row()`. -/
def insertRange (res t : Table) (b e : Nat) : Outcome Table :=
  if b ≥ e then .ok res else if e ≤ t.length then .ok (res ++ (t.drop b).take (e - b)) else .ub

/-- The values of column `c`; the binary searches read some of them. -/
def column (t : Table) (c : Nat) : Outcome (List Nat) :=
  match t.mapM fun r => r[c]? with
  | some vs => .ok vs
  | none => .ub

/-- `computeFilterRange` (Filter.cpp:268-305) for type KB: rows with `lower <= value < upper`, or the others.  For sorted input and the
inverse, the end of the second range is `res->end()` (293), of which only the row number, `res->size()`, is used. -/
def computeFilterRange (inverse sorted : Bool) (lhs lower upper : Nat) (t : Table) : Outcome Table :=
  if sorted then
    (column t lhs).bind fun vs =>
      (partitionPoint (fun x => decide (x < lower)) vs).bind fun lo =>
      (partitionPoint (fun x => decide (x < upper)) (vs.drop lo)).bind fun up' =>
        let up := lo + up'
        if !inverse then insertRange [] t lo up
        else (insertRange [] t 0 lo).bind fun res => insertRange res t up res.length
  else
    engineFilter (fun e => (Outcome.read e lhs).bind fun x =>
      let b := decide (x ≥ lower) && decide (x < upper)
      .ok (if inverse then !b else b)) t

/-- `computeFilterFixedValue` (Filter.cpp:308-450): comparison with a fixed id.  Equality compares ids, the others compare what the
reader returns. -/
def computeFilterFixedValue {V : Type} (rd : Reader V) (type : Cmp) (sorted : Bool) (lhs rhs : Nat) (t : Table) : Outcome Table :=
  if sorted then
    (column t lhs).bind fun vs =>
      let lower := partitionPoint (fun x => rd.lt (rd.get x) (rd.get rhs)) vs
      let upperFrom := fun lo => (partitionPoint (fun x => !rd.lt (rd.get rhs) (rd.get x)) (vs.drop lo)).map (lo + ·)
      match type with
      | .eq => lower.bind fun lo =>
        if lo ≠ vs.length ∧ vs[lo]? = some rhs then (upperFrom lo).bind fun up => insertRange [] t lo up else .ok []
      | .ne => lower.bind fun lo =>
        if lo ≠ vs.length ∧ vs[lo]? = some rhs then (upperFrom lo).bind fun up =>
          (insertRange [] t 0 lo).bind fun res => insertRange res t up t.length
        else insertRange [] t 0 t.length
      | .lt => lower.bind fun lo => insertRange [] t 0 lo
      | .le => (upperFrom 0).bind fun up => insertRange [] t 0 up
      | .gt => (upperFrom 0).bind fun up => insertRange [] t up t.length
      | .ge => lower.bind fun lo => insertRange [] t lo t.length
  else
    engineFilter (fun e => (Outcome.read e lhs).bind fun x =>
      .ok (match type with
        | .eq => decide (x = rhs)
        | .ne => decide (x ≠ rhs)
        | .lt => rd.lt (rd.get x) (rd.get rhs)
        | .le => rd.le (rd.get x) (rd.get rhs)
        | .gt => rd.lt (rd.get rhs) (rd.get x)
        | .ge => rd.le (rd.get rhs) (rd.get x))) t

/-! ### The vocabulary -/

/-- `Vocabulary::lower_bound` (/repo/src/index/Vocabulary.cpp:338-345). -/
def lowerBound {W : Type} (wlt : W → W → Bool) (words : List W) (v : W) : Outcome Nat := partitionPoint (fun w => wlt w v) words

/-- `Vocabulary::upper_bound` (Vocabulary.cpp:329-336). -/
def upperBound {W : Type} (wlt : W → W → Bool) (words : List W) (v : W) : Outcome Nat := partitionPoint (fun w => !wlt v w) words

/-- `getValueIdForLT`, `getValueIdForGE` (/repo/src/index/Vocabulary.h:150-156). -/
def valueIdForLT {W : Type} (wlt : W → W → Bool) (words : List W) (v : W) : Outcome Nat := lowerBound wlt words v

/-- `getValueIdForLE`, `getValueIdForGT` (Vocabulary.h:158-170). -/
def valueIdForLE {W : Type} (wlt : W → W → Bool) (words : List W) (v : W) : Outcome Nat :=
  (upperBound wlt words v).map fun lb => if lb > 0 then lb - 1 else lb

/-- `computeResultFixedValue` for a KB column (Filter.cpp:641-681, 750-768); `v` is the constant after the conversion in 642-660. -/
def filterKB {W : Type} (wlt : W → W → Bool) (words : List W) (type : Cmp) (sorted : Bool) (lhs : Nat) (v : W) (t : Table) :
    Outcome Table :=
  match type with
  | .eq | .ne => (lowerBound wlt words v).bind fun lo => (upperBound wlt words v).bind fun up =>
    computeFilterRange (type = .ne) sorted lhs lo up t
  | .ge | .lt => (valueIdForLT wlt words v).bind fun rhs => computeFilterFixedValue idReader type sorted lhs rhs t
  | .gt | .le => (valueIdForLE wlt words v).bind fun rhs => computeFilterFixedValue idReader type sorted lhs rhs t

/-- `std::stoull` on a string without leading white space: an optional sign and the longest sequence of digits; throws if there is no
digit or the number is too large; a negative number is negated modulo 2^64. -/
def stoull (s : List Char) : Outcome Nat :=
  let ds := (Modifiers.splitSign s).2.takeWhile Char.isDigit
  let n := ds.foldl (fun (acc : Nat) c => 10 * acc + (c.toNat - 48)) 0
  if ds = [] then .throw else if 2 ^ 64 ≤ n then .throw else .ok (if (Modifiers.splitSign s).1 then (2 ^ 64 - n) % 2 ^ 64 else n)

/-- `computeResultFixedValue` for a VERBATIM column (Filter.cpp:682-691). -/
def filterVerbatim (type : Cmp) (sorted : Bool) (lhs : Nat) (rhs : List Char) (t : Table) : Outcome Table :=
  (stoull rhs).bind fun r => computeFilterFixedValue idReader type sorted lhs r t

/-- `computeResultFixedValue` for a FLOAT column (Filter.cpp:692-702): `bits` are the four bytes of the parsed number, `junk` what the
other four bytes of the uninitialised variable `rhs` hold. -/
def filterFloat {V : Type} (rd : Reader V) (type : Cmp) (sorted : Bool) (lhs bits junk : Nat) (t : Table) : Outcome Table :=
  computeFilterFixedValue rd type sorted lhs (bits + 2 ^ 32 * junk) t

/-- `computeResultFixedValue` for a LOCAL_VOCAB column (Filter.cpp:709-731): the position of the first equal string. -/
def filterLocalVocab (type : Cmp) (sorted : Bool) (lhs : Nat) (vocab : List (List Char)) (rhs : List Char) (t : Table) : Outcome Table :=
  match type with
  | .eq | .ne => computeFilterFixedValue idReader type sorted lhs (vocab.takeWhile fun s => s ≠ rhs).length t
  | _ => .throw

/-! ### Prefix filters -/

/-- Removal of overlaps in the ranges of one column, which are sorted by their start (Filter.cpp:488-498); `prev` is the end of the
range before. -/
def removeOverlap (prev : Nat) : List (Nat × Nat) → List (Nat × Nat)
  | [] => []
  | (f, s) :: rs =>
    let f' := max prev f
    let s' := max s f'
    (f', s') :: removeOverlap s' rs

/-- The loop from 1 on (494): the first range stays. -/
def disjointRanges : List (Nat × Nat) → List (Nat × Nat)
  | [] => []
  | r :: rs => r :: removeOverlap r.2 rs

/-- `std::sort` of the ranges by their start (491-493): any permutation without inversion. -/
def SortedRanges (ranges ranges' : List (Nat × Nat)) : Prop := ranges'.Perm ranges ∧ ranges'.Pairwise fun a b => ¬ b.1 < a.1

/-- The binary searches for the ranges of the sorted column (Filter.cpp:514-537). -/
def rangeIterators (vs : List Nat) : List (Nat × Nat) → Outcome (List (Nat × Nat))
  | [] => .ok []
  | (lb, ub) :: rs => (partitionPoint (fun x => decide (x < lb)) vs).bind fun lo =>
    if lo ≠ vs.length then
      (partitionPoint (fun x => decide (x < ub)) (vs.drop lo)).bind fun up =>
        (rangeIterators vs rs).map ((lo, lo + up) :: ·)
    else .ok []

/-- `for ([lower, upper] : iterators) res->insert(res->end(), lower, upper)` (543-545). -/
def insertAll (t : Table) (res : Table) : List (Nat × Nat) → Outcome Table
  | [] => .ok res
  | (b, e) :: rs => (insertRange res t b e).bind fun res => insertAll t res rs

/-- Is the value of column `l` in one of its ranges? -/
def inRanges (e : Row) (l : Nat) (ranges : List (Nat × Nat)) : Outcome Bool :=
  (Outcome.read e l).map fun x => ranges.any fun p => decide (p.1 ≤ x) && decide (x < p.2)

/-- `std::any_of` over the columns (554-570); for a single range, 548-553 tests the same. -/
def inAnyRanges (e : Row) : List (Nat × List (Nat × Nat)) → Outcome Bool
  | [] => .ok false
  | (l, ranges) :: ms => (inRanges e l ranges).bind fun b => if b then .ok true else inAnyRanges e ms

/-- The PREFIX case of `computeFilterFixedValue` (Filter.cpp:470-574).  `prefixRanges` are, in the iteration order of the hash map, the
columns with their ranges in sorted order; `sortedBy` is the first column the input is sorted by. -/
def filterPrefix (sortedBy : Option Nat) (lhs : Nat) (prefixRanges : List (Nat × List (Nat × Nat))) (t : Table) : Outcome Table :=
  let prefixRanges := prefixRanges.map fun m => (m.1, disjointRanges m.2)
  let sortedLhs := if prefixRanges.length > 1 then none else sortedBy.filter fun c => (prefixRanges.map (·.1)).contains c
  match sortedLhs with
  | some c =>
    match prefixRanges.find? fun m => m.1 = c with
    | none => .ok []
    | some (_, ranges) =>
      if c ≠ lhs ∧ ranges ≠ [] then .throw
      else (column t lhs).bind fun vs => (rangeIterators vs ranges).bind fun its => insertAll t [] its
  | none => engineFilter (fun e => inAnyRanges e prefixRanges) t

end Verif.Filter
