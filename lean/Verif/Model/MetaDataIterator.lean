import Verif.Model.MetaData
/-
Model of the iteration over all triples of a permutation: /repo/src/index/MetaDataIterator.h, as used by
`Index::addPatternsToExistingIndex` (/repo/src/index/Index.cpp:525-535).

Simplifications: the iterator over the relations is the list of the entries that are left, so the end is the empty list; using the
relation at the end is undefined behaviour (the code reads the element behind the last one of the vector).
-/
namespace Verif.MetaDataIterator
open Verif.Bytes Verif.MetaData

/-- `n` elements of type `std::array<Id, 2>` in memory -/
def pairsOf : Nat → List Nat → List (Nat × Nat)
  | 0, _ => []
  | n + 1, m => (ofLE (m.take 8), ofLE ((m.drop 8).take 8)) :: pairsOf n (m.drop 16)

/-- The members `_iterator`, `_buffer`, `_buffer_offset`, MetaDataIterator.h:51-55 -/
structure It where
  rest : List (Nat × Full)
  buffer : List (Nat × Nat)
  offset : Nat
  deriving DecidableEq, Repr

/-- `File::read` at an offset, File.h:196-218: at the end of the file `pread` returns 0, and the loop does not end. -/
def readAt (file : List Nat) (off n : Nat) : Outcome (List Nat) := if n = 0 ∨ off + n ≤ file.length then .ok (pread file off n) else .diverge

/-- `scanCurrentPos`, MetaDataIterator.h:43-48 -/
def scanCurrentPos (file : List Nat) (rest : List (Nat × Full)) : Outcome (List (Nat × Nat)) :=
  match rest with
  | [] => .ub
  | e :: _ => (readAt file e.2.start (e.2.nofElements * 2 * 8)).map (pairsOf e.2.nofElements)

/-- The constructor, MetaDataIterator.h:12-18 -/
def start (file : List Nat) (entries : List (Nat × Full)) : Outcome It :=
  (scanCurrentPos file entries).map fun b => ⟨entries, b, 0⟩

/-- `empty`, MetaDataIterator.h:40 -/
def It.empty (it : It) : Bool := it.rest.isEmpty

/-- `operator++`, MetaDataIterator.h:21-33 -/
def It.next (file : List Nat) (it : It) : Outcome It :=
  if it.empty then .ok it
  else if it.offset + 1 ≥ it.buffer.length then
    (scanCurrentPos file it.rest.tail).map fun b => ⟨it.rest.tail, b, 0⟩
  else .ok { it with offset := it.offset + 1 }

/-- `operator*`, MetaDataIterator.h:35-38 -/
def It.deref (it : It) : Outcome (Nat × Nat × Nat) :=
  match it.rest with
  | [] => .ub
  | e :: _ => (Outcome.read it.buffer it.offset).map fun p => (e.1, p.1, p.2)

/-- The loop of `createPatternsImpl` over all triples, Index.cpp:584, with a bound for the number of steps: the triples it has seen and how
it ended. -/
def visit (file : List Nat) : Nat → It → List (Nat × Nat × Nat) × Outcome Unit
  | 0, _ => ([], .diverge)
  | n + 1, it =>
    if it.empty then ([], .ok ())
    else match it.deref with
      | .ok t => match it.next file with
        | .ok it => (t :: (visit file n it).1, (visit file n it).2)
        | .throw => ([t], .throw)
        | .ub => ([t], .ub)
        | .diverge => ([t], .diverge)
      | .throw => ([], .throw)
      | .ub => ([], .ub)
      | .diverge => ([], .diverge)

end Verif.MetaDataIterator
