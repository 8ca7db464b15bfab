import Verif.Model.MetaData
/-
Model of the conversion of the meta data of permutations between hash maps and mmapped vectors:
/repo/src/index/MetaDataConverter.cpp.

Simplifications: an mmapped vector is the list of its elements, and the file with the vector is that list.  `exit(1)` after a failed
verification is `throw`.  Which of the two formats a file has is decided by its magic number, see `parseMagicKind`.  Messages and file names are left out.
-/
namespace Verif.MetaData
open Verif.Bytes

/-- The loops that copy all entries, MetaDataConverter.cpp:32-34, 42-44 -/
def setAll : Data → List (Nat × Full) → Outcome Data
  | d, [] => .ok d
  | d, e :: es => (d.set e.1 e.2).bind fun d => setAll d es

/-- The largest id, MetaDataConverter.cpp:22-27 -/
def maxId (m : Map Full) : Nat := m.foldl (fun acc e => if e.1 > acc then e.1 else acc) 0

/-- `convertHmapHandlerToMmap`, MetaDataConverter.cpp:19-37; `setup` fills the vector with empty entries. -/
def handlerToMmap (m : Map Full) : Outcome Data := setAll (.dense 0 (List.replicate (maxId m + 1) Full.empty)) m

/-- `convertMmapHandlerToHmap`, MetaDataConverter.cpp:40-46 -/
def handlerToHmap (d : Data) : Outcome Data := setAll (.sparse []) d.entries

/-- One of the verification loops, MetaDataConverter.cpp:61-66, 67-72, 89-94, 95-100 -/
def verifyAll (d : Data) : List (Nat × Full) → Outcome Unit
  | [] => .ok ()
  | e :: es => (d.getAsserted e.1).bind fun v => if v = e.2 then verifyAll d es else .throw

/-- Both verification loops -/
def verified (verify : Bool) (old new : Data) : Outcome Unit :=
  if verify then (verifyAll old new.entries).bind fun _ => verifyAll new old.entries else .ok ()

/-- The members that are copied, MetaDataConverter.cpp:53-58, 81-86; the others keep their initial values
(IndexMetaData.h:174-175). -/
def copyMembers (s : Index) (d : Data) : Index := ⟨d, s.blockData, s.offsetAfter, s.name, s.totalElements, 0, 0⟩

/-- `convertHmapMetaDataToMmap`, MetaDataConverter.cpp:49-75 -/
def Index.toMmap (s : Index) (verify : Bool) : Outcome Index :=
  match s.data with
  | .dense _ _ => .ub
  | .sparse m => (handlerToMmap m).bind fun d => (verified verify s.data d).bind fun _ => .ok (copyMembers s d)

/-- `convertMmapMetaDataToHmap`, MetaDataConverter.cpp:78-104 -/
def Index.toHmap (s : Index) (verify : Bool) : Outcome Index :=
  match s.data with
  | .sparse _ => .ub
  | .dense _ _ => (handlerToHmap s.data).bind fun d => (verified verify s.data d).bind fun _ => .ok (copyMembers s d)

/-- The loop that copies the relations in chunks, MetaDataConverter.cpp:159-168; `read` goes on where it stopped. -/
def copyChunks (chunk : Nat) (old : List Nat) (pos remaining : Nat) : List Nat :=
  if _h : 0 < chunk ∧ chunk ≤ remaining then pread old pos chunk ++ copyChunks chunk old (pos + chunk) (remaining - chunk)
  else pread old pos remaining
termination_by remaining

/-- `writeNewPermutation`, MetaDataConverter.cpp:141-172: the new file -/
def writeNewPermutation (old : List Nat) (s : Index) : Outcome (List Nat) :=
  if old.length < 8 then .ub
  else s.appendToFile (copyChunks (2 ^ 30) old 0 (ofLE (pread old (old.length - 8) 8)))

/-- `IndexMetaDataMmap m; m.readFromFile(permutIn);`, MetaDataConverter.cpp:116-117, 133-134: unlike in `Permutations.h:33` the vector is not
set up, so it has no elements, and `operator[]` of a vector that is not set up throws (MmapVector.h:102-105, 223-228) instead of reading out
of range. Simplifications: reading behind the end of broken meta data counts as exception too, and the iterators of the empty vector, which
bind a reference to a null pointer without reading it (MetaDataHandler.h:130-144), are taken as empty range. -/
def readUnset (old : List Nat) : Outcome Index :=
  match Index.readFromFile (some []) old with
  | .ub => .throw
  | x => x

/-- `convertPermutationToHmap`, MetaDataConverter.cpp:125-138.
Simplification: all exceptions of reading are `WrongFormatException`. -/
def convertToHmap (old : List Nat) (verify : Bool) : Outcome (List Nat) :=
  match Index.readFromFile none old with
  | .ok h => writeNewPermutation old h
  | .throw => (readUnset old).bind fun m => (m.toHmap verify).bind fun h => writeNewPermutation old h
  | .ub => .ub
  | .diverge => .diverge

/-- `getVersion` after `readFromFile` (IndexMetaDataImpl.h:43-47), for meta data with a vector -/
def versionOf (old : List Nat) : Outcome Nat := (metaPart old).bind fun part => (parseMagic true part).map Prod.fst

/-- The vector of meta data that was converted -/
def Data.vector : Data → List Full
  | .sparse _ => []
  | .dense _ vec => vec

/-- `convertPermutationToMmap`, MetaDataConverter.cpp:107-122: the new vector and the new file, if they are written -/
def convertToMmap (old : List Nat) (verify : Bool) : Outcome (Option (List Full) × Option (List Nat)) :=
  match Index.readFromFile none old with
  | .ok h => (h.toMmap verify).bind fun m => (writeNewPermutation old m).map fun new => (some m.data.vector, some new)
  | .throw => (readUnset old).bind fun m => (versionOf old).bind fun v =>
    if v < V_CURRENT then (writeNewPermutation old m).map fun new => (none, some new) else .ok (none, none)
  | .ub => .ub
  | .diverge => .diverge

end Verif.MetaData
