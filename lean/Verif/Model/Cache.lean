import Verif.Spec.Cache
/-
Model of `FlexibleCache`, /repo/src/util/Cache.h:84-362.

Simplifications: keys have decidable equality, hash maps are association lists; the priority queue is the abstract one
(C11: `TreeBasedPQ` always, `HeapBasedPQ` for scores that never return to an earlier value, which holds for the LRU
cache): a list of nodes of which `pop` may remove any one with minimal score.  Scores are naturals and arbitrary (each
operation that computes a score takes it as a parameter, so the theorems hold for every score calculator and access
updater).  Sums of sizes do not overflow 2^64; subtractions wrap.  `erase` (lines 263-280) does not compile in
the repository when instantiated (line 277 applies `*` to a handle); the model uses the value's size as intended.
-/
namespace Verif.Cache
open CacheSpec (Ev)

/-- `size_t` subtraction. -/
def subWrap (a b : Nat) : Nat := if b ≤ a then a - b else a + 2 ^ 64 - b

/-- Limits and the size function (constructor, lines 129-142). -/
structure Config (V : Type) where
  maxSize : Nat
  maxSizeSingleEntry : Nat
  sizeOf : V → Nat

/-- A node of the priority queue: handle, score and `Entry` (lines 98-114). -/
structure QNode (K V : Type) where
  handle : Nat
  score : Nat
  key : K
  val : V
  deriving DecidableEq

/-- Data members (lines 332-344). -/
structure State (K V : Type) where
  maxNumEntries : Nat
  pinnedMap : List (K × V) := []
  accessMap : List (K × Nat) := []
  entries : List (QNode K V) := []
  nextHandle : Nat := 0
  totalSizeNonPinned : Nat := 0
  totalSizePinned : Nat := 0

variable {K V : Type} [DecidableEq K] [DecidableEq V]

/-- `map.find(key)` -/
def find (m : List (K × α)) (k : K) : Option α := (m.find? (fun p => p.1 = k)).map (·.2)

/-- `map.erase(key)` -/
def eraseKey (m : List (K × α)) (k : K) : List (K × α) := m.filter (fun p => p.1 ≠ k)

/-- `map[key] = v` -/
def setKey (m : List (K × α)) (k : K) (v : α) : List (K × α) := (k, v) :: eraseKey m k

/-- The node a handle points to. -/
def deref (s : State K V) (h : Nat) : Option (QNode K V) := s.entries.find? (fun e => e.handle = h)

/-- The loop condition of `shrinkToFit` (lines 347-349). -/
def over (c : Config V) (s : State K V) : Prop :=
  s.entries.length + s.pinnedMap.length > s.maxNumEntries ∨ s.totalSizeNonPinned + s.totalSizePinned > c.maxSize

instance (c : Config V) (s : State K V) : Decidable (over c s) := inferInstanceAs (Decidable (_ ∨ _))

/-- `shrinkToFit` (lines 346-361). -/
inductive Shrink (c : Config V) : State K V → State K V → Prop where
  | done {s} (h : s.entries = [] ∨ ¬ over c s) : Shrink c s s
  | pop {s s'} (e : QNode K V) (ho : over c s) (he : e ∈ s.entries) (hmin : ∀ x ∈ s.entries, e.score ≤ x.score)
      (hr : Shrink c
        { s with
          entries := s.entries.erase e
          totalSizeNonPinned := subWrap s.totalSizeNonPinned (c.sizeOf e.val)
          accessMap := eraseKey s.accessMap e.key } s') : Shrink c s s'

/-- `contains` (lines 233-235). -/
def contains (s : State K V) (k : K) : Bool := (find s.pinnedMap k).isSome || (find s.accessMap k).isSome

/-- The state just before `shrinkToFit` in `insert` (lines 193-196). -/
def pushed (c : Config V) (s : State K V) (k : K) (v : V) (score : Nat) : State K V :=
  { s with
    totalSizeNonPinned := s.totalSizeNonPinned + c.sizeOf v
    entries := ⟨s.nextHandle, score, k, v⟩ :: s.entries
    accessMap := setKey s.accessMap k s.nextHandle
    nextHandle := s.nextHandle + 1 }

/-- The state just before `shrinkToFit` in `insertPinned` (lines 221-222). -/
def pinnedPushed (c : Config V) (s : State K V) (k : K) (v : V) : State K V :=
  { s with pinnedMap := setKey s.pinnedMap k v, totalSizePinned := s.totalSizePinned + c.sizeOf v }

/-- The public operations, each with the result it produces. -/
inductive Step (c : Config V) : State K V → Ev K V → State K V → Prop where
  /-- `insert` (lines 182-203) -/
  | insert {s s'} (k : K) (v : V) (score : Nat) (hc : contains s k = false) (hs : c.sizeOf v ≤ c.maxSizeSingleEntry)
      (hr : Shrink c (pushed c s k v score) s') : Step c s (.insert k v) s'
  | insertIgnored {s} (k : K) (v : V) (hc : contains s k = false) (hs : c.maxSizeSingleEntry < c.sizeOf v) :
      Step c s (.insertIgnored k v) s
  | insertRefused {s} (k : K) (v : V) (hc : contains s k = true) : Step c s (.insertRefused k v) s
  /-- `insertPinned` (lines 208-225) -/
  | insertPinned {s s'} (k : K) (v : V) (hc : contains s k = false) (hs : c.sizeOf v ≤ c.maxSizeSingleEntry)
      (hr : Shrink c (pinnedPushed c s k v) s') : Step c s (.insertPinned k v) s'
  | insertPinnedRefused {s} (k : K) (v : V) (hc : contains s k = true ∨ c.maxSizeSingleEntry < c.sizeOf v) :
      Step c s (.insertPinnedRefused k v) s
  /-- `operator[]` (lines 145-162): pinned entry -/
  | lookupPinned {s} (k : K) (v : V) (hf : find s.pinnedMap k = some v) : Step c s (.lookup k (some v)) s
  | lookupNone {s} (k : K) (hp : find s.pinnedMap k = none) (ha : find s.accessMap k = none) :
      Step c s (.lookup k none) s
  /-- unpinned entry: the score is updated by `_accessUpdater` -/
  | lookup {s} (k : K) (h : Nat) (e : QNode K V) (newScore : Nat) (hp : find s.pinnedMap k = none)
      (ha : find s.accessMap k = some h) (hd : deref s h = some e) :
      Step c s (.lookup k (some e.val))
        { s with entries := s.entries.map (fun x => if x.handle = h then { x with score := newScore } else x) }
  | contains {s} (k : K) : Step c s (.contains k (contains s k)) s
  /-- `containsAndMakePinnedIfExists` (lines 239-259) -/
  | makePinnedAlready {s} (k : K) (v : V) (hf : find s.pinnedMap k = some v) : Step c s (.makePinned k true) s
  | makePinnedAbsent {s} (k : K) (hp : find s.pinnedMap k = none) (ha : find s.accessMap k = none) :
      Step c s (.makePinned k false) s
  | makePinned {s} (k : K) (h : Nat) (e : QNode K V) (hp : find s.pinnedMap k = none)
      (ha : find s.accessMap k = some h) (hd : deref s h = some e) :
      Step c s (.makePinned k true)
        { s with
          totalSizeNonPinned := subWrap s.totalSizeNonPinned (c.sizeOf e.val)
          totalSizePinned := s.totalSizePinned + c.sizeOf e.val
          pinnedMap := setKey s.pinnedMap k e.val
          entries := s.entries.erase e
          accessMap := eraseKey s.accessMap k }
  /-- `erase` (lines 263-280) -/
  | erasePinned {s} (k : K) (v : V) (hf : find s.pinnedMap k = some v) :
      Step c s (.erase k)
        { s with
          totalSizePinned := subWrap s.totalSizePinned (c.sizeOf v), pinnedMap := eraseKey s.pinnedMap k }
  | eraseAbsent {s} (k : K) (hp : find s.pinnedMap k = none) (ha : find s.accessMap k = none) :
      Step c s (.erase k) s
  | erase {s} (k : K) (h : Nat) (e : QNode K V) (hp : find s.pinnedMap k = none)
      (ha : find s.accessMap k = some h) (hd : deref s h = some e) :
      Step c s (.erase k)
        { s with
          totalSizeNonPinned := subWrap s.totalSizeNonPinned (c.sizeOf e.val)
          entries := s.entries.erase e
          accessMap := eraseKey s.accessMap k }
  /-- `clearUnpinnedOnly` (lines 283-290) -/
  | clearUnpinnedOnly {s} :
      Step c s .clearUnpinnedOnly { s with entries := [], accessMap := [], totalSizeNonPinned := 0 }
  /-- `clearAll` (lines 293-302) -/
  | clearAll {s} :
      Step c s .clearAll
        { s with
          entries := [], pinnedMap := [], accessMap := [], totalSizeNonPinned := 0, totalSizePinned := 0 }
  /-- `setMaxNumEntries` (lines 227-230) -/
  | setMaxNumEntries {s s'} (n : Nat) (hr : Shrink c { s with maxNumEntries := n } s') :
      Step c s (.setMaxNumEntries n) s'

/-- Histories of a cache. -/
inductive Run (c : Config V) : State K V → List (Ev K V) → State K V → Prop where
  | nil {s} : Run c s [] s
  | cons {s s' s'' e es} (hs : Step c s e s') (hr : Run c s' es s'') : Run c s (e :: es) s''

/-- A new cache. -/
def init (maxNumEntries : Nat) : State K V := { maxNumEntries }

/-- `numNonPinnedEntries` (line 326), `numPinnedEntries` (329), `nonPinnedSize` (316-323), `pinnedSize` (305-313). -/
def numNonPinnedEntries (s : State K V) : Nat := s.accessMap.length
def numPinnedEntries (s : State K V) : Nat := s.pinnedMap.length
def pinnedSize (c : Config V) (s : State K V) : Nat := (s.pinnedMap.map (fun p => c.sizeOf p.2)).sum
/-- The handles of the access map are dereferenced; a dangling one would be undefined behaviour (`none`). -/
def nonPinnedSize (c : Config V) (s : State K V) : Option Nat :=
  (s.accessMap.mapM (fun p => (deref s p.2).map (fun e => c.sizeOf e.val))).map List.sum

end Verif.Cache
