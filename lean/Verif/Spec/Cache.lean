/-
Specification of the result cache, in terms of its history only: which value was last put under a key and which keys
are pinned.  The specification does not say which unpinned entries survive, only what a lookup may return.
-/
namespace Verif.CacheSpec

/-- Operations of the cache together with what they returned. -/
inductive Ev (K V : Type) where
  /-- `insert` returned normally with the entry accepted -/
  | insert (k : K) (v : V)
  /-- `insert` ignored an entry that is larger than the maximum for a single entry -/
  | insertIgnored (k : K) (v : V)
  /-- `insert` threw because the key is present -/
  | insertRefused (k : K) (v : V)
  | insertPinned (k : K) (v : V)
  /-- `insertPinned` threw: key present or value too big -/
  | insertPinnedRefused (k : K) (v : V)
  /-- `operator[]` returned a value, or null -/
  | lookup (k : K) (r : Option V)
  | contains (k : K) (b : Bool)
  /-- `containsAndMakePinnedIfExists` returned `b` -/
  | makePinned (k : K) (b : Bool)
  | erase (k : K)
  | clearUnpinnedOnly
  | clearAll
  | setMaxNumEntries (n : Nat)

/-- What the history says: the last value put under a key and not removed since, and the pinned keys. -/
structure State (K V : Type) where
  val : K → Option V := fun _ => none
  pin : K → Bool := fun _ => false

/-- Is the observed result right? -/
def allowed (a : State K V) : Ev K V → Prop
  -- a returned value is the last one put under exactly this key; a pinned key is always found
  | .lookup k r => (∀ v, r = some v → a.val k = some v) ∧ (a.pin k = true → r = a.val k ∧ r.isSome)
  | .contains k b => (a.pin k = true → b = true) ∧ (a.val k = none → b = false)
  | .makePinned k b => (a.pin k = true → b = true) ∧ (a.val k = none → b = false)
  -- refusals only when the key may be there
  | .insertRefused k _ => a.val k ≠ none
  | .insert k _ => a.pin k = false
  | .insertIgnored k _ => a.pin k = false
  | .insertPinned k _ => a.pin k = false
  | _ => True

/-- State after the operation. -/
def next [DecidableEq K] (a : State K V) : Ev K V → State K V
  | .insert k v => { a with val := fun x => if x = k then some v else a.val x }
  | .insertPinned k v =>
    { val := fun x => if x = k then some v else a.val x, pin := fun x => if x = k then true else a.pin x }
  -- once observed absent, an old value must not come back
  | .insertIgnored k _ => { a with val := fun x => if x = k then none else a.val x }
  | .lookup k none => { a with val := fun x => if x = k then none else a.val x }
  | .contains k false => { a with val := fun x => if x = k then none else a.val x }
  | .makePinned k false => { a with val := fun x => if x = k then none else a.val x }
  | .makePinned k true => { a with pin := fun x => if x = k then true else a.pin x }
  | .erase k =>
    { val := fun x => if x = k then none else a.val x, pin := fun x => if x = k then false else a.pin x }
  | .clearUnpinnedOnly => { a with val := fun x => if a.pin x then a.val x else none }
  | .clearAll => {}
  | _ => a

/-- A history is correct if every result is allowed. -/
def Correct [DecidableEq K] (a : State K V) : List (Ev K V) → Prop
  | [] => True
  | e :: es => allowed a e ∧ Correct (next a e) es

end Verif.CacheSpec
