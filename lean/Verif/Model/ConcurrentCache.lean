import Verif.Model.Outcome
import Verif.Model.Cache
/-
Model of `ConcurrentCache`, /repo/src/util/ConcurrentCache.h, on top of the cache model, together with the compute
function that `Operation::getResult` passes to it (/repo/src/engine/Operation.cpp:91-108).

A transition system.  Each call of `computeOnce`/`computeOncePinned` is a request, numbered by a natural number; any
number of requests may be under way and any enabled step may happen next.  Critical sections under the storage lock
(lines 240-266, 219-228, 280) and under the mutex of a `ResultInProgress` (lines 56-86) are single steps.
Nested calls (an operation that asks for the results of its children while computing) are separate requests; nesting
only restricts the possible schedules.

Simplifications: condition-variable wake-ups are modelled as "may continue once the status has changed".
-/
namespace Verif.ConcurrentCache
open CacheSpec (Ev)

/-- `ResultInProgress::Status` with the result (lines 88-96). -/
inductive Status (V : Type) where
  | inProgress
  | finished (v : V)
  | aborted
  deriving DecidableEq, Repr

/-- What a call returns. -/
inductive Res (V : Type) where
  /-- a value; `cached` is `_wasCached` -/
  | value (v : V) (cached : Bool)
  /-- a null pointer (lookup of an entry that is not there) -/
  | null
  /-- the exception of the computation (or of storing its result) is rethrown (line 283) -/
  | exception
  /-- `WaitedForResultWhichThenFailedException` (lines 82-84) -/
  | waitedFailed
  deriving DecidableEq, Repr

/-- Where a request is. `rip` identifies the shared `ResultInProgress` object. -/
inductive Phase (K V : Type) where
  | idle
  /-- running `computeFunction()` (line 272) -/
  | computing (k : K) (rip : Nat)
  /-- result there, before `moveFromInProgressToCache` (line 273) -/
  | computed (k : K) (rip : Nat) (v : V)
  /-- stored, before `finish` (line 275) -/
  | moved (k : K) (rip : Nat) (v : V)
  /-- an exception was thrown, before `_inProgress.erase(key)` (line 280) -/
  | failing (k : K) (rip : Nat)
  /-- before `abort()` (line 282) -/
  | aborting (k : K) (rip : Nat)
  /-- in `getResult()` of somebody else's computation (line 289) -/
  | waiting (k : K) (rip : Nat)
  | done (k : K) (r : Res V)
  deriving DecidableEq, Repr

structure State (K V : Type) where
  cache : Cache.State K V
  /-- `_inProgress` (line 205) -/
  inProg : List (K × (Bool × Nat)) := []
  /-- all `ResultInProgress` objects created so far -/
  rips : List (Status V) := []
  req : Nat → Phase K V := fun _ => .idle

/-- The function given to `computeOnce` (Operation.cpp:91-108): check the timer, compute, check the timer again. `res` is
what `computeResult` does; it may throw itself. -/
def computeLambda (timedOutBefore : Bool) (res : Outcome V) (timedOutAfter : Bool) : Outcome V :=
  if timedOutBefore then .throw
  else match res with
    | .ok v => if timedOutAfter then .throw else .ok v
    | .throw => .throw
    | .ub => .ub
    | .diverge => .diverge

inductive Event (K V : Type) where
  | start (r : Nat) (k : K) (pinned : Bool)
  | compute (r : Nat) (k : K) (before : Bool) (res : Outcome V) (after : Bool)
  | move (r : Nat)
  | finish (r : Nat)
  | unregister (r : Nat)
  | abort (r : Nat)
  | wake (r : Nat)
  /-- `clearUnpinnedOnly`, `clearAll`, `cacheContains`, `resultAt`, ... by anybody (lines 149-193) -/
  | maintenance (e : Ev K V)

/-- `s.req` with request `r` in another phase. -/
def setReq (f : Nat → Phase K V) (r : Nat) (p : Phase K V) : Nat → Phase K V := fun x => if x = r then p else f x

open Cache (find setKey eraseKey)
variable {K V : Type} [DecidableEq K] [DecidableEq V]

/-- Which cache operations other parties may perform directly. -/
def maintenanceOp : Ev K V → Prop
  | .lookup _ _ | .contains _ _ | .clearUnpinnedOnly | .clearAll | .setMaxNumEntries _ => True
  | _ => False

/-- What the result of a lookup becomes (line 248). -/
def ofLookup : Option V → Res V
  | some v => .value v true
  | none => .null

inductive Step (c : Cache.Config V) : State K V → Event K V → State K V → Prop where
  /-- lines 242-249, not pinned and in the cache -/
  | startCached {s : State K V} (r k) (res : Option V) (c2) (hr : s.req r = .idle)
      (hc : Cache.Step c s.cache (.contains k true) s.cache)
      (hl : Cache.Step c s.cache (.lookup k res) c2) :
      Step c s (.start r k false) { s with cache := c2, req := setReq s.req r (.done k (ofLookup res)) }
  /-- the same when pinning -/
  | startCachedPin {s : State K V} (r k) (res : Option V) (c1 c2) (hr : s.req r = .idle)
      (hc : Cache.Step c s.cache (.makePinned k true) c1)
      (hl : Cache.Step c c1 (.lookup k res) c2) :
      Step c s (.start r k true) { s with cache := c2, req := setReq s.req r (.done k (ofLookup res)) }
  /-- lines 250-259: somebody else is computing -/
  | startWait {s : State K V} (r k) (pinned : Bool) (c1) (p : Bool) (rip : Nat) (hr : s.req r = .idle)
      (hc : Cache.Step c s.cache (if pinned then .makePinned k false else .contains k false) c1)
      (hp : find s.inProg k = some (p, rip)) :
      Step c s (.start r k pinned)
        { s with cache := c1, inProg := setKey s.inProg k (p || pinned, rip), req := setReq s.req r (.waiting k rip) }
  /-- lines 260-265: we are the first -/
  | startCompute {s : State K V} (r k) (pinned : Bool) (c1) (hr : s.req r = .idle)
      (hc : Cache.Step c s.cache (if pinned then .makePinned k false else .contains k false) c1)
      (hp : find s.inProg k = none) :
      Step c s (.start r k pinned)
        { s with
          cache := c1
          inProg := setKey s.inProg k (pinned, s.rips.length)
          rips := s.rips ++ [.inProgress]
          req := setReq s.req r (.computing k s.rips.length) }
  /-- line 272, success -/
  | computeOk {s : State K V} (r k rip) (v : V) (before after : Bool) (res : Outcome V)
      (hr : s.req r = .computing k rip) (hv : computeLambda before res after = .ok v) :
      Step c s (.compute r k before res after) { s with req := setReq s.req r (.computed k rip v) }
  /-- line 272, exception -/
  | computeThrow {s : State K V} (r k rip) (before after : Bool) (res : Outcome V)
      (hr : s.req r = .computing k rip) (hv : computeLambda before res after = .throw) :
      Step c s (.compute r k before res after) { s with req := setReq s.req r (.failing k rip) }
  /-- `moveFromInProgressToCache` (lines 217-229), `AD_CHECK` of line 220 fails -/
  | moveCheck {s : State K V} (r k rip v) (hr : s.req r = .computed k rip v) (hp : find s.inProg k = none) :
      Step c s (.move r) { s with req := setReq s.req r (.failing k rip) }
  /-- lines 222-224, result stored as pinned -/
  | movePinned {s : State K V} (r k rip v rip' c1) (hr : s.req r = .computed k rip v)
      (hp : find s.inProg k = some (true, rip'))
      (hi : Cache.Step c s.cache (.insertPinned k v) c1) :
      Step c s (.move r)
        { s with cache := c1, inProg := eraseKey s.inProg k, req := setReq s.req r (.moved k rip v) }
  /-- `insertPinned` throws -/
  | movePinnedThrow {s : State K V} (r k rip v rip' c1) (hr : s.req r = .computed k rip v)
      (hp : find s.inProg k = some (true, rip'))
      (hi : Cache.Step c s.cache (.insertPinnedRefused k v) c1) :
      Step c s (.move r) { s with cache := c1, req := setReq s.req r (.failing k rip) }
  /-- line 226: stored, or ignored because it is too big -/
  | move {s : State K V} (r k rip v rip' c1) (e : Ev K V) (hr : s.req r = .computed k rip v)
      (hp : find s.inProg k = some (false, rip'))
      (he : e = .insert k v ∨ e = .insertIgnored k v) (hi : Cache.Step c s.cache e c1) :
      Step c s (.move r)
        { s with cache := c1, inProg := eraseKey s.inProg k, req := setReq s.req r (.moved k rip v) }
  /-- `insert` throws -/
  | moveThrow {s : State K V} (r k rip v rip' c1) (hr : s.req r = .computed k rip v)
      (hp : find s.inProg k = some (false, rip'))
      (hi : Cache.Step c s.cache (.insertRefused k v) c1) :
      Step c s (.move r) { s with cache := c1, req := setReq s.req r (.failing k rip) }
  /-- `finish` (lines 56-62) -/
  | finish {s : State K V} (r k rip v) (hr : s.req r = .moved k rip v) (hs : s.rips[rip]? = some .inProgress) :
      Step c s (.finish r)
        { s with rips := s.rips.set rip (.finished v), req := setReq s.req r (.done k (.value v false)) }
  /-- the `AD_CHECK` of line 58 fails -/
  | finishCheck {s : State K V} (r k rip v) (hr : s.req r = .moved k rip v) (hs : s.rips[rip]? ≠ some .inProgress) :
      Step c s (.finish r) { s with req := setReq s.req r (.failing k rip) }
  /-- line 280 -/
  | unregister {s : State K V} (r k rip) (hr : s.req r = .failing k rip) :
      Step c s (.unregister r) { s with inProg := eraseKey s.inProg k, req := setReq s.req r (.aborting k rip) }
  /-- `abort` (lines 68-73) and rethrow; the `AD_CHECK` of line 69 would throw another exception instead -/
  | abort {s : State K V} (r k rip) (hr : s.req r = .aborting k rip) :
      Step c s (.abort r)
        { s with
          rips := if s.rips[rip]? = some .inProgress then s.rips.set rip .aborted else s.rips
          req := setReq s.req r (.done k .exception) }
  /-- `getResult` (lines 78-86) -/
  | wakeOk {s : State K V} (r k rip v) (hr : s.req r = .waiting k rip) (hs : s.rips[rip]? = some (.finished v)) :
      Step c s (.wake r) { s with req := setReq s.req r (.done k (.value v false)) }
  | wakeAborted {s : State K V} (r k rip) (hr : s.req r = .waiting k rip) (hs : s.rips[rip]? = some .aborted) :
      Step c s (.wake r) { s with req := setReq s.req r (.done k .waitedFailed) }
  | maintenance {s : State K V} (e : Ev K V) (c1) (he : maintenanceOp e) (hs : Cache.Step c s.cache e c1) :
      Step c s (.maintenance e) { s with cache := c1 }

/-- Executions from an empty cache with `n` as maximal number of entries. -/
inductive Exec (c : Cache.Config V) (n : Nat) : List (Event K V) → State K V → Prop where
  | nil : Exec c n [] { cache := Cache.init n }
  | snoc {es s s'} (e : Event K V) (h : Exec c n es s) (hs : Step c s e s') : Exec c n (es ++ [e]) s'

/-- Continuations of an execution. -/
inductive Steps (c : Cache.Config V) : State K V → State K V → Prop where
  | refl {s : State K V} : Steps c s s
  | tail {s s' s'' : State K V} (e : Event K V) (h : Steps c s s') (hs : Step c s' e s'') : Steps c s s''

end Verif.ConcurrentCache
