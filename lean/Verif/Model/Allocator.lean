import Verif.Model.Outcome
/-
Model of the memory-limited allocator, /repo/src/util/AllocatorWithLimit.h.

All threads share one `AllocationMemoryLeft` behind a spin lock (`Synchronized<AllocationMemoryLeft, SpinLock>`, AllocatorWithLimit.h:63-70), so
every access to the counter is one atomic step.  `allocate` and `deallocate` are not atomic: each consists of a
counter step and a heap step (lines 140-154).  The model keeps these as separate steps, so a schedule may
interleave other threads between them.

Simplifications: addresses are not modelled (a block is identified by its request); which thread performs a step is
not recorded, any enabled step may happen next.
-/
namespace Verif.Allocator

/-- A request: `n` elements of `size` bytes (`T* allocate(n)` with `size = sizeof(T)`). -/
structure Req where
  n : Nat
  size : Nat
  deriving DecidableEq, Repr

/-- `n * sizeof(T)` as computed in `size_t` (AllocatorWithLimit.h:143, 153): wraps modulo 2^64. -/
def Req.charge (r : Req) : Nat := (r.n * r.size) % 2 ^ 64

/-- `AllocationMemoryLeft::decrease_if_enough_left` (AllocatorWithLimit.h:45-51). -/
def decreaseIfEnoughLeft (free n : Nat) : Outcome Nat :=
  if n ≤ free then .ok (free - n) else .throw

/-- `AllocationMemoryLeft::increase` (AllocatorWithLimit.h:54): `size_t` addition. -/
def increase (free n : Nat) : Nat := (free + n) % 2 ^ 64

/-- Does `std::allocator<T>::allocate(n)` accept the request at all?  It refuses more than `PTRDIFF_MAX` bytes. -/
def Req.representable (r : Req) : Prop := r.n * r.size < 2 ^ 63

instance (r : Req) : Decidable r.representable := inferInstanceAs (Decidable (_ < _))

/-- Global state: the shared counter and, for every request that is under way, how far it has come. -/
structure State where
  /-- `AllocationMemoryLeft::free_` -/
  free : Nat
  /-- counter already decreased, heap allocation not yet done (between lines 143 and 145) -/
  charged : List Req
  /-- memory handed out to the caller -/
  live : List Req
  /-- memory given back to the heap, counter not yet increased (between lines 151 and 153) -/
  freed : List Req
  /-- requests whose counter decrease succeeded and whose heap allocation threw `std::bad_alloc` -/
  failed : List Req
  deriving Repr

/-- Atomic steps of the threads. -/
inductive Event where
  /-- `decrease_if_enough_left` in `allocate` (line 143) -/
  | request (r : Req)
  /-- `allocator_.allocate(n)` returns (line 145) -/
  | obtain (r : Req)
  /-- `allocator_.allocate(n)` throws `std::bad_alloc` (line 145) -/
  | badAlloc (r : Req)
  /-- `allocator_.deallocate(p, n)` (line 151) -/
  | release (r : Req)
  /-- `increase` in `deallocate` (line 153) -/
  | credit (r : Req)
  deriving DecidableEq, Repr

/-- Is the step possible in this state?  `deallocate` is only called with what `allocate` returned. -/
def enabled (s : State) : Event → Prop
  | .request _ => True
  | .obtain r => r ∈ s.charged ∧ r.representable
  | .badAlloc r => r ∈ s.charged
  | .release r => r ∈ s.live
  | .credit r => r ∈ s.freed

instance (s : State) (e : Event) : Decidable (enabled s e) := by
  cases e <;> simp only [enabled] <;> infer_instance

/-- Effect of a step.  `.throw` is only possible for `request`: the exception of line 49. -/
def step (s : State) : Event → Outcome State
  | .request r =>
    match decreaseIfEnoughLeft s.free r.charge with
    | .ok f => .ok { s with free := f, charged := r :: s.charged }
    | .throw => .throw
    | .ub => .ub
    | .diverge => .diverge
  | .obtain r => .ok { s with charged := s.charged.erase r, live := r :: s.live }
  | .badAlloc r => .ok { s with charged := s.charged.erase r, failed := r :: s.failed }
  | .release r => .ok { s with live := s.live.erase r, freed := r :: s.freed }
  | .credit r => .ok { s with freed := s.freed.erase r, free := increase s.free r.charge }

/-- State after a step as the other threads see it: an exception changes nothing. -/
def next (s : State) (e : Event) : State :=
  match step s e with
  | .ok s' => s'
  | _ => s

/-- A fresh allocator with a limit (`AllocationMemoryLeft(size_t n)`, AllocatorWithLimit.h:42). -/
def init (limit : Nat) : State := ⟨limit, [], [], [], []⟩

/-- Executions: any finite sequence of enabled steps of any number of threads. -/
inductive Exec (limit : Nat) : List Event → State → Prop where
  | nil : Exec limit [] (init limit)
  | snoc {es s} (e : Event) (h : Exec limit es s) (he : enabled s e) : Exec limit (es ++ [e]) (next s e)

end Verif.Allocator
