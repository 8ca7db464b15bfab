import Verif.Model.Outcome
import Verif.Spec.PriorityQueue
/-
Model of /repo/src/util/PriorityQueue.h: `HeapBasedPQ` (lines 186-420) and `TreeBasedPQ` (lines 60-184).

Simplifications: scores are natural numbers with `<` (the cache uses time points with `std::less<>`); a
`std::priority_queue` / `std::multiset` is a list of entries of which `top()` / `begin()` may be any one with
minimal score (so all tie-breaking orders are covered).  The comparator that `HeapBasedPQ` passes to
`std::priority_queue` (lines 273-279) is `a ≥ b`, which is formally not a strict weak ordering; the model assumes
that the heap functions still keep a minimal entry on top.  `size_t` increments do not overflow; decrements of 0
wrap.
-/
namespace Verif.PQ
open PQSpec (Ev)

/-- `mSize--` on `size_t`. -/
def dec (n : Nat) : Nat := if n = 0 then 2 ^ 64 - 1 else n - 1

/-- `e` may be the top of the heap: minimal score among the entries.  Entries are pairs (score, handle). -/
def IsTop (e : Nat × Nat) (l : List (Nat × Nat)) : Prop := e ∈ l ∧ ∀ x ∈ l, e.1 ≤ x.1

namespace Heap

/-- `PqNode` (lines 215-222).  `score = none` is `std::monostate`. -/
structure Node (V : Type) where
  score : Option Nat
  value : V
  inPQ : Bool
  deriving Repr

/-- `HeapBasedPQ` (data members lines 281-301).  A handle is the index of its node (nodes are shared pointers). -/
structure State (V : Type) where
  nodes : List (Node V) := []
  heap : List (Nat × Nat) := []
  size : Nat := 0

/-- `isValid() && top.mScore == top.mHandle.score()` (line 405). -/
def upToDate (h : State V) (e : Nat × Nat) : Prop := ∃ n, h.nodes[e.2]? = some n ∧ n.score = some e.1

/-- `pruneChangedKeys` (lines 402-412). -/
inductive Prune : State V → State V → Prop where
  | empty {h : State V} (hh : h.heap = []) : Prune h h
  | stop {h : State V} (e) (ht : IsTop e h.heap) (hv : upToDate h e) : Prune h h
  | skip {h h' : State V} (e) (ht : IsTop e h.heap) (hv : ¬ upToDate h e)
      (hr : Prune { h with heap := h.heap.erase e } h') : Prune h h'

/-- `handle.erase()` (line 251): only the flag is reset, the score stays. -/
def markErased (h : State V) (id : Nat) : State V :=
  { h with nodes := h.nodes.modify id (fun n => { n with inPQ := false }) }

/-- The public operations, each with the result it produces. -/
inductive Step [Inhabited V] : State V → Ev V → State V → Prop where
  /-- `insert` (lines 334-340) -/
  | insert {h : State V} (s : Nat) (v : V) :
      Step h (.insert s v h.nodes.length)
        { nodes := h.nodes ++ [⟨some s, v, true⟩], heap := (s, h.nodes.length) :: h.heap, size := h.size + 1 }
  /-- `pop` (lines 354-365): after pruning, top is returned; `isInPq` is not looked at -/
  | pop {h h' : State V} (e) (n : Node V) (hp : Prune h h') (ht : IsTop e h'.heap) (hn : h'.nodes[e.2]? = some n) :
      -- after `pruneChangedKeys` the top is up to date; the same top is taken
      upToDate h' e →
      Step h (.pop e.2 n.value) (markErased { h' with heap := h'.heap.erase e, size := dec h'.size } e.2)
  | popEmpty {h h' : State V} (hp : Prune h h') (he : h'.heap = []) : Step h .popEmpty h'
  /-- `updateKey` (lines 376-383), handle in the queue, same score: nothing happens -/
  | updateSame {h : State V} (id s : Nat) (n) (hn : h.nodes[id]? = some n) (hi : n.inPQ = true) (hs : n.score = some s) :
      Step h (.update id s) h
  | update {h : State V} (id s : Nat) (n) (hn : h.nodes[id]? = some n) (hi : n.inPQ = true) (hs : n.score ≠ some s) :
      Step h (.update id s)
        { h with nodes := h.nodes.modify id (fun n => { n with score := some s }), heap := (s, id) :: h.heap }
  | updateRefused {h : State V} (id s : Nat) (n) (hn : h.nodes[id]? = some n) (hi : n.inPQ = false) :
      Step h (.updateRefused id s) h
  /-- `erase` (lines 325-329) with `eraseAndInvalidate` (lines 254-258) -/
  | erase {h : State V} (id : Nat) (n) (hn : h.nodes[id]? = some n) (hi : n.inPQ = true) :
      Step h (.erase id)
        { h with nodes := h.nodes.set id ⟨none, default, false⟩, size := dec h.size }
  | eraseRefused {h : State V} (id : Nat) (n) (hn : h.nodes[id]? = some n) (hi : n.inPQ = false) :
      Step h (.eraseRefused id) h
  /-- `clear` (lines 312-315): the nodes keep their flags -/
  | clear {h : State V} : Step h .clear { h with heap := [], size := 0 }
  /-- `size` (line 393) -/
  | size {h : State V} : Step h (.size h.size) h

/-- Runs of the queue: any sequence of operations. -/
inductive Run [Inhabited V] : State V → List (Ev V) → State V → Prop where
  | nil {h : State V} : Run h [] h
  | cons {h h' h'' : State V} {e es} (hs : Step h e h') (hr : Run h' es h'') : Run h (e :: es) h''

end Heap

namespace Tree

/-- `TreeBasedPQ`: the multiset of handles; a handle is its score plus the shared pointer to the value
(lines 64-71), here the index of the value. -/
structure State (V : Type) where
  values : List V := []
  map : List (Nat × Nat) := []

/-- Operations take the handle they are called with: `(score, pointer)`.  The caller holds the handle that the last
successful operation on it left behind (`updateKey` writes the new score into it, line 167); a copy made before
is stale. -/
inductive Step : State V → Ev V → State V → Prop where
  /-- `insert` (lines 108-112) -/
  | insert {t : State V} (s : Nat) (v : V) :
      Step t (.insert s v t.values.length) { values := t.values ++ [v], map := (s, t.values.length) :: t.map }
  /-- `pop` (lines 120-127) -/
  | pop {t : State V} (e) (v : V) (ht : IsTop e t.map) (hv : t.values[e.2]? = some v) :
      Step t (.pop e.2 v) { t with map := t.map.erase e }
  | popEmpty {t : State V} (he : t.map = []) : Step t .popEmpty t
  /-- `updateKey` (lines 160-169) with a handle that is found in the multiset -/
  | update {t : State V} (old id s : Nat) (hf : (old, id) ∈ t.map) :
      Step t (.update id s) { t with map := (s, id) :: t.map.erase (old, id) }
  /-- no handle with that pointer is in the multiset -/
  | updateRefused {t : State V} (id s : Nat) (hid : id < t.values.length) (hf : ∀ x ∈ t.map, x.2 ≠ id) :
      Step t (.updateRefused id s) t
  /-- `erase` (lines 137-144) -/
  | erase {t : State V} (old id : Nat) (hf : (old, id) ∈ t.map) : Step t (.erase id) { t with map := t.map.erase (old, id) }
  | eraseRefused {t : State V} (id : Nat) (hid : id < t.values.length) (hf : ∀ x ∈ t.map, x.2 ≠ id) :
      Step t (.eraseRefused id) t
  /-- `clear` (line 102) -/
  | clear {t : State V} : Step t .clear { t with map := [] }
  /-- `size` (line 172) -/
  | size {t : State V} : Step t (.size t.map.length) t

inductive Run : State V → List (Ev V) → State V → Prop where
  | nil {t : State V} : Run t [] t
  | cons {t t' t'' : State V} {e es} (hs : Step t e t') (hr : Run t' es t'') : Run t (e :: es) t''

end Tree
end Verif.PQ
