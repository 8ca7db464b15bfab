/-
Specification of a priority queue with handles: the set of live entries, nothing else.  Independent of both
implementations.  Results are part of the events, so a run of an implementation is judged by `specRun`.
-/
namespace Verif.PQSpec

/-- A live entry: the handle (`id`), its current score and its value. -/
structure Entry (V : Type) where
  id : Nat
  score : Nat
  value : V
  deriving DecidableEq, Repr

/-- Operations of a priority queue together with what they returned. -/
inductive Ev (V : Type) where
  /-- insertion, returning a fresh handle `id` -/
  | insert (score : Nat) (v : V) (id : Nat)
  /-- `pop` returned the entry with handle `id` and value `v` -/
  | pop (id : Nat) (v : V)
  /-- `pop` threw because the queue is empty -/
  | popEmpty
  /-- score update that succeeded -/
  | update (id score : Nat)
  /-- score update refused: the handle is not in the queue -/
  | updateRefused (id score : Nat)
  /-- removal that succeeded -/
  | erase (id : Nat)
  /-- removal refused: the handle is not in the queue -/
  | eraseRefused (id : Nat)
  | clear
  /-- `size()` returned `n` -/
  | size (n : Nat)
  deriving DecidableEq, Repr

/-- Specification state. `next`, `held` and `cleared` only record the history: how many handles were given out, which
scores a handle has had so far, and which handles were in the queue when it was cleared. -/
structure State (V : Type) where
  live : List (Entry V) := []
  next : Nat := 0
  held : List (Nat × Nat) := []
  cleared : List Nat := []

def isLive (a : State V) (id : Nat) : Prop := ∃ e ∈ a.live, e.id = id

instance (a : State V) (id : Nat) : Decidable (isLive a id) := inferInstanceAs (Decidable (∃ e ∈ a.live, e.id = id))

/-- Is this result of this operation correct, and what is the state afterwards?  -/
def specNext [DecidableEq V] (a : State V) : Ev V → Option (State V)
  | .insert s v id =>
    if id = a.next then
      some { a with live := ⟨id, s, v⟩ :: a.live, next := a.next + 1, held := (id, s) :: a.held }
    else none
  | .pop id v =>
    -- some live entry with that handle and value, of minimal score
    if ∃ e ∈ a.live, e.id = id ∧ e.value = v ∧ ∀ e' ∈ a.live, e.score ≤ e'.score then
      some { a with live := a.live.filter (fun e => e.id ≠ id) }
    else none
  | .popEmpty => if a.live = [] then some a else none
  | .update id s =>
    if isLive a id then
      some { a with
        live := a.live.map (fun e => if e.id = id then { e with score := s } else e)
        held := (id, s) :: a.held }
    else none
  | .updateRefused id _ => if isLive a id then none else some a
  | .erase id => if isLive a id then some { a with live := a.live.filter (fun e => e.id ≠ id) } else none
  | .eraseRefused id => if isLive a id then none else some a
  | .clear => some { a with live := [], cleared := a.live.map (·.id) ++ a.cleared }
  | .size n => if n = a.live.length then some a else none

/-- A history is correct if every single result is. -/
def specRun [DecidableEq V] (a : State V) : List (Ev V) → Option (State V)
  | [] => some a
  | e :: es => match specNext a e with
    | some a' => specRun a' es
    | none => none

end Verif.PQSpec
