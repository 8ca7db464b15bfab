/-
Outcomes of modelled C++ functions.  Undefined behaviour, thrown exceptions and non-termination are distinct
outcomes, so that no theorem can be true because an out-of-range access was given some default value.
-/
namespace Verif

/-- Result of running a modelled C++ function. -/
inductive Outcome (α : Type u) where
  /-- normal return -/
  | ok (a : α)
  /-- a C++ exception was thrown (including failed `AD_CHECK`) -/
  | throw
  /-- undefined behaviour (out-of-range access, division by zero, ...) -/
  | ub
  /-- the function does not terminate -/
  | diverge
  deriving DecidableEq, Repr

namespace Outcome

@[simp] def bind (x : Outcome α) (f : α → Outcome β) : Outcome β :=
  match x with
  | ok a => f a
  | throw => throw
  | ub => ub
  | diverge => diverge

@[simp] def map (f : α → β) (x : Outcome α) : Outcome β :=
  match x with
  | ok a => ok (f a)
  | throw => throw
  | ub => ub
  | diverge => diverge

instance : Monad Outcome where
  pure := ok
  bind := bind

@[simp] theorem pure_eq (a : α) : (pure a : Outcome α) = ok a := rfl
@[simp] theorem bind_eq (x : Outcome α) (f : α → Outcome β) : (x >>= f) = bind x f := rfl

/-- Unchecked array/vector read `v[i]`: undefined behaviour when out of range. -/
def read (l : List α) (i : Nat) : Outcome α :=
  match l[i]? with
  | some a => ok a
  | none => ub

@[simp] theorem read_lt (l : List α) (i : Nat) (h : i < l.length) : read l i = ok l[i] := by
  simp [read, h]

@[simp] theorem read_ge (l : List α) (i : Nat) (h : l.length ≤ i) : read l i = ub := by
  simp [read, h]

end Outcome
end Verif
