import Mathlib.Data.Rat.Defs
import Mathlib.Algebra.Order.Field.Rat
/-
Specification of decimal numbers as they are written, and of their values.
-/
namespace Verif.ConversionsSpec

/-- A number with its digits before and after the dot. -/
structure Number where
  neg : Bool
  int : List Nat
  frac : List Nat
  deriving DecidableEq, Repr

/-- The natural number that a list of digits stands for. -/
def natOf (ds : List Nat) : Nat := ds.foldl (fun n d => 10 * n + d) 0

/-- The value of a number. -/
def Number.value (x : Number) : ℚ :=
  let abs : ℚ := (natOf x.int : ℚ) + (natOf x.frac : ℚ) / 10 ^ x.frac.length
  if x.neg then -abs else abs

/-- How a number is written. -/
def Number.text (x : Number) : List Char :=
  (if x.neg then ['-'] else []) ++ x.int.map (fun d => Char.ofNat (48 + d)) ++ '.' :: x.frac.map (fun d => Char.ofNat (48 + d))

/-- Numbers without superfluous zeros at the beginning; zero is written as `0.0` or `-0.0`. -/
structure Number.Canonical (x : Number) : Prop where
  digits : ∀ d ∈ x.int ++ x.frac, d < 10
  nonempty : x.int ≠ []
  leading : x.int.head? = some 0 → x.int = [0]
  zero : (∀ d ∈ x.int ++ x.frac, d = 0) → x.frac = [0]

instance (x : Number) : Decidable x.Canonical :=
  decidable_of_iff ((∀ d ∈ x.int ++ x.frac, d < 10) ∧ x.int ≠ [] ∧ (x.int.head? = some 0 → x.int = [0])
      ∧ ((∀ d ∈ x.int ++ x.frac, d = 0) → x.frac = [0]))
    ⟨fun ⟨a, b, c, d⟩ => ⟨a, b, c, d⟩, fun h => ⟨h.1, h.2, h.3, h.4⟩⟩

/-- A list of digits without the zeros at its end. -/
def stripEnd (ds : List Nat) : List Nat := (ds.reverse.dropWhile (· = 0)).reverse

/-- The digits without zeros at the beginning and at the end, as a natural number. -/
def Number.significand (x : Number) : Nat := natOf (stripEnd (x.int ++ x.frac))

/-- How a number is shown: no zeros at the end, but at least one digit after the dot; zero has no sign. -/
def Number.shown (x : Number) : Number :=
  ⟨x.neg && decide (x.value ≠ 0), x.int, if stripEnd x.frac = [] then [0] else stripEnd x.frac⟩

/-- Weights of characters that put the words for numbers into the right order. -/
structure Weights (w : Char → Nat) : Prop where
  digits : ∀ a b, a < b → b < 10 → w (Char.ofNat (48 + a)) < w (Char.ofNat (48 + b))
  signs : w 'M' < w 'N' ∧ w 'N' < w 'P'
  expo : w '+' < w '-'

end Verif.ConversionsSpec
