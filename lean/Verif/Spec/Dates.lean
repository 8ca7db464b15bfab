import Verif.Spec.Conversions
/-
Specification of dates as they are written, and of their order in time.
-/
namespace Verif.DatesSpec
open Verif.ConversionsSpec (natOf)

/-- A date with a time; the year is given by its digits. -/
structure Moment where
  neg : Bool
  year : List Nat
  month : Nat
  day : Nat
  hour : Nat
  minute : Nat
  second : Nat
  deriving DecidableEq, Repr

/-- Two digits. -/
def two (n : Nat) : List Char := [Char.ofNat (48 + n / 10), Char.ofNat (48 + n % 10)]

/-- A year as it is written in literals of the type `xsd:gYear`. -/
def Moment.yearText (m : Moment) : List Char := (if m.neg then ['-'] else []) ++ m.year.map fun d => Char.ofNat (48 + d)

/-- A month as it is written in literals of the type `xsd:gYearMonth`. -/
def Moment.monthText (m : Moment) : List Char := m.yearText ++ '-' :: two m.month

/-- A day as it is written in literals of the type `xsd:date`. -/
def Moment.dateText (m : Moment) : List Char := m.monthText ++ '-' :: two m.day

/-- A date with time as it is written in literals of the type `xsd:dateTime`. -/
def Moment.text (m : Moment) : List Char := m.dateText ++ 'T' :: two m.hour ++ ':' :: two m.minute ++ ':' :: two m.second

/-- The year as a number. -/
def Moment.yearValue (m : Moment) : Int := if m.neg then -(natOf m.year : Int) else natOf m.year

/-- The place in time: earlier moments have smaller keys. -/
def Moment.key (m : Moment) : List Int := [m.yearValue, m.month, m.day, m.hour, m.minute, m.second]

/-- The years that are represented: at most 18 digits after a sign, at most 19 without; the year zero has no sign. -/
structure Moment.Valid (m : Moment) : Prop where
  digits : ∀ d ∈ m.year, d < 10
  nonempty : m.year ≠ []
  long : m.yearText.length ≤ 19
  zero : m.neg = true → natOf m.year ≠ 0
  fields : m.month < 100 ∧ m.day < 100 ∧ m.hour < 100 ∧ m.minute < 100 ∧ m.second < 100

instance (m : Moment) : Decidable m.Valid :=
  decidable_of_iff ((∀ d ∈ m.year, d < 10) ∧ m.year ≠ [] ∧ m.yearText.length ≤ 19 ∧ (m.neg = true → natOf m.year ≠ 0) ∧
      (m.month < 100 ∧ m.day < 100 ∧ m.hour < 100 ∧ m.minute < 100 ∧ m.second < 100))
    ⟨fun ⟨a, b, c, d, e⟩ => ⟨a, b, c, d, e⟩, fun h => ⟨h.1, h.2, h.3, h.4, h.5⟩⟩

/-- How a moment is shown: without zeros at the beginning of a positive year; negative years have 18 digits. -/
def Moment.shown (m : Moment) : Moment :=
  { m with year := if m.neg then List.replicate (18 - m.year.length) 0 ++ m.year else m.year.dropWhile (· = 0) }

/-- Weights of characters that put the words for dates into the right order. -/
structure Weights (w : Char → Nat) : Prop where
  digits : ∀ a b, a < b → b < 10 → w (Char.ofNat (48 + a)) < w (Char.ofNat (48 + b))
  sign : w '-' < w '0'

end Verif.DatesSpec
