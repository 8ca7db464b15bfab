import Verif.Model.Mmap
/-
Specification of the memory-mapped vector: a list whose entries are elements, or `none` for elements that were never given a value.
-/
namespace Verif.MmapSpec
open Verif.Mmap

abbrev Content := List (Option (List Nat))

/-- What an operation means. -/
def step : Op → Content → Content
  | .push e, l => l ++ [some e]
  | .set i e, l => l.set i (some e)
  | .resize n, l => l.take n ++ List.replicate (n - l.length) none
  | .reserve _, l => l
  | .reopen, l => l

/-- The operations that a program may use on a vector with content `l`: elements have the right size, indices are in range. -/
def Allowed (w : Nat) : Op → Content → Prop
  | .push e, _ => e.length = w
  | .set i e, l => i < l.length ∧ e.length = w
  | _, _ => True

def AllowedAll (w : Nat) : List Op → Content → Prop
  | [], _ => True
  | op :: ops, l => Allowed w op l ∧ AllowedAll w ops (step op l)

/-- The vector shows the content: the size, and every element that was given a value, by `operator[]` and `at`. -/
def Shows (c : Cfg) (s : State) (l : Content) : Prop :=
  s.size = l.length ∧ ∀ i e, l[i]? = some (some e) → Mmap.get c i s = .ok e ∧ Mmap.getAt c i s = .ok e

/-- A file from which a vector with a beginning of the content can be opened. -/
def Recovers (c : Cfg) (d : List Nat) (l : Content) : Prop :=
  ∃ s, reuse d = .ok s ∧ ∃ n ≤ l.length, Shows c s (l.take n)

/-- A file of whole pages whose last bytes are by accident the magic number and the version. -/
def Accident (c : Cfg) (d : List Nat) : Prop :=
  c.page ∣ d.length ∧ leNum ((d.drop (d.length - 8)).take 4) = 7601577 ∧ leNum ((d.drop (d.length - 4)).take 4) = 0

/-- What is required of the element size, the page size and the growth of the capacity. -/
structure Fine (c : Cfg) : Prop where
  w : 0 < c.w
  page : 40 ≤ c.page
  small : 2 * c.w ≤ c.page
  grow : ∀ n, 2 ≤ n → n < c.grow n

/-- The operations that can leave a file of whole pages which is not longer than before. -/
def MayShrink : Op → Prop
  | .resize _ => True
  | .reopen => True
  | _ => False

/-- No file of 2^63 bytes or more is needed for an operation. -/
def Moderate (c : Cfg) : Op → Content → Prop
  | .push _, l => 2 * l.length * c.w + c.page < 2 ^ 63
  | .resize n, _ => n * c.w + c.page < 2 ^ 63
  | .reserve n, _ => n * c.w + c.page < 2 ^ 63
  | _, _ => True

def ModerateAll (c : Cfg) : List Op → Content → Prop
  | [], _ => True
  | op :: ops, l => Moderate c op l ∧ ModerateAll c ops (step op l)

/-- A plain vector. -/
def plainStep : BOp → List (List Nat) → List (List Nat)
  | .push e, l => l ++ [e]
  | .set i e, l => l.set i e
  | .clear, _ => []

/-- The operations that a program may use on a buffered vector, with room for the file. -/
def PlainAllowed (c : Cfg) : BOp → List (List Nat) → Prop
  | .push e, l => e.length = c.w ∧ (2 * l.length + 1) * c.w + c.page < 2 ^ 63
  | .set i e, l => i < l.length ∧ e.length = c.w
  | .clear, _ => True

def PlainAllowedAll (c : Cfg) : List BOp → List (List Nat) → Prop
  | [], _ => True
  | op :: ops, l => PlainAllowed c op l ∧ PlainAllowedAll c ops (plainStep op l)

end Verif.MmapSpec
