import Verif.Model.Table
/-
Model of the id table (/repo/src/engine/IdTable.h).

A table is the flat buffer of ids together with its number of rows, its capacity and its number of columns; the rows are a view of it.
Writing or reading outside of the buffer is undefined behaviour.

Simplifications: the allocation never fails (the memory limit is C06) and sizes do not overflow `size_t`.  `moveToStatic`, `moveToDynamic`,
`asStaticView` and `clone` keep buffer, size and capacity, so the static and the dynamic table have the same model.
-/
namespace Verif.IdTable

/-- `IdTableImpl`: `_size`, `_capacity`, `_cols`, `_data` (240-258, 640-650). -/
structure Tab where
  size : Nat
  cap : Nat
  cols : Nat
  data : List Nat
  deriving DecidableEq

/-- The constructor with the number of columns (738-740). -/
def empty (cols : Nat) : Tab := ⟨0, 0, cols, []⟩

/-- `data() == nullptr`: the vector has never got storage. -/
def Tab.isNull (t : Tab) : Bool := t.data.isEmpty

/-- Rounding to the nearest number with 24 binary digits, ties to even: what `float` arithmetic does. -/
def toFloat (m : Nat) : Nat :=
  if m < 2 ^ 24 then m
  else
    let unit := 2 ^ (m.log2 - 23)
    (if 2 * (m % unit) > unit ∨ (2 * (m % unit) = unit ∧ m / unit % 2 = 1) then m / unit + 1 else m / unit) * unit

/-- `_capacity * GROWTH_FACTOR + 1`, with `float GROWTH_FACTOR = 1.5` (1072), in units of 1/2 between the operations. -/
def growCapacity (cap : Nat) : Nat := toFloat (toFloat (3 * toFloat cap) + 2) / 2

/-- `grow` (1066-1080). -/
def grow (t : Tab) (newRows : Nat) : Tab :=
  let newCap := if newRows = 0 then growCapacity t.cap else t.cap + newRows
  { t with cap := newCap, data := t.data.take (newCap * t.cols) ++ List.replicate (newCap * t.cols - t.data.length) 0 }

/-- `memcpy(data() + off, ...)` from another buffer. -/
def write (data : List Nat) (off : Nat) (vals : List Nat) : Outcome (List Nat) :=
  if off + vals.length ≤ data.length then .ok (data.take off ++ vals ++ data.drop (off + vals.length)) else .ub

/-- `memmove(data() + dst, data() + src, n)` -/
def move (data : List Nat) (dst src n : Nat) : Outcome (List Nat) :=
  if src + n ≤ data.length then write data dst ((data.drop src).take n) else .ub

/-- Reading `n` ids behind a pointer to another buffer. -/
def readRange (src : List Nat) (off n : Nat) : Outcome (List Nat) := if off + n ≤ src.length then .ok ((src.drop off).take n) else .ub

/-- `push_back` with the contents of a row: 861-868, 889-896, 899-909. (The overload for `const Id*`, 874-880, does not compile when used.) -/
def pushBack (t : Tab) (row : List Nat) : Outcome Tab :=
  let t := if t.size + 1 ≥ t.cap then grow t 0 else t
  (readRange row 0 t.cols).bind fun row => (write t.data (t.size * t.cols) row).map fun d => { t with data := d, size := t.size + 1 }

/-- `push_back()`, `emplace_back()` (844-856). -/
def emplaceBack (t : Tab) : Tab :=
  let t := if t.size + 1 ≥ t.cap then grow t 0 else t
  { t with size := t.size + 1 }

/-- `push_back` of a row of the table itself: the pointer to the row is taken before the table grows. -/
def pushBackSelf (t : Tab) (row : Nat) : Outcome Tab :=
  if t.size + 1 ≥ t.cap then .ub
  else (readRange t.data (row * t.cols) t.cols).bind fun r => (write t.data (t.size * t.cols) r).map fun d => { t with data := d, size := t.size + 1 }

/-- `pop_back` (913-917). -/
def popBack (t : Tab) : Tab := if t.size > 0 then { t with size := t.size - 1 } else t

/-- `insert` (924-948) of the rows from `b` to `e` of another table before the row `pos`. -/
def insert (t : Tab) (pos : Nat) (src : Tab) (b e : Nat) : Outcome Tab :=
  if b ≥ e then .ok t
  else
    let target := min pos t.size
    let numNewRows := e - b
    let t := if t.cap < t.size + numNewRows then grow t (t.size + numNewRows - t.cap) else t
    let afterTarget := t.size - target
    (move t.data ((target + numNewRows) * t.cols) (target * t.cols) (t.cols * afterTarget)).bind fun d =>
      (readRange src.data (b * src.cols) (t.cols * numNewRows)).bind fun new =>
        (write d (target * t.cols) new).map fun d => { t with data := d, size := t.size + numNewRows }

/-- The part of `erase` after the end is known (961-973). -/
def eraseTo (t : Tab) (b actualEnd : Nat) : Outcome Tab :=
  let actualEnd := if actualEnd > t.size then t.size else actualEnd
  if actualEnd ≤ b then .ok t
  else
    (move t.data (b * t.cols) (actualEnd * t.cols) ((t.size - actualEnd) * t.cols)).map fun d =>
      { t with data := d, size := t.size - (actualEnd - b) }

/-- `erase` (953-973) with an end iterator for row `e` of the table. It is taken for the default argument `iterator(nullptr, 0, 0)` if it equals it. -/
def erase (t : Tab) (b e : Nat) : Outcome Tab :=
  let actualEnd := if t.isNull ∧ e = 0 then b + 1 else e
  eraseTo t b actualEnd

/-- `erase` without an end iterator. -/
def eraseOne (t : Tab) (b : Nat) : Outcome Tab := eraseTo t b (b + 1)

/-- `clear` (975-979). -/
def clear (t : Tab) : Tab := { t with size := 0 }

/-- `reserve` (985-992). -/
def reserve (t : Tab) (rows : Nat) : Tab := if t.cap < rows then grow t (rows - t.cap) else t

/-- `resize` (997-1006). -/
def resize (t : Tab) (rows : Nat) : Tab :=
  if rows > t.size then { reserve t rows with size := rows }
  else if rows < t.size then { t with size := rows }
  else t

/-- `operator()(row, col)` for reading (791-793). -/
def get (t : Tab) (row col : Nat) : Outcome Nat := Outcome.read t.data (row * t.cols + col)

/-- `operator()(row, col) = v` -/
def set (t : Tab) (row col v : Nat) : Outcome Tab :=
  if row * t.cols + col < t.data.length then .ok { t with data := t.data.set (row * t.cols + col) v } else .ub

/-- `operator==` (769-781): the loop over the columns of one row, from `col` on for `n` columns. -/
def eqRow (t o : Tab) (row col : Nat) : Nat → Outcome Bool
  | 0 => .ok true
  | n + 1 => (get t row col).bind fun a => (get o row col).bind fun b => if a ≠ b then .ok false else eqRow t o row (col + 1) n

/-- The loop over the rows. -/
def eqRows (t o : Tab) (row : Nat) : Nat → Outcome Bool
  | 0 => .ok true
  | n + 1 => (eqRow t o row 0 t.cols).bind fun b => if b then eqRows t o (row + 1) n else .ok false

/-- `operator==` -/
def eq (t o : Tab) : Outcome Bool := if o.size ≠ t.size then .ok false else eqRows t o 0 t.size

/-- The implicit move constructor and assignment, also in `moveToStatic` and `moveToDynamic`, leave this table behind: the vector is moved away,
the numbers are only copied (260-274, 668-673, 747-751). -/
def movedFrom (t : Tab) : Tab := { t with data := [] }

/-- The operations on a table. -/
inductive Op
  | pushBack (row : List Nat)
  | emplaceBack
  | popBack
  | insert (pos : Nat) (src : Tab) (b e : Nat)
  | erase (b e : Nat)
  | eraseOne (b : Nat)
  | clear
  | reserve (rows : Nat)
  | resize (rows : Nat)
  | set (row col v : Nat)

/-- One operation. -/
def apply (t : Tab) : Op → Outcome Tab
  | .pushBack row => IdTable.pushBack t row
  | .emplaceBack => .ok (IdTable.emplaceBack t)
  | .popBack => .ok (IdTable.popBack t)
  | .insert pos src b e => IdTable.insert t pos src b e
  | .erase b e => IdTable.erase t b e
  | .eraseOne b => IdTable.eraseOne t b
  | .clear => .ok (IdTable.clear t)
  | .reserve rows => .ok (IdTable.reserve t rows)
  | .resize rows => .ok (IdTable.resize t rows)
  | .set row col v => IdTable.set t row col v

/-- A sequence of operations. -/
def run (t : Tab) : List Op → Outcome Tab
  | [] => .ok t
  | op :: ops => (apply t op).bind fun t => run t ops

/-- What a reader sees: row `i` is `data() + i * cols()`, `cols()` ids long (`getConstRow`, 293-295 and 690-692). -/
def rows (t : Tab) : Table := (List.range t.size).map fun i => (t.data.drop (i * t.cols)).take t.cols

end Verif.IdTable
