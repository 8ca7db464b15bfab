import Verif.Model.Outcome
/-
Byte-level representation: little-endian integers, arrays of them, memory blocks and files.
A byte is a natural number (below 256 when produced by `toLE`).
-/
namespace Verif.Bytes

/-- The `n` little-endian bytes of an unsigned integer (its in-memory representation on x86-64). -/
def toLE : Nat → Nat → List Nat
  | 0, _ => []
  | n + 1, x => x % 256 :: toLE n (x / 256)

/-- The unsigned integer with these little-endian bytes. -/
def ofLE : List Nat → Nat
  | [] => 0
  | b :: bs => b + 256 * ofLE bs

/-- The bytes of a contiguous array of `k`-byte integers. -/
def ofArr (k : Nat) (xs : List Nat) : List Nat := xs.flatMap (toLE k)

/-- Interpret the first `k * n` bytes as `n` integers of `k` bytes. -/
def toArr (k : Nat) : Nat → List Nat → List Nat
  | 0, _ => []
  | n + 1, bs => ofLE (bs.take k) :: toArr k n (bs.drop k)

/-- `memcpy(buf + off, src, src.length)`: undefined behaviour when the target range is not inside the block. -/
def blit (buf : List Nat) (off : Nat) (src : List Nat) : Outcome (List Nat) :=
  if off + src.length ≤ buf.length then .ok (buf.take off ++ src ++ buf.drop (off + src.length)) else .ub

/-- Reading `n` bytes of a memory block at `off`: undefined behaviour when out of range. -/
def peek (buf : List Nat) (off n : Nat) : Outcome (List Nat) :=
  if off + n ≤ buf.length then .ok ((buf.drop off).take n) else .ub

/-- `File::read(buf, n, off)` (File.h: `fseek` + `fread`): returns at most `n` bytes, fewer at the end of the
file. -/
def pread (file : List Nat) (off n : Nat) : List Nat := (file.drop off).take n

end Verif.Bytes
