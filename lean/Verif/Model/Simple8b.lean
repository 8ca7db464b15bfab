import Verif.Model.Outcome
/-
Model of `src/util/Simple8bCode.h`.
Numbers are naturals; 64-bit words are naturals below 2^64 (the only shift that could leave that range is
truncated explicitly).
-/
namespace Verif.Simple8b

/-- `_itemWidth` column of `SIMPLE8B_SELECTORS` (Simple8bCode.h:19-43). -/
def itemWidth : List Nat := [0, 0, 1, 2, 3, 4, 5, 6, 7, 8, 10, 12, 15, 20, 30, 60]

/-- `_groupSize` column of `SIMPLE8B_SELECTORS` (Simple8bCode.h:19-43). -/
def groupSize : List Nat := [240, 120, 60, 30, 20, 15, 12, 10, 8, 7, 6, 5, 4, 3, 2, 1]

/-- `_mask` column of `SIMPLE8B_SELECTORS` (Simple8bCode.h:19-43). -/
def mask : List Nat :=
  [0x0, 0x0, 0x1, 0x3, 0x7, 0xF, 0x1F, 0x3F, 0x7F, 0xFF, 0x3FF, 0xFFF, 0x7FFF, 0xFFFFF, 0x3FFFFFFF,
   0x0FFFFFFFFFFFFFFF]

/-- Table lookup (total; only used with selectors below 16). -/
def tab (t : List Nat) (s : Nat) : Nat := t.getD s 0

/-- Scan of at most `n` items for the first nonzero one, returning its index (Simple8bCode.h:66-72). -/
def firstNonzero : Nat → List Nat → Nat → Option Nat
  | 0, _, _ => none
  | _ + 1, [], _ => none
  | n + 1, x :: xs, i => if x ≠ 0 then some i else firstNonzero n xs (i + 1)

/-- The inner `while` (Simple8bCode.h:97-109): packs items while they fit the mask.  `lim` is
`min(itemsLeft, groupSize)`, `k` the number of items already in the word.  Returns the code word and the number of
items packed. -/
def packLoop (sel lim : Nat) : Nat → List Nat → Nat → Nat → Nat × Nat
  | 0, _, cw, k => (cw, k)
  | _ + 1, [], cw, k => (cw, k)
  | fuel + 1, x :: xs, cw, k =>
    if k < lim ∧ ¬ (x > tab mask sel) then
      packLoop sel lim fuel xs (cw ||| ((x <<< (4 + k * tab itemWidth sel)) % 2 ^ 64)) (k + 1)
    else (cw, k)

/-- The selector loop (Simple8bCode.h:90-123): first selector `≥ sel` whose group is completely filled.
Returns code word and number of items; `none` when no selector fits (then the code makes no progress: the outer
loop is repeated forever, or the assertion fails in debug builds). -/
def pick (items : List Nat) : Nat → Nat → Option (Nat × Nat)
  | 0, _ => none
  | fuel + 1, sel =>
    let lim := min items.length (tab groupSize sel)
    let r := packLoop sel lim (lim + 1) items sel 0
    if r.2 = lim then some r else pick items fuel (sel + 1)

/-- `Simple8bCode::encode` (Simple8bCode.h:58-128) on the list of items not yet encoded.
Simplification: the pointer arithmetic `plaintext[nofElementsEncoded + i]` is replaced by dropping the encoded
prefix of the list. -/
def encode (items : List Nat) : Outcome (List Nat) :=
  match items with
  | [] => .ok []
  | x :: xs =>
    let items := x :: xs
    match firstNonzero (min 240 items.length) items 0 with
    | none => -- selector 0
      match encode (items.drop 240) with
      | .ok ws => .ok (0 :: ws)
      | e => e
    | some i =>
      let pre := if i ≥ 120 then [1] else []
      let rest := if i ≥ 120 then items.drop 120 else items
      match pick rest 14 2 with
      | none => .diverge
      | some (cw, n) =>
        if n = 0 then .diverge else
        match encode (rest.drop n) with
        | .ok ws => .ok (pre ++ cw :: ws)
        | e => e
termination_by items.length
decreasing_by
  all_goals simp_wf
  all_goals grind

/-- The inner `for` of decode (Simple8bCode.h:148-151). -/
def unpack (width msk : Nat) : Nat → Nat → List Nat
  | 0, _ => []
  | n + 1, word => (word &&& msk) :: unpack width msk n (word >>> width)

/-- The word loop of decode (Simple8bCode.h:146-156); `left` is `nofElements - nofElementsDone`.  Reading a code
word beyond the encoded data is undefined behaviour.  Returns everything written to the output buffer. -/
def decodeLoop : List Nat → Nat → Outcome (List Nat)
  | _, 0 => .ok []
  | [], _ + 1 => .ub
  | w :: ws, left + 1 =>
    let sel := w &&& 0xF
    let g := tab groupSize sel
    match decodeLoop ws (left + 1 - g) with
    | .ok r => .ok (unpack (tab itemWidth sel) (tab mask sel) g (w >>> 4) ++ r)
    | e => e

/-- `Simple8bCode::decode` (Simple8bCode.h:135-157): the first `n` entries of the output buffer (the callers
truncate the buffer to `n`, e.g. Index.Text.cpp:897).  -/
def decode (ws : List Nat) (n : Nat) : Outcome (List Nat) :=
  match decodeLoop ws n with
  | .ok r => .ok (r.take n)
  | e => e

end Verif.Simple8b
