import Verif.Lemmas.Simple8b
/-
C01: what `Simple8bCode::encode` writes, `Simple8bCode::decode` reads back.
-/
namespace Verif.Simple8b

/-- C01.  Every list of values below 2^60 is encoded (the encoder terminates), the encoding consists of 64-bit words,
it never has more words than the list has items, and decoding it returns exactly the list. -/
theorem C01_roundtrip (l : List Nat) (h : ∀ x ∈ l, x < 2 ^ 60) :
    ∃ ws, encode l = .ok ws ∧ decode ws l.length = .ok l ∧ ws.length ≤ l.length ∧ ∀ w ∈ ws, w < 2 ^ 64 := by
  obtain ⟨ws, hws⟩ := encode_ok l h
  obtain ⟨h1, z, _, hd⟩ := decodeLoop_encode l ws hws
  exact ⟨ws, hws, by simp [decode, hd], h1, encode_ok_ws_lt l ws hws⟩

example : ∀ x ∈ [0, 5, 2 ^ 59, 7, 2 ^ 60 - 1], x < 2 ^ 60 := by decide

/-- C01 (buffer bound).  Decoding writes at most 239 entries more than the list has: the slack of 250 that the
callers allocate (Index.Text.cpp:893, 937) is enough.  The additional entries are zeros. -/
theorem C01_buffer_bound (l ws : List Nat) (h : encode l = .ok ws) :
    ∃ z, z ≤ 239 ∧ decodeLoop ws l.length = .ok (l ++ List.replicate z 0) :=
  (decodeLoop_encode l ws h).2

example : encode [1, 2, 3] = .ok [(2 <<< 6 ||| 1 <<< 4 ||| 3 <<< 8) ||| 3] := by
  simp [encode, firstNonzero, pick, packLoop, tab, groupSize, itemWidth, mask]

/-- C01 (different lists have different encodings): no two lists of the same length share an encoding. -/
theorem C01_injective (l₁ l₂ ws : List Nat) (h₁ : encode l₁ = .ok ws) (h₂ : encode l₂ = .ok ws)
    (hl : l₁.length = l₂.length) : l₁ = l₂ := by
  obtain ⟨_, z₁, _, d₁⟩ := decodeLoop_encode l₁ ws h₁
  obtain ⟨_, z₂, _, d₂⟩ := decodeLoop_encode l₂ ws h₂
  rw [hl, d₂] at d₁
  have := congrArg (List.take l₁.length) (Outcome.ok.inj d₁)
  rw [List.take_left, hl, List.take_left] at this
  exact this.symm

/-- The bound 2^60 is sharp: a list with any value of 2^60 or more makes the encoder loop forever (release build;
a debug build stops at the assertion Simple8bCode.h:125). -/
theorem C01_too_large_diverges (l : List Nat) (h : ∃ x ∈ l, 2 ^ 60 ≤ x) : encode l = .diverge := by
  rcases encode_ok_or_diverge l with ⟨ws, hws⟩ | hd
  · obtain ⟨_, z, _, d⟩ := decodeLoop_encode l ws hws
    obtain ⟨x, hx, hx'⟩ := h
    have := decodeLoop_lt _ _ _ d x (by simp [hx])
    omega
  · exact hd

example : ∃ x ∈ [3, 2 ^ 60, 1], 2 ^ 60 ≤ x := ⟨2 ^ 60, by simp, by simp⟩

end Verif.Simple8b
