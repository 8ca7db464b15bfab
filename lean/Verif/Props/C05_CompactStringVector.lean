import Verif.Lemmas.CompactStringVector
/-
C05: packed pattern storage returns what was stored.
-/
namespace Verif.CompactStringVector
open Verif.Bytes

/-- C05.  For every list of lists of `dw`-byte values that fits the index type, building the packed vector succeeds
(whatever the new memory block contained), it has the right size, reading entry `i` returns the `i`-th list, and after
writing it to a file (after any other content, followed by anything) and loading it the same holds. -/
theorem C05_roundtrip (iw dw : Nat) (ls : List (List Nat)) (init : Nat → List Nat)
    (hinit : ∀ n, (init n).length = n) (hd : (ls.map List.length).sum < 256 ^ iw) (hs : ls.length < 256 ^ iw)
    (hx : ∀ l ∈ ls, ∀ x ∈ l, x < 256 ^ dw)
    (hmem : (ls.length + 1) * iw + dw * (ls.map List.length).sum < 256 ^ 8) (hsz : ls.length < 256 ^ 8)
    (pre post : List Nat) :
    ∃ v, build iw dw ls init = .ok v ∧ v.size = ls.length ∧
      (∀ i (h : i < ls.length), get iw dw v i = .ok ls[i]) ∧
      load iw (pre ++ write v ++ post) pre.length = .ok v := by
  refine ⟨_, build_spec iw dw ls init hinit hd hs, rfl, fun i h => get_build iw dw ls hd hx i h _ _ _ rfl, ?_⟩
  generalize hdata : ofArr iw (sums 0 ls ++ [(ls.map List.length).sum]) ++ ls.flatMap (ofArr dw) = data
  have hlen : data.length = (ls.length + 1) * iw + dw * (ls.map List.length).sum := by
    rw [← hdata]
    have hlenfm : ∀ (ks : List (List Nat)), (ks.flatMap (ofArr dw)).length = dw * (ks.map List.length).sum := by
      intro ks
      induction ks with
      | nil => simp
      | cons k ks ih => simp [ih, Nat.mul_add]
    rw [List.length_append, hlenfm]; simp [Nat.mul_comm]
  generalize hv : (CSV.mk data ls.length ((ls.length + 1) * iw)
    ((ls.length + 1) * iw + dw * (ls.map List.length).sum)) = v
  have hw : write v = toLE 8 ls.length ++ toLE 8 ((ls.length + 1) * iw + dw * (ls.map List.length).sum) ++ data := by
    rw [← hv]; rfl
  have r1 : pread (pre ++ write v ++ post) pre.length 8 = toLE 8 ls.length :=
    pread_mid' _ pre _ (toLE 8 ((ls.length + 1) * iw + dw * (ls.map List.length).sum) ++ data ++ post)
      _ _ (by simp [hw]) rfl (by simp)
  have r2 : pread (pre ++ write v ++ post) (pre.length + 8) 8 =
      toLE 8 ((ls.length + 1) * iw + dw * (ls.map List.length).sum) :=
    pread_mid' _ (pre ++ toLE 8 ls.length) _ (data ++ post) _ 8 (by simp [hw]) (by simp) (by simp)
  have r3 : pread (pre ++ write v ++ post) (pre.length + 16)
      ((ls.length + 1) * iw + dw * (ls.map List.length).sum) = data :=
    pread_mid' _ (pre ++ toLE 8 ls.length ++ toLE 8 ((ls.length + 1) * iw + dw * (ls.map List.length).sum)) data post
      _ _ (by simp [hw]) (by simp) hlen.symm
  simp only [load, r1, r2, ofLE_toLE 8 _ hsz, ofLE_toLE 8 _ hmem, r3, hlen, if_true, hv]

example : let ls := [[3, 4], [], [2 ^ 40]]
    (ls.map List.length).sum < 256 ^ 8 ∧ ls.length < 256 ^ 8 ∧ (∀ l ∈ ls, ∀ x ∈ l, x < 256 ^ 8) ∧
    (ls.length + 1) * 8 + 8 * (ls.map List.length).sum < 256 ^ 8 := by decide

/-- C05: too much data for the index type is reported by an exception, never stored truncated. -/
theorem C05_too_much_data (iw dw : Nat) (ls : List (List Nat)) (init : Nat → List Nat)
    (hd : 256 ^ iw ≤ (ls.map List.length).sum) : build iw dw ls init = .throw := by
  unfold build
  simp only
  have : 0 < 256 ^ iw := Nat.pow_pos (by decide)
  rw [if_pos (by omega)]

example (n : Nat) (hn : 256 ≤ n) : 256 ^ 1 ≤ ((List.replicate n [1]).map List.length).sum := by
  simp only [List.map_replicate, List.sum_replicate_nat]; simpa using hn

/-- C05, limit of the claim: only the amount of *data* is checked.  With a one-byte index type (a template parameter;
QLever itself uses eight bytes) 256 or more empty lists pass the check, and the loop variable of type `IndexT` never reaches
the number of lists. -/
theorem C05_many_empty_lists_ub (dw : Nat) (init : Nat → List Nat) (n : Nat) (hn : 256 ≤ n) :
    build 1 dw (List.replicate n []) init = .ub := by
  have h1 : ((List.replicate n ([] : List Nat)).map List.length).sum = 0 := by
    simp only [List.map_replicate, List.sum_replicate_nat]; simp
  simp only [build, h1, List.length_replicate]
  rw [if_neg (by decide), if_pos (by omega)]

end Verif.CompactStringVector
