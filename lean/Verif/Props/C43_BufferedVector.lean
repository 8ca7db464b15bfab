import Verif.Lemmas.Mmap
/-
C43: buffered vectors behave like plain vectors.

* `buffered_is_plain_partial`: for every threshold and every sequence of `push_back`, assignments and `clear`, the size and all elements are
  those of a plain vector, and `at` throws exactly for the other indices. Nothing throws and nothing is undefined.

Missing from the full claim: elements larger than half a page, for which the claim is false (`large_elements`), and insertion of an own
element (`v.push_back(v[i])`, see C42).
-/
namespace Verif.C43
open Mmap MmapSpec

/-- The buffered vector is a plain vector. -/
theorem buffered_is_plain_partial {c : Cfg} (hc : Fine c) (hg : ∀ n, c.grow n ≤ 2 * n) (threshold : Nat) {b : Buffered}
    (hb : Buffered.make c threshold = .ok b) (ops : List BOp) (ha : PlainAllowedAll c ops []) :
    let l := ops.foldl (fun l op => plainStep op l) []
    ∃ b', b.run c ops = .ok b' ∧ b'.size = l.length ∧ (∀ (i : Nat) (h : i < l.length), b'.get c i = .ok l[i] ∧ b'.getAt c i = .ok l[i]) ∧
      ∀ i, l.length ≤ i → b'.getAt c i = .throw := by
  intro l
  obtain ⟨b', h1, h2⟩ := brun_good hc hg ops (make_good hc hb) ha
  exact ⟨b', h1, brep_size h2, fun i hi => brep_get h2 hi, fun i hi => brep_getAt_out h2 hi⟩

/-- Threshold 0 and elements of more than half a page: the second `push_back` throws. -/
theorem large_elements {c : Cfg} (h1 : c.page < 2 * c.w) (h2 : c.w < c.page) (hp : c.page < 2 ^ 63) (hg : c.grow 1 = 1) {b : Buffered}
    (hb : Buffered.make c 0 = .ok b) (e e' : List Nat) : b.run c [.push e, .push e'] = .throw := by
  have hw : c.page / c.w = 1 := by
    rw [Nat.div_eq_iff (by omega)]; omega
  have h1' : convert c 1 = (1, c.page) := by simp [convert, Nat.div_eq_of_lt h2, hw]
  simp only [Buffered.make, create] at hb
  by_cases hbig : 2 ^ 63 ≤ (convert c (max 0 100)).2
  · rw [if_pos hbig] at hb; cases hb
  · rw [if_neg hbig] at hb
    simp only [Outcome.map, Outcome.ok.injEq] at hb
    subst hb
    simp only [Buffered.run, Buffered.exec, Buffered.push, Buffered.size]
    rw [if_neg (by simp), if_neg (by simp)]
    simp only [if_true, List.length_nil, Nat.zero_add, resize, adaptCapacity, h1']
    rw [if_neg (by simp; omega)]
    simp only [Outcome.bind, copyOut, Mmap.set]
    rw [if_pos (by rfl)]
    simp only [store]
    rw [if_pos ⟨rfl, by simp [writeMeta, State.put]; omega, by
      simp only [writeMeta, State.put]
      rw [writeAt_end (length_truncated _ _), List.length_append, length_truncated]; omega⟩]
    simp only [Outcome.map, pushBack]
    rw [if_pos trivial]
    simp only [adaptCapacity, writeMeta, State.put]
    rw [if_pos trivial]
    simp only [hg, h1']
    rw [if_neg (by simp; omega)]
    simp [Outcome.bind]

/-! Non-trivial cases -/

/-- Pages of 4096 bytes, elements of 8 bytes, growth by the factor 1.5. -/
def cfg8 : Cfg := ⟨8, 4096, fun n => n * 3 / 2⟩

example : Fine cfg8 := ⟨by decide, by decide, by decide, fun n h => by simp only [cfg8]; omega⟩
example : ∀ n, cfg8.grow n ≤ 2 * n := fun n => by simp only [cfg8]; omega
example : (match Buffered.make cfg8 1 with | .ok b => (b.run cfg8 [.push [1,0,0,0,0,0,0,0], .push [2,0,0,0,0,0,0,0], .clear,
    .push [3,0,0,0,0,0,0,0], .push [4,0,0,0,0,0,0,0], .push [5,0,0,0,0,0,0,0], .set 0 [6,0,0,0,0,0,0,0]]).bind (fun b => (b.get cfg8 0).bind fun x =>
    (b.get cfg8 2).map fun y => (b.isInternal, b.size, x, y)) | _ => .throw) =
    .ok (false, 3, [6,0,0,0,0,0,0,0], [5,0,0,0,0,0,0,0]) := by decide +kernel
example : PlainAllowedAll cfg8 [.push [1,0,0,0,0,0,0,0], .push [2,0,0,0,0,0,0,0], .clear, .push [3,0,0,0,0,0,0,0], .set 0 [6,0,0,0,0,0,0,0]] [] := by
  simp [PlainAllowedAll, PlainAllowed, plainStep, cfg8]

end Verif.C43
