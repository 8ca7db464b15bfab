import Verif.Lemmas.Mmap
/-
C42: memory-mapped vectors persist their content, also across a crash.

* `run_total`: no sequence of operations has undefined behaviour; it ends with the content of the specification or with an exception.
* `run_succeeds`: and there is no exception as long as the file stays below 2^63 bytes.
* `close_and_reopen`: the file that `close` leaves behind opens with exactly the content, also by the read-only view.
* `crash_partial`: at every moment of an operation the file is refused, or opens with a beginning of the content before or after the
  operation. The exception: a file of whole pages that ends with the magic number, during `resize`, `clear` and `close`.
* `crash_in_create`: the same for the creation of a file.

Violations:
* `crash_accident`: a full vector whose last element looks like metadata; after a crash in `close` the file opens as a vector of 2^40
  elements, and reading one of them is undefined behaviour.
* `crash_in_fill`: a crash while a vector is created from a range of elements leaves a file that opens with the full size and elements that
  are not from the range.
* `push_fails_half`, `push_fails_page`: with elements of more than half a page, `push_back` throws after `clear`.
* `push_own_undefined`: `v.push_back(v[i])` is undefined behaviour for a full vector.

Missing from the full claim: sizes above 2^63 bytes and errors of the system, and the cases of the violations.
-/
namespace Verif.C42
open Mmap MmapSpec

/-- The states of a program on a new file, with the content they should have. -/
inductive Reached (c : Cfg) : State → Content → Prop
  | create {n : Nat} {s : State} : create c n = .ok s → Reached c s (List.replicate n none)
  | createFrom {es : List (List Nat)} {s : State} : (∀ e ∈ es, e.length = c.w) → createFrom c es = .ok s → Reached c s (es.map some)
  | step {s s' : State} {l : Content} {op : Op} : Reached c s l → Allowed c.w op l → exec c op s = .ok s' → Reached c s' (step op l)

theorem reached_rep {c : Cfg} (hc : Fine c) {s : State} {l : Content} (h : Reached c s l) : Rep c s l := by
  induction h with
  | @create n s h =>
    rcases create_good hc n with h1 | ⟨s', h1, h2, _⟩
    · rw [h1] at h; cases h
    · rw [h1] at h; cases h; exact h2
  | @createFrom es s he h =>
    rcases createFrom_good hc es he with h1 | ⟨s', h1, h2⟩
    · rw [h1] at h; cases h
    · rw [h1] at h; cases h; exact h2
  | step _ ha he ih =>
    rcases exec_good hc ih ha with h1 | ⟨s', ds, h1, h2, _⟩
    · rw [h1] at he; cases he
    · rw [h1] at he; cases he; exact h2

/-- Every sequence of operations gives what the specification says, or an exception. -/
theorem run_total {c : Cfg} (hc : Fine c) {s : State} {l : Content} (h : Reached c s l) (ops : List Op) (ha : AllowedAll c.w ops l) :
    run c ops s = .throw ∨ ∃ s', run c ops s = .ok s' ∧ Shows c s' (ops.foldl (fun l op => step op l) l) := by
  rcases run_good hc ops (reached_rep hc h) ha with h1 | ⟨s', h1, h2⟩
  · exact .inl h1
  · exact .inr ⟨s', h1, shows_of_rep h2⟩

/-- Without an exception as long as the files are not too large. -/
theorem run_succeeds {c : Cfg} (hc : Fine c) (hg : ∀ n, c.grow n ≤ 2 * n) {s : State} {l : Content} (h : Reached c s l)
    (ops : List Op) (ha : AllowedAll c.w ops l) (hm : ModerateAll c ops l) :
    ∃ s', run c ops s = .ok s' ∧ Shows c s' (ops.foldl (fun l op => step op l) l) := by
  rcases run_total hc h ops ha with h1 | h1
  · exact absurd h1 (run_ok hc hg ops (reached_rep hc h) ha hm)
  · exact h1

/-- Closing and opening again gives the content. -/
theorem close_and_reopen {c : Cfg} (hc : Fine c) {s : State} {l : Content} (h : Reached c s l) :
    ∃ s', reuse (close s).disk = .ok s' ∧ Shows c s' l := by
  obtain ⟨s', h1, h2, _⟩ := close_rep hc (reached_rep hc h)
  exact ⟨s', h1, shows_of_rep h2⟩

/-- At every moment of an operation. -/
theorem crash_partial {c : Cfg} (hc : Fine c) {s : State} {l : Content} (h : Reached c s l) (op : Op) (ha : Allowed c.w op l) :
    exec c op { s with seen := [] } = .throw ∨ ∃ s', exec c op { s with seen := [] } = .ok s' ∧
      ∀ d ∈ s.disk :: s'.seen, reuse d = .throw ∨ Recovers c d l ∨ Recovers c d (step op l) ∨ (MayShrink op ∧ Accident c d) := by
  have hr := reached_rep hc h
  rcases exec_good hc (rep_seen hr []) ha with h1 | ⟨s', ds, h1, _, h3, h4⟩
  · exact .inl h1
  · refine .inr ⟨s', h1, ?_⟩
    intro d hd
    rcases List.mem_cons.mp hd with rfl | hd
    · exact .inr (.inl (recovers_of_rep hc hr))
    · rw [h3] at hd
      simp only [List.nil_append] at hd
      rcases h4 d hd with (h5 | h5 | h5) | h5
      · left; rw [reuse, h5]
      · exact .inr (.inl h5)
      · exact .inr (.inr (.inl h5))
      · exact .inr (.inr (.inr h5))

/-- At every moment of the creation of a file without elements of the caller. -/
theorem crash_in_create {c : Cfg} (hc : Fine c) (n : Nat) :
    create c n = .throw ∨ ∃ s, create c n = .ok s ∧ ∀ d ∈ s.seen, reuse d = .throw ∨ Recovers c d (List.replicate n none) := by
  rcases create_good hc n with h1 | ⟨s, h1, _, h3⟩
  · exact .inl h1
  · refine .inr ⟨s, h1, ?_⟩
    intro d hd
    rcases h3 d hd with h | h
    · left; rw [reuse, h]
    · exact .inr h

/-! The cases in which the claim is false -/

/-- Pages of 4096 bytes, elements of 32 bytes, growth by the factor 1.5. -/
def cfg32 : Cfg := ⟨32, 4096, fun n => n * 3 / 2⟩

theorem fine32 : Fine cfg32 := ⟨by decide, by decide, by decide, fun n h => by simp only [cfg32]; omega⟩

/-- An element that looks like metadata: 2^40 elements, capacity 2^40, one page. -/
def evil : List Nat := metaBytes (2 ^ 40) (2 ^ 40) 4096

/-- A crash in `close` leaves a file that opens as a vector of 2^40 elements. -/
theorem crash_accident : ∃ s, Reached cfg32 s (List.replicate 127 none ++ [some evil]) ∧
    ∃ d ∈ (close { s with seen := [] }).seen, ∃ s', reuse d = .ok s' ∧ s'.size = 2 ^ 40 ∧ Mmap.get cfg32 1000 s' = .ub := by
  have h1 : ∃ s, create cfg32 127 = .ok s := by
    rcases create_good fine32 127 with h | ⟨s, h, _⟩
    · rw [create, if_neg (by decide)] at h; cases h
    · exact ⟨s, h⟩
  obtain ⟨s, h1⟩ := h1
  have hr : Reached cfg32 s (List.replicate 127 none) := .create h1
  have hm : Moderate cfg32 (.push evil) (List.replicate 127 none) := by
    rw [Moderate, List.length_replicate]; decide
  have hal : Allowed cfg32.w (.push evil) (List.replicate 127 none) := length_meta _ _ _
  rcases exec_good fine32 (reached_rep fine32 hr) hal with h2 | ⟨s2, ds, h2, h3, _⟩
  · exact absurd h2 (exec_ok fine32 (fun n => by simp only [cfg32]; omega) (reached_rep fine32 hr) hal hm)
  · refine ⟨s2, .step hr hal h2, truncated s2.disk s2.bytesize, ?_, ?_⟩
    · simp only [close, h3.mapped, if_true, writeMeta, State.put, List.nil_append, List.cons_append, List.mem_cons, true_or]
    · have hcap : s2.bytesize = 4096 := by
        rw [create, if_neg (by decide)] at h1
        simp only [Outcome.ok.injEq] at h1
        rw [exec, pushBack, if_neg (by rw [← h1]; decide)] at h2
        simp only [Outcome.bind, store] at h2
        by_cases hc : s.mapped = true ∧ (s.size + 1) * cfg32.w ≤ s.bytesize ∧ (s.size + 1) * cfg32.w ≤ s.disk.length
        · rw [if_pos hc] at h2
          simp only [Outcome.map, Outcome.ok.injEq] at h2
          rw [← h2, ← h1]
          rfl
        · rw [if_neg hc] at h2; cases h2
      have hlen := length_truncated s2.disk 4096
      have hd := h3.disk
      have hsl := h3.content 127 evil (by
        rw [step, List.getElem?_append_right (by rw [List.length_replicate]; exact Nat.le_refl _), List.length_replicate]; rfl)
      rw [hcap] at hd ⊢
      have hlast : (truncated s2.disk 4096).drop 4064 = evil := by
        rw [← hsl]
        rw [← slice_truncated (n := 4096) (by decide) (by rw [hd]; decide)]
        rw [slice]
        show _ = List.take 32 (List.drop 4064 (truncated s2.disk 4096))
        rw [List.take_of_length_le (by rw [List.length_drop, hlen]; decide)]
      have hmeta : readMeta (truncated s2.disk 4096) = some (2 ^ 40, 2 ^ 40, 4096) := by
        rw [← List.take_append_drop 4064 (truncated s2.disk 4096), hlast]
        exact readMeta_append _ (by decide) (by decide) (by decide)
      refine ⟨⟨truncated s2.disk 4096, [], true, 2 ^ 40, 2 ^ 40, 4096⟩, by rw [reuse, hmeta]; rfl, rfl, ?_⟩
      rw [Mmap.get, if_pos rfl, if_neg]
      dsimp only
      rw [hlen]
      decide

/-- A crash while a vector is created from given elements leaves a file with the full size and other elements. -/
theorem crash_in_fill : ∃ s, createFrom cfg32 [List.replicate 32 7, List.replicate 32 8] = .ok s ∧
    ∃ d ∈ s.seen, ∃ s', reuse d = .ok s' ∧ s'.size = 2 ∧ getAt cfg32 0 s' = .ok (List.replicate 32 7) ∧
      getAt cfg32 1 s' = .ok (List.replicate 32 0) := by
  have hs : (match createFrom cfg32 [List.replicate 32 7, List.replicate 32 8] with
    | .ok s => match s.seen[3]? with
      | some d => match reuse d with
        | .ok s' => decide (s'.size = 2 ∧ getAt cfg32 0 s' = .ok (List.replicate 32 7) ∧ getAt cfg32 1 s' = .ok (List.replicate 32 0))
        | _ => false
      | none => false
    | _ => false) = true := by decide +kernel
  cases h : createFrom cfg32 [List.replicate 32 7, List.replicate 32 8] with
  | ok s => ?_
  | _ => rw [h] at hs; cases hs
  rw [h] at hs
  dsimp only at hs
  refine ⟨s, rfl, ?_⟩
  cases hd : s.seen[3]? with
  | none => rw [hd] at hs; cases hs
  | some d =>
    rw [hd] at hs
    dsimp only at hs
    refine ⟨d, List.mem_of_getElem? hd, ?_⟩
    cases hr : reuse d with
    | ok s' => rw [hr] at hs; exact ⟨s', rfl, of_decide_eq_true hs⟩
    | _ => rw [hr] at hs; cases hs

/-- Elements of more than half a page: the second `push_back` after `clear` throws, however small the file is. -/
theorem push_fails_half {c : Cfg} (h1 : c.page < 2 * c.w) (h2 : c.w < c.page) (hp : c.page < 2 ^ 63) (hg : c.grow 1 = 1) {s : State}
    (hm : s.mapped = true) {e e' : List Nat} : run c [.resize 0, .push e, .push e'] s = .throw := by
  have hw : c.page / c.w = 1 := by
    rw [Nat.div_eq_iff (by omega)]; omega
  have h0 : convert c 0 = (1, c.page) := by simp [convert, hw]
  have h1' : convert c 1 = (1, c.page) := by simp [convert, Nat.div_eq_of_lt h2, hw]
  have hl : (truncated s.disk c.page ++ metaBytes 0 1 c.page).length = c.page + 32 := by
    rw [List.length_append, length_truncated, length_meta]
  have hd : (writeMeta ⟨s.disk, s.seen, true, 0, 1, c.page⟩).disk = truncated s.disk c.page ++ metaBytes 0 1 c.page := by
    simp only [writeMeta, State.put]
    exact writeAt_end (length_truncated _ _)
  simp only [run, exec, resize, adaptCapacity, hm, h0]
  rw [if_neg (by simp; omega)]
  simp only [Outcome.bind, pushBack]
  rw [if_neg (by simp [writeMeta, State.put])]
  simp only [Outcome.bind, store]
  rw [if_pos ⟨rfl, by simp [writeMeta, State.put]; omega, by rw [hd, hl]; simp [writeMeta, State.put]; omega⟩]
  simp only [Outcome.map]
  rw [if_pos (by simp [writeMeta, State.put])]
  simp only [adaptCapacity, writeMeta, State.put, hm, hg, h1']
  rw [if_neg (by simp; omega)]
  simp [Outcome.bind]

/-- Elements larger than a page: already the first one. -/
theorem push_fails_page {c : Cfg} (h1 : c.page < c.w) (hp : c.page < 2 ^ 63) (hg : c.grow 0 = 0) {s : State}
    (hm : s.mapped = true) {e : List Nat} : run c [.resize 0, .push e] s = .throw := by
  have hw : c.page / c.w = 0 := Nat.div_eq_of_lt h1
  have h0 : convert c 0 = (0, c.page) := by simp [convert, hw]
  simp only [run, exec, resize, adaptCapacity, hm, h0]
  rw [if_neg (by simp; omega)]
  simp only [Outcome.bind, pushBack]
  rw [if_pos (by simp [writeMeta, State.put])]
  simp only [adaptCapacity, writeMeta, State.put, hm, hg, h0]
  rw [if_neg (by simp; omega)]
  simp

/-- Inserting an element of the vector itself. -/
theorem push_own_undefined {c : Cfg} {s : State} (h : s.size = s.capacity) (i : Nat) : pushOwn c i s = .ub := by
  rw [pushOwn, if_pos h]

/-! Non-trivial cases -/

example : ∃ s, Reached cfg32 s ((List.replicate 3 none).set 1 (some (List.replicate 32 5))) := by
  have h1 : ∃ s, create cfg32 3 = .ok s := by
    rcases create_good fine32 3 with h | ⟨s, h, _⟩
    · rw [create, if_neg (by decide)] at h; cases h
    · exact ⟨s, h⟩
  obtain ⟨s, h1⟩ := h1
  have hr : Reached cfg32 s (List.replicate 3 none) := .create h1
  have ha : Allowed cfg32.w (.set 1 (List.replicate 32 5)) (List.replicate 3 none) := ⟨by decide, rfl⟩
  obtain ⟨s', h2, _⟩ := set_good (reached_rep fine32 hr) ha.1 ha.2
  exact ⟨s', .step hr ha h2⟩
example : AllowedAll cfg32.w [.push (List.replicate 32 1), .set 0 (List.replicate 32 2), .resize 5, .reopen, .push (List.replicate 32 3)] [] := by
  simp [AllowedAll, Allowed, step, cfg32]
example : ModerateAll cfg32 [.push (List.replicate 32 1), .set 0 (List.replicate 32 2), .resize 5, .reopen, .push (List.replicate 32 3)] [] := by
  simp [ModerateAll, Moderate, step, cfg32]
example : (⟨4000, 4096, fun n => n * 3 / 2⟩ : Cfg).grow 1 = 1 := rfl

end Verif.C42
