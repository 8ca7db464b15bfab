import Verif.Lemmas.Filter
/-
C22: FILTER keeps exactly the rows that satisfy the condition.
C23: comparing with a word that is not in the vocabulary is exact.
-/
namespace Verif.Filter
open FilterSpec

/-! ### C22 -/

/-- C22: comparing a column with a fixed value keeps exactly the rows for which the comparison holds, in order, whether or not the
column is known to be sorted, for values with a linear order for which the code's comparisons are right.  Equality is decided on
ids: the ids of the value must not differ. -/
theorem C22_fixed_value {V : Type} [LinearOrder V] {rd : Reader V} (hl : Lawful rd) {t : Table} {w lhs rhs : Nat} (c : Cmp)
    (sorted : Bool) (hw : t.WF w) (hc : lhs < w) (hs : sorted = true → Ascending lhs rd.get t)
    (hinj : c = .eq ∨ c = .ne → ∀ r ∈ t, rd.get (r.getD lhs 0) = rd.get rhs → r.getD lhs 0 = rhs) :
    computeFilterFixedValue rd c sorted lhs rhs t = .ok (keep c lhs rd.get (rd.get rhs) t) := by
  cases sorted
  · exact unsorted_ok hl c hw hc hinj
  · exact sorted_ok hl c hw hc (hs rfl) hinj

example : computeFilterFixedValue idReader .ne true 1 5 [[9, 3], [8, 5], [7, 5], [6, 6]] = .ok [[9, 3], [6, 6]] ∧
    Ascending 1 idReader.get [[9, 3], [8, 5], [7, 5], [6, 6]] := by
  refine ⟨by decide, ?_⟩; unfold Ascending idReader; decide

/-- C22: comparing two columns keeps exactly the rows for which the comparison holds. -/
theorem C22_columns {V : Type} [LinearOrder V] {rd : Reader V} (hl : Lawful rd) {t : Table} {w lhs rhs : Nat} (c : Cmp) (hw : t.WF w)
    (hc : lhs < w) (hr : rhs < w) : computeFilter rd c lhs rhs t = .ok (keepColumns c lhs rhs rd.get t) :=
  columns_ok hl c hw hc hr

example : computeFilter idReader .ge 0 1 [[1, 2], [2, 2], [3, 1]] = .ok [[2, 2], [3, 1]] := by decide

/-- C22, counts: for a decimal number that fits in 64 bits, the comparison is with this number. -/
theorem C22_verbatim_partial {t : Table} {w lhs n : Nat} (c : Cmp) (sorted : Bool) (hw : t.WF w) (hc : lhs < w)
    (hs : sorted = true → Ascending lhs id t) (hn : n < 2 ^ 64) :
    filterVerbatim c sorted lhs (Nat.toDigits 10 n) t = .ok (keep c lhs id n t) := by
  unfold filterVerbatim
  rw [stoull_toDigits hn]
  exact C22_fixed_value idReader_lawful c sorted hw hc hs fun _ _ _ h => h

example : filterVerbatim .gt true 0 (Nat.toDigits 10 12) [[3], [12], [40]] = .ok [[40]] := by decide

/-- C22 does not hold for counts compared with other numbers: 5 is not smaller than -1 and 3 is not 3.5. -/
theorem C22_verbatim_violated :
    filterVerbatim .lt false 0 ['-', '1'] [[5]] = .ok [[5]] ∧ filterVerbatim .eq false 0 ['3', '.', '5'] [[3], [4]] = .ok [[3]] := by
  decide

/-- C22, numbers computed by aggregates: the order comparisons are right when the column is not known to be sorted; the value must
not depend on the four bytes of the id that are not set. -/
theorem C22_float_partial {V : Type} [LinearOrder V] {rd : Reader V} (hl : Lawful rd) {t : Table} {w lhs bits junk : Nat} (c : Cmp)
    (hw : t.WF w) (hc : lhs < w) (hne : c ≠ .eq ∧ c ≠ .ne) (hget : rd.get (bits + 2 ^ 32 * junk) = rd.get bits) :
    filterFloat rd c false lhs bits junk t = .ok (keep c lhs rd.get (rd.get bits) t) := by
  unfold filterFloat
  rw [C22_fixed_value hl c false hw hc (fun h => by simp at h) (fun h => by simp [hne] at h), hget]

/-- C22 does not hold for equality with numbers computed by aggregates: if the bytes of the uninitialised variable that are not set
happen not to be zero, no row is equal. -/
theorem C22_float_eq_violated {V : Type} (rd : Reader V) {t : Table} {w lhs bits junk : Nat} (hw : t.WF w) (hc : lhs < w)
    (hj : junk ≠ 0) (ht : ∀ r ∈ t, r.getD lhs 0 < 2 ^ 32) : filterFloat rd .eq false lhs bits junk t = .ok [] := by
  unfold filterFloat computeFilterFixedValue
  simp only [Bool.false_eq_true, if_false]
  rw [engineFilter_ok (q := fun r => decide (r.getD lhs 0 = bits + 2 ^ 32 * junk))]
  · rw [show t.filter _ = [] from List.filter_eq_nil_iff.mpr ?_]
    intro r hr
    have := ht r hr
    simp only [decide_eq_true_eq]
    omega
  · intro r hr
    rw [read_getD (by rw [hw r hr]; exact hc)]
    rfl

/-- The value of four bytes as sign and magnitude: the order of IEEE numbers that are not NaN. -/
def signMagnitude : Reader Int where
  get x := if x % 2 ^ 32 < 2 ^ 31 then x % 2 ^ 32 else -((x % 2 ^ 32 - 2 ^ 31 : Nat) : Int)
  lt a b := decide (a < b)
  le a b := decide (a ≤ b)
  eq a b := decide (a = b)

example : filterFloat signMagnitude .lt false 0 (2 ^ 31 + 3) 7 [[1], [2 ^ 31 + 1], [2 ^ 31 + 5]] = .ok [[2 ^ 31 + 5]] ∧
    filterFloat signMagnitude .eq false 0 1 7 [[1], [2 ^ 31 + 1], [2 ^ 31 + 5]] = .ok [] := by decide

/-- C22 does not hold for sorted columns of numbers computed by aggregates: the column is sorted by ids, that is, by bytes, and the
binary search assumes that it is sorted by value. -/
theorem C22_float_sorted_violated :
    Ascending 0 id [[1], [2 ^ 31 + 1], [2 ^ 31 + 5]] ∧
      filterFloat signMagnitude .lt true 0 (2 ^ 31 + 3) 0 [[1], [2 ^ 31 + 1], [2 ^ 31 + 5]] = .ub := by
  refine ⟨?_, by decide⟩
  unfold Ascending; decide

theorem takeWhile_ne_index {α : Type} [DecidableEq α] {l : List α} (hn : l.Nodup) {x : α} {i : Nat} (h : i < l.length) :
    i = (l.takeWhile fun s => s ≠ x).length ↔ l[i] = x := by
  induction l generalizing i with
  | nil => simp at h
  | cons a l ih =>
    rw [List.nodup_cons] at hn
    by_cases ha : a = x
    · subst ha
      simp only [List.takeWhile_cons, ne_eq, not_true, decide_false, Bool.false_eq_true, if_false, List.length_nil]
      cases i with
      | zero => simp
      | succ i =>
        simp only [Nat.add_one_ne_zero, List.getElem_cons_succ, false_iff]
        intro he
        exact hn.1 (he ▸ List.getElem_mem _)
    · simp only [List.takeWhile_cons, ne_eq, ha, not_false_eq_true, decide_true, if_true, List.length_cons]
      cases i with
      | zero => simp [ha]
      | succ i =>
        simp only [List.getElem_cons_succ, Nat.add_right_cancel_iff]
        exact ih hn.2 (by simpa using h)

/-- C22, strings built by the query, if the table of strings has no duplicates: equality and inequality keep exactly the rows whose
string is (not) the given one, also when no string is. -/
theorem C22_local_vocab_partial {t : Table} {w lhs : Nat} {vocab : List (List Char)} (rhs : List Char) (inverse sorted : Bool)
    (hw : t.WF w) (hc : lhs < w) (hs : sorted = true → Ascending lhs id t) (hn : vocab.Nodup)
    (ht : ∀ r ∈ t, r.getD lhs 0 < vocab.length) :
    filterLocalVocab (if inverse then .ne else .eq) sorted lhs vocab rhs t =
      .ok (t.filter fun r => decide (vocab[r.getD lhs 0]? = some rhs) ^^ inverse) := by
  have key : ∀ r ∈ t, r.getD lhs 0 = (vocab.takeWhile fun s => s ≠ rhs).length ↔ vocab[r.getD lhs 0]? = some rhs := by
    intro r hr
    rw [takeWhile_ne_index hn (ht r hr), List.getElem?_eq_getElem (ht r hr), Option.some.injEq]
  unfold filterLocalVocab
  cases inverse
  · simp only [Bool.false_eq_true, if_false]
    rw [C22_fixed_value idReader_lawful _ sorted hw hc hs fun _ _ _ h => h]
    unfold keep
    rw [Outcome.ok.injEq]
    apply List.filter_congr
    intro r hr
    simp only [Bool.bne_false, decide_eq_decide]
    exact key r hr
  · simp only [if_true]
    rw [C22_fixed_value idReader_lawful _ sorted hw hc hs fun _ _ _ h => h]
    unfold keep
    rw [Outcome.ok.injEq]
    apply List.filter_congr
    intro r hr
    rw [Bool.eq_iff_iff]
    simp only [Bool.bne_true, Bool.not_eq_true', decide_eq_false_iff_not, decide_eq_true_eq]
    exact not_congr (key r hr)

example : filterLocalVocab .eq false 0 [['a'], ['b']] ['b'] [[1], [0], [1]] = .ok [[1], [1]] := by decide

/-- C22 does not hold for strings built by the query when two groups have the same string: only the rows of the first are kept. -/
theorem C22_local_vocab_violated :
    filterLocalVocab .eq false 0 [['a'], ['b'], ['b']] ['b'] [[1], [0], [2]] = .ok [[1]] := by decide

/-- What an id of the vocabulary stands for. -/
def Stands {K W : Type} (rank : W → K) (words : List W) (val : Nat → K) : Prop := ∀ i (h : i < words.length), val i = rank words[i]

section kb
variable {K : Type} [LinearOrder K] {W : Type} {rank : W → K} {words : List W} {val : Nat → K} {t : Table} {w lhs : Nat}

/-- C22, words: equality keeps exactly the rows whose word equals the constant, sorted or not, also if it is not in the
vocabulary. -/
theorem C22_kb_eq (v : W) (sorted : Bool) (hv : words.Pairwise fun a b => rank a ≤ rank b) (hval : Stands rank words val) (hw : t.WF w)
    (hc : lhs < w) (hs : sorted = true → Ascending lhs id t) (ht : ∀ r ∈ t, r.getD lhs 0 < words.length) :
    filterKB (byRank rank) words .eq sorted lhs v t = .ok (keep .eq lhs val (rank v) t) := by
  obtain ⟨lo, h1, _, h2⟩ := lowerBound_ok (rank := rank) hv v
  obtain ⟨up, h3, _, h4⟩ := upperBound_ok (rank := rank) hv v
  simp only [filterKB, h1, h3, Outcome.bind]
  rw [show (decide (Cmp.eq = Cmp.ne)) = false from rfl, range_ok sorted hw hc hs]
  unfold keep
  rw [Outcome.ok.injEq]
  apply List.filter_congr
  intro r hr
  rw [Bool.eq_iff_iff]
  simp only [Bool.and_eq_true, decide_eq_true_eq, ge_iff_le]
  rw [h4 _ (ht r hr), ← not_lt, h2 _ (ht r hr), not_lt, ← hval _ (ht r hr)]
  exact ⟨fun h => le_antisymm h.2 h.1, fun h => ⟨ge_of_eq h, le_of_eq h⟩⟩

/-- C22, words: inequality is exact if the column is not known to be sorted. -/
theorem C22_kb_ne_partial (v : W) (hv : words.Pairwise fun a b => rank a ≤ rank b) (hval : Stands rank words val) (hw : t.WF w)
    (hc : lhs < w) (ht : ∀ r ∈ t, r.getD lhs 0 < words.length) :
    filterKB (byRank rank) words .ne false lhs v t = .ok (keep .ne lhs val (rank v) t) := by
  obtain ⟨lo, h1, _, h2⟩ := lowerBound_ok (rank := rank) hv v
  obtain ⟨up, h3, _, h4⟩ := upperBound_ok (rank := rank) hv v
  simp only [filterKB, h1, h3, Outcome.bind]
  rw [show (decide True) = true from rfl, range_inverse_unsorted hw hc]
  unfold keep
  rw [Outcome.ok.injEq]
  apply List.filter_congr
  intro r hr
  rw [Bool.eq_iff_iff]
  simp only [Bool.not_eq_true', Bool.and_eq_false_iff, decide_eq_false_iff_not, decide_eq_true_eq, ge_iff_le]
  rw [h4 _ (ht r hr), not_le, h2 _ (ht r hr), not_le, ← hval _ (ht r hr)]
  exact ⟨fun h => h.elim ne_of_lt (fun h => (ne_of_lt h).symm), fun h => lt_or_gt_of_ne h⟩

/-- C22 does not hold for the inequality of words if the column is known to be sorted: whatever the table, exactly the rows with
smaller words are kept; all rows with larger words are lost. -/
theorem C22_kb_ne_sorted_violated (v : W) (hv : words.Pairwise fun a b => rank a ≤ rank b) (hval : Stands rank words val) (hw : t.WF w)
    (hc : lhs < w) (hs : Ascending lhs id t) (ht : ∀ r ∈ t, r.getD lhs 0 < words.length) :
    filterKB (byRank rank) words .ne true lhs v t = .ok (keep .lt lhs val (rank v) t) := by
  obtain ⟨lo, h1, _, h2⟩ := lowerBound_ok (rank := rank) hv v
  obtain ⟨up, h3, _, h4⟩ := upperBound_ok (rank := rank) hv v
  simp only [filterKB, h1, h3, Outcome.bind]
  rw [show (decide True) = true from rfl, range_inverse_sorted hw hc hs]
  unfold keep
  rw [Outcome.ok.injEq]
  apply List.filter_congr
  intro r hr
  rw [Bool.eq_iff_iff]
  simp only [decide_eq_true_eq]
  rw [h2 _ (ht r hr), ← hval _ (ht r hr)]
  rfl

/-! ### C23 -/

/-- C23 for `<` and `>=`: exact for every constant, in the vocabulary or not. -/
theorem C23_lt_ge (v : W) (c : Cmp) (hcmp : c = .lt ∨ c = .ge) (sorted : Bool) (hv : words.Pairwise fun a b => rank a ≤ rank b)
    (hval : Stands rank words val) (hw : t.WF w) (hc : lhs < w) (hs : sorted = true → Ascending lhs id t)
    (ht : ∀ r ∈ t, r.getD lhs 0 < words.length) :
    filterKB (byRank rank) words c sorted lhs v t = .ok (keep c lhs val (rank v) t) := by
  obtain ⟨lo, h1, _, h2⟩ := lowerBound_ok (rank := rank) hv v
  have : filterKB (byRank rank) words c sorted lhs v t = computeFilterFixedValue idReader c sorted lhs lo t := by
    rcases hcmp with rfl | rfl <;> simp [filterKB, valueIdForLT, h1, Outcome.bind]
  rw [this, C22_fixed_value idReader_lawful c sorted hw hc hs fun _ _ _ h => h]
  unfold keep
  rw [Outcome.ok.injEq]
  apply List.filter_congr
  intro r hr
  have hk := h2 _ (ht r hr)
  rw [← hval _ (ht r hr)] at hk
  rw [Bool.eq_iff_iff]
  simp only [decide_eq_true_eq]
  rcases hcmp with rfl | rfl
  · exact hk
  · simp only [Holds, idReader, id, ← not_lt]
    exact not_congr hk

/-- C23 for `<=` and `>`, if some word is not greater than the constant: exact. -/
theorem C23_le_gt_partial (v : W) (c : Cmp) (hcmp : c = .le ∨ c = .gt) (sorted : Bool) (hv : words.Pairwise fun a b => rank a ≤ rank b)
    (hval : Stands rank words val) (hw : t.WF w) (hc : lhs < w) (hs : sorted = true → Ascending lhs id t)
    (ht : ∀ r ∈ t, r.getD lhs 0 < words.length) (hx : ∃ x ∈ words, rank x ≤ rank v) :
    filterKB (byRank rank) words c sorted lhs v t = .ok (keep c lhs val (rank v) t) := by
  obtain ⟨up, h1, _, h2⟩ := upperBound_ok (rank := rank) hv v
  have hup : 0 < up := by
    obtain ⟨x, hx, hxv⟩ := hx
    obtain ⟨i, hi, rfl⟩ := List.getElem_of_mem hx
    have := (h2 i hi).mpr hxv
    omega
  have : filterKB (byRank rank) words c sorted lhs v t = computeFilterFixedValue idReader c sorted lhs (up - 1) t := by
    rcases hcmp with rfl | rfl <;> simp [filterKB, valueIdForLE, h1, Outcome.bind, Outcome.map, hup]
  rw [this, C22_fixed_value idReader_lawful c sorted hw hc hs fun _ _ _ h => h]
  unfold keep
  rw [Outcome.ok.injEq]
  apply List.filter_congr
  intro r hr
  have hk := h2 _ (ht r hr)
  rw [← hval _ (ht r hr)] at hk
  rw [Bool.eq_iff_iff]
  simp only [decide_eq_true_eq]
  rcases hcmp with rfl | rfl
  · simp only [Holds, idReader, id, ← hk]
    omega
  · simp only [Holds, idReader, id, ← not_le, ← hk]
    omega

/-- C23 does not hold for `<=` and `>` if all words are greater than the constant: the first word of the vocabulary counts as not
greater. -/
theorem C23_le_gt_violated (v : W) (sorted : Bool) (hv : words.Pairwise fun a b => rank a ≤ rank b) (hw : t.WF w) (hc : lhs < w)
    (hs : sorted = true → Ascending lhs id t) (hx : ∀ x ∈ words, rank v < rank x) :
    filterKB (byRank rank) words .le sorted lhs v t = .ok (t.filter fun r => decide (r.getD lhs 0 = 0)) ∧
      filterKB (byRank rank) words .gt sorted lhs v t = .ok (t.filter fun r => decide (r.getD lhs 0 ≠ 0)) := by
  obtain ⟨up, h1, h0, h2⟩ := upperBound_ok (rank := rank) hv v
  have hup : up = 0 := by
    rcases Nat.eq_zero_or_pos up with h | h
    · exact h
    · have hl : 0 < words.length := by omega
      exact absurd ((h2 0 hl).mp h) (not_le_of_gt (hx _ (List.getElem_mem _)))
  subst hup
  constructor
  · simp only [filterKB, valueIdForLE, h1, Outcome.bind, Outcome.map, Nat.lt_irrefl, gt_iff_lt, if_false]
    rw [C22_fixed_value idReader_lawful _ sorted hw hc hs fun _ _ _ h => h]
    unfold keep
    rw [Outcome.ok.injEq]
    apply List.filter_congr
    intro r _
    rw [Bool.eq_iff_iff]
    simp only [decide_eq_true_eq]
    simp only [Holds, idReader, id]
    omega
  · simp only [filterKB, valueIdForLE, h1, Outcome.bind, Outcome.map, Nat.lt_irrefl, gt_iff_lt, if_false]
    rw [C22_fixed_value idReader_lawful _ sorted hw hc hs fun _ _ _ h => h]
    unfold keep
    rw [Outcome.ok.injEq]
    apply List.filter_congr
    intro r _
    rw [Bool.eq_iff_iff]
    simp only [decide_eq_true_eq]
    simp only [Holds, idReader, id]
    omega

end kb

/-- Words 10, 20, 30 and the constants 20 and 25. -/
example :
    filterKB (byRank (id : Nat → Nat)) [10, 20, 30] .eq true 0 20 [[0], [1], [2]] = .ok [[1]] ∧
    filterKB (byRank (id : Nat → Nat)) [10, 20, 30] .ne false 0 20 [[0], [1], [2]] = .ok [[0], [2]] ∧
    filterKB (byRank (id : Nat → Nat)) [10, 20, 30] .ne true 0 20 [[0], [1], [2]] = .ok [[0]] ∧
    filterKB (byRank (id : Nat → Nat)) [10, 20, 30] .lt true 0 25 [[0], [1], [2]] = .ok [[0], [1]] ∧
    filterKB (byRank (id : Nat → Nat)) [10, 20, 30] .gt false 0 25 [[0], [1], [2]] = .ok [[2]] ∧
    filterKB (byRank (id : Nat → Nat)) [10, 20, 30] .gt false 0 5 [[0], [1], [2]] = .ok [[1], [2]] ∧
    filterKB (byRank (id : Nat → Nat)) [10, 20, 30] .le true 0 5 [[0], [1], [2]] = .ok [[0]] := by decide

example : Stands (id : Nat → Nat) [10, 20, 30] fun i => [10, 20, 30].getD i 0 := by
  intro i h; simp only [List.length_cons, List.length_nil] at h
  match i, h with
  | 0, _ => rfl
  | 1, _ => rfl
  | 2, _ => rfl

/-- C22 does not hold for unbound values: comparisons with an unbound value do not hold, but the rows are kept by `>=`, `>` and
`!=`. -/
theorem C22_unbound_violated {W : Type} {K : Type} [LinearOrder K] (rank : W → K) (words : List W) (v : W) (c : Cmp)
    (hcmp : c = .gt ∨ c = .ge ∨ c = .ne) (hv : words.Pairwise fun a b => rank a ≤ rank b) (hlen : words.length < ID_NO_VALUE) :
    filterKB (byRank rank) words c false 0 v [[ID_NO_VALUE]] = .ok [[ID_NO_VALUE]] := by
  obtain ⟨lo, h1, hlo, _⟩ := lowerBound_ok (rank := rank) hv v
  obtain ⟨up, h3, hup, _⟩ := upperBound_ok (rank := rank) hv v
  have hw : Table.WF [[ID_NO_VALUE]] 1 := by intro r hr; simp at hr; simp [hr]
  generalize ID_NO_VALUE = u at *
  rcases hcmp with rfl | rfl | rfl
  · simp only [filterKB, valueIdForLE, h3, Outcome.bind, Outcome.map]
    rw [C22_fixed_value idReader_lawful _ false hw (by decide) (fun h => by simp at h) fun _ _ _ h => h]
    unfold keep
    rw [List.filter_cons_of_pos, List.filter_nil]
    simp only [decide_eq_true_eq, Holds, idReader, id, List.getD_cons_zero]
    split <;> omega
  · simp only [filterKB, valueIdForLT, h1, Outcome.bind]
    rw [C22_fixed_value idReader_lawful _ false hw (by decide) (fun h => by simp at h) fun _ _ _ h => h]
    unfold keep
    rw [List.filter_cons_of_pos, List.filter_nil]
    simp only [decide_eq_true_eq, Holds, idReader, id, List.getD_cons_zero]
    omega
  · simp only [filterKB, h1, h3, Outcome.bind]
    rw [show (decide True) = true from rfl, range_inverse_unsorted hw (by decide), List.filter_cons_of_pos, List.filter_nil]
    simp only [List.getD_cons_zero, Bool.not_eq_true', Bool.and_eq_false_iff, decide_eq_false_iff_not]
    right; omega

/-! ### Prefix conditions -/

/-- C22, prefix conditions connected by `||`: whatever the order of the ranges of a column and of the columns, with overlaps, sorted or
not, exactly the rows are kept in which some column is in one of its ranges. -/
theorem C22_prefix {t : Table} {w lhs : Nat} {sortedBy : Option Nat} {conds ranges : List (Nat × List (Nat × Nat))} (hw : t.WF w)
    (hsort : List.Forall₂ (fun a b => a.1 = b.1 ∧ SortedRanges a.2 b.2) conds ranges) (hlhs : lhs ∈ conds.map (·.1))
    (hcols : ∀ m ∈ conds, m.1 < w) (hs : ∀ c, sortedBy = some c → Ascending c id t) :
    filterPrefix sortedBy lhs ranges t = .ok (t.filter fun r => decide (InSome conds r)) := by
  have hk : conds.map (·.1) = ranges.map (·.1) := by
    clear hlhs hcols
    induction hsort with
    | nil => rfl
    | cons h _ ih => rw [List.map_cons, List.map_cons, h.1, ih]
  have hcov : ∀ r : Row, (ranges.map fun m => (m.1, disjointRanges m.2)).any (fun m => inAny m.2 (r.getD m.1 0)) = decide (InSome conds r) := by
    intro r
    clear hlhs hcols hk
    induction hsort with
    | nil => simp [InSome]
    | @cons a b as bs h _ ih =>
      rw [List.map_cons, List.any_cons, ih]
      simp only [disjointRanges_cover h.2.2]
      rw [Bool.eq_iff_iff]
      simp only [Bool.or_eq_true, decide_eq_true_eq]
      simp only [InSome, List.mem_cons, exists_eq_or_imp, inAny_iff]
      rw [h.1]
      refine or_congr ⟨?_, ?_⟩ Iff.rfl
      · rintro ⟨p, hp, h1⟩; exact ⟨p, h.2.1.subset hp, h1⟩
      · rintro ⟨p, hp, h1⟩; exact ⟨p, h.2.1.symm.subset hp, h1⟩
  have hcols' : ∀ m ∈ ranges.map (fun m => (m.1, disjointRanges m.2)), m.1 < w := by
    intro m hm
    obtain ⟨m', hm', rfl⟩ := List.mem_map.mp hm
    have : m'.1 ∈ conds.map (·.1) := by rw [hk]; exact List.mem_map.mpr ⟨m', hm', rfl⟩
    obtain ⟨x, hx, he⟩ := List.mem_map.mp this
    simp only at he ⊢
    rw [← he]
    exact hcols x hx
  have hun : engineFilter (fun e => inAnyRanges e (ranges.map fun m => (m.1, disjointRanges m.2))) t
      = .ok (t.filter fun r => decide (InSome conds r)) := by
    apply engineFilter_ok
    intro r hr
    rw [inAnyRanges_ok (hw r hr) hcols', hcov r]
  unfold filterPrefix
  simp only
  by_cases hlen : (ranges.map fun m => (m.1, disjointRanges m.2)).length > 1
  · simp only [if_pos hlen]
    exact hun
  · simp only [if_neg hlen]
    have h1 : ranges.length = 1 := by
      have : 0 < ranges.length := by
        have h2 : (conds.map (·.1)).length = ranges.length := by rw [hk, List.length_map]
        have h3 : 0 < (conds.map (·.1)).length := List.length_pos_of_mem hlhs
        omega
      simp only [List.length_map] at hlen
      omega
    obtain ⟨⟨l, rs⟩, rfl⟩ := List.length_eq_one_iff.mp h1
    have hl : l = lhs := by
      rw [hk] at hlhs
      exact (List.mem_singleton.mp hlhs).symm
    subst hl
    cases sortedBy with
    | none => exact hun
    | some c =>
      by_cases hcl : c = l
      · subst hcl
        have hsr : rs.Pairwise fun a b => ¬ b.1 < a.1 := by
          cases hsort with
          | cons h _ => exact h.2.2
        have hcw : c < w := hcols' (c, disjointRanges rs) (by simp)
        obtain ⟨its, h2, h3⟩ := rangeIterators_ok hw hcw (hs c rfl) (disjointRanges_chain hsr)
        simp only [Option.filter, List.map_cons, List.map_nil, List.contains_cons, beq_self_eq_true, Bool.true_or, if_true,
          List.find?_cons, decide_true, ne_eq, not_true, false_and, if_false]
        rw [column_ok hw hcw]
        simp only [Outcome.bind]
        rw [h2]
        simp only
        rw [h3, List.nil_append, Outcome.ok.injEq]
        apply List.filter_congr
        intro r _
        have := hcov r
        simpa using this
      · have : (c == l) = false := by simpa using hcl
        simp only [Option.filter, List.map_cons, List.map_nil, List.contains_cons, List.contains_nil, this, Bool.or_false,
          Bool.false_eq_true, if_false]
        exact hun

example : filterPrefix (some 0) 0 [(0, [(1, 4), (2, 3), (3, 6)])] [[0], [1], [3], [5], [6]] = .ok [[1], [3], [5]] ∧
    filterPrefix (some 0) 1 [(0, [(1, 2)]), (1, [(7, 9)])] [[0, 7], [1, 0], [3, 3]] = .ok [[0, 7], [1, 0]] ∧
    SortedRanges [(3, 6), (1, 4), (2, 3)] [(1, 4), (2, 3), (3, 6)] := by
  refine ⟨by decide, by decide, ?_⟩
  unfold SortedRanges; decide

end Verif.Filter
