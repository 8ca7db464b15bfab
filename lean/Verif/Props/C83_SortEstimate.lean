import Verif.Spec.SortEstimate
import Verif.Props.C82_Timeout
import Mathlib.Tactic.Linarith
import Mathlib.Tactic.NormNum
import Mathlib.Data.Rat.Cast.Order
/-
C83: Servers start whatever the size of the index, and sorts are only cancelled if the time left is short for their size.
-/
namespace Verif.SortEstimate
open Spec

/-- Disagreement: **no server starts** for an index with fewer than 200000 triples, whatever the machine. -/
theorem C83_small_violated (M : Machine) (n : Nat) (h : n < 200000) : serverEstimates M n = .throw := by
  have h1 : 10000 * 1 > n * 5 / 100 := by omega
  simp only [serverEstimates, computeEstimates, sampleRows, fillRows, sampleCols, fillRow, cell, sample, h1, if_true, Outcome.bind_eq, Outcome.bind]

theorem fillRow_ok (M : Machine) (max rows : Nat) : ∀ (cols : List Nat) (above : Option (Nat × List Rat)) (left : Option (Nat × Rat)),
    (∀ p, above = some p → p.2.length = cols.length) →
    (above = none → left = none → ∀ c, cols.head? = some c → (sample M max rows c).isSome) →
    ∃ row, fillRow M max rows above left cols = .ok row ∧ row.length = cols.length ∧
      (∀ j (h : j < cols.length) t, sample M max rows cols[j] = some t → row[j]? = some t) ∧
      ((∀ r c t, M.measure r c = some t → 0 ≤ t) → (∀ x, 0 ≤ x → 0 ≤ M.sqrt x) → (∀ p, above = some p → ∀ s ∈ p.2, 0 ≤ s) →
        (∀ p, left = some p → 0 ≤ p.2) → ∀ s ∈ row, 0 ≤ s)
  | [], above, left, _, _ => ⟨[], by simp [fillRow], rfl, by simp, by simp⟩
  | c :: cs, above, left, ha, hl => by
    have hv : ∃ v, cell M max rows above left c = .ok v ∧ (∀ t, sample M max rows c = some t → v = t) ∧
        ((∀ r c t, M.measure r c = some t → 0 ≤ t) → (∀ x, 0 ≤ x → 0 ≤ M.sqrt x) → (∀ p, above = some p → ∀ s ∈ p.2, 0 ≤ s) →
          (∀ p, left = some p → 0 ≤ p.2) → 0 ≤ v) := by
      have hq : ∀ a b : Nat, (0 : Rat) ≤ (a : Rat) / (b : Rat) := fun a b => by
        rw [Rat.div_def]
        exact Rat.mul_nonneg (by exact_mod_cast Nat.zero_le a) (Rat.inv_nonneg (by exact_mod_cast Nat.zero_le b))
      unfold cell
      cases hs : sample M max rows c with
      | some t =>
        refine ⟨t, rfl, fun _ h => by cases h; rfl, fun hm _ _ _ => ?_⟩
        unfold sample at hs
        split at hs
        · cases hs
        · exact hm _ _ _ hs
      | none =>
        match above, left with
        | some (r, []), _ => exact absurd (ha _ rfl) (by simp)
        | some (r, s :: l), _ =>
          exact ⟨_, rfl, fun _ h => (by cases h), fun _ _ h _ => Rat.mul_nonneg (h _ rfl s List.mem_cons_self) (hq _ _)⟩
        | none, some (c', s) =>
          exact ⟨_, rfl, fun _ h => (by cases h), fun _ h _ h2 => Rat.mul_nonneg (h2 _ rfl) (h _ (hq _ _))⟩
        | none, none => exact absurd (hl rfl rfl c rfl) (by simp [hs])
    obtain ⟨v, e1, e2, e3⟩ := hv
    obtain ⟨row, r1, r2, r3, r4⟩ := fillRow_ok M max rows cs (above.map fun p => (p.1, p.2.tail)) (some (c, v))
      (by
        intro p hp
        cases above with
        | none => cases hp
        | some q => cases hp; simp [ha q rfl])
      (fun _ h => by cases h)
    refine ⟨v :: row, ?_, by simp [r2], ?_, ?_⟩
    · unfold fillRow
      rw [e1]
      simp only [Outcome.bind_eq, Outcome.bind, r1]
    · intro j hj t ht
      cases j with
      | zero => simp [e2 t ht]
      | succ j => simpa using r3 j (by simpa using hj) t (by simpa using ht)
    · intro hm hq h1 h2 s hs
      rcases List.mem_cons.mp hs with rfl | hs
      · exact e3 hm hq h1 h2
      · refine r4 hm hq ?_ ?_ s hs
        · intro p hp s hs
          cases above with
          | none => cases hp
          | some q => cases hp; exact h1 q rfl s (List.mem_of_mem_tail hs)
        · intro p hp; cases hp; exact e3 hm hq h1 h2

theorem fillRows_ok (M : Machine) (max : Nat) : ∀ (rows : List Nat) (above : Option (Nat × List Rat)),
    (∀ p, above = some p → p.2.length = 6) → (above = none → ∀ r, rows.head? = some r → (sample M max r 1).isSome) →
    ∃ S, fillRows M max above rows = .ok S ∧ S.length = rows.length ∧ (∀ row ∈ S, row.length = 6) ∧
      (∀ i (h : i < rows.length) j (h' : j < sampleCols.length) t, sample M max rows[i] sampleCols[j] = some t →
        ∃ row, S[i]? = some row ∧ row[j]? = some t) ∧
      ((∀ r c t, M.measure r c = some t → 0 ≤ t) → (∀ x, 0 ≤ x → 0 ≤ M.sqrt x) → (∀ p, above = some p → ∀ s ∈ p.2, 0 ≤ s) →
        ∀ row ∈ S, ∀ s ∈ row, 0 ≤ s)
  | [], above, _, _ => ⟨[], by simp [fillRows], rfl, by simp, by simp, by simp⟩
  | r :: rs, above, ha, hf => by
    obtain ⟨row, e1, e2, e3, e4⟩ := fillRow_ok M max r sampleCols above none (fun p hp => by rw [ha p hp]; rfl)
      (fun h _ c hc => by cases hc; exact hf h r rfl)
    obtain ⟨S, s1, s2, s3, s4, s5⟩ := fillRows_ok M max rs (some (r, row)) (fun p hp => by cases hp; exact e2) (fun h => by cases h)
    refine ⟨row :: S, ?_, by simp [s2], ?_, ?_, ?_⟩
    · unfold fillRows
      simp only [Outcome.bind_eq, Outcome.bind, e1, s1]
    · intro x hx
      rcases List.mem_cons.mp hx with rfl | hx
      · exact e2
      · exact s3 x hx
    · intro i hi j hj t ht
      cases i with
      | zero => exact ⟨row, rfl, e3 j hj t (by simpa using ht)⟩
      | succ i => simpa using s4 i (by simpa using hi) j hj t (by simpa using ht)
    · intro hm hq h1 x hx
      have hrow := e4 hm hq h1 (fun p hp => by cases hp)
      rcases List.mem_cons.mp hx with rfl | hx
      · exact hrow
      · exact s5 hm hq (fun p hp => by cases hp; exact hrow) x hx

/-- **Larger indexes**: from 200000 triples on the server gets a complete table of estimates, if the smallest table fits into memory;
samples of at most 5 percent of the triples that fit into memory have the measured times, and no estimate is negative. -/
theorem C83_starts_partial (M : Machine) (n : Nat) (h : 200000 ≤ n) (hm : (M.measure 10000 1).isSome) :
    ∃ S, serverEstimates M n = .ok S ∧ Complete S ∧
      (∀ (i j r c : Nat) (t : Rat), sampleRows[i]? = some r → sampleCols[j]? = some c → r * c * 100 ≤ n * 5 → M.measure r c = some t →
        ∃ row, S[i]? = some row ∧ row[j]? = some t) ∧
      ((∀ r c t, M.measure r c = some t → 0 ≤ t) → (∀ x, 0 ≤ x → 0 ≤ M.sqrt x) → ∀ row ∈ S, ∀ s ∈ row, 0 ≤ s) := by
  have h0 : ¬ 10000 * 1 > n * 5 / 100 := by omega
  obtain ⟨S, s1, s2, s3, s4, s5⟩ := fillRows_ok M (n * 5 / 100) sampleRows none (fun p hp => by cases hp)
    (fun _ r hr => by cases hr; rw [sample, if_neg h0]; exact hm)
  refine ⟨S, s1, ⟨s2, s3⟩, ?_, fun a b => s5 a b (fun p hp => by cases hp)⟩
  intro i j r c t hr hc hle ht
  obtain ⟨hi, hr⟩ := List.getElem?_eq_some_iff.mp hr
  obtain ⟨hj, hc⟩ := List.getElem?_eq_some_iff.mp hc
  refine s4 i hi j hj t ?_
  rw [hr, hc, sample, if_neg (by omega)]
  exact ht

theorem cell_above {M : Machine} {max rows r : Nat} {s v : Rat} {l : List Rat} {left : Option (Nat × Rat)} {c : Nat}
    (h : cell M max rows (some (r, s :: l)) left c = .ok v) (hs : sample M max rows c = none) : v = s * ((rows : Rat) / (r : Rat)) := by
  simp only [cell, hs, Outcome.ok.injEq] at h
  exact h.symm

theorem cell_left {M : Machine} {max rows c' : Nat} {s v : Rat} {c : Nat}
    (h : cell M max rows none (some (c', s)) c = .ok v) (hs : sample M max rows c = none) : v = s * M.sqrt ((c : Rat) / (c' : Rat)) := by
  simp only [cell, hs, Outcome.ok.injEq] at h
  exact h.symm

theorem fillRow_cons {M : Machine} {max rows : Nat} {above : Option (Nat × List Rat)} {left : Option (Nat × Rat)} {c : Nat} {cs : List Nat}
    {row : List Rat} (h : fillRow M max rows above left (c :: cs) = .ok row) :
    ∃ v vs, row = v :: vs ∧ cell M max rows above left c = .ok v ∧
      fillRow M max rows (above.map fun p => (p.1, p.2.tail)) (some (c, v)) cs = .ok vs := by
  simp only [fillRow, Outcome.bind_eq] at h
  cases e : cell M max rows above left c with
  | ok v =>
    simp only [e, Outcome.bind] at h
    cases e' : fillRow M max rows (above.map fun p => (p.1, p.2.tail)) (some (c, v)) cs with
    | ok vs => simp only [e', Outcome.ok.injEq] at h; exact ⟨v, vs, h.symm, rfl, e'⟩
    | throw => simp [e'] at h
    | ub => simp [e'] at h
    | diverge => simp [e'] at h
  | throw => simp [e] at h
  | ub => simp [e] at h
  | diverge => simp [e] at h

theorem fillRow_above {M : Machine} {max rows r : Nat} : ∀ {cols : List Nat} {l row : List Rat} {left : Option (Nat × Rat)},
    l.length = cols.length → fillRow M max rows (some (r, l)) left cols = .ok row →
    ∀ j (h : j < cols.length), sample M max rows cols[j] = none → ∃ s, l[j]? = some s ∧ row[j]? = some (s * ((rows : Rat) / (r : Rat)))
  | [], _, _, _, _, _, j, h, _ => by simp at h
  | c :: cs, [], _, _, hl, _, _, _, _ => by simp at hl
  | c :: cs, s :: l, row, left, hl, e, j, h, hs => by
    obtain ⟨v, vs, rfl, e1, e2⟩ := fillRow_cons e
    cases j with
    | zero => exact ⟨s, rfl, by rw [cell_above e1 hs]; rfl⟩
    | succ j => simpa using fillRow_above (by simpa using hl) e2 j (by simpa using h) (by simpa using hs)

theorem fillRow_left {M : Machine} {max rows : Nat} : ∀ {cols : List Nat} {row : List Rat} {left : Option (Nat × Rat)},
    fillRow M max rows none left cols = .ok row →
    ∀ j (h : j + 1 < cols.length), sample M max rows cols[j + 1] = none →
      ∃ s, row[j]? = some s ∧ row[j + 1]? = some (s * M.sqrt ((cols[j + 1] : Rat) / (cols[j] : Rat)))
  | [], _, _, _, j, h, _ => by simp at h
  | [c], _, _, _, j, h, _ => by simp at h
  | c :: d :: cs, row, left, e, j, h, hs => by
    obtain ⟨v, vs, rfl, -, e2⟩ := fillRow_cons e
    cases j with
    | zero =>
      obtain ⟨w, ws, rfl, e3, -⟩ := fillRow_cons e2
      exact ⟨v, rfl, by rw [cell_left e3 hs]; rfl⟩
    | succ j => exact fillRow_left e2 j (by simpa using h) hs

theorem fillRows_cons {M : Machine} {max r : Nat} {above : Option (Nat × List Rat)} {rs : List Nat} {S : List (List Rat)}
    (h : fillRows M max above (r :: rs) = .ok S) :
    ∃ row S', S = row :: S' ∧ fillRow M max r above none sampleCols = .ok row ∧ fillRows M max (some (r, row)) rs = .ok S' := by
  simp only [fillRows, Outcome.bind_eq] at h
  cases e : fillRow M max r above none sampleCols with
  | ok row =>
    simp only [e, Outcome.bind] at h
    cases e' : fillRows M max (some (r, row)) rs with
    | ok S' => simp only [e', Outcome.ok.injEq] at h; exact ⟨row, S', h.symm, rfl, e'⟩
    | throw => simp [e'] at h
    | ub => simp [e'] at h
    | diverge => simp [e'] at h
  | throw => simp [e] at h
  | ub => simp [e] at h
  | diverge => simp [e] at h

theorem fillRows_above {M : Machine} {max : Nat} : ∀ {rows : List Nat} {S : List (List Rat)} {above : Option (Nat × List Rat)},
    (∀ row ∈ S, row.length = 6) → fillRows M max above rows = .ok S →
    ∀ i (h : i + 1 < rows.length) j (h' : j < sampleCols.length), sample M max rows[i + 1] sampleCols[j] = none →
      ∃ up row s, S[i]? = some up ∧ S[i + 1]? = some row ∧ up[j]? = some s ∧
        row[j]? = some (s * ((rows[i + 1] : Rat) / (rows[i] : Rat)))
  | [], _, _, _, _, i, h, _, _, _ => by simp at h
  | [_], _, _, _, _, i, h, _, _, _ => by simp at h
  | q :: r :: rs, S, above, hS, e, i, h, j, h', hs => by
    obtain ⟨up, S', rfl, -, e2⟩ := fillRows_cons e
    cases i with
    | zero =>
      obtain ⟨row, S'', rfl, e3, -⟩ := fillRows_cons e2
      obtain ⟨s, s1, s2⟩ := fillRow_above (hS up List.mem_cons_self) e3 j h' hs
      exact ⟨up, row, s, rfl, rfl, s1, s2⟩
    | succ i =>
      have := fillRows_above (fun x hx => hS x (List.mem_cons_of_mem _ hx)) e2 i (by simpa using h) j h' (by simpa using hs)
      simpa using this

/-- **Missing samples**, those above 5 percent of the triples or too large for memory, are extrapolated from the next smaller number of
rows, linearly, and for the smallest number of rows from the next smaller number of columns, with the square root. -/
theorem C83_missing (M : Machine) (n : Nat) (S : List (List Rat)) (h : serverEstimates M n = .ok S) (i j r c : Nat)
    (hr : sampleRows[i]? = some r) (hc : sampleCols[j]? = some c) (missing : n * 5 < r * c * 100 ∨ M.measure r c = none) :
    (∀ i' r', i = i' + 1 → sampleRows[i']? = some r' → ∃ up row s, S[i']? = some up ∧ S[i]? = some row ∧ up[j]? = some s ∧
      row[j]? = some (s * ((r : Rat) / (r' : Rat)))) ∧
    (∀ j' c', i = 0 → j = j' + 1 → sampleCols[j']? = some c' → ∃ row s, S[i]? = some row ∧ row[j']? = some s ∧
      row[j]? = some (s * M.sqrt ((c : Rat) / (c' : Rat)))) := by
  obtain ⟨hi, hr⟩ := List.getElem?_eq_some_iff.mp hr
  obtain ⟨hj, hc⟩ := List.getElem?_eq_some_iff.mp hc
  have hs : sample M (n * 5 / 100) r c = none := by
    unfold sample
    split
    · rfl
    · rcases missing with h | h
      · omega
      · exact h
  have hn : 200000 ≤ n ∧ (M.measure 10000 1).isSome := by
    constructor
    · rcases Nat.lt_or_ge n 200000 with hn | hn
      · rw [C83_small_violated M n hn] at h; cases h
      · exact hn
    · obtain ⟨row, S', rfl, e, -⟩ := fillRows_cons (show fillRows M (n * 5 / 100) none (10000 :: _) = .ok S from h)
      obtain ⟨v, vs, rfl, e1, -⟩ := fillRow_cons (show fillRow M (n * 5 / 100) 10000 none none (1 :: _) = .ok row from e)
      cases hm : M.measure 10000 1 with
      | some t => rfl
      | none => simp [cell, sample, hm] at e1
  obtain ⟨S0, s1, s2, -⟩ := C83_starts_partial M n hn.1 hn.2
  have : S0 = S := by rw [h] at s1; exact (Outcome.ok.inj s1).symm
  subst this
  constructor
  · rintro i' r' rfl hr'
    obtain ⟨hi', hr'⟩ := List.getElem?_eq_some_iff.mp hr'
    subst hr hr' hc
    exact fillRows_above s2.2 h i' hi j hj hs
  · rintro j' c' rfl rfl hc'
    obtain ⟨hj', hc'⟩ := List.getElem?_eq_some_iff.mp hc'
    obtain ⟨row, S', rfl, e, -⟩ := fillRows_cons (show fillRows M (n * 5 / 100) none (10000 :: _) = .ok S0 from h)
    subst hc hc'
    have hr : 10000 = r := hr
    subst hr
    obtain ⟨s, a, b⟩ := fillRow_left e j' hj hs
    exact ⟨row, s, rfl, a, b⟩

theorem dist_le_iff (v x y : Nat) (h : dist v x ≤ dist v y) :
    (x ≤ v → v ≤ y → v - x ≤ y - v) ∧ (v ≤ x → y ≤ v → x - v ≤ v - y) ∧ (x ≤ v → y ≤ v → y ≤ x) ∧ (v ≤ x → v ≤ y → x ≤ y) := by
  unfold dist at h
  refine ⟨?_, ?_, ?_, ?_⟩ <;> intros <;> omega

theorem minElement_spec (v : Nat) (all : List Nat) : ∀ (rest done : List Nat) (best : Nat × Nat), all = done ++ rest →
    all[best.1]? = some best.2 → (∀ y ∈ done, dist v best.2 ≤ dist v y) →
    ∃ h : minElement v best done.length rest < all.length, ∀ y ∈ all, dist v all[minElement v best done.length rest] ≤ dist v y
  | [], done, best, e, hb, hd => by
    obtain ⟨h, hb⟩ := List.getElem?_eq_some_iff.mp hb
    refine ⟨h, fun y hy => ?_⟩
    simp only [minElement, hb]
    exact hd y (by simpa [e] using hy)
  | x :: rest, done, best, e, hb, hd => by
    have := minElement_spec v all rest (done ++ [x]) (if dist v x < dist v best.2 then (done.length, x) else best) (by simp [e])
      (by
        split
        · simp [e]
        · exact hb)
      (by
        intro y hy
        rcases List.mem_append.mp hy with hy | hy
        · have := hd y hy
          split <;> (try dsimp only) <;> omega
        · rw [List.mem_singleton.mp hy]
          split <;> (try dsimp only) <;> omega)
    simpa [minElement] using this

/-- **Closest samples** are found for every number. -/
theorem C83_closest (v : Nat) : Closest sampleRows v (closestIndex sampleRows v) ∧ Closest sampleCols v (closestIndex sampleCols v) := by
  have H : ∀ x l, Closest (x :: l) v (closestIndex (x :: l) v) := by
    intro x l
    obtain ⟨h, hd⟩ := minElement_spec v (x :: l) l [x] (0, x) rfl rfl (by simp)
    exact ⟨h, fun y hy => dist_le_iff v _ y (hd y hy)⟩
  exact ⟨H _ _, H _ _⟩

theorem closest_self (l : List Nat) (v : Nat) (hv : v ∈ l) (k : Nat) (h : Closest l v k) : l[k]? = some v := by
  obtain ⟨hk, hc⟩ := h
  have := hc v hv
  rw [List.getElem?_eq_getElem hk]
  congr 1
  have h3 := this.2.2.1
  have h4 := this.2.2.2
  rcases Nat.le_total l[k] v with hl | hl
  · have := h3 hl (Nat.le_refl _); omega
  · have := h4 hl (Nat.le_refl _); omega

/-- **Estimates** exist for tables of every size: that of a closest sample, scaled by the numbers of rows and by the square root
of the numbers of columns. -/
theorem C83_estimate (M : Machine) (S : List (List Rat)) (hS : Complete S) (rows cols : Nat) :
    ∃ (i j r c : Nat) (row : List Rat) (s : Rat), Closest sampleRows rows i ∧ Closest sampleCols cols j ∧ sampleRows[i]? = some r ∧
      sampleCols[j]? = some c ∧ S[i]? = some row ∧ row[j]? = some s ∧
      estimate M (some S) rows cols = .ok (s * ((rows : Rat) / (r : Rat)) * M.sqrt ((cols : Rat) / (c : Rat))) := by
  obtain ⟨hi, -⟩ := (C83_closest rows).1
  obtain ⟨hj, -⟩ := (C83_closest cols).2
  have hi' : closestIndex sampleRows rows < S.length := by rw [hS.1]; exact hi
  have hj' : closestIndex sampleCols cols < (S[closestIndex sampleRows rows]).length := by rw [hS.2 _ (List.getElem_mem hi')]; exact hj
  refine ⟨_, _, _, _, _, _, (C83_closest rows).1, (C83_closest cols).2, List.getElem?_eq_getElem hi, List.getElem?_eq_getElem hj,
    List.getElem?_eq_getElem hi', List.getElem?_eq_getElem hj', ?_⟩
  simp only [estimate, Outcome.bind_eq, Outcome.read_lt _ _ hi', Outcome.bind, Outcome.read_lt _ _ hj', Outcome.read_lt _ _ hi,
    Outcome.read_lt _ _ hj]

/-- The estimate for a table with the size of a sample is the time of that sample. -/
theorem C83_exact (M : Machine) (h1 : M.sqrt 1 = 1) (S : List (List Rat)) (hS : Complete S) (rows cols : Nat) (hr : rows ∈ sampleRows)
    (hc : cols ∈ sampleCols) : ∃ (i j : Nat) (row : List Rat) (s : Rat), sampleRows[i]? = some rows ∧ sampleCols[j]? = some cols ∧
      S[i]? = some row ∧ row[j]? = some s ∧ estimate M (some S) rows cols = .ok s := by
  obtain ⟨i, j, r, c, row, s, ci, cj, e1, e2, e3, e4, e5⟩ := C83_estimate M S hS rows cols
  have f1 := closest_self _ _ hr _ ci
  have f2 := closest_self _ _ hc _ cj
  have g1 : r = rows := by rw [e1] at f1; exact Option.some.inj f1
  have g2 : c = cols := by rw [e2] at f2; exact Option.some.inj f2
  refine ⟨i, j, row, s, f1, f2, e3, e4, ?_⟩
  have n1 : (rows : Rat) ≠ 0 := by
    have : rows ≠ 0 := by rintro rfl; revert hr; decide
    exact_mod_cast this
  have n2 : (cols : Rat) ≠ 0 := by
    have : cols ≠ 0 := by rintro rfl; revert hc; decide
    exact_mod_cast this
  rw [e5, g1, g2, Rat.div_def, Rat.div_def, Rat.mul_inv_cancel _ n1, Rat.mul_inv_cancel _ n2, h1, Rat.mul_one, Rat.mul_one]

/-- **Sorts are cancelled** exactly if the estimate is more than three times the time that is left of the limit (up to the time that
is not counted, see C82). -/
theorem C83_cancelled_partial (m : Int) (s : Timeout.TimeVal) (us : List Timeout.Use) (T : Timeout.TimeoutTimer) (a b : Timeout.TimeVal)
    (e : Timeout.uses ((Timeout.TimeoutTimer.fromMicroseconds m).start s) us = .ok T) (estimate : Rat) :
    cancelled estimate (T.remaining a b).1 = true ↔
      3 * ((max 0 (m - (Timeout.Spec.micro a - Timeout.Spec.micro s - Timeout.Spec.lost (us.map Timeout.Spec.readings))) : Int) : Rat) <
        1000000 * estimate := by
  rw [Timeout.C82_remaining_partial m s us T a b e]
  generalize (max 0 (m - (Timeout.Spec.micro a - Timeout.Spec.micro s - Timeout.Spec.lost (us.map Timeout.Spec.readings))) : Int) = r
  simp only [cancelled, decide_eq_true_eq, gt_iff_lt]
  constructor <;> intro h <;> linarith

/-- Empty tables are sorted even if the time is up, and so is everything if the estimates were not set up. -/
theorem C83_empty (M : Machine) (S : List (List Rat)) (hS : Complete S) (rows cols : Nat) (remaining : Int) (h : 0 ≤ remaining) :
    (∃ e, estimate M (some S) 0 cols = .ok e ∧ cancelled e remaining = false) ∧
    (∃ e, estimate M none rows cols = .ok e ∧ cancelled e remaining = false) := by
  have h0 : cancelled 0 remaining = false := by
    simp only [cancelled, decide_eq_false_iff_not, gt_iff_lt, not_lt]
    have : (0 : Rat) ≤ remaining := by exact_mod_cast h
    linarith
  refine ⟨?_, 0, rfl, h0⟩
  obtain ⟨i, j, r, c, row, s, -, -, -, -, -, -, e5⟩ := C83_estimate M S hS 0 cols
  exact ⟨_, e5, by simpa using h0⟩

/-- Without a limit no sort is cancelled whose estimate is below 9 * 10^12 seconds. -/
theorem C83_unlimited (s : Timeout.TimeVal) (T : Timeout.TimeoutTimer) (h : Timeout.queryTimer none s = .ok T) (a b : Timeout.TimeVal)
    (e : Rat) (he : e ≤ 9000000000000) : cancelled e (T.remaining a b).1 = false := by
  rw [(Timeout.C82_unlimited s T h [] a b).2]
  simp only [cancelled, decide_eq_false_iff_not, gt_iff_lt, not_lt]
  norm_num
  linarith

/-! Examples -/

/-- a machine that sorts a million numbers per second and has memory for ten million -/
def machine : Machine := ⟨fun r c => if r * c ≤ 10000000 then some ((r * c : Nat) / 1000000 : Rat) else none, fun x => x⟩

example : serverEstimates machine 199999 = .throw := C83_small_violated _ _ (by decide)

example : ∃ S, serverEstimates machine 200000 = .ok S ∧ Complete S ∧ S[0]?.bind (·[0]?) = some (1 / 100) := by
  obtain ⟨S, h1, h2, h3, -⟩ := C83_starts_partial machine 200000 (by decide) (by simp [machine])
  obtain ⟨row, e1, e2⟩ := h3 0 0 10000 1 (1 / 100) rfl rfl (by decide) (by simp [machine]; norm_num)
  exact ⟨S, h1, h2, by rw [e1]; exact e2⟩

/-- 100000 rows with one column are more than 5 percent of 200000 triples -/
example : ∃ S up row s, serverEstimates machine 200000 = .ok S ∧ S[0]? = some up ∧ S[1]? = some row ∧ up[0]? = some s ∧
    row[0]? = some (s * (((100000 : Nat) : Rat) / ((10000 : Nat) : Rat))) := by
  obtain ⟨S, h, -⟩ := C83_starts_partial machine 200000 (by decide) (by simp [machine])
  obtain ⟨up, row, s, h1⟩ := (C83_missing machine 200000 S h 1 0 100000 1 rfl rfl (.inl (by decide))).1 0 10000 rfl rfl
  exact ⟨S, up, row, s, h, h1⟩

example : closestIndex sampleRows 54999 = 0 ∧ closestIndex sampleRows 55000 = 0 ∧ closestIndex sampleRows 55001 = 1 ∧
    closestIndex sampleCols 7 = 3 ∧ closestIndex sampleCols 100 = 5 := by decide

example : cancelled 4 1000000 = true ∧ cancelled 3 1000000 = false := by
  constructor <;> norm_num [cancelled]

end Verif.SortEstimate
