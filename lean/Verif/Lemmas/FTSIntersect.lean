import Verif.Model.FTSAlgorithms
import Verif.Spec.Text
/- Lemmas about `filterByRange`, `intersect` and `intersectTwoPostingLists`. -/
namespace Verif.FTS
open Outcome Verif.Spec.Text

theorem drop_cons {l : List α} {i : Nat} (h : i < l.length) : l.drop i = l[i] :: l.drop (i + 1) :=
  List.drop_eq_getElem_cons h

/-- Three parallel vectors. -/
def Triple.of (l : List Posting) : Triple := ⟨l.map (·.cid), l.map (·.eid), l.map (·.score)⟩

theorem filterByRange_spec (first last : Nat) (l : List Posting) (fuel : Nat) (hf : l.length + 1 < fuel) :
    filterByRange fuel first last (l.map (·.cid)) (l.map (·.eid)) (l.map (·.score)) =
      .ok ((l.filter fun p => first ≤ p.eid ∧ p.eid ≤ last).map (·.cid),
        (l.filter fun p => first ≤ p.eid ∧ p.eid ≤ last).map (·.score)) := by
  unfold filterByRange
  rw [if_neg (by simp), if_neg (by simp)]
  obtain ⟨r, hr, hQ⟩ := loop_spec (body := filterByRangeBody first last (l.map (·.cid)) (l.map (·.eid))
      (l.map (·.score)))
    (fun s => s.1 ≤ l.length ∧
      s.2.1 ++ ((l.drop s.1).filter fun p => first ≤ p.eid ∧ p.eid ≤ last).map (·.cid) =
        (l.filter fun p => first ≤ p.eid ∧ p.eid ≤ last).map (·.cid) ∧
      s.2.2 ++ ((l.drop s.1).filter fun p => first ≤ p.eid ∧ p.eid ≤ last).map (·.score) =
        (l.filter fun p => first ≤ p.eid ∧ p.eid ≤ last).map (·.score))
    (fun r => r = ((l.filter fun p => first ≤ p.eid ∧ p.eid ≤ last).map (·.cid),
        (l.filter fun p => first ≤ p.eid ∧ p.eid ≤ last).map (·.score)))
    (fun s => l.length - s.1) (by
      rintro ⟨i, rc, rs⟩ ⟨h1, h2, h3⟩
      dsimp only at h1 h2 h3
      by_cases hi : i < l.length
      · left
        rw [drop_cons hi] at h2 h3
        by_cases hw : first ≤ l[i].eid ∧ l[i].eid ≤ last
        · refine ⟨(i + 1, rc ++ [l[i].cid], rs ++ [l[i].score]), ?_, ⟨hi, ?_, ?_⟩, ?_⟩
          · simp [filterByRangeBody, hi, hw]
          · rw [List.filter_cons_of_pos (by simpa using hw)] at h2
            rw [← h2, List.map_cons, List.append_assoc, List.singleton_append]
          · rw [List.filter_cons_of_pos (by simpa using hw)] at h3
            rw [← h3, List.map_cons, List.append_assoc, List.singleton_append]
          · dsimp only; omega
        · refine ⟨(i + 1, rc, rs), ?_, ⟨hi, ?_, ?_⟩, ?_⟩
          · simp [filterByRangeBody, hi, hw]
          · rw [List.filter_cons_of_neg (by simpa using hw)] at h2
            exact h2
          · rw [List.filter_cons_of_neg (by simpa using hw)] at h3
            exact h3
          · dsimp only; omega
      · right
        have : l.drop i = [] := List.drop_eq_nil_of_le (by omega)
        refine ⟨(rc, rs), by simp [filterByRangeBody, hi], ?_⟩
        simp only [this, List.filter_nil, List.map_nil, List.append_nil] at h2 h3
        rw [h2, h3]) fuel (0, [], []) ⟨by simp, by simp, by simp⟩ (by dsimp only; omega)
  rw [hr, hQ]

/-- `skip` moves over smaller elements; `F` is any function of the position that these steps do not change. -/
theorem skip_spec (l : List Nat) (x i : Nat) (F : Nat → β)
    (hF : ∀ j (h : j < l.length), i ≤ j → l[j] < x → F j = F (j + 1)) (hi : i < l.length) (fuel : Nat)
    (hf : l.length < fuel) :
    (skip fuel l x i = .ok none ∧ F i = F l.length) ∨
    (∃ i', skip fuel l x i = .ok (some i') ∧ i ≤ i' ∧ (∃ h : i' < l.length, x ≤ l[i']) ∧ F i = F i') := by
  obtain ⟨r, hr, hQ⟩ := loop_spec (body := skipBody l x)
    (fun j => i ≤ j ∧ j < l.length ∧ F i = F j)
    (fun r => (r = none ∧ F i = F l.length) ∨
      (∃ i', r = some i' ∧ i ≤ i' ∧ (∃ h : i' < l.length, x ≤ l[i']) ∧ F i = F i'))
    (fun j => l.length - j) (by
      intro j ⟨h1, h2, h3⟩
      by_cases hx : l[j] < x
      · rw [hF j h2 h1 hx] at h3
        by_cases he : j + 1 ≥ l.length
        · right
          have : j + 1 = l.length := by omega
          rw [this] at h3
          exact ⟨none, by simp [skipBody, h2, hx, he], .inl ⟨rfl, h3⟩⟩
        · left
          exact ⟨j + 1, by simp only [skipBody, read_lt l j h2, Outcome.bind, if_pos hx, if_neg he],
            ⟨by omega, by omega, h3⟩, by omega⟩
      · right
        exact ⟨some j, by simp [skipBody, h2, hx], .inr ⟨j, rfl, h1, ⟨h2, by omega⟩, h3⟩⟩) fuel i
    ⟨Nat.le_refl _, hi, rfl⟩ (by omega)
  unfold skip
  rw [hr]
  rcases hQ with ⟨rfl, h⟩ | ⟨i', rfl, h⟩
  · exact .inl ⟨rfl, h⟩
  · exact .inr ⟨i', rfl, h⟩

/-! ### `intersect` -/

/-- What the loops of `intersect` compute, as a recursion on both lists. -/
def inter1 : List Nat → List Posting → List Posting
  | [], _ => []
  | _ :: _, [] => []
  | m :: ms, e :: es =>
    if m < e.cid then inter1 ms (e :: es)
    else if e.cid < m then inter1 (m :: ms) es
    else e :: inter1 (m :: ms) es
  termination_by a b => a.length + b.length

theorem inter1_nil (ms : List Nat) : inter1 ms [] = [] := by
  cases ms <;> simp [inter1]

theorem inter1_eq (ms : List Nat) (es : List Posting) (hm : ms.Pairwise (· ≤ ·)) (he : Sorted es) :
    inter1 ms es = es.filter fun e => e.cid ∈ ms := by
  fun_induction inter1 ms es with
  | case1 es => simp
  | case2 => simp
  | case3 m ms e es h ih =>
    rw [ih hm.tail he]
    apply List.filter_congr
    intro p hp
    have : e.cid ≤ p.cid := by
      rcases List.mem_cons.1 hp with rfl | hp
      · exact Nat.le_refl _
      · exact (List.pairwise_cons.1 he).1 p hp
    have hne : p.cid ≠ m := by omega
    simp [hne]
  | case4 m ms e es h h2 ih =>
    rw [ih hm (List.pairwise_cons.1 he).2]
    have hn : e.cid ∉ m :: ms := by
      intro hc
      rcases List.mem_cons.1 hc with hc | hc
      · omega
      · have := (List.pairwise_cons.1 hm).1 _ hc
        omega
    rw [List.filter_cons_of_neg (by simpa using hn)]
  | case5 m ms e es h h2 ih =>
    rw [ih hm (List.pairwise_cons.1 he).2]
    have : e.cid = m := by omega
    simp [this]

theorem copy_spec (c : Nat) (es : List Posting) (hs : Sorted es) (ms : List Nat) (j : Nat) (out : List Posting)
    (hj : j < es.length) (hc : c ≤ es[j].cid) (fuel : Nat) (hf : es.length < fuel) :
    ∃ j' out', loop fuel (copyBody c (es.map (·.cid)) (es.map (·.eid)) (es.map (·.score))) (j, Triple.of out) =
        .ok (j', Triple.of out') ∧ j ≤ j' ∧ j' ≤ es.length ∧
      out ++ inter1 (c :: ms) (es.drop j) = out' ++ inter1 ms (es.drop j') := by
  obtain ⟨r, hr, hQ⟩ := loop_spec (body := copyBody c (es.map (·.cid)) (es.map (·.eid)) (es.map (·.score)))
    (fun s => j ≤ s.1 ∧ s.1 < es.length ∧ (∃ h : s.1 < es.length, c ≤ es[s.1].cid) ∧ ∃ out', s.2 = Triple.of out' ∧
      out ++ inter1 (c :: ms) (es.drop j) = out' ++ inter1 (c :: ms) (es.drop s.1))
    (fun r => ∃ j' out', r = (j', Triple.of out') ∧ j ≤ j' ∧ j' ≤ es.length ∧
      out ++ inter1 (c :: ms) (es.drop j) = out' ++ inter1 ms (es.drop j'))
    (fun s => es.length - s.1) (by
      rintro ⟨i, res⟩ ⟨h1, h2, ⟨_, hle⟩, out', h3, h4⟩
      dsimp only at h1 h2 h3 h4 hle
      subst h3
      by_cases hx : c = es[i].cid
      · have hin : inter1 (c :: ms) (es.drop i) = es[i] :: inter1 (c :: ms) (es.drop (i + 1)) := by
          rw [drop_cons h2, inter1, if_neg (by omega), if_neg (by omega)]
        have ho : Triple.of (out' ++ [es[i]]) = ⟨(Triple.of out').cids ++ [es[i].cid], (Triple.of out').eids ++
            [es[i].eid], (Triple.of out').scores ++ [es[i].score]⟩ := by simp [Triple.of]
        by_cases he : i + 1 ≥ es.length
        · right
          refine ⟨(i + 1, Triple.of (out' ++ [es[i]])), ?_, i + 1, out' ++ [es[i]], rfl, by omega, by omega, ?_⟩
          · rw [ho]
            simp [copyBody, h2, ← hx, he]
          · rw [h4, hin]
            simp [List.drop_eq_nil_of_le he, inter1_nil]
        · left
          refine ⟨(i + 1, Triple.of (out' ++ [es[i]])), ?_, ⟨by dsimp only; omega, by dsimp only; omega, ?_,
            out' ++ [es[i]], rfl, ?_⟩, ?_⟩
          · rw [ho]
            simp [copyBody, h2, ← hx]
            omega
          · refine ⟨by dsimp only; omega, ?_⟩
            have := (List.pairwise_iff_getElem.1 hs) i (i + 1) h2 (by omega) (by omega)
            dsimp only
            omega
          · rw [h4, hin]
            simp
          · dsimp only; omega
      · right
        refine ⟨(i, Triple.of out'), by simp [copyBody, h2, hx], i, out', rfl, by omega, by omega, ?_⟩
        rw [h4, drop_cons h2, inter1, if_pos (by omega)])
    fuel (j, Triple.of out) ⟨Nat.le_refl _, hj, ⟨hj, hc⟩, out, rfl, rfl⟩ (by dsimp only; omega)
  obtain ⟨j', out', rfl, h⟩ := hQ
  exact ⟨j', out', hr, h⟩

theorem intersect_spec (ms : List Nat) (es : List Posting) (hm : ms.Pairwise (· ≤ ·)) (hs : Sorted es)
    (hne : ms ≠ [] ∧ es ≠ []) (old : Triple) (fuel : Nat) (hf : ms.length + es.length + 1 < fuel) :
    intersect fuel ms (es.map (·.cid)) (es.map (·.eid)) (es.map (·.score)) old =
      .ok (Triple.of (es.filter fun e => e.cid ∈ ms)) := by
  unfold intersect
  rw [if_neg (by simp [hne])]
  obtain ⟨r, hr, hQ⟩ := loop_spec (body := intersectBody fuel ms (es.map (·.cid)) (es.map (·.eid)) (es.map (·.score)))
    (fun s => s.1 ≤ ms.length ∧ s.2.1 ≤ es.length ∧ ∃ out, s.2.2 = Triple.of out ∧
      out ++ inter1 (ms.drop s.1) (es.drop s.2.1) = inter1 ms es)
    (fun r => r = Triple.of (inter1 ms es))
    (fun s => (ms.length - s.1) + (es.length - s.2.1)) (by
      rintro ⟨i, j, res⟩ ⟨h1, h2, out, h3, h4⟩
      dsimp only at h1 h2 h3 h4
      subst h3
      by_cases hij : i < ms.length ∧ j < es.length
      · obtain ⟨hi, hj⟩ := hij
        have hij : i < ms.length ∧ j < (es.map (·.cid)).length := ⟨hi, by simpa using hj⟩
        have hre : read (es.map (·.cid)) j = .ok es[j].cid := by
          rw [read_lt _ _ hij.2, List.getElem_map]
        rcases skip_spec ms es[j].cid i (fun t => inter1 (ms.drop t) (es.drop j)) (by
            intro t ht _ ha
            rw [drop_cons hj, drop_cons ht, inter1, if_pos ha]) hi fuel (by omega) with
          ⟨hk, hF⟩ | ⟨i', hk, hii, ⟨hi', hx⟩, hF⟩
        · right
          refine ⟨Triple.of out, ?_, ?_⟩
          · simp only [intersectBody, if_pos hij, hre, Outcome.bind, hk]
          · rw [← h4, hF, List.drop_length, inter1, List.append_nil]
        · rcases skip_spec (es.map (·.cid)) ms[i'] j (fun t => inter1 (ms.drop i') (es.drop t)) (by
            intro t ht _ ha
            rw [List.getElem_map] at ha
            have ht' : t < es.length := by simpa using ht
            rw [drop_cons hi', drop_cons ht', inter1, if_neg (by omega), if_pos ha]) hij.2 fuel (by simp; omega) with
            ⟨hk2, hF2⟩ | ⟨j', hk2, hjj, ⟨hj', hy⟩, hF2⟩
          · right
            refine ⟨Triple.of out, ?_, ?_⟩
            · simp only [intersectBody, if_pos hij, hre, Outcome.bind, hk, read_lt ms i' hi', hk2]
            · rw [← h4, hF, hF2, List.length_map, List.drop_length, inter1_nil, List.append_nil]
          · left
            rw [List.length_map] at hj'
            rw [List.getElem_map] at hy
            obtain ⟨j2, out2, hl, hjj2, hj2, hout⟩ := copy_spec ms[i'] es hs (ms.drop (i' + 1)) j' out hj' hy fuel
              (by omega)
            refine ⟨(i' + 1, j2, Triple.of out2), ?_, ⟨by dsimp only; omega, by dsimp only; omega, out2, rfl, ?_⟩, ?_⟩
            · simp only [intersectBody, if_pos hij, hre, Outcome.bind, hk, read_lt ms i' hi', hk2, hl]
            · rw [← h4, hF, hF2, ← hout, ← drop_cons hi']
            · dsimp only; omega
      · right
        refine ⟨Triple.of out, by simp only [intersectBody, List.length_map, if_neg hij], ?_⟩
        rw [← h4]
        have : inter1 (ms.drop i) (es.drop j) = [] := by
          by_cases hi : i < ms.length
          · rw [List.drop_eq_nil_of_le (by omega : es.length ≤ j), inter1_nil]
          · rw [List.drop_eq_nil_of_le (by omega : ms.length ≤ i), inter1]
        rw [this, List.append_nil])
    fuel (0, 0, ⟨[], [], []⟩) ⟨by simp, by simp, [], rfl, by simp⟩ (by dsimp only; omega)
  rw [hr, hQ, inter1_eq ms es hm hs]

/-! ### `intersectTwoPostingLists` -/

/-- What the loops of `intersectTwoPostingLists` compute. -/
def inter2 : List (Nat × Nat) → List (Nat × Nat) → List (Nat × Nat)
  | [], _ => []
  | _ :: _, [] => []
  | a :: as, b :: bs =>
    if a.1 < b.1 then inter2 as (b :: bs)
    else if b.1 < a.1 then inter2 (a :: as) bs
    else (b.1, toScore (a.2 + b.2)) :: inter2 as bs
  termination_by a b => a.length + b.length

theorem inter2_nil (ms : List (Nat × Nat)) : inter2 ms [] = [] := by
  cases ms <;> simp [inter2]

/-- The scores of a context. -/
def scoresOf (l : List (Nat × Nat)) (c : Nat) : List Nat := (l.filter (·.1 = c)).map (·.2)

theorem scoresOf_cons (p : Nat × Nat) (l : List (Nat × Nat)) (c : Nat) :
    scoresOf (p :: l) c = if p.1 = c then p.2 :: scoresOf l c else scoresOf l c := by
  unfold scoresOf
  by_cases h : p.1 = c <;> simp [h]

theorem scoresOf_nil_of_lt (l : List (Nat × Nat)) (c : Nat) (h : ∀ p ∈ l, c < p.1) : scoresOf l c = [] := by
  unfold scoresOf
  rw [List.map_eq_nil_iff, List.filter_eq_nil_iff]
  intro p hp
  have := h p hp
  simp only [decide_eq_true_eq]
  omega

/-- For every context, the scores in the result are the sums of the scores in the lists, position by position. -/
theorem inter2_scores (l1 l2 : List (Nat × Nat)) (h1 : l1.Pairwise (·.1 ≤ ·.1)) (h2 : l2.Pairwise (·.1 ≤ ·.1)) (c : Nat) :
    scoresOf (inter2 l1 l2) c = List.zipWith (fun x y => toScore (x + y)) (scoresOf l1 c) (scoresOf l2 c) := by
  fun_induction inter2 l1 l2 with
  | case1 => simp [scoresOf]
  | case2 => simp [scoresOf]
  | case3 a as b bs h ih =>
    rw [ih h1.tail h2, scoresOf_cons a as]
    by_cases hc : a.1 = c
    · rw [scoresOf_nil_of_lt (b :: bs) c]
      · simp
      · intro p hp
        rcases List.mem_cons.1 hp with rfl | hp
        · omega
        · have := (List.pairwise_cons.1 h2).1 p hp
          omega
    · rw [if_neg hc]
  | case4 a as b bs h h' ih =>
    rw [ih h1 h2.tail, scoresOf_cons b bs]
    by_cases hc : b.1 = c
    · rw [scoresOf_nil_of_lt (a :: as) c]
      · simp
      · intro p hp
        rcases List.mem_cons.1 hp with rfl | hp
        · omega
        · have := (List.pairwise_cons.1 h1).1 p hp
          omega
    · rw [if_neg hc]
  | case5 a as b bs h h' ih =>
    have hab : a.1 = b.1 := by omega
    rw [scoresOf_cons, scoresOf_cons, scoresOf_cons, ih h1.tail h2.tail, hab]
    by_cases hc : b.1 = c
    · simp [hc]
    · simp [hc]

theorem inter2_mem (l1 l2 : List (Nat × Nat)) (p : Nat × Nat) (h : p ∈ inter2 l1 l2) :
    (∃ a ∈ l1, a.1 = p.1) ∧ ∃ b ∈ l2, b.1 = p.1 := by
  fun_induction inter2 l1 l2 with
  | case1 => simp at h
  | case2 => simp at h
  | case3 a as b bs hab ih =>
    obtain ⟨⟨q, hq, e⟩, r⟩ := ih h
    exact ⟨⟨q, List.mem_cons_of_mem _ hq, e⟩, r⟩
  | case4 a as b bs h1 h2 ih =>
    obtain ⟨r, ⟨q, hq, e⟩⟩ := ih h
    exact ⟨r, ⟨q, List.mem_cons_of_mem _ hq, e⟩⟩
  | case5 a as b bs h1 h2 ih =>
    rcases List.mem_cons.1 h with rfl | h
    · exact ⟨⟨a, List.mem_cons_self, by dsimp only; omega⟩, ⟨b, List.mem_cons_self, rfl⟩⟩
    · obtain ⟨⟨q, hq, e⟩, ⟨q2, hq2, e2⟩⟩ := ih h
      exact ⟨⟨q, List.mem_cons_of_mem _ hq, e⟩, ⟨q2, List.mem_cons_of_mem _ hq2, e2⟩⟩

theorem inter2_sorted (l1 l2 : List (Nat × Nat)) (h2 : l2.Pairwise (·.1 ≤ ·.1)) :
    (inter2 l1 l2).Pairwise (·.1 ≤ ·.1) := by
  fun_induction inter2 l1 l2 with
  | case1 => simp
  | case2 => simp
  | case3 a as b bs h ih => exact ih h2
  | case4 a as b bs h h' ih => exact ih h2.tail
  | case5 a as b bs h h' ih =>
    refine List.pairwise_cons.2 ⟨?_, ih h2.tail⟩
    intro p hp
    obtain ⟨_, q, hq, e⟩ := inter2_mem _ _ _ hp
    have := (List.pairwise_cons.1 h2).1 q hq
    dsimp only
    omega

theorem equal_spec (l1 l2 : List (Nat × Nat)) (i j : Nat) (out : List (Nat × Nat)) (hi : i < l1.length)
    (hj : j < l2.length) (heq : l1[i].1 = l2[j].1) (s1 : List Nat)
    (hs1 : ∀ (a : Nat) (h : a < l1.length), read s1 a = .ok l1[a].2) (fuel : Nat) (hf : l1.length < fuel) :
    ∃ i' j' out', loop fuel (equalBody (l1.map (·.1)) s1 (l2.map (·.1)) (l2.map (·.2)))
        (i, j, out.map (·.1), out.map (·.2)) = .ok (i', j', out'.map (·.1), out'.map (·.2)) ∧
      i < i' ∧ i' ≤ l1.length ∧ j' ≤ l2.length ∧ j < j' ∧
      out ++ inter2 (l1.drop i) (l2.drop j) = out' ++ inter2 (l1.drop i') (l2.drop j') := by
  have key : ∀ (i j : Nat) (hi : i < l1.length) (hj : j < l2.length), l1[i].1 = l2[j].1 →
      inter2 (l1.drop i) (l2.drop j) =
        (l2[j].1, toScore (l1[i].2 + l2[j].2)) :: inter2 (l1.drop (i + 1)) (l2.drop (j + 1)) := by
    intro i j hi hj he
    rw [drop_cons hi, drop_cons hj, inter2, if_neg (by omega), if_neg (by omega)]
  obtain ⟨r, hr, hQ⟩ := loop_spec (body := equalBody (l1.map (·.1)) s1 (l2.map (·.1)) (l2.map (·.2)))
    (fun s => i ≤ s.1 ∧ s.1 < l1.length ∧ s.2.1 < l2.length ∧ j ≤ s.2.1 ∧ (s.1 = i → s.2.1 = j) ∧ (i < s.1 → j < s.2.1) ∧
      ∃ out', s.2.2 = (out'.map (·.1), out'.map (·.2)) ∧
      out ++ inter2 (l1.drop i) (l2.drop j) = out' ++ inter2 (l1.drop s.1) (l2.drop s.2.1))
    (fun r => ∃ i' j' out', r = (i', j', out'.map (·.1), out'.map (·.2)) ∧
      i < i' ∧ i' ≤ l1.length ∧ j' ≤ l2.length ∧ j < j' ∧
      out ++ inter2 (l1.drop i) (l2.drop j) = out' ++ inter2 (l1.drop i') (l2.drop j'))
    (fun s => l1.length - s.1) (by
      rintro ⟨a, b, res⟩ ⟨h1, h2, h3, h4, h5, h5', out', h6, h7⟩
      dsimp only at h1 h2 h3 h4 h5 h5' h6 h7
      subst h6
      have ra : read (l1.map (·.1)) a = .ok l1[a].1 := by rw [read_lt _ _ (by simpa using h2), List.getElem_map]
      have rb : read (l2.map (·.1)) b = .ok l2[b].1 := by rw [read_lt _ _ (by simpa using h3), List.getElem_map]
      have sa : read s1 a = .ok l1[a].2 := hs1 a h2
      have sb : read (l2.map (·.2)) b = .ok l2[b].2 := by rw [read_lt _ _ (by simpa using h3), List.getElem_map]
      by_cases hx : l1[a].1 = l2[b].1
      · have hk := key a b h2 h3 hx
        have hout : out ++ inter2 (l1.drop i) (l2.drop j) = (out' ++ [(l2[b].1, toScore (l1[a].2 + l2[b].2))]) ++
            inter2 (l1.drop (a + 1)) (l2.drop (b + 1)) := by
          rw [h7, hk, List.append_assoc, List.singleton_append]
        by_cases he : a + 1 ≥ l1.length ∨ b + 1 ≥ l2.length
        · right
          refine ⟨_, ?_, a + 1, b + 1, out' ++ [(l2[b].1, toScore (l1[a].2 + l2[b].2))], rfl, by omega, by omega,
            by omega, by omega, hout⟩
          simp only [equalBody, ra, rb, sa, sb, Outcome.bind, if_pos hx, List.length_map, if_pos he, List.map_append,
            List.map_cons, List.map_nil]
        · left
          refine ⟨(a + 1, b + 1, (out' ++ [(l2[b].1, toScore (l1[a].2 + l2[b].2))]).map (·.1),
            (out' ++ [(l2[b].1, toScore (l1[a].2 + l2[b].2))]).map (·.2)), ?_, ⟨?_, ?_, ?_, ?_, ?_, ?_, _, rfl, hout⟩, ?_⟩
          · simp only [equalBody, ra, rb, sa, sb, Outcome.bind, if_pos hx, List.length_map, if_neg he, List.map_append,
              List.map_cons, List.map_nil]
          all_goals (dsimp only; omega)
      · right
        have : a ≠ i := by
          intro h
          have := h5 h
          subst h
          subst this
          omega
        refine ⟨_, ?_, a, b, out', rfl, by omega, by omega, by omega, by omega, h7⟩
        simp only [equalBody, ra, rb, Outcome.bind, if_neg hx])
    fuel (i, j, out.map (·.1), out.map (·.2)) ⟨Nat.le_refl _, hi, hj, Nat.le_refl _, fun _ => rfl, by simp, out, rfl, rfl⟩
    (by dsimp only; omega)
  obtain ⟨i', j', out', rfl, h⟩ := hQ
  exact ⟨i', j', out', hr, h⟩

theorem intersectTwo_spec (l1 l2 : List (Nat × Nat)) (hne : l1 ≠ [] ∧ l2 ≠ []) (s1 : List Nat)
    (hs1 : ∀ (a : Nat) (h : a < l1.length), read s1 a = .ok l1[a].2)
    (old : List Nat × List Nat) (fuel : Nat) (hf : l1.length + l2.length + 1 < fuel) :
    intersectTwo fuel (l1.map (·.1)) s1 (l2.map (·.1)) (l2.map (·.2)) old =
      .ok ((inter2 l1 l2).map (·.1), (inter2 l1 l2).map (·.2)) := by
  unfold intersectTwo
  rw [if_neg (by simp [hne])]
  obtain ⟨r, hr, hQ⟩ := loop_spec (body := intersectTwoBody fuel (l1.map (·.1)) s1 (l2.map (·.1)) (l2.map (·.2)))
    (fun s => s.1 ≤ l1.length ∧ s.2.1 ≤ l2.length ∧ ∃ out : List (Nat × Nat),
      s.2.2 = (out.map (·.1), out.map (·.2)) ∧ out ++ inter2 (l1.drop s.1) (l2.drop s.2.1) = inter2 l1 l2)
    (fun r => r = ((inter2 l1 l2).map (·.1), (inter2 l1 l2).map (·.2)))
    (fun s => (l1.length - s.1) + (l2.length - s.2.1)) (by
      rintro ⟨i, j, res⟩ ⟨h1, h2, out, h3, h4⟩
      dsimp only at h1 h2 h3 h4
      subst h3
      by_cases hij : i < l1.length ∧ j < l2.length
      · obtain ⟨hi, hj⟩ := hij
        have hij : i < (l1.map (·.1)).length ∧ j < (l2.map (·.1)).length := ⟨by simpa using hi, by simpa using hj⟩
        have hre : read (l2.map (·.1)) j = .ok l2[j].1 := by
          rw [read_lt _ _ hij.2, List.getElem_map]
        rcases skip_spec (l1.map (·.1)) l2[j].1 i (fun t => inter2 (l1.drop t) (l2.drop j)) (by
            intro t ht _ ha
            rw [List.getElem_map] at ha
            have ht' : t < l1.length := by simpa using ht
            rw [drop_cons hj, drop_cons ht', inter2, if_pos ha]) hij.1 fuel (by simp; omega) with
          ⟨hk, hF⟩ | ⟨i', hk, hii, ⟨hi', hx⟩, hF⟩
        · right
          refine ⟨(out.map (·.1), out.map (·.2)), ?_, ?_⟩
          · simp only [intersectTwoBody, if_pos hij, hre, Outcome.bind, hk]
          · rw [← h4, hF, List.length_map, List.drop_length, inter2, List.append_nil]
        · rw [List.length_map] at hi'
          rw [List.getElem_map] at hx
          have hra : read (l1.map (·.1)) i' = .ok l1[i'].1 := by
            rw [read_lt _ _ (by simpa using hi'), List.getElem_map]
          rcases skip_spec (l2.map (·.1)) l1[i'].1 j (fun t => inter2 (l1.drop i') (l2.drop t)) (by
            intro t ht _ ha
            rw [List.getElem_map] at ha
            have ht' : t < l2.length := by simpa using ht
            rw [drop_cons hi', drop_cons ht', inter2, if_neg (by omega), if_pos ha]) hij.2 fuel (by simp; omega) with
            ⟨hk2, hF2⟩ | ⟨j', hk2, hjj, ⟨hj', hy⟩, hF2⟩
          · right
            refine ⟨(out.map (·.1), out.map (·.2)), ?_, ?_⟩
            · simp only [intersectTwoBody, if_pos hij, hre, Outcome.bind, hk, hra, hk2]
            · rw [← h4, hF, hF2, List.length_map, List.drop_length, inter2_nil, List.append_nil]
          · left
            rw [List.length_map] at hj'
            rw [List.getElem_map] at hy
            by_cases heq : l1[i'].1 = l2[j'].1
            · obtain ⟨i2, j2, out2, hl, hi2, hi2', hj2, hj2', hout⟩ := equal_spec l1 l2 i' j' out hi' hj' heq s1 hs1 fuel
                (by omega)
              refine ⟨(i2, j2, out2.map (·.1), out2.map (·.2)), ?_, ⟨hi2', hj2, out2, rfl, ?_⟩, ?_⟩
              · simp only [intersectTwoBody, if_pos hij, hre, Outcome.bind, hk, hra, hk2, hl]
              · rw [← h4, hF, hF2, ← hout]
              · dsimp only; omega
            · have hrb : read (l2.map (·.1)) j' = .ok l2[j'].1 := by
                rw [read_lt _ _ (by simpa using hj'), List.getElem_map]
              refine ⟨(i', j', out.map (·.1), out.map (·.2)), ?_, ⟨by dsimp only; omega, by dsimp only; omega, out, rfl,
                ?_⟩, ?_⟩
              · obtain ⟨f, rfl⟩ : ∃ f, fuel = f + 1 := ⟨fuel - 1, by omega⟩
                simp only [intersectTwoBody, if_pos hij, hre, Outcome.bind, hk, hra, hk2, loop, equalBody, hrb, if_neg heq]
              · rw [← h4, hF, hF2]
              · dsimp only
                have : j' ≠ j := by
                  rintro rfl
                  omega
                omega
      · right
        refine ⟨(out.map (·.1), out.map (·.2)), by simp only [intersectTwoBody, List.length_map, if_neg hij], ?_⟩
        rw [← h4]
        have : inter2 (l1.drop i) (l2.drop j) = [] := by
          by_cases hi : i < l1.length
          · rw [List.drop_eq_nil_of_le (by omega : l2.length ≤ j), inter2_nil]
          · rw [List.drop_eq_nil_of_le (by omega : l1.length ≤ i), inter2]
        rw [this, List.append_nil])
    fuel (0, 0, [], []) ⟨by simp, by simp, [], rfl, by simp⟩ (by dsimp only; omega)
  rw [hr, hQ]

end Verif.FTS
