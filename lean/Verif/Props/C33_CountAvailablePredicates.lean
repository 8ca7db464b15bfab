import Verif.Props.C34_HasPredicateScan
import Verif.Lemmas.IndexMetaData
/-
C33: the counts of the available predicates.
-/
namespace Verif.Patterns
open Verif.PatternsSpec Verif.MetaData

variable {ix : Index} {ts : List Triple} {lo hi : Nat}

/-- The keys of a map are distinct and no count is 0. -/
def GoodMap (m : Map Nat) : Prop := (m.map Prod.fst).Nodup ∧ ∀ e ∈ m, 0 < e.2

/-- Weighted sum of the values. -/
def total (m : List (Nat × Nat)) (w : Nat → Nat) : Nat := (m.map fun e => w e.1 * e.2).sum

/-- The value of a key, 0 if there is none. -/
def value (m : Map Nat) (k : Nat) : Nat := (m.get k).getD 0

theorem value_addTo (m : Map Nat) (k n k' : Nat) : value (addTo m k n) k' = value m k' + if k = k' then n else 0 := by
  unfold value addTo
  rw [get_set]
  split
  · rename_i h; subst h; rfl
  · rfl

theorem goodMap_addTo {m : Map Nat} (h : GoodMap m) (k n : Nat) (hn : 0 < n) : GoodMap (addTo m k n) := by
  refine ⟨nodup_set h.1 _ _, fun e he => ?_⟩
  rcases mem_set he with rfl | he
  · simp only; omega
  · exact h.2 e he

theorem value_mem {m : Map Nat} (h : GoodMap m) (k n : Nat) : (k, n) ∈ m ↔ n = value m k ∧ 0 < n := by
  unfold value
  constructor
  · intro hm
    refine ⟨?_, h.2 _ hm⟩
    rw [(get_some_iff h.1 k n).mpr hm]; rfl
  · rintro ⟨h1, h2⟩
    cases hg : m.get k with
    | none => rw [hg] at h1; simp at h1; omega
    | some v =>
      rw [hg] at h1
      simp at h1
      rw [h1]
      exact (get_some_iff h.1 k v).mp hg

theorem total_remove {m : Map Nat} (hn : (m.map Prod.fst).Nodup) (k : Nat) (w : Nat → Nat) :
    total m w = total (m.filter fun e => e.1 != k) w + w k * value m k := by
  induction m with
  | nil => simp [total, value, Map.get]
  | cons e m ih =>
    have hn' : e.1 ∉ m.map Prod.fst ∧ (m.map Prod.fst).Nodup := List.nodup_cons.mp hn
    have ih := ih hn'.2
    by_cases h : e.1 = k
    · have h1 : m.filter (fun e => e.1 != k) = m := by
        refine List.filter_eq_self.mpr fun x hx => ?_
        simp only [bne_iff_ne]
        intro hxk
        exact hn'.1 (List.mem_map.mpr ⟨x, hx, hxk.trans h.symm⟩)
      have h2 : value (e :: m) k = e.2 := by
        unfold value Map.get; rw [List.find?_cons_of_pos (by simpa using h)]; rfl
      rw [List.filter_cons_of_neg (by simpa using h), h1, h2]
      simp only [total, List.map_cons, List.sum_cons, h]
      omega
    · have h2 : value (e :: m) k = value m k := by
        unfold value Map.get; rw [List.find?_cons_of_neg (by simpa using h)]
      rw [List.filter_cons_of_pos (by simpa using h), h2]
      simp only [total, List.map_cons, List.sum_cons] at ih ⊢
      omega

theorem total_addTo {m : Map Nat} (hn : (m.map Prod.fst).Nodup) (k n : Nat) (w : Nat → Nat) :
    total (addTo m k n) w = total m w + w k * n := by
  rw [total_remove hn k w]
  unfold addTo Map.set
  simp only [total, List.map_cons, List.sum_cons]
  rw [Nat.mul_add]
  simp only [value]
  omega

theorem countAll_spec (ps : List Nat) : ∀ m : Map Nat, GoodMap m →
    GoodMap (countAll m ps) ∧ ∀ p, value (countAll m ps) p = value m p + ps.count p := by
  induction ps with
  | nil => intro m h; exact ⟨h, fun p => rfl⟩
  | cons q ps ih =>
    intro m h
    obtain ⟨h1, h2⟩ := ih _ (goodMap_addTo h q 1 (by decide))
    refine ⟨h1, fun p => ?_⟩
    simp only [countAll]
    rw [h2, value_addTo, List.count_cons]
    by_cases hq : q = p
    · simp [hq]; omega
    · simp [hq]

/-- The predicates of a pattern. -/
def patternList (ix : Index) (i : Nat) : List Nat :=
  match CompactStringVector.get 8 8 ix.patterns i with
  | .ok l => l
  | _ => []

/-- The counters after some subjects: `n p` subjects with the predicate `p` were counted. -/
structure Counted (ix : Index) (c : Map Nat × Map Nat) (n : Nat → Nat) : Prop where
  good1 : GoodMap c.1
  good2 : GoodMap c.2
  pats : ∀ e ∈ c.2, CompactStringVector.get 8 8 ix.patterns e.1 = .ok (patternList ix e.1)
  val : ∀ p, value c.1 p + total c.2 (fun i => (patternList ix i).count p) = n p

theorem countSubject_spec {c : Map Nat × Map Nat} {n : Nat → Nat} (h : Counted ix c n) {s : Nat} {r : Option (List Nat)}
    (hr : predicatesOf ix s = .ok r) :
    ∃ c', countSubject ix c s = .ok c' ∧ Counted ix c' fun p => n p + (r.getD []).count p := by
  unfold predicatesOf at hr
  unfold countSubject
  split at hr
  · rename_i hc
    rw [if_pos hc]
    generalize (ix.hasPattern[s]?).getD NO_PATTERN = i at hr
    cases hg : CompactStringVector.get 8 8 ix.patterns i with
    | ok l =>
      rw [hg] at hr
      simp only [Outcome.map] at hr
      cases hr
      have hpl : patternList ix i = l := by unfold patternList; rw [hg]
      refine ⟨_, rfl, h.good1, goodMap_addTo h.good2 _ _ (by decide), ?_, fun p => ?_⟩
      · intro e he
        rcases mem_set he with rfl | he
        · rw [hpl]; exact hg
        · exact h.pats e he
      · simp only
        rw [total_addTo h.good2.1, hpl, ← h.val p, Option.getD_some]
        omega
    | throw => rw [hg] at hr; simp [Outcome.map] at hr
    | ub => rw [hg] at hr; simp [Outcome.map] at hr
    | diverge => rw [hg] at hr; simp [Outcome.map] at hr
  · rename_i hc
    rw [if_neg hc]
    split at hr
    · rename_i hc2
      rw [if_pos hc2]
      cases hg : CompactStringVector.get 8 8 ix.hasPredicate s with
      | ok l =>
        rw [hg] at hr
        simp only [Outcome.map] at hr
        cases hr
        obtain ⟨h1, h2⟩ := countAll_spec l c.1 h.good1
        refine ⟨_, rfl, h1, h.good2, h.pats, fun p => ?_⟩
        simp only
        rw [h2, ← h.val p, Option.getD_some]
        omega
      | throw => rw [hg] at hr; simp [Outcome.map] at hr
      | ub => rw [hg] at hr; simp [Outcome.map] at hr
      | diverge => rw [hg] at hr; simp [Outcome.map] at hr
    · rename_i hc2
      rw [if_neg hc2]
      cases hr
      exact ⟨c, rfl, by simpa using h⟩

/-- The subjects that are counted: the first of each run of equal subjects. -/
def visited (last : Nat) : List Nat → List Nat
  | [] => []
  | s :: ss => if s = last then visited last ss else s :: visited s ss

/-- How often `p` occurs for the subjects. -/
def occurrences (f : Nat → List Nat) (ss : List Nat) (p : Nat) : Nat := (ss.map fun s => (f s).count p).sum

theorem countInput_spec {f : Nat → Option (List Nat)} (hf : ∀ s, predicatesOf ix s = .ok (f s)) (ss : List Nat) :
    ∀ last c n, Counted ix c n → ∃ c', countInput ix last c ss = .ok c' ∧
      Counted ix c' fun p => n p + occurrences (fun s => (f s).getD []) (visited last ss) p := by
  induction ss with
  | nil => intro last c n h; exact ⟨c, rfl, by simpa [visited, occurrences] using h⟩
  | cons s ss ih =>
    intro last c n h
    simp only [countInput, visited]
    split
    · exact ih last c n h
    · obtain ⟨c1, h1, h2⟩ := countSubject_spec h (hf s)
      obtain ⟨c2, h3, h4⟩ := ih s c1 _ h2
      refine ⟨c2, by rw [h1]; exact h3, ?_⟩
      have : ∀ p, occurrences (fun s => (f s).getD []) (s :: visited s ss) p =
          ((f s).getD []).count p + occurrences (fun s => (f s).getD []) (visited s ss) p := fun p => by simp [occurrences]
      simpa only [this, Nat.add_assoc] using h4

theorem countRange_spec {f : Nat → Option (List Nat)} (hf : ∀ s, predicatesOf ix s = .ok (f s)) (k : Nat) :
    ∀ id c n, Counted ix c n → ∃ c', countRange ix k id c = .ok c' ∧
      Counted ix c' fun p => n p + occurrences (fun s => (f s).getD []) (List.range' id k) p := by
  induction k with
  | zero => intro id c n h; exact ⟨c, rfl, by simpa [occurrences] using h⟩
  | succ k ih =>
    intro id c n h
    obtain ⟨c1, h1, h2⟩ := countSubject_spec h (hf id)
    obtain ⟨c2, h3, h4⟩ := ih (id + 1) c1 _ h2
    refine ⟨c2, by simp only [countRange, h1, Outcome.bind]; exact h3, ?_⟩
    have : ∀ p, occurrences (fun s => (f s).getD []) (List.range' id (k + 1)) p =
        ((f id).getD []).count p + occurrences (fun s => (f s).getD []) (List.range' (id + 1) k) p := fun p => by
      simp [occurrences, List.range'_succ]
    simpa only [this, Nat.add_assoc] using h4

theorem foldl_addTo (ps : List Nat) (n : Nat) (hn : 0 < n) : ∀ m : Map Nat, GoodMap m →
    GoodMap (ps.foldl (fun m p => addTo m p n) m) ∧ ∀ p, value (ps.foldl (fun m p => addTo m p n) m) p = value m p + ps.count p * n := by
  induction ps with
  | nil => intro m h; exact ⟨h, fun p => by simp⟩
  | cons q ps ih =>
    intro m h
    obtain ⟨h1, h2⟩ := ih _ (goodMap_addTo h q n hn)
    refine ⟨h1, fun p => ?_⟩
    simp only [List.foldl_cons]
    rw [h2, value_addTo, List.count_cons]
    by_cases hq : q = p
    · simp [hq, Nat.add_mul]; omega
    · simp [hq]

theorem resolve_spec (order : List (Nat × Nat)) (hp : ∀ e ∈ order, CompactStringVector.get 8 8 ix.patterns e.1 = .ok (patternList ix e.1))
    (hpos : ∀ e ∈ order, 0 < e.2) : ∀ m : Map Nat, GoodMap m →
    ∃ r, resolve ix m order = .ok r ∧ GoodMap r ∧ ∀ p, value r p = value m p + total order fun i => (patternList ix i).count p := by
  induction order with
  | nil => intro m h; exact ⟨m, rfl, h, fun p => by simp [total]⟩
  | cons e es ih =>
    intro m h
    obtain ⟨h1, h2⟩ := foldl_addTo (patternList ix e.1) e.2 (hpos e (List.mem_cons_self ..)) m h
    obtain ⟨r, r1, r2, r3⟩ := ih (fun x hx => hp x (List.mem_cons_of_mem _ hx)) (fun x hx => hpos x (List.mem_cons_of_mem _ hx)) _ h1
    refine ⟨r, ?_, r2, fun p => ?_⟩
    · simp only [resolve, hp e (List.mem_cons_self ..), Outcome.bind]; exact r1
    · rw [r3, h2]
      simp only [total, List.map_cons, List.sum_cons]
      omega

theorem counts_final {c : Map Nat × Map Nat} {n : Nat → Nat} (h : Counted ix c n) :
    (∃ o, Counts ix (.ok c) o) ∧ ∀ o, Counts ix (.ok c) o →
      ∃ rows, o = .ok rows ∧ (rows.map Prod.fst).Nodup ∧ ∀ p k, (p, k) ∈ rows ↔ k = n p ∧ 0 < k := by
  have key : ∀ order : List (Nat × Nat), order.Perm c.2 → ∃ r, resolve ix c.1 order = .ok r ∧ GoodMap r ∧ ∀ p, value r p = n p := by
    intro order hp
    obtain ⟨r, r1, r2, r3⟩ := resolve_spec order (fun e he => h.pats e (hp.mem_iff.mp he)) (fun e he => h.good2.2 e (hp.mem_iff.mp he)) c.1 h.good1
    refine ⟨r, r1, r2, fun p => ?_⟩
    rw [r3, ← h.val p]
    congr 1
    exact List.Perm.sum_nat (hp.map _)
  constructor
  · obtain ⟨r, r1, _⟩ := key c.2 (.refl _)
    exact ⟨_, .ok rfl (.refl _) r1 (.refl _)⟩
  · intro o ho
    cases ho with
    | @ok m order r rows h1 h2 h3 h4 =>
      cases h1
      obtain ⟨r', r1, r2, r3⟩ := key order h2
      rw [h3] at r1
      cases r1
      refine ⟨rows, rfl, (h4.map Prod.fst).nodup_iff.mpr r2.1, fun p k => ?_⟩
      rw [h4.mem_iff, value_mem r2, r3]
    | @resolveUb m order h1 h2 h3 =>
      cases h1
      obtain ⟨r', r1, _⟩ := key order h2
      rw [h3] at r1
      cases r1
    | ub h1 => cases h1

theorem counted_init : Counted ix ([], []) fun _ => 0 :=
  ⟨⟨by simp, by simp⟩, ⟨by simp, by simp⟩, by simp, fun p => by simp [value, Map.get, total]⟩

theorem occurrences_eq {f : Nat → List Nat} (hf : ∀ s, PredicatesOf ts lo hi s (f s)) (ss : List Nat) (hss : ss.Nodup) (p : Nat)
    (D : List Nat) (hD : D.Nodup) (hD2 : ∀ s, s ∈ D ↔ s ∈ ss ∧ HasPredicate ts lo hi s p) : occurrences f ss p = D.length := by
  have h1 : occurrences f ss p = (ss.filter fun s => p ∈ f s).length := by
    unfold occurrences
    clear hD2 hss
    induction ss with
    | nil => rfl
    | cons s ss ih =>
      rw [List.map_cons, List.sum_cons, ih]
      by_cases hm : p ∈ f s
      · rw [List.filter_cons_of_pos (by simpa using hm), List.length_cons, List.count_eq_one_of_mem ((hf s).1.imp Nat.ne_of_lt) hm]
        omega
      · rw [List.filter_cons_of_neg (by simpa using hm), List.count_eq_zero_of_not_mem hm]
        omega
  rw [h1]
  refine (List.Perm.length_eq ((List.perm_ext_iff_of_nodup hD (hss.filter _)).mpr fun s => ?_)).symm
  rw [hD2, List.mem_filter, decide_eq_true_eq, (hf s).2]

/-- Equal elements are adjacent. -/
def Grouped (ss : List Nat) : Prop := ∀ a b c : List Nat, ∀ s, ss = a ++ s :: b ++ s :: c → ∀ x ∈ b, x = s

theorem grouped_of_sorted {ss : List Nat} (h : ss.Pairwise (· ≤ ·)) : Grouped ss := by
  rintro a b c s rfl x hx
  rw [List.append_assoc, List.pairwise_append] at h
  have h2 := List.pairwise_cons.mp h.2.1
  have h3 := (List.pairwise_append.mp h2.2).2.2 x hx s (by simp)
  have h4 := h2.1 x (by simp [hx])
  omega

theorem visited_mem {last : Nat} {ss : List Nat} : ∀ s, s ∈ visited last ss → s ∈ ss := by
  induction ss generalizing last with
  | nil => simp [visited]
  | cons a ss ih =>
    intro s hs
    simp only [visited] at hs
    split at hs
    · exact List.mem_cons_of_mem _ (ih s hs)
    · rcases List.mem_cons.mp hs with rfl | hs
      · exact List.mem_cons_self ..
      · exact List.mem_cons_of_mem _ (ih s hs)

theorem visited_spec (ss : List Nat) : ∀ last, Grouped (last :: ss) → (visited last ss).Nodup ∧ last ∉ visited last ss ∧
    ∀ s ∈ ss, s = last ∨ s ∈ visited last ss := by
  induction ss with
  | nil => intro last _; simp [visited]
  | cons a ss ih =>
    intro last h
    simp only [visited]
    split
    · rename_i ha
      subst ha
      obtain ⟨h1, h2, h3⟩ := ih a (by
        intro x b c s he y hy
        refine h (a :: x) b c s (by rw [he]; simp) y hy)
      refine ⟨h1, h2, fun s hs => ?_⟩
      rcases List.mem_cons.mp hs with rfl | hs
      · exact .inl rfl
      · exact h3 s hs
    · rename_i ha
      obtain ⟨h1, h2, h3⟩ := ih a (by
        intro x b c s he y hy
        refine h (last :: x) b c s (by rw [he]; simp) y hy)
      refine ⟨List.nodup_cons.mpr ⟨h2, h1⟩, ?_, fun s hs => ?_⟩
      · intro hm
        rcases List.mem_cons.mp hm with hm | hm
        · exact ha hm.symm
        · obtain ⟨b, c, hbc⟩ := List.append_of_mem (visited_mem _ hm)
          refine ha (h [] (a :: b) c last (by rw [hbc]; simp) a (by simp))
      · rcases List.mem_cons.mp hs with rfl | hs
        · exact .inr (List.mem_cons_self ..)
        · rcases h3 s hs with rfl | h4
          · exact .inr (List.mem_cons_self ..)
          · exact .inr (List.mem_cons_of_mem _ h4)

/-- C33, for a subquery (or a single subject) whose equal subjects are adjacent, as for the sorted input that the planner provides:
whatever the iteration order of the hash maps, each predicate is listed at most once, with the number of different subjects in the input
that have the predicate, and exactly the predicates with at least one subject are listed. -/
theorem C33_counts (h : Correct ix ts lo hi) (hno : ¬ Subject ts ID_NO_VALUE) (subjects : List Nat) (hg : Grouped subjects) :
    (∃ o, Trick ix subjects o) ∧ ∀ o, Trick ix subjects o →
      ∃ rows, o = .ok rows ∧ (rows.map Prod.fst).Nodup ∧
        ∀ p (D : List Nat), D.Nodup → (∀ s, s ∈ D ↔ s ∈ subjects ∧ HasPredicate ts lo hi s p) →
          ∀ n, (p, n) ∈ rows ↔ n = D.length ∧ 0 < n := by
  obtain ⟨f, hf⟩ := correct_fun h
  obtain ⟨c, h1, h2⟩ := countInput_spec (fun s => (hf s).1) subjects ID_NO_VALUE ([], []) _ (counted_init (ix := ix))
  obtain ⟨t1, t2⟩ := counts_final h2
  unfold Trick
  rw [h1]
  refine ⟨t1, fun o ho => ?_⟩
  obtain ⟨rows, r1, r2, r3⟩ := t2 o ho
  refine ⟨rows, r1, r2, fun p D hD hD2 n => ?_⟩
  rw [r3, Nat.zero_add]
  -- runs of `ID_NO_VALUE` are not counted, but it has no predicates
  have hkey : (visited ID_NO_VALUE subjects).Nodup ∧ ∀ s ∈ subjects, s = ID_NO_VALUE ∨ s ∈ visited ID_NO_VALUE subjects := by
    cases subjects with
    | nil => simp [visited]
    | cons a ss =>
      by_cases ha : a = ID_NO_VALUE
      · rw [ha] at hg ⊢
        obtain ⟨v1, _, v3⟩ := visited_spec ss ID_NO_VALUE hg
        simp only [visited, if_true]
        refine ⟨v1, fun s hs => ?_⟩
        rcases List.mem_cons.mp hs with hs | hs
        · exact .inl hs
        · exact v3 s hs
      · obtain ⟨v1, v2, v3⟩ := visited_spec ss a hg
        simp only [visited, if_neg ha]
        refine ⟨List.nodup_cons.mpr ⟨v2, v1⟩, fun s hs => ?_⟩
        rcases List.mem_cons.mp hs with rfl | hs
        · exact .inr (List.mem_cons_self ..)
        · rcases v3 s hs with rfl | h4
          · exact .inr (List.mem_cons_self ..)
          · exact .inr (List.mem_cons_of_mem _ h4)
  rw [occurrences_eq (fun s => (hf s).2) _ hkey.1 p D hD fun s => ?_]
  rw [hD2]
  constructor
  · rintro ⟨k1, k2⟩
    refine ⟨?_, k2⟩
    rcases hkey.2 s k1 with rfl | k3
    · obtain ⟨⟨x, hx⟩, _⟩ := k2
      exact absurd ⟨p, x, hx⟩ hno
    · exact k3
  · rintro ⟨k1, k2⟩
    exact ⟨visited_mem s k1, k2⟩

/-- C33, for all entities: each predicate is listed once, with the number of subjects that have it. -/
theorem C33_counts_all (h : Correct ix ts lo hi) :
    (∃ o, TrickAll ix o) ∧ ∀ o, TrickAll ix o →
      ∃ rows, o = .ok rows ∧ (rows.map Prod.fst).Nodup ∧
        ∀ p (D : List Nat), D.Nodup → (∀ s, s ∈ D ↔ HasPredicate ts lo hi s p) → ∀ n, (p, n) ∈ rows ↔ n = D.length ∧ 0 < n := by
  obtain ⟨f, hf⟩ := correct_fun h
  obtain ⟨c, h1, h2⟩ := countRange_spec (fun s => (hf s).1) (max ix.hasPattern.length ix.hasPredicate.size) 0 ([], []) _ (counted_init (ix := ix))
  obtain ⟨t1, t2⟩ := counts_final h2
  unfold TrickAll
  rw [h1]
  refine ⟨t1, fun o ho => ?_⟩
  obtain ⟨rows, r1, r2, r3⟩ := t2 o ho
  refine ⟨rows, r1, r2, fun p D hD hD2 n => ?_⟩
  rw [r3, Nat.zero_add]
  rw [occurrences_eq (fun s => (hf s).2) _ List.nodup_range' p D hD fun s => ?_]
  rw [hD2, List.mem_range'_1]
  constructor
  · exact fun k => ⟨⟨Nat.zero_le _, by simpa using correct_bound h k⟩, k⟩
  · exact fun k => k.2

/-! ### Examples -/

example : ∃ ix, Correct ix sample 9 10 ∧ ¬ Subject sample ID_NO_VALUE ∧ Grouped [0, 0, 1, 3, 3, 3, 17] := by
  obtain ⟨ix, h, _⟩ := sample_index
  refine ⟨ix, h, ?_, grouped_of_sorted (by decide)⟩
  rw [subject_iff]
  decide

/-- For the subjects 0, 0, 1 and 4 of `sample` the predicate 5 has the count 2, and 7 and 8 have the count 1. -/
example (ix : Index) (h : Correct ix sample 9 10) (o : Outcome (List (Nat × Nat))) (ho : Trick ix [0, 0, 1, 4] o) :
    ∃ rows, o = .ok rows ∧ (5, 2) ∈ rows ∧ (7, 1) ∈ rows ∧ ∀ n, (6, n) ∉ rows := by
  obtain ⟨rows, h1, _, h3⟩ := (C33_counts h (by rw [subject_iff]; decide) [0, 0, 1, 4] (grouped_of_sorted (by decide))).2 o ho
  have hp : ∀ s p, HasPredicate sample 9 10 s p ↔ (∃ x ∈ sample, x.1 = s ∧ x.2.1 = p) ∧ (p < 9 ∨ 10 ≤ p) := by
    intro s p
    constructor
    · rintro ⟨⟨x, hx⟩, h⟩; exact ⟨⟨_, hx, rfl, rfl⟩, h⟩
    · rintro ⟨⟨x, hx, rfl, rfl⟩, h⟩; exact ⟨⟨_, hx⟩, h⟩
  refine ⟨rows, h1, (h3 5 [0, 1] (by decide) ?_ 2).mpr (by decide), (h3 7 [4] (by decide) ?_ 1).mpr (by decide), fun n hn => ?_⟩
  · intro s
    rw [hp]
    simp [sample]
    omega
  · intro s
    rw [hp]
    simp [sample]
    omega
  · have := (h3 6 [] (by decide) (by
      intro s
      rw [hp]
      simp [sample]
      omega) n).mp hn
    simp at this
    omega

end Verif.Patterns
