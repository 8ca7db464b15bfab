import Verif.Lemmas.PatternSelect
import Verif.Lemmas.CompactStringVector
import Verif.Spec.Patterns
/-
The subjects with their patterns, the counts, and the second loop.
-/
namespace Verif.Patterns
open Verif.PatternsSpec

/-- The subjects with their patterns. -/
def groups (lo hi : Nat) (cur : Nat) (pattern : Pattern) : List Triple → List (Nat × Pattern)
  | [] => [(cur, pattern)]
  | t :: ts =>
    if t.1 ≠ cur then (cur, pattern) :: groups lo hi t.1 (extend lo hi [] t.2.1) ts
    else groups lo hi cur (extend lo hi pattern t.2.1) ts

theorem countPatterns_eq (lo hi : Nat) (ts : List Triple) : ∀ cur pattern counts,
    countPatterns lo hi cur pattern counts ts = (groups lo hi cur pattern ts).foldl (fun c g => bump c g.2) counts := by
  induction ts with
  | nil => intro cur pattern counts; rfl
  | cons t ts ih =>
    intro cur pattern counts
    simp only [countPatterns, groups]
    split
    · rw [ih]; rfl
    · rw [ih]

theorem assignPatterns_eq (lo hi : Nat) (sel : List PC) (ts : List Triple) : ∀ cur pattern st,
    assignPatterns lo hi sel cur pattern st ts = (groups lo hi cur pattern ts).foldl (fun st g => endSubject sel st g.1 g.2) st := by
  induction ts with
  | nil => intro cur pattern counts; rfl
  | cons t ts ih =>
    intro cur pattern counts
    simp only [assignPatterns, groups]
    split
    · rw [ih]; rfl
    · rw [ih]

theorem predicatesOf_extend {lo hi cur : Nat} {ds : List Triple} {pattern : Pattern} {t : Triple} (hd : ∀ d ∈ ds, d.1 = cur ∧ d.2.1 ≤ t.2.1)
    (ht : t.1 = cur) (h : PredicatesOf ds lo hi cur pattern) : PredicatesOf (ds ++ [t]) lo hi cur (extend lo hi pattern t.2.1) := by
  obtain ⟨h1, h2⟩ := h
  have hle : ∀ x ∈ pattern, x ≤ t.2.1 := by
    intro x hx
    obtain ⟨⟨o, ho⟩, _⟩ := (h2 x).mp hx
    exact (hd _ ho).2
  have hmem : ∀ p, (∃ o, (cur, p, o) ∈ ds ++ [t]) ↔ (∃ o, (cur, p, o) ∈ ds) ∨ p = t.2.1 := by
    intro p
    constructor
    · rintro ⟨o, ho⟩
      rcases List.mem_append.mp ho with ho | ho
      · exact .inl ⟨o, ho⟩
      · simp at ho; rw [← ho]; exact .inr rfl
    · rintro (⟨o, ho⟩ | rfl)
      · exact ⟨o, List.mem_append_left _ ho⟩
      · exact ⟨t.2.2, List.mem_append_right _ (by rw [← ht]; simp)⟩
  have hin : t.2.1 ∈ pattern → pattern.getLast? = some t.2.1 := by
    intro hm
    cases hl : pattern.getLast? with
    | none => rw [List.getLast?_eq_none_iff] at hl; rw [hl] at hm; simp at hm
    | some x =>
      obtain ⟨ys, rfl⟩ := List.getLast?_eq_some_iff.mp hl
      rcases List.mem_append.mp hm with hm | hm
      · have := (List.pairwise_append.mp h1).2.2 _ hm x (by simp)
        have := hle x (by simp)
        omega
      · simp at hm; rw [hm]
  unfold extend
  split
  · rename_i hc
    have hnot : t.2.1 ∉ pattern := by
      intro hm
      rcases hc with rfl | hc
      · simp at hm
      · exact hc (hin hm)
    split
    · rename_i hl
      refine ⟨List.pairwise_append.mpr ⟨h1, by simp, ?_⟩, fun p => ?_⟩
      · intro a ha b hb
        simp at hb
        have := hle a ha
        have : a ≠ t.2.1 := fun h => hnot (h ▸ ha)
        omega
      · rw [HasPredicate, hmem, List.mem_append, h2, HasPredicate]
        simp only [List.mem_singleton]
        constructor
        · rintro (⟨h3, h4⟩ | rfl)
          · exact ⟨.inl h3, h4⟩
          · exact ⟨.inr rfl, hl⟩
        · rintro ⟨h3 | h3, h4⟩
          · exact .inl ⟨h3, h4⟩
          · exact .inr h3
    · rename_i hl
      refine ⟨h1, fun p => ?_⟩
      rw [HasPredicate, hmem, h2, HasPredicate]
      constructor
      · rintro ⟨h3, h4⟩; exact ⟨.inl h3, h4⟩
      · rintro ⟨h3 | rfl, h4⟩
        · exact ⟨h3, h4⟩
        · exact absurd h4 hl
  · rename_i hc
    have hl : pattern.getLast? = some t.2.1 := by
      by_cases h : pattern.getLast? = some t.2.1
      · exact h
      · exact absurd (.inr h) hc
    have hm : t.2.1 ∈ pattern := List.mem_of_getLast? hl
    refine ⟨h1, fun p => ?_⟩
    rw [HasPredicate, hmem, h2, HasPredicate]
    constructor
    · rintro ⟨h3, h4⟩; exact ⟨.inl h3, h4⟩
    · rintro ⟨h3 | rfl, h4⟩
      · exact ⟨h3, h4⟩
      · exact (h2 _).mp hm

theorem predicatesOf_more {lo hi s : Nat} {ds ts : List Triple} {l : List Nat} (h : PredicatesOf ds lo hi s l) (hn : ∀ t ∈ ts, t.1 ≠ s) :
    PredicatesOf (ds ++ ts) lo hi s l ∧ PredicatesOf (ts ++ ds) lo hi s l := by
  have key : ∀ p, (∃ o, (s, p, o) ∈ ds ++ ts) ↔ ∃ o, (s, p, o) ∈ ds := by
    intro p
    constructor
    · rintro ⟨o, ho⟩
      rcases List.mem_append.mp ho with ho | ho
      · exact ⟨o, ho⟩
      · exact absurd rfl (hn _ ho)
    · rintro ⟨o, ho⟩; exact ⟨o, List.mem_append_left _ ho⟩
  have key2 : ∀ p, (∃ o, (s, p, o) ∈ ts ++ ds) ↔ ∃ o, (s, p, o) ∈ ds := by
    intro p; rw [← key]; simp [or_comm]
  exact ⟨⟨h.1, fun p => by rw [h.2, HasPredicate, HasPredicate, key]⟩, ⟨h.1, fun p => by rw [h.2, HasPredicate, HasPredicate, key2]⟩⟩

/-- Specification of `groups`; `ds` are the triples of the current subject seen so far. -/
theorem groups_spec (lo hi : Nat) (ts : List Triple) : ∀ cur pattern (ds : List Triple), SortedBySP (ds ++ ts) → (∀ d ∈ ds, d.1 = cur) →
    (∀ t ∈ ts, cur ≤ t.1) → PredicatesOf ds lo hi cur pattern →
    ((groups lo hi cur pattern ts).map Prod.fst).Pairwise (· < ·) ∧
    (∀ g ∈ groups lo hi cur pattern ts, cur ≤ g.1) ∧
    (∀ g ∈ groups lo hi cur pattern ts, PredicatesOf (ds ++ ts) lo hi g.1 g.2) ∧
    ∀ s, s ∈ (groups lo hi cur pattern ts).map Prod.fst ↔ s = cur ∨ ∃ t ∈ ts, t.1 = s := by
  induction ts with
  | nil =>
    intro cur pattern ds _ _ _ h
    simp [groups, h]
  | cons t ts ih =>
    intro cur pattern ds hs hd hc h
    have hs' := List.pairwise_append.mp hs
    have hs2 := List.pairwise_cons.mp hs'.2.1
    simp only [groups]
    split
    · rename_i hne
      have hlt : cur < t.1 := by
        have := hc t (List.mem_cons_self ..)
        omega
      have hlt' : ∀ x ∈ t :: ts, cur < x.1 := by
        intro x hx
        rcases List.mem_cons.mp hx with rfl | hx
        · exact hlt
        · have := hs2.1 x hx; omega
      have he : PredicatesOf ([] ++ [t]) lo hi t.1 (extend lo hi [] t.2.1) :=
        predicatesOf_extend (by simp) rfl ⟨List.Pairwise.nil, by simp [HasPredicate]⟩
      obtain ⟨i1, i2, i3, i4⟩ := ih t.1 (extend lo hi [] t.2.1) [t] hs'.2.1 (by simp)
        (fun x hx => by have := hs2.1 x hx; omega) he
      refine ⟨?_, ?_, ?_, ?_⟩
      · rw [List.map_cons, List.pairwise_cons]
        refine ⟨fun x hx => ?_, i1⟩
        obtain ⟨g, hg, rfl⟩ := List.mem_map.mp hx
        have := i2 g hg
        simp only
        omega
      · intro g hg
        rcases List.mem_cons.mp hg with rfl | hg
        · exact Nat.le_refl _
        · have := i2 g hg; omega
      · intro g hg
        rcases List.mem_cons.mp hg with rfl | hg
        · exact (predicatesOf_more h fun x hx => by have := hlt' x hx; omega).1
        · have hg2 := i2 g hg
          exact (predicatesOf_more (i3 g hg) fun x hx => by have := hd x hx; omega).2
      · intro s
        rw [List.map_cons, List.mem_cons, i4]
        simp only [List.mem_cons]
        constructor
        · rintro (h | h | ⟨x, hx, rfl⟩)
          · exact .inl h
          · exact .inr ⟨t, .inl rfl, h.symm⟩
          · exact .inr ⟨x, .inr hx, rfl⟩
        · rintro (h | ⟨x, rfl | hx, rfl⟩)
          · exact .inl h
          · exact .inr (.inl rfl)
          · exact .inr (.inr ⟨x, hx, rfl⟩)
    · rename_i hne
      have heq : t.1 = cur := by omega
      have he : PredicatesOf (ds ++ [t]) lo hi cur (extend lo hi pattern t.2.1) := by
        refine predicatesOf_extend (fun d hd' => ⟨hd d hd', ?_⟩) heq h
        have := hs'.2.2 d hd' t (List.mem_cons_self ..)
        have := hd d hd'
        omega
      have hap : ds ++ t :: ts = ds ++ [t] ++ ts := by simp
      obtain ⟨i1, i2, i3, i4⟩ := ih cur (extend lo hi pattern t.2.1) (ds ++ [t]) (by rw [← hap]; exact hs)
        (fun d hd' => by
          rcases List.mem_append.mp hd' with h | h
          · exact hd d h
          · simp at h; rw [h]; exact heq) (fun x hx => hc x (List.mem_cons_of_mem _ hx)) he
      refine ⟨i1, i2, by rw [hap]; exact i3, ?_⟩
      intro s
      rw [i4]
      simp only [List.mem_cons]
      constructor
      · rintro (h | ⟨x, hx, rfl⟩)
        · exact .inl h
        · exact .inr ⟨x, .inr hx, rfl⟩
      · rintro (h | ⟨x, rfl | hx, rfl⟩)
        · exact .inl h
        · exact .inl heq
        · exact .inr ⟨x, hx, rfl⟩

/-- The subjects and patterns of a sorted list of triples. -/
theorem groups_init (lo hi : Nat) (t : Triple) (ts : List Triple) (hs : SortedBySP (t :: ts)) :
    ((groups lo hi t.1 [] (t :: ts)).map Prod.fst).Pairwise (· < ·) ∧
    (∀ g ∈ groups lo hi t.1 [] (t :: ts), PredicatesOf (t :: ts) lo hi g.1 g.2) ∧
    ∀ s, s ∈ (groups lo hi t.1 [] (t :: ts)).map Prod.fst ↔ ∃ x ∈ t :: ts, x.1 = s := by
  obtain ⟨i1, _, i3, i4⟩ := groups_spec lo hi (t :: ts) t.1 [] [] hs (by simp)
    (fun x hx => by
      rcases List.mem_cons.mp hx with rfl | hx
      · exact Nat.le_refl _
      · have := (List.pairwise_cons.mp hs).1 x hx; omega) ⟨List.Pairwise.nil, by simp [HasPredicate]⟩
  refine ⟨i1, i3, fun s => ?_⟩
  rw [i4]
  constructor
  · rintro (rfl | h)
    · exact ⟨t, List.mem_cons_self .., rfl⟩
    · exact h
  · exact .inr

theorem predicatesOf_unique {ts : List Triple} {lo hi s : Nat} {l l' : List Nat} (h : PredicatesOf ts lo hi s l)
    (h' : PredicatesOf ts lo hi s l') : l = l' := by
  have hp : l.Perm l' := (List.perm_ext_iff_of_nodup (h.1.imp Nat.ne_of_lt) (h'.1.imp Nat.ne_of_lt)).mpr fun p => by rw [h.2, h'.2]
  exact List.Perm.eq_of_pairwise (fun a b _ _ h1 h2 => absurd h1 (Nat.lt_asymm h2)) h.1 h'.1 hp

/-! ### The counts -/

theorem bump_keys (m : List PC) (p : Pattern) : (bump m p).map Prod.fst = if p ∈ m.map Prod.fst then m.map Prod.fst else m.map Prod.fst ++ [p] := by
  induction m with
  | nil => rfl
  | cons e m ih =>
    simp only [bump]
    by_cases h : e.1 = p
    · simp [h]
    · rw [if_neg h, List.map_cons, ih]
      simp only [List.map_cons, List.mem_cons, Ne.symm h, false_or]
      split <;> simp

theorem bump_count (m : List PC) (p q : Pattern) (hk : Keys m) (n : Nat) : (q, n) ∈ bump m p ↔
    (q ≠ p ∧ (q, n) ∈ m) ∨ (q = p ∧ ((∃ k, (p, k) ∈ m ∧ n = k + 1) ∨ (p ∉ m.map Prod.fst ∧ n = 1))) := by
  induction m with
  | nil => simp [bump]
  | cons e m ih =>
    have hk' : e.1 ∉ m.map Prod.fst ∧ (m.map Prod.fst).Nodup := List.nodup_cons.mp hk
    simp only [bump]
    by_cases h : e.1 = p
    · rw [if_pos h]
      by_cases hq : q = p
      · subst hq
        have hno : ∀ k, (q, k) ∉ m := fun k hk2 => hk'.1 (h ▸ List.mem_map_of_mem (f := Prod.fst) hk2)
        obtain ⟨e1, e2⟩ := e
        simp only at h
        subst h
        simp [hno]
      · obtain ⟨e1, e2⟩ := e
        simp only at h
        subst h
        simp [hq]
    · rw [if_neg h, List.mem_cons, ih hk'.2]
      by_cases hq : q = p
      · subst hq
        have : (q, n) ≠ e := fun h2 => h (by rw [← h2])
        have h3 : ∀ k, (q, k) ≠ e := fun k h2 => h (by rw [← h2])
        simp [this, h3, Ne.symm h]
      · simp [hq]

/-- The counts are the numbers of subjects with each pattern. -/
theorem counts_spec (gs : List (Nat × Pattern)) : ∀ (done : List Pattern) (m : List PC), Keys m →
    (∀ q n, (q, n) ∈ m ↔ n = done.count q ∧ 0 < n) →
    Keys (gs.foldl (fun c g => bump c g.2) m) ∧
    ∀ q n, (q, n) ∈ gs.foldl (fun c g => bump c g.2) m ↔ n = (done ++ gs.map Prod.snd).count q ∧ 0 < n := by
  induction gs with
  | nil => intro done m hk h; exact ⟨hk, by simpa using h⟩
  | cons g gs ih =>
    intro done m hk h
    have hmem : ∀ q, q ∈ m.map Prod.fst ↔ 0 < done.count q := by
      intro q
      constructor
      · intro hq
        obtain ⟨e, he, rfl⟩ := List.mem_map.mp hq
        have := (h e.1 e.2).mp he
        omega
      · intro hq
        exact List.mem_map.mpr ⟨(q, done.count q), (h q _).mpr ⟨rfl, hq⟩, rfl⟩
    have := ih (done ++ [g.2]) (bump m g.2) (by
        unfold Keys
        rw [bump_keys]
        split
        · exact hk
        · rename_i hn
          rw [List.nodup_append]
          exact ⟨hk, by simp, by intro a ha b hb h; simp at hb; rw [h, hb] at ha; exact hn ha⟩) (by
        intro q n
        rw [bump_count m g.2 q hk n, List.count_append, List.count_singleton, hmem]
        simp only [h]
        by_cases hq : q = g.2
        · subst hq
          simp only [ne_eq, not_true_eq_false, false_and, false_or, true_and, beq_self_eq_true, if_true]
          constructor
          · rintro (⟨k, ⟨rfl, h1⟩, rfl⟩ | ⟨h1, rfl⟩) <;> omega
          · rintro ⟨rfl, _⟩
            by_cases h0 : 0 < done.count g.2
            · exact .inl ⟨_, ⟨rfl, h0⟩, rfl⟩
            · exact .inr ⟨h0, by omega⟩
        · have : ¬ (g.2 == q) = true := by simp; exact fun h => hq h.symm
          simp [hq, this])
    simpa using this

end Verif.Patterns
