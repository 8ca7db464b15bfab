import Verif.Lemmas.Patterns
import Mathlib.Data.List.TakeWhile
/-
The second loop and the lookup vectors.
-/
namespace Verif.Patterns
open Verif.PatternsSpec Verif.Bytes

theorem addPredicates_spec (ps : List Nat) : ∀ set : List Nat, set.Nodup →
    (addPredicates set ps).Nodup ∧ ∀ p, p ∈ addPredicates set ps ↔ p ∈ set ∨ p ∈ ps := by
  induction ps with
  | nil => intro set h; simp [addPredicates, h]
  | cons p ps ih =>
    intro set h
    simp only [addPredicates]
    split
    · rename_i hm
      obtain ⟨h1, h2⟩ := ih set h
      refine ⟨h1, fun q => ?_⟩
      rw [h2, List.mem_cons]
      constructor
      · rintro (h | h)
        · exact .inl h
        · exact .inr (.inr h)
      · rintro (h | rfl | h)
        · exact .inl h
        · exact .inl hm
        · exact .inr h
    · rename_i hm
      obtain ⟨h1, h2⟩ := ih (set ++ [p]) (by
        rw [List.nodup_append]
        exact ⟨h, by simp, by intro a ha b hb hab; simp at hb; rw [hab, hb] at ha; exact hm ha⟩)
      refine ⟨h1, fun q => ?_⟩
      rw [h2]
      simp only [List.mem_append, List.mem_cons, List.not_mem_nil, or_false, or_assoc]

theorem findPattern_some {sel : List PC} {p : Pattern} {i : Nat} (h : findPattern sel p = some i) :
    ∃ h : i < sel.length, sel[i].1 = p := by
  unfold findPattern at h
  obtain ⟨h1, h2⟩ := List.findIdx?_eq_some_iff_getElem.mp h
  exact ⟨by simpa using h1, by simpa using h2.1⟩

theorem findPattern_none {sel : List PC} {p : Pattern} : findPattern sel p = none ↔ p ∉ sel.map Prod.fst := by
  unfold findPattern
  exact List.idxOf?_eq_none_iff

/-- The entries of `hasPattern`. -/
def patternEntries (sel : List PC) (gs : List (Nat × Pattern)) : List (Nat × Nat) :=
  gs.filterMap fun g => (findPattern sel g.2).map fun i => (g.1, i)

/-- The entries of `hasPredicate`. -/
def predicateEntries (sel : List PC) (gs : List (Nat × Pattern)) : List (Nat × Nat) :=
  gs.flatMap fun g => if (findPattern sel g.2).isNone then g.2.map fun p => (g.1, p) else []

theorem second_spec (sel : List PC) (gs : List (Nat × Pattern)) : ∀ (done : List (Nat × Pattern)) (st : Second),
    st.predicates.Nodup → (∀ p, p ∈ st.predicates ↔ ∃ g ∈ done, p ∈ g.2) →
    (∀ i ∈ st.counted, ∃ g ∈ done, findPattern sel g.2 = some i) →
    let st' := gs.foldl (fun st g => endSubject sel st g.1 g.2) st
    st'.hasPattern = st.hasPattern ++ patternEntries sel gs ∧
    st'.hasPredicate = st.hasPredicate ++ predicateEntries sel gs ∧
    st'.fullSize = st.fullSize + (gs.map fun g => g.2.length).sum ∧
    st'.entities = st.entities + gs.length ∧
    st'.predicates.Nodup ∧ ∀ p, p ∈ st'.predicates ↔ ∃ g ∈ done ++ gs, p ∈ g.2 := by
  induction gs with
  | nil => intro done st h1 h2 _; simp [patternEntries, predicateEntries, h1, h2]
  | cons g gs ih =>
    intro done st h1 h2 h3
    simp only [List.foldl_cons]
    have hstep : let st1 := endSubject sel st g.1 g.2
        st1.hasPattern = st.hasPattern ++ patternEntries sel [g] ∧ st1.hasPredicate = st.hasPredicate ++ predicateEntries sel [g] ∧
        st1.fullSize = st.fullSize + g.2.length ∧ st1.entities = st.entities + 1 ∧ st1.predicates.Nodup ∧
        (∀ p, p ∈ st1.predicates ↔ ∃ x ∈ done ++ [g], p ∈ x.2) ∧ ∀ i ∈ st1.counted, ∃ x ∈ done ++ [g], findPattern sel x.2 = some i := by
      have hall := addPredicates_spec g.2 st.predicates h1
      have hdone : ∀ p, p ∈ addPredicates st.predicates g.2 ↔ ∃ x ∈ done ++ [g], p ∈ x.2 := by
        intro p
        rw [hall.2, h2]
        simp only [List.mem_append, List.mem_singleton]
        constructor
        · rintro (⟨x, hx, hp⟩ | hp)
          · exact ⟨x, .inl hx, hp⟩
          · exact ⟨g, .inr rfl, hp⟩
        · rintro ⟨x, hx | rfl, hp⟩
          · exact .inl ⟨x, hx, hp⟩
          · exact .inr hp
      cases hf : findPattern sel g.2 with
      | none =>
        simp only [endSubject, hf]
        refine ⟨by simp [patternEntries, hf], by simp [predicateEntries, hf], trivial, trivial, hall.1, hdone, ?_⟩
        intro i hi
        obtain ⟨x, hx, h⟩ := h3 i hi
        exact ⟨x, List.mem_append_left _ hx, h⟩
      | some i =>
        simp only [endSubject, hf]
        by_cases hi : i ∈ st.counted
        · simp only [hi, if_true]
          refine ⟨by simp [patternEntries, hf], by simp [predicateEntries, hf], trivial, trivial, h1, ?_, ?_⟩
          · intro p
            obtain ⟨x, hx, h⟩ := h3 i hi
            have hxg : x.2 = g.2 := by
              obtain ⟨_, e1⟩ := findPattern_some h
              obtain ⟨_, e2⟩ := findPattern_some hf
              rw [← e1, ← e2]
            rw [h2]
            simp only [List.mem_append, List.mem_singleton]
            constructor
            · rintro ⟨y, hy, hp⟩; exact ⟨y, .inl hy, hp⟩
            · rintro ⟨y, hy | rfl, hp⟩
              · exact ⟨y, hy, hp⟩
              · exact ⟨x, hx, hxg ▸ hp⟩
          · intro j hj
            obtain ⟨x, hx, h⟩ := h3 j hj
            exact ⟨x, List.mem_append_left _ hx, h⟩
        · simp only [hi, if_false]
          refine ⟨by simp [patternEntries, hf], by simp [predicateEntries, hf], trivial, trivial, hall.1, hdone, ?_⟩
          intro j hj
          rcases List.mem_cons.mp hj with rfl | hj
          · exact ⟨g, by simp, hf⟩
          · obtain ⟨x, hx, h⟩ := h3 j hj
            exact ⟨x, List.mem_append_left _ hx, h⟩
    obtain ⟨s1, s2, s3, s4, s5, s6, s7⟩ := hstep
    obtain ⟨r1, r2, r3, r4, r5, r6⟩ := ih (done ++ [g]) _ s5 s6 s7
    refine ⟨?_, ?_, ?_, ?_, r5, by simpa using r6⟩
    · rw [r1, s1]; simp only [patternEntries, List.append_assoc, ← List.filterMap_append]; rfl
    · rw [r2, s2]; simp only [predicateEntries, List.append_assoc, ← List.flatMap_append]; rfl
    · rw [r3, s3]; simp only [List.map_cons, List.sum_cons]; omega
    · rw [r4, s4]; simp only [List.length_cons]; omega

/-! ### `hasPattern` -/

theorem fillGap_spec (n : Nat) : ∀ (v : List Nat) (pos : Nat), pos + n ≤ v.length →
    ∃ v', fillGap n v pos = .ok (v', pos + n) ∧ v'.length = v.length ∧
      ∀ j, v'[j]? = if pos ≤ j ∧ j < pos + n then some NO_PATTERN else v[j]? := by
  induction n with
  | zero =>
    intro v pos _
    refine ⟨v, rfl, rfl, fun j => ?_⟩
    rw [if_neg (by omega)]
  | succ n ih =>
    intro v pos h
    obtain ⟨v', h1, h2, h3⟩ := ih (v.set pos NO_PATTERN) (pos + 1) (by simp; omega)
    refine ⟨v', ?_, by simpa using h2, fun j => ?_⟩
    · simp only [fillGap, writeAt, if_pos (show pos < v.length by omega), Outcome.bind, h1]
      congr 2; omega
    · rw [h3, List.getElem?_set]
      by_cases hj : pos = j
      · subst hj
        rw [if_neg (by omega), if_pos rfl, if_pos (by omega), if_pos (by omega)]
      · rw [if_neg hj]
        by_cases hc : pos + 1 ≤ j ∧ j < pos + 1 + n
        · rw [if_pos hc, if_pos (by omega)]
        · rw [if_neg hc, if_neg (by omega)]

theorem fillPatterns_spec (es : List (Nat × Nat)) : ∀ (v : List Nat) (pos : Nat), (es.map Prod.fst).Pairwise (· < ·) →
    (∀ e ∈ es, pos ≤ e.1 ∧ e.1 < v.length) →
    ∃ v', fillPatterns v pos es = .ok v' ∧ v'.length = v.length ∧ (∀ j < pos, v'[j]? = v[j]?) ∧
      (∀ e ∈ es, v'[e.1]? = some (e.2 % 2 ^ 32)) ∧
      ∀ j, pos ≤ j → (∀ e ∈ es, e.1 ≠ j) → (∃ e ∈ es, j < e.1) → v'[j]? = some NO_PATTERN := by
  induction es with
  | nil => intro v pos _ _; exact ⟨v, rfl, rfl, fun _ _ => rfl, by simp, by simp⟩
  | cons e es ih =>
    intro v pos hs hb
    rw [List.map_cons, List.pairwise_cons] at hs
    obtain ⟨hb1, hb2⟩ := hb e (List.mem_cons_self ..)
    obtain ⟨v1, g1, g2, g3⟩ := fillGap_spec (e.1 - pos) v pos (by omega)
    have hpos : pos + (e.1 - pos) = e.1 := by omega
    rw [hpos] at g1 g3
    have hgt : ∀ x ∈ es, e.1 < x.1 := fun x hx => hs.1 _ (List.mem_map_of_mem hx)
    obtain ⟨v', h1, h2, h3, h4, h5⟩ := ih (v1.set e.1 (e.2 % 2 ^ 32)) (e.1 + 1) hs.2 (by
      intro x hx
      have := hgt x hx
      have := hb x (List.mem_cons_of_mem _ hx)
      simp only [List.length_set]
      omega)
    have hv1 : e.1 < v1.length := by omega
    refine ⟨v', ?_, by rw [h2]; simpa using g2, ?_, ?_, ?_⟩
    · simp only [fillPatterns, g1, Outcome.bind, writeAt, if_pos hv1, h1]
    · intro j hj
      rw [h3 j (by omega), List.getElem?_set, if_neg (by omega), g3, if_neg (by omega)]
    · intro x hx
      rcases List.mem_cons.mp hx with rfl | hx
      · rw [h3 _ (by omega), List.getElem?_set, if_pos rfl, if_pos hv1]
      · exact h4 x hx
    · intro j hj hne hex
      have hjne := hne e (List.mem_cons_self ..)
      by_cases hlt : j < e.1
      · rw [h3 j (by omega), List.getElem?_set, if_neg (by omega), g3, if_pos ⟨hj, hlt⟩]
      · refine h5 j (by omega) (fun x hx => hne x (List.mem_cons_of_mem _ hx)) ?_
        obtain ⟨x, hx, hjx⟩ := hex
        rcases List.mem_cons.mp hx with rfl | hx
        · omega
        · exact ⟨x, hx, hjx⟩

/-- The vector `hasPattern`: for every id the number of its pattern, if it has an entry. -/
theorem lookupPatterns_spec (es : List (Nat × Nat)) (hs : (es.map Prod.fst).Pairwise (· < ·)) :
    ∃ v, lookupPatterns es = .ok v ∧ (∀ e ∈ es, v[e.1]? = some (e.2 % 2 ^ 32)) ∧
      ∀ j, (∀ e ∈ es, e.1 ≠ j) → (v[j]?).getD NO_PATTERN = NO_PATTERN := by
  unfold lookupPatterns
  cases hl : es.getLast? with
  | none =>
    rw [List.getLast?_eq_none_iff] at hl
    subst hl
    exact ⟨[], rfl, by simp, by simp⟩
  | some last =>
    obtain ⟨ys, rfl⟩ := List.getLast?_eq_some_iff.mp hl
    have hle : ∀ e ∈ ys ++ [last], e.1 ≤ last.1 := by
      intro e he
      rcases List.mem_append.mp he with he | he
      · rw [List.map_append] at hs
        exact Nat.le_of_lt ((List.pairwise_append.mp hs).2.2 e.1 (List.mem_map_of_mem he) last.1 (by simp))
      · simp at he; rw [he]
    obtain ⟨v, h1, h2, h3, h4, h5⟩ := fillPatterns_spec (ys ++ [last]) (List.replicate (last.1 + 1) 0) 0 hs (by
      intro e he
      have := hle e he
      simp
      omega)
    refine ⟨v, h1, h4, fun j hj => ?_⟩
    by_cases hjl : j < last.1
    · rw [h5 j (by omega) hj ⟨last, by simp, hjl⟩]; rfl
    · have : j ≠ last.1 := fun h => hj last (by simp) h.symm
      rw [List.getElem?_eq_none (by rw [h2]; simp; omega)]; rfl

/-! ### `hasPredicate` -/

/-- The predicates that the loop stores: all of the first subject, then the first entry of the next subject is lost, and so on. -/
def mangled : List (Nat × Nat) → List Nat
  | [] => []
  | e :: es =>
    ((e :: es).takeWhile fun x => x.1 == e.1).map Prod.snd ++ mangled (((e :: es).dropWhile fun x => x.1 == e.1).drop 1)
termination_by es => es.length
decreasing_by
  simp only [List.length_drop, List.dropWhile_cons, beq_self_eq_true, if_true, List.length_cons]
  have := (List.dropWhile_sublist (fun x : Nat × Nat => x.1 == e.1) (l := es)).length_le
  omega

theorem appendLast_concat (a : List (List Nat)) (l x : List Nat) : appendLast (a ++ [l]) x = a ++ [l ++ x] := by
  induction a with
  | nil => rfl
  | cons b a ih =>
    cases a with
    | nil => rfl
    | cons c a =>
      simp only [List.cons_append, appendLast] at ih ⊢
      rw [ih]

theorem fillPredicates_eq (es : List (Nat × Nat)) : ∀ (a : List (List Nat)) (l : List Nat),
    fillPredicates (a ++ [l]) es = a ++ [l ++ mangled es] := by
  induction es using mangled.induct with
  | case1 => intro a l; simp [fillPredicates, mangled]
  | case2 e es ih =>
    intro a l
    rw [fillPredicates, appendLast_concat, ih, mangled, List.append_assoc]

/-- All explicit predicates end up in the list of the last subject. -/
theorem lookupPredicates_eq (es : List (Nat × Nat)) : lookupPredicates es = match es.getLast? with
    | none => []
    | some last => List.replicate last.1 [] ++ [mangled es] := by
  unfold lookupPredicates
  cases es.getLast? with
  | none => rfl
  | some last =>
    simp only [List.replicate_succ']
    rw [fillPredicates_eq]; rfl

theorem mangled_one (s : Nat) (es : List (Nat × Nat)) (h : ∀ e ∈ es, e.1 = s) : mangled es = es.map Prod.snd := by
  cases es with
  | nil => simp [mangled]
  | cons e es =>
    have he := h e (List.mem_cons_self ..)
    have ht : ∀ x ∈ e :: es, (fun x : Nat × Nat => x.1 == e.1) x = true := by
      intro x hx; simp [h x hx, he]
    have h1 : (e :: es).takeWhile (fun x => x.1 == e.1) = e :: es := by rw [List.takeWhile_eq_self_iff]; exact ht
    have h2 : (e :: es).dropWhile (fun x => x.1 == e.1) = [] := by rw [List.dropWhile_eq_nil_iff]; exact ht
    rw [mangled, h1, h2]
    simp [mangled]

theorem mangled_sublist (es : List (Nat × Nat)) : (mangled es).Sublist (es.map Prod.snd) := by
  induction es using mangled.induct with
  | case1 => simp [mangled]
  | case2 e es ih =>
    rw [mangled]
    conv => rhs; rw [← List.takeWhile_append_dropWhile (p := fun x : Nat × Nat => x.1 == e.1) (l := e :: es), List.map_append]
    refine List.Sublist.append_left (ih.trans ((List.drop_sublist _ _).map _)) _

end Verif.Patterns
