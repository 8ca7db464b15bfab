import Verif.Lemmas.PatternIndex
import Mathlib.Data.List.Dedup
/-
C32: the predicate patterns describe the data.
-/
namespace Verif.Patterns
open Verif.PatternsSpec

variable {lo hi maxNum : Nat} {init : Nat → List Nat} {mult : Stats → List Nat} {ts : List Triple}
  {o : Outcome (Option (Index × List Nat × Stats))}

/-- The index reports the predicates of all subjects. -/
def Correct (ix : Index) (ts : List Triple) (lo hi : Nat) : Prop :=
  ∀ s, ∃ r, predicatesOf ix s = .ok r ∧ PredicatesOf ts lo hi s (r.getD [])

/-- Every subject has a pattern or an explicit list, and no other id has one. -/
def Assigned (ix : Index) (ts : List Triple) : Prop := ∀ s, (∃ l, predicatesOf ix s = .ok (some l)) ↔ Subject ts s

/-- The lists of predicates that occur. -/
def Occurs (ts : List Triple) (lo hi : Nat) (l : List Nat) : Prop := ∃ s, Subject ts s ∧ PredicatesOf ts lo hi s l

theorem subject_iff {s : Nat} : Subject ts s ↔ ∃ x ∈ ts, x.1 = s := by
  constructor
  · rintro ⟨p, o, h⟩; exact ⟨_, h, rfl⟩
  · rintro ⟨x, h, rfl⟩; exact ⟨x.2.1, x.2.2, h⟩

/-- C32, for every limit on the number of patterns from 1 to 2^32 - 1 (QLever uses 2^32 - 3): building succeeds; the stored patterns
are those with the most subjects, as many as allowed; every subject whose list of predicates is stored gets exactly this list, and
ids without triples get nothing; the file that is written gives the same index when it is loaded. -/
theorem C32_stored (hm : 0 < maxNum) (hm2 : maxNum < 2 ^ 32) (hinit : ∀ n, (init n).length = n) (hmult : ∀ st, (mult st).length = 16)
    (hne : ts ≠ []) (hs : SortedBySP ts) (hb : Bounded ts) (h : Create lo hi maxNum init mult ts o) :
    ∃ ix file stats, ∃ kept : List (List Nat), o = .ok (some (ix, file, stats)) ∧ kept.Nodup ∧ (∀ l ∈ kept, Occurs ts lo hi l) ∧
      (∀ P : List (List Nat), P.Nodup → (∀ l, l ∈ P ↔ Occurs ts lo hi l) → kept.length = min P.length maxNum) ∧
      (∀ (S : List Nat) (f : Nat → List Nat), S.Nodup → (∀ s, s ∈ S ↔ Subject ts s) → (∀ s ∈ S, PredicatesOf ts lo hi s (f s)) →
        ∀ l ∈ kept, ∀ l', l' ∉ kept → (S.map f).count l' ≤ (S.map f).count l) ∧
      (∀ s l, Subject ts s → PredicatesOf ts lo hi s l → l ∈ kept → predicatesOf ix s = .ok (some l)) ∧
      (∀ s, ¬ Subject ts s → ∃ r, predicatesOf ix s = .ok r ∧ r.getD [] = [] ∧ ((∀ l, Occurs ts lo hi l → l ∈ kept) → r = none)) ∧
      (∀ s l, Subject ts s → PredicatesOf ts lo hi s l → l ∉ kept →
        (∀ s' l', Subject ts s' → PredicatesOf ts lo hi s' l' → l' ∉ kept → s' = s ∨ l' = []) →
        ∃ r, predicatesOf ix s = .ok r ∧ r.getD [] = l) ∧
      (∀ s l, Subject ts s → PredicatesOf ts lo hi s l → l ∉ kept →
        (∃ s' l', s < s' ∧ Subject ts s' ∧ PredicatesOf ts lo hi s' l' ∧ l' ∉ kept ∧ l' ≠ []) → predicatesOf ix s = .ok (some [])) ∧
      ∀ init' : Nat → List Nat, (∀ n, (init' n).length = n) → loadPatterns init' file = .ok ix := by
  cases ts with
  | nil => exact absurd rfl hne
  | cons t ts =>
  obtain ⟨ix, file, stats, sel, dropped, e, s1, s2, s3, hix, k1, _, k2, k3, hload⟩ := create_spec hm hinit hmult hs hb h
  obtain ⟨g1, g2, g3⟩ := groups_init lo hi t ts hs
  have hcnt := counts_spec (groups lo hi t.1 [] (t :: ts)) [] [] (by simp [Keys]) (by simp)
  rw [← countPatterns_eq] at hcnt
  clear h
  clear k1 k2 k3
  generalize groups lo hi t.1 [] (t :: ts) = gs at *
  generalize countPatterns lo hi t.1 [] [] (t :: ts) = counts at *
  simp only [List.nil_append] at hcnt
  have hgs : gs.Nodup := (List.pairwise_map.mp g1).imp fun h h' => by rw [h'] at h; omega
  have hsub : ∀ s, Subject (t :: ts) s ↔ ∃ g ∈ gs, g.1 = s := by
    intro s
    rw [subject_iff, ← g3, List.mem_map]
  have hocc : ∀ l, Occurs (t :: ts) lo hi l ↔ l ∈ gs.map Prod.snd := by
    intro l
    constructor
    · rintro ⟨s, h1, h2⟩
      obtain ⟨g, hg, rfl⟩ := (hsub s).mp h1
      exact List.mem_map.mpr ⟨g, hg, predicatesOf_unique (g2 g hg) h2⟩
    · intro hl
      obtain ⟨g, hg, rfl⟩ := List.mem_map.mp hl
      exact ⟨g.1, (hsub _).mpr ⟨g, hg, rfl⟩, g2 g hg⟩
  have hkeys : ∀ l, l ∈ counts.map Prod.fst ↔ l ∈ gs.map Prod.snd := by
    intro l
    constructor
    · intro hl
      obtain ⟨x, hx, rfl⟩ := List.mem_map.mp hl
      have := (hcnt.2 x.1 x.2).mp hx
      exact List.count_pos_iff.mp (by omega)
    · intro hl
      exact List.mem_map.mpr ⟨(l, (gs.map Prod.snd).count l), (hcnt.2 _ _).mpr ⟨rfl, List.count_pos_iff.mpr hl⟩, rfl⟩
  have hsel : ∀ x ∈ sel, x.2 = (gs.map Prod.snd).count x.1 := fun x hx => ((hcnt.2 x.1 x.2).mp (s1.mem_iff.mp (List.mem_append_left _ hx))).1
  have hnd : (sel.map Prod.fst).Nodup := by
    have h1 : ((sel ++ dropped).map Prod.fst).Nodup := (s1.map Prod.fst).nodup_iff.mpr hcnt.1
    rw [List.map_append] at h1
    exact (List.nodup_append.mp h1).1
  have hlen : sel.length < 2 ^ 32 := by omega
  have hfind : ∀ {s l}, Subject (t :: ts) s → PredicatesOf (t :: ts) lo hi s l → (s, l) ∈ gs := by
    intro s l h1 h2
    obtain ⟨g, hg, rfl⟩ := (hsub s).mp h1
    rw [← predicatesOf_unique (g2 g hg) h2]
    exact hg
  have hone : ∀ {g g' : Nat × Pattern}, g ∈ gs → g' ∈ gs → g.1 = g'.1 → g = g' := by
    intro g g' hg hg' he
    have h1 := predicatesOf_unique (g2 g hg) (he ▸ g2 g' hg')
    exact Prod.ext he h1
  have hnot : ∀ {s l}, Subject (t :: ts) s → PredicatesOf (t :: ts) lo hi s l → l ∉ sel.map Prod.fst →
      predicatesOf ix s = .ok (lookupPredicates (predicateEntries sel gs))[s]? := by
    intro s l h1 h2 h3
    refine predicatesOf_other hix fun g hg he => ?_
    rw [hone hg (hfind h1 h2) he]
    exact h3
  refine ⟨ix, file, stats, sel.map Prod.fst, e, hnd, ?_, ?_, ?_, ?_, ?_, ?_, ?_, hload⟩
  · intro l hl
    rw [hocc, ← hkeys]
    obtain ⟨x, hx, rfl⟩ := List.mem_map.mp hl
    exact List.mem_map_of_mem (s1.mem_iff.mp (List.mem_append_left _ hx))
  · intro P hP hP2
    have hp : P.Perm (counts.map Prod.fst) := (List.perm_ext_iff_of_nodup hP hcnt.1).mpr fun l => by rw [hP2, hocc, hkeys]
    rw [List.length_map, s2, hp.length_eq, List.length_map]
  · intro S f hS hS2 hf l hl l' hl'
    have hp : S.Perm (gs.map Prod.fst) := (List.perm_ext_iff_of_nodup hS (g1.imp Nat.ne_of_lt)).mpr fun s => by rw [hS2, subject_iff, g3]
    have hmap : (S.map f).Perm (gs.map Prod.snd) := by
      refine (hp.map f).trans ?_
      rw [List.map_map]
      refine List.Perm.of_eq (List.map_congr_left fun g hg => ?_)
      have h1 := hf g.1 ((hS2 _).mpr ((hsub _).mpr ⟨g, hg, rfl⟩))
      exact predicatesOf_unique h1 (g2 g hg)
    rw [hmap.count_eq, hmap.count_eq]
    by_cases h0 : l' ∈ gs.map Prod.snd
    · obtain ⟨x, hx, rfl⟩ := List.mem_map.mp hl
      rw [← hsel x hx]
      have hmem : (l', (gs.map Prod.snd).count l') ∈ counts := (hcnt.2 _ _).mpr ⟨rfl, List.count_pos_iff.mpr h0⟩
      rcases List.mem_append.mp (s1.mem_iff.mpr hmem) with h1 | h1
      · exact absurd (List.mem_map_of_mem (f := Prod.fst) h1) hl'
      · exact s3 _ h1 x hx
    · rw [List.count_eq_zero_of_not_mem h0]; exact Nat.zero_le _
  · intro s l h1 h2 h3
    exact predicatesOf_kept hix hlen (hfind h1 h2) h3
  · intro s hs'
    have hno : ∀ g ∈ gs, g.1 ≠ s := fun g hg he => hs' ((hsub s).mpr ⟨g, hg, he⟩)
    refine ⟨_, predicatesOf_other hix (fun g hg he => absurd he (hno g hg)), ?_, fun hk => ?_⟩
    rotate_left
    · have h0 : predicateEntries sel gs = [] := by
        refine List.eq_nil_iff_forall_not_mem.mpr fun x hx => ?_
        obtain ⟨g, hg, e1, _⟩ := mem_predicateEntries.mp hx
        exact e1 (hk g.2 ((hocc _).mpr (List.mem_map_of_mem hg)))
      rw [h0]; rfl
    rw [lookupPredicates_eq]
    cases hl : (predicateEntries sel gs).getLast? with
    | none => rfl
    | some last =>
      obtain ⟨g, hg, _, e1, _⟩ := mem_predicateEntries.mp (List.mem_of_getLast? hl)
      have hne' : last.1 ≠ s := fun h => hno g hg (e1.trans h)
      by_cases hlt : s < last.1
      · rw [List.getElem?_append_left (by simpa using hlt), List.getElem?_replicate, if_pos hlt]; rfl
      · rw [List.getElem?_eq_none (by simp; omega)]; rfl
  · intro s l h1 h2 h3 h4
    refine ⟨_, hnot h1 h2 h3, ?_⟩
    have hgm := hfind h1 h2
    have hall : ∀ x ∈ predicateEntries sel gs, x.1 = s := by
      intro x hx
      obtain ⟨g, hg, e1, e2, e3⟩ := mem_predicateEntries.mp hx
      rcases h4 g.1 g.2 ((hsub _).mpr ⟨g, hg, rfl⟩) (g2 g hg) e1 with h | h
      · rw [← e2]; exact h
      · rw [h] at e3; simp at e3
    have hpe : (predicateEntries sel gs).map Prod.snd = l := by
      obtain ⟨a, b, rfl⟩ := List.append_of_mem hgm
      have hzero : ∀ x ∈ a ++ b, (if (findPattern sel x.2).isNone then x.2.map (fun p => (x.1, p)) else []) = [] := by
        intro x hx
        have hxg : x ∈ a ++ (s, l) :: b := by
          rcases List.mem_append.mp hx with h | h
          · simp [h]
          · simp [h]
        split
        · rename_i hn
          rcases h4 x.1 x.2 ((hsub _).mpr ⟨x, hxg, rfl⟩) (g2 x hxg) (findPattern_none.mp (by simpa using hn)) with h | h
          · exfalso
            have hx' : x = (s, l) := hone hxg hgm h
            rw [hx'] at hx
            have := (List.perm_middle.nodup_iff.mp hgs)
            exact (List.nodup_cons.mp this).1 hx
          · rw [h]; rfl
        · rfl
      have ha : ∀ c : List (Nat × Pattern), (∀ x ∈ c, x ∈ a ++ b) → predicateEntries sel c = [] := by
        intro c hc
        unfold predicateEntries
        rw [List.flatMap_eq_nil_iff]
        exact fun x hx => hzero x (hc x hx)
      have hsplit : predicateEntries sel (a ++ (s, l) :: b) = predicateEntries sel a ++ (l.map fun p => (s, p)) ++ predicateEntries sel b := by
        unfold predicateEntries
        rw [List.flatMap_append, List.flatMap_cons, findPattern_none.mpr h3]
        simp
      rw [hsplit, ha a (fun x hx => List.mem_append_left _ hx), ha b (fun x hx => List.mem_append_right _ hx)]
      simp [Function.comp_def]
    rw [lookupPredicates_eq]
    cases hl : (predicateEntries sel gs).getLast? with
    | none =>
      rw [List.getLast?_eq_none_iff] at hl
      rw [hl] at hpe
      rw [← hpe]; rfl
    | some last =>
      have := hall last (List.mem_of_getLast? hl)
      simp only [this]
      rw [List.getElem?_append_right (by simp), List.length_replicate, Nat.sub_self]
      simp only [List.getElem?_cons_zero, Option.getD_some]
      rw [mangled_one s _ hall, hpe]
  · rintro s l h1 h2 h3 ⟨s', l', h4, h5, h6, h7, h8⟩
    rw [hnot h1 h2 h3, lookupPredicates_eq]
    obtain ⟨p, hp⟩ := List.exists_mem_of_ne_nil l' h8
    have hmem : (s', p) ∈ predicateEntries sel gs := mem_predicateEntries.mpr ⟨(s', l'), hfind h5 h6, h7, rfl, hp⟩
    cases hl : (predicateEntries sel gs).getLast? with
    | none => rw [List.getLast?_eq_none_iff] at hl; rw [hl] at hmem; simp at hmem
    | some last =>
      have hle : s' ≤ last.1 := by
        have hsorted : ((predicateEntries sel gs).map Prod.fst).Pairwise (· ≤ ·) := by
          clear hix hmem hl hnot hfind hone hgs hcnt hkeys hocc hsub g2 g3 hsel
          induction gs with
          | nil => simp [predicateEntries]
          | cons g gs ih =>
            rw [List.map_cons, List.pairwise_cons] at g1
            have hcons : predicateEntries sel (g :: gs) =
                (if (findPattern sel g.2).isNone then g.2.map (fun p => (g.1, p)) else []) ++ predicateEntries sel gs := by
              unfold predicateEntries; rw [List.flatMap_cons]
            have hfst : ∀ x ∈ (if (findPattern sel g.2).isNone then g.2.map (fun p => (g.1, p)) else []), x.1 = g.1 := by
              intro x hx
              split at hx
              · obtain ⟨_, _, rfl⟩ := List.mem_map.mp hx; rfl
              · simp at hx
            rw [hcons, List.map_append, List.pairwise_append]
            refine ⟨?_, ih g1.2, ?_⟩
            · rw [List.pairwise_map, List.pairwise_iff_forall_sublist]
              intro a b hab
              rw [hfst a (hab.subset (by simp)), hfst b (hab.subset (by simp))]
            · intro a ha b hb'
              obtain ⟨x, hx, rfl⟩ := List.mem_map.mp ha
              obtain ⟨y, hy, rfl⟩ := List.mem_map.mp hb'
              obtain ⟨g', hg', _, e2, _⟩ := mem_predicateEntries.mp hy
              rw [hfst x hx, ← e2]
              exact Nat.le_of_lt (g1.1 _ (List.mem_map_of_mem hg'))
        obtain ⟨ys, hys⟩ := List.getLast?_eq_some_iff.mp hl
        rw [hys] at hmem hsorted
        rcases List.mem_append.mp hmem with h | h
        · rw [List.map_append, List.pairwise_append] at hsorted
          exact hsorted.2.2 s' (List.mem_map.mpr ⟨_, h, rfl⟩) last.1 (by simp)
        · simp at h; rw [← h]
      have hlt : s < last.1 := by omega
      simp only
      rw [List.getElem?_append_left (by simpa using hlt), List.getElem?_replicate, if_pos hlt]

/-- C32, for data with at most as many different lists of predicates as patterns are allowed (2^32 - 3 in QLever): the predicates
reported for every id are exactly those of its triples, immediately after building and after loading the file.  Missing: more
patterns, see `C32_lost` and `C32_violated`. -/
theorem C32_patterns_partial (hm2 : maxNum < 2 ^ 32) (hinit : ∀ n, (init n).length = n) (hmult : ∀ st, (mult st).length = 16)
    (hne : ts ≠ []) (hs : SortedBySP ts) (hb : Bounded ts) (P : List (List Nat)) (hP : ∀ l, Occurs ts lo hi l → l ∈ P)
    (hlen : P.length ≤ maxNum) (h : Create lo hi maxNum init mult ts o) :
    ∃ ix file stats, o = .ok (some (ix, file, stats)) ∧ Correct ix ts lo hi ∧ Assigned ix ts ∧
      ∀ init' : Nat → List Nat, (∀ n, (init' n).length = n) → loadPatterns init' file = .ok ix := by
  obtain ⟨t, ts, rfl⟩ : ∃ t ts', ts = t :: ts' := by
    cases ts with
    | nil => exact absurd rfl hne
    | cons t ts => exact ⟨t, ts, rfl⟩
  obtain ⟨g1, g2, g3⟩ := groups_init lo hi t ts hs
  have hocc : ∀ s, Subject (t :: ts) s → ∃ l, PredicatesOf (t :: ts) lo hi s l := by
    intro s h1
    obtain ⟨g, hg, rfl⟩ := List.mem_map.mp ((g3 s).mpr (subject_iff.mp h1))
    exact ⟨g.2, g2 g hg⟩
  have hm : 0 < maxNum := by
    have hst : Subject (t :: ts) t.1 := ⟨t.2.1, t.2.2, List.mem_cons_self ..⟩
    obtain ⟨l, hl⟩ := hocc t.1 hst
    have := List.length_pos_of_mem (hP l ⟨t.1, hst, hl⟩)
    omega
  obtain ⟨ix, file, stats, kept, e, k1, k2, k3, _, k5, k6, _, _, k8⟩ := C32_stored hm hm2 hinit hmult hne hs hb h
  refine ⟨ix, file, stats, e, ?_⟩
  have hgl : ∀ l, Occurs (t :: ts) lo hi l ↔ l ∈ (groups lo hi t.1 [] (t :: ts)).map Prod.snd := by
    intro l
    constructor
    · rintro ⟨s, h1, h2⟩
      obtain ⟨g, hg, rfl⟩ := List.mem_map.mp ((g3 s).mpr (subject_iff.mp h1))
      exact List.mem_map.mpr ⟨g, hg, predicatesOf_unique (g2 g hg) h2⟩
    · intro hl
      obtain ⟨g, hg, rfl⟩ := List.mem_map.mp hl
      exact ⟨g.1, subject_iff.mpr ((g3 _).mp (List.mem_map_of_mem hg)), g2 g hg⟩
  have hk := k3 ((groups lo hi t.1 [] (t :: ts)).map Prod.snd).dedup (List.nodup_dedup _) (fun l => by rw [List.mem_dedup, hgl])
  have hsubp : ((groups lo hi t.1 [] (t :: ts)).map Prod.snd).dedup.length ≤ P.length :=
    (List.subperm_of_subset (List.nodup_dedup _) fun l hl => hP l ((hgl l).mpr (List.mem_dedup.mp hl))).length_le
  have hall : ∀ l, Occurs (t :: ts) lo hi l → l ∈ kept := by
    intro l hl
    have hp : kept.Perm ((groups lo hi t.1 [] (t :: ts)).map Prod.snd).dedup := by
      refine (List.subperm_of_subset k1 fun x hx => ?_).perm_of_length_le (by omega)
      rw [List.mem_dedup, ← hgl]
      exact k2 x hx
    exact hp.mem_iff.mpr (List.mem_dedup.mpr ((hgl l).mp hl))
  refine ⟨fun s => ?_, fun s => ⟨?_, fun h1 => ?_⟩, k8⟩
  rotate_left
  · rintro ⟨l, hl⟩
    by_contra h1
    obtain ⟨r, hr, _, hr2⟩ := k6 s h1
    rw [hl] at hr
    have := hr2 hall
    simp_all
  · obtain ⟨l, hl⟩ := hocc s h1
    exact ⟨_, k5 s l h1 hl (hall l ⟨s, h1, hl⟩)⟩
  by_cases h1 : Subject (t :: ts) s
  · obtain ⟨l, hl⟩ := hocc s h1
    exact ⟨_, k5 s l h1 hl (hall l ⟨s, h1, hl⟩), hl⟩
  · obtain ⟨r, hr, hr2, _⟩ := k6 s h1
    refine ⟨r, hr, ?_⟩
    rw [hr2]
    refine ⟨List.Pairwise.nil, fun p => ?_⟩
    simp only [List.not_mem_nil, false_iff]
    rintro ⟨⟨x, hx⟩, _⟩
    exact h1 ⟨p, x, hx⟩

/-- C32 is violated as soon as two subjects with predicates do not get a pattern: the predicates of the smaller one are lost. -/
theorem C32_lost (hm : 0 < maxNum) (hm2 : maxNum < 2 ^ 32) (hinit : ∀ n, (init n).length = n) (hmult : ∀ st, (mult st).length = 16)
    (hne : ts ≠ []) (hs : SortedBySP ts) (hb : Bounded ts) (h : Create lo hi maxNum init mult ts o) (S : List Nat) (hS : S.Nodup)
    (hS1 : ∀ s ∈ S, Subject ts s) (f : Nat → List Nat) (hf : ∀ s ∈ S, PredicatesOf ts lo hi s (f s) ∧ f s ≠ [])
    (hinj : ∀ s ∈ S, ∀ s' ∈ S, f s = f s' → s = s') (hlen : maxNum + 2 ≤ S.length) :
    ∃ ix file stats, o = .ok (some (ix, file, stats)) ∧ ∃ s ∈ S, predicatesOf ix s = .ok (some []) ∧ ¬ PredicatesOf ts lo hi s [] := by
  obtain ⟨ix, file, stats, kept, e, k1, k2, k3, _, _, _, _, k7, _⟩ := C32_stored hm hm2 hinit hmult hne hs hb h
  refine ⟨ix, file, stats, e, ?_⟩
  have hkl : kept.length ≤ maxNum := by
    obtain ⟨t, ts', rfl⟩ : ∃ t ts', ts = t :: ts' := by
      cases ts with
      | nil => exact absurd rfl hne
      | cons t ts => exact ⟨t, ts, rfl⟩
    obtain ⟨g1, g2, g3⟩ := groups_init lo hi t ts' hs
    have := k3 ((groups lo hi t.1 [] (t :: ts')).map Prod.snd).dedup (List.nodup_dedup _) (fun l => by
      rw [List.mem_dedup]
      constructor
      · intro hl
        obtain ⟨g, hg, rfl⟩ := List.mem_map.mp hl
        exact ⟨g.1, subject_iff.mpr ((g3 _).mp (List.mem_map_of_mem hg)), g2 g hg⟩
      · rintro ⟨s, h1, h2⟩
        obtain ⟨g, hg, rfl⟩ := List.mem_map.mp ((g3 s).mpr (subject_iff.mp h1))
        exact List.mem_map.mpr ⟨g, hg, predicatesOf_unique (g2 g hg) h2⟩)
    omega
  -- at least two subjects are not kept
  have hcount : 2 ≤ (S.filter fun s => f s ∉ kept).length := by
    have h1 : (S.filter fun s => f s ∈ kept).length ≤ kept.length := by
      have hnd : ((S.filter fun s => f s ∈ kept).map f).Nodup := by
        refine List.Nodup.map_on ?_ (hS.filter _)
        intro a ha b hb' hab
        exact hinj a (List.mem_filter.mp ha).1 b (List.mem_filter.mp hb').1 hab
      have := (List.subperm_of_subset hnd (l₂ := kept) fun x hx => by
        obtain ⟨s, hs', rfl⟩ := List.mem_map.mp hx
        simpa using (List.mem_filter.mp hs').2).length_le
      simpa using this
    have h2 := List.length_eq_length_filter_add (l := S) (fun s => decide (f s ∈ kept))
    have h3 : (S.filter fun s => !decide (f s ∈ kept)) = S.filter fun s => decide (f s ∉ kept) := by
      congr 1; funext s; simp
    rw [h3] at h2
    omega
  have hndf : (S.filter fun s => f s ∉ kept).Nodup := hS.filter _
  have hmemf : ∀ s ∈ S.filter (fun s => f s ∉ kept), s ∈ S ∧ f s ∉ kept := by
    intro s hs'
    have := List.mem_filter.mp hs'
    exact ⟨this.1, by simpa using this.2⟩
  match hq : S.filter (fun s => f s ∉ kept) with
  | [] => rw [hq] at hcount; simp at hcount
  | [_] => rw [hq] at hcount; simp at hcount
  | a :: b :: rest =>
    rw [hq] at hmemf hndf
    obtain ⟨ha, ha'⟩ := hmemf a (by simp)
    obtain ⟨hb1, hb2⟩ := hmemf b (by simp)
    have hab : a ≠ b := fun h => by rw [h] at hndf; simp at hndf
    have go : ∀ s s', s ∈ S → f s ∉ kept → s' ∈ S → f s' ∉ kept → s < s' →
        ∃ s ∈ S, predicatesOf ix s = .ok (some []) ∧ ¬ PredicatesOf ts lo hi s [] := by
      intro s s' h1 h2 h3 h4 h5
      refine ⟨s, h1, k7 s (f s) (hS1 s h1) (hf s h1).1 h2 ⟨s', f s', h5, hS1 s' h3, (hf s' h3).1, h4, (hf s' h3).2⟩, fun h6 => ?_⟩
      exact (hf s h1).2 (predicatesOf_unique (hf s h1).1 h6)
    rcases Nat.lt_or_gt_of_ne hab with h | h
    · exact go a b ha ha' hb1 hb2 h
    · exact go b a hb1 hb2 ha ha' h

/-- C32, the statistics: the size is the number of subject-predicate pairs, and the multiplicities are computed from the numbers of
subjects and of predicates, whatever the limit. -/
theorem C32_statistics (hm : 0 < maxNum) (hinit : ∀ n, (init n).length = n) (hmult : ∀ st, (mult st).length = 16)
    (hne : ts ≠ []) (hs : SortedBySP ts) (hb : Bounded ts) (h : Create lo hi maxNum init mult ts o) :
    ∃ ix file stats, o = .ok (some (ix, file, stats)) ∧ stats.fullSize = ix.fullSize ∧
      (∀ D : List (Nat × Nat), D.Nodup → (∀ e, e ∈ D ↔ HasPredicate ts lo hi e.1 e.2) → ix.fullSize = D.length) ∧
      (∀ S : List Nat, S.Nodup → (∀ s, s ∈ S ↔ Subject ts s) → stats.entities = S.length) ∧
      ∀ Q : List Nat, Q.Nodup → (∀ p, p ∈ Q ↔ ∃ s, HasPredicate ts lo hi s p) → stats.predicates = Q.length := by
  obtain ⟨t, ts, rfl⟩ : ∃ t ts', ts = t :: ts' := by
    cases ts with
    | nil => exact absurd rfl hne
    | cons t ts => exact ⟨t, ts, rfl⟩
  obtain ⟨ix, file, stats, sel, dropped, e, _, _, _, _, c1, c2, c3, ⟨preds, c4, c5, c6⟩, _⟩ := create_spec hm hinit hmult hs hb h
  obtain ⟨g1, g2, g3⟩ := groups_init lo hi t ts hs
  generalize groups lo hi t.1 [] (t :: ts) = gs at *
  have hhas : ∀ s p, HasPredicate (t :: ts) lo hi s p ↔ ∃ g ∈ gs, g.1 = s ∧ p ∈ g.2 := by
    intro s p
    constructor
    · rintro ⟨⟨x, hx⟩, hl⟩
      obtain ⟨g, hg, rfl⟩ := List.mem_map.mp ((g3 s).mpr ⟨_, hx, rfl⟩)
      exact ⟨g, hg, rfl, ((g2 g hg).2 p).mpr ⟨⟨x, hx⟩, hl⟩⟩
    · rintro ⟨g, hg, rfl, hp⟩
      exact ((g2 g hg).2 p).mp hp
  refine ⟨ix, file, stats, e, c2, ?_, ?_, ?_⟩
  · intro D hD hD2
    have hnd : (gs.flatMap fun g => g.2.map fun p => (g.1, p)).Nodup := by
      unfold List.Nodup
      rw [List.pairwise_flatMap]
      refine ⟨fun g hg => ?_, ?_⟩
      · rw [List.pairwise_map]
        exact (g2 g hg).1.imp fun h h' => by simp at h'; omega
      · rw [List.pairwise_map] at g1
        refine g1.imp fun {a b} hab x hx y hy hxy => ?_
        obtain ⟨_, _, rfl⟩ := List.mem_map.mp hx
        obtain ⟨_, _, rfl⟩ := List.mem_map.mp hy
        simp at hxy
        omega
    have hp : D.Perm (gs.flatMap fun g => g.2.map fun p => (g.1, p)) := (List.perm_ext_iff_of_nodup hD hnd).mpr fun e => by
      rw [hD2, hhas, List.mem_flatMap]
      constructor
      · rintro ⟨g, hg, h1, h2⟩; exact ⟨g, hg, List.mem_map.mpr ⟨e.2, h2, by rw [h1]⟩⟩
      · rintro ⟨g, hg, h1⟩
        obtain ⟨p, hp, rfl⟩ := List.mem_map.mp h1
        exact ⟨g, hg, rfl, hp⟩
    rw [hp.length_eq, c1, List.length_flatMap]
    simp
  · intro S hS hS2
    have hp : S.Perm (gs.map Prod.fst) := (List.perm_ext_iff_of_nodup hS (g1.imp Nat.ne_of_lt)).mpr fun s => by rw [hS2, subject_iff, g3]
    rw [hp.length_eq, c3, List.length_map]
  · intro Q hQ hQ2
    have hp : Q.Perm preds := (List.perm_ext_iff_of_nodup hQ c5).mpr fun p => by
      rw [hQ2, c6]
      constructor
      · rintro ⟨s, h1⟩
        obtain ⟨g, hg, _, h2⟩ := (hhas s p).mp h1
        exact ⟨g, hg, h2⟩
      · rintro ⟨g, hg, h1⟩; exact ⟨g.1, (hhas _ _).mpr ⟨g, hg, rfl, h1⟩⟩
    rw [c4, hp.length_eq]

/-- C32: there is always a result, for an empty input none at all. -/
theorem C32_total (hm : 0 < maxNum) : ∃ o, Create lo hi maxNum init mult ts o := create_total init mult ts hm

/-- C32: with the limit 0 the code reads the last element of an empty vector. -/
theorem C32_limit_zero_ub (t : Triple) : ∀ o, Create lo hi 0 init mult (t :: ts) o → o = .ub := by
  intro o h
  cases h with
  | ub _ => rfl
  | run h =>
    exfalso
    have hcnt := counts_spec (groups lo hi t.1 [] (t :: ts)) [] [] (by simp [Keys]) (by simp)
    rw [← countPatterns_eq] at hcnt
    have hpos : countPatterns lo hi t.1 [] [] (t :: ts) ≠ [] := by
      intro h0
      have hg : groups lo hi t.1 [] (t :: ts) ≠ [] := by
        intro h1
        have hlen : ∀ (ts : List Triple) cur pattern, groups lo hi cur pattern ts ≠ [] := by
          intro ts
          induction ts with
          | nil => simp [groups]
          | cons t ts ih => intro cur pattern; simp only [groups]; split <;> simp [ih]
        exact hlen _ _ _ h1
      obtain ⟨g, hg⟩ := List.exists_mem_of_ne_nil _ hg
      have : (g.2, ((groups lo hi t.1 [] (t :: ts)).map Prod.snd).count g.2) ∈ countPatterns lo hi t.1 [] [] (t :: ts) :=
        (hcnt.2 _ _).mpr ⟨by simp, List.count_pos_iff.mpr (List.mem_map_of_mem hg)⟩
      rw [h0] at this
      simp at this
    have key : ∀ order sorted, order.Perm (countPatterns lo hi t.1 [] [] (t :: ts)) → ¬ Select 0 [] order (.ok sorted) := by
      intro order sorted hp hsel
      cases order with
      | nil => exact hpos (List.nil_perm.mp hp)
      | cons it order =>
        cases hsel with
        | push h => simp at h
        | pushSort h => simp at h
        | skip _ h => simp at h
        | insert _ h => simp at h
    cases h with
    | full h1 h2 => exact key _ _ h1 h2
    | sort h1 h2 => exact key _ _ h1 h2

/-! ### Examples -/

/-- Four subjects; the predicate 9 is a language predicate. -/
def sample : List Triple := [(0, 5, 1), (0, 5, 2), (1, 5, 7), (1, 9, 0), (3, 6, 4), (4, 7, 4), (4, 8, 4)]

theorem sample_sorted : SortedBySP sample := by unfold SortedBySP sample; decide

theorem sample_bounded : Bounded sample := ⟨by decide, by decide, by decide⟩

example : ∃ P : List (List Nat), P.length ≤ 3 ∧ ∀ l, Occurs sample 9 10 l → l ∈ P := by
  obtain ⟨g1, g2, g3⟩ := groups_init 9 10 (0, 5, 1) _ sample_sorted
  refine ⟨((groups 9 10 0 [] sample).map Prod.snd).dedup, by decide, ?_⟩
  rintro l ⟨s, h1, h2⟩
  obtain ⟨g, hg, rfl⟩ := List.mem_map.mp ((g3 s).mpr (subject_iff.mp h1))
  rw [predicatesOf_unique h2 (g2 g hg), List.mem_dedup]
  exact List.mem_map_of_mem hg

/-- C32 is violated: with room for one pattern, every run reports for some subject with a predicate that it has none. -/
theorem C32_violated (hinit : ∀ n, (init n).length = n) (hmult : ∀ st, (mult st).length = 16) (h : Create 9 10 1 init mult sample o) :
    ∃ ix file stats, o = .ok (some (ix, file, stats)) ∧ ∃ s p, predicatesOf ix s = .ok (some []) ∧ HasPredicate sample 9 10 s p := by
  obtain ⟨g1, g2, g3⟩ := groups_init 9 10 (0, 5, 1) _ sample_sorted
  obtain ⟨ix, file, stats, e, s, _, h1, h2⟩ := C32_lost (by decide) (by decide) hinit hmult (by decide) sample_sorted sample_bounded h [0, 3, 4]
    (by decide) (by
      intro s hs
      refine subject_iff.mpr ((g3 s).mp ?_)
      revert s
      decide) (fun s => if s = 0 then [5] else if s = 3 then [6] else [7, 8]) (by
      have key : ∀ s ∈ [0, 3, 4], (s, if s = 0 then [5] else if s = 3 then [6] else [7, 8]) ∈ groups 9 10 0 [] sample := by decide
      intro s hs
      refine ⟨g2 _ (key s hs), ?_⟩
      revert s
      decide) (by decide) (by decide)
  refine ⟨ix, file, stats, e, s, ?_⟩
  by_contra hno
  refine h2 ⟨List.Pairwise.nil, fun p => ?_⟩
  simp only [List.not_mem_nil, false_iff]
  exact fun hp => hno ⟨p, h1, hp⟩

example : ∃ o, Create 9 10 1 (fun n => List.replicate n 0) (fun _ => List.replicate 16 0) sample o := C32_total (by decide)

end Verif.Patterns
