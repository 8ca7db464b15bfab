import Verif.Lemmas.PatternLookup
import Verif.Props.C05_CompactStringVector
import Mathlib.Data.List.Perm.Subperm
/-
The members built by `createPatternsImpl` and the patterns file.
-/
namespace Verif.Patterns
open Verif.PatternsSpec Verif.Bytes

theorem extend_length (lo hi : Nat) (p : Pattern) (x : Nat) : (extend lo hi p x).length ≤ p.length + 1 := by
  unfold extend
  split
  · split <;> simp
  · omega

theorem groups_length (lo hi : Nat) (ts : List Triple) : ∀ cur pattern,
    ((groups lo hi cur pattern ts).map fun g => g.2.length).sum ≤ pattern.length + ts.length ∧
    (groups lo hi cur pattern ts).length ≤ 1 + ts.length := by
  induction ts with
  | nil => intro cur pattern; simp [groups]
  | cons t ts ih =>
    intro cur pattern
    simp only [groups]
    split
    · have := ih t.1 (extend lo hi [] t.2.1)
      have := extend_length lo hi [] t.2.1
      simp only [List.map_cons, List.sum_cons, List.length_cons, List.length_nil] at *
      omega
    · have := ih cur (extend lo hi pattern t.2.1)
      have := extend_length lo hi pattern t.2.1
      simp only [List.length_cons] at *
      omega

theorem groups_length' (lo hi : Nat) (t : Triple) (ts : List Triple) : (groups lo hi t.1 [] (t :: ts)).length ≤ (t :: ts).length := by
  have := (groups_length lo hi ts t.1 (extend lo hi [] t.2.1)).2
  simp only [groups, ne_eq, not_true_eq_false, if_false, List.length_cons]
  omega

/-- The members that belong to the selected patterns and the subjects `gs`. -/
structure IndexOf (ix : Index) (sel : List PC) (gs : List (Nat × Pattern)) : Prop where
  pat : ∀ i (h : i < sel.length), CompactStringVector.get 8 8 ix.patterns i = .ok sel[i].1
  has : ∀ e ∈ patternEntries sel gs, ix.hasPattern[e.1]? = some (e.2 % 2 ^ 32)
  hasNot : ∀ j, (∀ e ∈ patternEntries sel gs, e.1 ≠ j) → (ix.hasPattern[j]?).getD NO_PATTERN = NO_PATTERN
  size : ix.hasPredicate.size = (lookupPredicates (predicateEntries sel gs)).length
  pred : ∀ i (h : i < (lookupPredicates (predicateEntries sel gs)).length),
    CompactStringVector.get 8 8 ix.hasPredicate i = .ok (lookupPredicates (predicateEntries sel gs))[i]

theorem patternEntries_fst (sel : List PC) (gs : List (Nat × Pattern)) : ((patternEntries sel gs).map Prod.fst).Sublist (gs.map Prod.fst) := by
  induction gs with
  | nil => simp [patternEntries]
  | cons g gs ih =>
    unfold patternEntries at ih ⊢
    cases h : findPattern sel g.2 with
    | none => simp only [List.filterMap_cons, h, Option.map_none, List.map_cons]; exact ih.cons _
    | some i => simp only [List.filterMap_cons, h, Option.map_some, List.map_cons]; exact ih.cons_cons _

theorem mem_predicateEntries {sel : List PC} {gs : List (Nat × Pattern)} {e : Nat × Nat} :
    e ∈ predicateEntries sel gs ↔ ∃ g ∈ gs, g.2 ∉ sel.map Prod.fst ∧ g.1 = e.1 ∧ e.2 ∈ g.2 := by
  unfold predicateEntries
  rw [List.mem_flatMap]
  constructor
  · rintro ⟨g, hg, he⟩
    refine ⟨g, hg, ?_⟩
    cases hf : findPattern sel g.2 with
    | none =>
      rw [hf] at he
      simp only [Option.isNone_none, if_true, List.mem_map] at he
      obtain ⟨p, hp, rfl⟩ := he
      exact ⟨findPattern_none.mp hf, rfl, hp⟩
    | some i => rw [hf] at he; simp at he
  · rintro ⟨g, hg, h1, h2, h3⟩
    refine ⟨g, hg, ?_⟩
    rw [findPattern_none.mpr h1]
    simp only [Option.isNone_none, if_true, List.mem_map]
    exact ⟨e.2, h3, by rw [h2]⟩

theorem predicateEntries_length (sel : List PC) (gs : List (Nat × Pattern)) :
    (predicateEntries sel gs).length ≤ (gs.map fun g => g.2.length).sum := by
  induction gs with
  | nil => simp [predicateEntries]
  | cons g gs ih =>
    unfold predicateEntries at ih ⊢
    rw [List.flatMap_cons, List.length_append, List.map_cons, List.sum_cons]
    have : (if (findPattern sel g.2).isNone then g.2.map fun p => (g.1, p) else []).length ≤ g.2.length := by split <;> simp
    omega

theorem mem_patternEntries {sel : List PC} {gs : List (Nat × Pattern)} {e : Nat × Nat} :
    e ∈ patternEntries sel gs ↔ ∃ g ∈ gs, g.1 = e.1 ∧ findPattern sel g.2 = some e.2 := by
  unfold patternEntries
  rw [List.mem_filterMap]
  constructor
  · rintro ⟨g, hg, he⟩
    cases hf : findPattern sel g.2 with
    | none => rw [hf] at he; simp at he
    | some i =>
      rw [hf] at he
      simp only [Option.map_some, Option.some.injEq] at he
      rw [← he]
      exact ⟨g, hg, rfl, hf⟩
  · rintro ⟨g, hg, h1, h2⟩
    exact ⟨g, hg, by rw [h2, h1]; rfl⟩

/-- A subject whose pattern is stored gets its predicates. -/
theorem predicatesOf_kept {ix : Index} {sel : List PC} {gs : List (Nat × Pattern)} (h : IndexOf ix sel gs) (hlen : sel.length < 2 ^ 32)
    {g : Nat × Pattern} (hg : g ∈ gs) (hk : g.2 ∈ sel.map Prod.fst) : predicatesOf ix g.1 = .ok (some g.2) := by
  cases hf : findPattern sel g.2 with
  | none => exact absurd hk (findPattern_none.mp hf)
  | some i =>
    obtain ⟨hi, hp⟩ := findPattern_some hf
    have h1 := h.has (g.1, i) (mem_patternEntries.mpr ⟨g, hg, rfl, hf⟩)
    simp only at h1
    rw [Nat.mod_eq_of_lt (by omega)] at h1
    obtain ⟨h2, _⟩ := List.getElem?_eq_some_iff.mp h1
    unfold predicatesOf
    rw [h1, if_pos ⟨h2, by simp only [Option.getD_some, NO_PATTERN]; omega⟩, Option.getD_some, h.pat i hi, hp]
    rfl

/-- Any other id gets the explicit list. -/
theorem predicatesOf_other {ix : Index} {sel : List PC} {gs : List (Nat × Pattern)} (h : IndexOf ix sel gs) {id : Nat}
    (hn : ∀ g ∈ gs, g.1 = id → g.2 ∉ sel.map Prod.fst) : predicatesOf ix id = .ok (lookupPredicates (predicateEntries sel gs))[id]? := by
  have h1 := h.hasNot id (by
    intro e he heq
    obtain ⟨g, hg, e1, e2⟩ := mem_patternEntries.mp he
    have := findPattern_none.mpr (hn g hg (e1.trans heq))
    rw [this] at e2
    cases e2)
  unfold predicatesOf
  rw [if_neg (by rw [h1]; simp)]
  split
  · rename_i h2
    have h3 : id < (lookupPredicates (predicateEntries sel gs)).length := by rw [← h.size]; exact h2
    rw [h.pred id h3, List.getElem?_eq_getElem h3]
    rfl
  · rename_i h2
    rw [List.getElem?_eq_none (by rw [← h.size]; omega)]

theorem toPairs_flat (es : List (Nat × Nat)) : toPairs (es.flatMap fun e => [e.1, e.2]) = es := by
  induction es with
  | nil => rfl
  | cons e es ih =>
    show toPairs (e.1 :: e.2 :: es.flatMap fun e => [e.1, e.2]) = _
    rw [toPairs, ih]

theorem flat_length (es : List (Nat × Nat)) : (es.flatMap fun e => [e.1, e.2]).length = es.length * 2 := by
  induction es with
  | nil => rfl
  | cons e es ih => rw [List.flatMap_cons, List.length_append, ih]; simp; omega

theorem readPairs_spec (es : List (Nat × Nat)) (pre post : List Nat) (h : ∀ e ∈ es, e.1 < 256 ^ 8 ∧ e.2 < 256 ^ 8) (file : List Nat) (off : Nat)
    (hf : file = pre ++ ofArr 8 (es.flatMap fun e => [e.1, e.2]) ++ post) (ho : off = pre.length) :
    readPairs file off es.length = .ok es := by
  have hl : (ofArr 8 (es.flatMap fun e => [e.1, e.2])).length = es.length * 16 := by
    rw [length_ofArr, flat_length]; omega
  have h1 : pread file off (es.length * 16) = ofArr 8 (es.flatMap fun e => [e.1, e.2]) :=
    pread_mid' _ pre _ post _ _ hf ho hl.symm
  have h2 : toArr 8 (es.length * 2) (ofArr 8 (es.flatMap fun e => [e.1, e.2])) = es.flatMap fun e => [e.1, e.2] := by
    have := toArr_ofArr 8 (es.flatMap fun e => [e.1, e.2]) [] (by
      intro x hx
      obtain ⟨e, he, hx⟩ := List.mem_flatMap.mp hx
      simp at hx
      rcases hx with rfl | rfl
      · exact (h e he).1
      · exact (h e he).2)
    rw [List.append_nil, flat_length] at this
    exact this
  unfold readPairs
  rw [h1, if_pos hl, h2, toPairs_flat]

theorem load_file (init : Nat → List Nat) (mult : List Nat) (hm : mult.length = 16) (st : Second) (pats : CompactStringVector.CSV)
    (h1 : ∀ e ∈ st.hasPattern, e.1 < 256 ^ 8 ∧ e.2 < 256 ^ 8) (h2 : ∀ e ∈ st.hasPredicate, e.1 < 256 ^ 8 ∧ e.2 < 256 ^ 8)
    (h3 : st.fullSize < 256 ^ 8) (h4 : st.hasPattern.length < 256 ^ 8) (h5 : st.hasPredicate.length < 256 ^ 8)
    (h6 : ∀ pre post : List Nat, CompactStringVector.load 8 (pre ++ CompactStringVector.write pats ++ post) pre.length = .ok pats) :
    loadPatterns init (fileBytes mult st pats) = makeIndex init st.hasPattern st.hasPredicate pats st.fullSize := by
  generalize hA : ofArr 8 (st.hasPattern.flatMap fun e => [e.1, e.2]) = A
  generalize hB : ofArr 8 (st.hasPredicate.flatMap fun e => [e.1, e.2]) = B
  have lA : A.length = st.hasPattern.length * 16 := by rw [← hA, length_ofArr, flat_length]; omega
  have lB : B.length = st.hasPredicate.length * 16 := by rw [← hB, length_ofArr, flat_length]; omega
  generalize hV : CompactStringVector.write pats = V at h6
  generalize hN : toLE 8 st.hasPattern.length = N
  generalize hM : toLE 8 st.hasPredicate.length = M
  generalize hS : toLE 8 st.fullSize = S
  have lN : N.length = 8 := by rw [← hN]; simp
  have lM : M.length = 8 := by rw [← hM]; simp
  have lS : S.length = 8 := by rw [← hS]; simp
  have hfile : fileBytes mult st pats = [255] ++ toLE 4 0 ++ mult ++ S ++ N ++ A ++ M ++ B ++ V := by
    unfold fileBytes; rw [hA, hB, hV, hN, hM, hS]
  rw [hfile]
  generalize hF : [255] ++ toLE 4 0 ++ mult ++ S ++ N ++ A ++ M ++ B ++ V = F
  have r0 : pread F 0 1 = [255] := pread_mid' _ [] [255] (toLE 4 0 ++ mult ++ S ++ N ++ A ++ M ++ B ++ V) _ _ (by rw [← hF]; simp) rfl rfl
  have r1 : pread F 1 4 = toLE 4 0 := pread_mid' _ [255] (toLE 4 0) (mult ++ S ++ N ++ A ++ M ++ B ++ V) _ _ (by rw [← hF]; simp) rfl (by simp)
  have r2 : pread F 21 8 = S := pread_mid' _ ([255] ++ toLE 4 0 ++ mult) S (N ++ A ++ M ++ B ++ V) _ _ (by rw [← hF]; simp) (by simp [hm]) lS.symm
  have r3 : pread F 29 8 = N := pread_mid' _ ([255] ++ toLE 4 0 ++ mult ++ S) N (A ++ M ++ B ++ V) _ _ (by rw [← hF]; simp)
    (by simp [hm, lS]) lN.symm
  have r4 : pread F (37 + st.hasPattern.length * 16) 8 = M := pread_mid' _ ([255] ++ toLE 4 0 ++ mult ++ S ++ N ++ A) M (B ++ V) _ _
    (by rw [← hF]; simp) (by simp [hm, lS, lN, lA]; omega) lM.symm
  have p1 : readPairs F 37 st.hasPattern.length = .ok st.hasPattern :=
    readPairs_spec _ ([255] ++ toLE 4 0 ++ mult ++ S ++ N) (M ++ B ++ V) h1 F 37 (by rw [← hF, hA]; simp) (by simp [hm, lS, lN])
  have p2 : readPairs F (37 + st.hasPattern.length * 16 + 8) st.hasPredicate.length = .ok st.hasPredicate :=
    readPairs_spec _ ([255] ++ toLE 4 0 ++ mult ++ S ++ N ++ A ++ M) V h2 F _ (by rw [← hF, hB]) (by simp [hm, lS, lN, lA, lM]; omega)
  have p3 : CompactStringVector.load 8 F (37 + st.hasPattern.length * 16 + 8 + st.hasPredicate.length * 16) = .ok pats := by
    have := h6 ([255] ++ toLE 4 0 ++ mult ++ S ++ N ++ A ++ M ++ B) []
    rw [List.append_nil, hF] at this
    rw [← this]
    congr 1
    simp [hm, lS, lN, lA, lM, lB]; omega
  have e0 : ofLE (toLE 4 0) = 0 := by decide
  have eS : ofLE S = st.fullSize := by rw [← hS]; exact ofLE_toLE 8 _ h3
  have eN : ofLE N = st.hasPattern.length := by rw [← hN]; exact ofLE_toLE 8 _ h4
  have eM : ofLE M = st.hasPredicate.length := by rw [← hM]; exact ofLE_toLE 8 _ h5
  unfold loadPatterns
  rw [r0, r1, e0, if_neg (by simp)]
  simp only [r2, r3, eS, eN, p1, Outcome.bind, r4, eM, p2, p3]

/-- Sizes that fit into 64-bit ids and addresses. -/
structure Bounded (ts : List Triple) : Prop where
  len : ts.length < 2 ^ 58
  subj : ∀ t ∈ ts, t.1 < 2 ^ 58
  pred : ∀ t ∈ ts, t.2.1 < 2 ^ 64

theorem subset_sum (l l' : List (List Nat)) (hn : l.Nodup) (hs : ∀ x ∈ l, x ∈ l') :
    (l.map List.length).sum ≤ (l'.map List.length).sum ∧ l.length ≤ l'.length := by
  obtain ⟨q, h1, h2⟩ := List.subperm_of_subset hn hs
  have e1 := List.Perm.sum_nat (h1.map List.length)
  refine ⟨?_, ?_⟩
  · rw [← e1]
    clear h1 e1 hs hn
    induction h2 with
    | slnil => simp
    | cons a _ ih => simp; omega
    | cons_cons a _ ih => simp; omega
  · rw [← h1.length_eq]; exact h2.length_le

theorem create_spec {lo hi maxNum : Nat} {init : Nat → List Nat} {mult : Stats → List Nat} {t : Triple} {ts : List Triple}
    (hm : 0 < maxNum) (hinit : ∀ n, (init n).length = n) (hmult : ∀ st, (mult st).length = 16)
    (hs : SortedBySP (t :: ts)) (hb : Bounded (t :: ts)) {o : Outcome (Option (Index × List Nat × Stats))}
    (h : Create lo hi maxNum init mult (t :: ts) o) :
    ∃ ix file stats sel dropped, o = .ok (some (ix, file, stats)) ∧
      (sel ++ dropped).Perm (countPatterns lo hi t.1 [] [] (t :: ts)) ∧
      sel.length = min (countPatterns lo hi t.1 [] [] (t :: ts)).length maxNum ∧
      (∀ y ∈ dropped, ∀ x ∈ sel, y.2 ≤ x.2) ∧
      IndexOf ix sel (groups lo hi t.1 [] (t :: ts)) ∧
      ix.fullSize = ((groups lo hi t.1 [] (t :: ts)).map fun g => g.2.length).sum ∧
      stats.fullSize = ix.fullSize ∧
      stats.entities = (groups lo hi t.1 [] (t :: ts)).length ∧
      (∃ preds : List Nat, stats.predicates = preds.length ∧ preds.Nodup ∧
        ∀ p, p ∈ preds ↔ ∃ g ∈ groups lo hi t.1 [] (t :: ts), p ∈ g.2) ∧
      ∀ init' : Nat → List Nat, (∀ n, (init' n).length = n) → loadPatterns init' file = .ok ix := by
  obtain ⟨g1, g2, g3⟩ := groups_init lo hi t ts hs
  have gsum := (groups_length lo hi (t :: ts) t.1 []).1
  have glen := groups_length' lo hi t ts
  have hcnt := counts_spec (groups lo hi t.1 [] (t :: ts)) [] [] (by simp [Keys]) (by simp)
  rw [← countPatterns_eq] at hcnt
  have blen := hb.len
  generalize hgs : groups lo hi t.1 [] (t :: ts) = gs at *
  simp only [List.length_nil, Nat.zero_add] at gsum
  have hpredb : ∀ g ∈ gs, ∀ p ∈ g.2, p < 256 ^ 8 := by
    intro g hg p hp
    obtain ⟨⟨x, hx⟩, _⟩ := ((g2 g hg).2 p).mp hp
    have := hb.pred _ hx
    omega
  have hsubb : ∀ g ∈ gs, g.1 < 2 ^ 58 := by
    intro g hg
    obtain ⟨x, hx, e⟩ := (g3 g.1).mp (List.mem_map_of_mem hg)
    rw [← e]; exact hb.subj x hx
  cases h with
  | ub h =>
    obtain ⟨sel, _, e, _⟩ := selected_spec hm hcnt.1 h
    cases e
  | @run _ _ sel h =>
    obtain ⟨sel', dropped, e, s1, s2, s3, _⟩ := selected_spec hm hcnt.1 h
    obtain rfl : sel = sel' := by cases e; rfl
    rw [assignPatterns_eq, hgs]
    obtain ⟨a1, a2, a3, a4, a5, a6⟩ := second_spec sel gs [] ⟨[], [], 0, 0, [], []⟩ (by simp) (by simp) (by simp)
    generalize hst : gs.foldl (fun st g => endSubject sel st g.1 g.2) ⟨[], [], 0, 0, [], []⟩ = st at *
    simp only [List.nil_append, Nat.zero_add] at a1 a2 a3 a4 a6
    -- the patterns
    have hselmem : ∀ x ∈ sel.map Prod.fst, x ∈ gs.map Prod.snd := by
      intro x hx
      obtain ⟨e, he, rfl⟩ := List.mem_map.mp hx
      have := (hcnt.2 e.1 e.2).mp (s1.mem_iff.mp (List.mem_append_left _ he))
      simp only [List.nil_append] at this
      exact List.count_pos_iff.mp (by omega)
    have hselnd : (sel.map Prod.fst).Nodup := by
      have : Keys (sel ++ dropped) := (s1.map Prod.fst).nodup_iff.mpr hcnt.1
      unfold Keys at this
      rw [List.map_append] at this
      exact (List.nodup_append.mp this).1
    obtain ⟨b1, b2⟩ := subset_sum _ _ hselnd hselmem
    rw [List.map_map (l := gs)] at b1
    have hb1 : ((sel.map Prod.fst).map List.length).sum ≤ (t :: ts).length := Nat.le_trans b1 gsum
    have hb2 : (sel.map Prod.fst).length ≤ (t :: ts).length := Nat.le_trans b2 (by simpa using glen)
    have hxs : ∀ l ∈ sel.map Prod.fst, ∀ x ∈ l, x < 256 ^ 8 := by
      intro l hl x hx
      obtain ⟨g, hg, rfl⟩ := List.mem_map.mp (hselmem l hl)
      exact hpredb g hg x hx
    have hcsv := fun pre post => CompactStringVector.C05_roundtrip 8 8 (sel.map Prod.fst) init hinit (by omega) (by omega) hxs (by omega) (by omega) pre post
    obtain ⟨pats, q1, _, q3, _⟩ := hcsv [] []
    have q4 : ∀ pre post : List Nat, CompactStringVector.load 8 (pre ++ CompactStringVector.write pats ++ post) pre.length = .ok pats := by
      intro pre post
      obtain ⟨v, e1, _, _, e4⟩ := hcsv pre post
      rw [q1] at e1
      cases e1
      exact e4
    -- the entries
    have hp1 : (st.hasPattern.map Prod.fst).Pairwise (· < ·) := by
      rw [a1]; exact List.Pairwise.sublist (patternEntries_fst sel gs) g1
    obtain ⟨hp, l1, l2, l3⟩ := lookupPatterns_spec st.hasPattern hp1
    have hlp : ∃ n, (lookupPredicates st.hasPredicate).length ≤ 2 ^ 58 ∧
        ((lookupPredicates st.hasPredicate).map List.length).sum ≤ n ∧ n ≤ (t :: ts).length ∧
        ∀ l ∈ lookupPredicates st.hasPredicate, ∀ x ∈ l, x < 256 ^ 8 := by
      refine ⟨st.hasPredicate.length, ?_⟩
      have hlen : st.hasPredicate.length ≤ (t :: ts).length := by
        rw [a2]; exact Nat.le_trans (predicateEntries_length sel gs) gsum
      have hsub := mangled_sublist st.hasPredicate
      rw [lookupPredicates_eq]
      cases hl : st.hasPredicate.getLast? with
      | none => exact ⟨by simp, by simp, hlen, by simp⟩
      | some last =>
        have hlast := List.mem_of_getLast? hl
        rw [a2] at hlast
        obtain ⟨g, hg, _, e1, _⟩ := mem_predicateEntries.mp hlast
        have := hsubb g hg
        refine ⟨by simp; omega, ?_, hlen, ?_⟩
        · simp only [List.map_append, List.map_replicate, List.length_nil, List.sum_append, List.sum_replicate_nat, List.map_cons, List.map_nil,
            List.sum_cons, List.sum_nil]
          have := hsub.length_le
          simp at this
          omega
        · intro l hl2 x hx
          rcases List.mem_append.mp hl2 with h | h
          · rw [(List.mem_replicate.mp h).2] at hx; simp at hx
          · simp at h
            subst h
            obtain ⟨e, he, rfl⟩ := List.mem_map.mp (hsub.subset hx)
            rw [a2] at he
            obtain ⟨g, hg, _, _, e2⟩ := mem_predicateEntries.mp he
            exact hpredb g hg _ e2
    obtain ⟨n, n1, n2, n3, n4⟩ := hlp
    have hmk : ∃ hpr, (∀ init' : Nat → List Nat, (∀ n, (init' n).length = n) →
        CompactStringVector.build 8 8 (lookupPredicates st.hasPredicate) init' = .ok hpr) ∧
        hpr.size = (lookupPredicates st.hasPredicate).length ∧
        ∀ i (h : i < (lookupPredicates st.hasPredicate).length), CompactStringVector.get 8 8 hpr i = .ok (lookupPredicates st.hasPredicate)[i] := by
      refine ⟨_, fun init' hi => CompactStringVector.build_spec 8 8 _ init' hi (by omega) (by omega), rfl, fun i h =>
        CompactStringVector.get_build 8 8 _ (by omega) n4 i h _ _ _ rfl⟩
    obtain ⟨hpr, m1, m2, m3⟩ := hmk
    have hmake : ∀ init' : Nat → List Nat, (∀ n, (init' n).length = n) →
        makeIndex init' st.hasPattern st.hasPredicate pats st.fullSize = .ok ⟨hp, hpr, pats, st.fullSize⟩ := by
      intro init' hi
      unfold makeIndex
      rw [l1]
      simp only [Outcome.bind, m1 init' hi, Outcome.map]
    refine ⟨⟨hp, hpr, pats, st.fullSize⟩, fileBytes (mult ⟨st.fullSize, st.entities, st.predicates.length⟩) st pats,
      ⟨st.fullSize, st.entities, st.predicates.length⟩, sel, dropped, ?_, s1, s2, s3, ⟨?_, ?_, ?_, ?_, ?_⟩, a3, rfl, a4, ⟨st.predicates, rfl, a5, a6⟩, ?_⟩
    · rw [q1]
      simp only [Outcome.bind, hmake init hinit, Outcome.map]
    · intro i hi
      have := q3 i (by simpa using hi)
      simpa using this
    · rw [← a1]; exact l2
    · rw [← a1]; exact l3
    · rw [← a2]; exact m2
    · rw [← a2]; exact m3
    · intro init' hi
      rw [load_file init' _ (hmult _) st pats ?_ ?_ ?_ ?_ ?_ q4]
      · exact hmake init' hi
      · intro e he
        rw [a1] at he
        obtain ⟨g, hg, e1, e2⟩ := mem_patternEntries.mp he
        have := hsubb g hg
        obtain ⟨h1, _⟩ := findPattern_some e2
        simp at hb2
        simp at blen
        omega
      · intro e he
        rw [a2] at he
        obtain ⟨g, hg, _, e1, e2⟩ := mem_predicateEntries.mp he
        have := hsubb g hg
        have := hpredb g hg _ e2
        omega
      · omega
      · have := (patternEntries_fst sel gs).length_le
        rw [a1]
        simp at this
        omega
      · have := predicateEntries_length sel gs
        rw [a2]
        omega

theorem create_total {lo hi maxNum : Nat} (init : Nat → List Nat) (mult : Stats → List Nat) (ts : List Triple) (hm : 0 < maxNum) :
    ∃ o, Create lo hi maxNum init mult ts o := by
  cases ts with
  | nil => exact ⟨_, .empty⟩
  | cons t ts =>
    have hcnt := counts_spec (groups lo hi t.1 [] (t :: ts)) [] [] (by simp [Keys]) (by simp)
    rw [← countPatterns_eq] at hcnt
    obtain ⟨o, ho⟩ := selected_total hm hcnt.1
    obtain ⟨sel, _, e, _⟩ := selected_spec hm hcnt.1 ho
    subst e
    exact ⟨_, .run ho⟩

end Verif.Patterns
