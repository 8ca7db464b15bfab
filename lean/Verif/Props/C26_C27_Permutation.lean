import Verif.Lemmas.PermutationIndex
import Mathlib.Data.List.Perm.Subperm
import Mathlib.Data.List.Nodup
/-
C26: scans with two fixed terms return exactly the matching triples (except for some absent keys, see below).
C27: all permutations contain the same triples.
-/
namespace Verif.Permutation
open Verif.Bytes Verif.MetaData Verif.PermutationSpec

/-- Hash map for PSO and POS, vector for the others. -/
def kind (n : Nat) : Name → Option Nat
  | .pso | .pos => none
  | _ => some n

theorem inj_pso (a b : Triple) (h : key3 1 0 2 a = key3 1 0 2 b) : a = b := by
  cases a; cases b
  simp only [key3, Triple.at, Prod.mk.injEq] at h
  obtain ⟨rfl, rfl, rfl⟩ := h
  rfl

theorem inj_spo (a b : Triple) (h : key3 0 1 2 a = key3 0 1 2 b) : a = b := by
  cases a; cases b
  simp only [key3, Triple.at, Prod.mk.injEq] at h
  obtain ⟨rfl, rfl, rfl⟩ := h
  rfl

theorem inj_osp (a b : Triple) (h : key3 2 0 1 a = key3 2 0 1 b) : a = b := by
  cases a; cases b
  simp only [key3, Triple.at, Prod.mk.injEq] at h
  obtain ⟨rfl, rfl, rfl⟩ := h
  rfl

theorem pairs_isScan {c0 c1 c2 : Fin 3} {vec T : List Triple} {name : Name} (hm : ∀ t, t ∈ vec ↔ t ∈ T)
    (hs : vec.Pairwise fun a b => Lex (key3 c0 c1 c2 a) (key3 c0 c1 c2 b)) (hc : ∀ t, comps name t = (t.at c0, t.at c1, t.at c2)) (key : Nat) :
    IsScan name T key (pairs c0 c1 c2 vec key) := by
  refine ⟨pairs_sorted hs key, fun p => ⟨fun h => ?_, fun h => ?_⟩⟩
  · obtain ⟨t, ht, h1, rfl⟩ := pairs_mem h
    exact ⟨t, (hm t).mp ht, by rw [hc, h1]⟩
  · obtain ⟨t, ht, h1⟩ := h
    rw [hc] at h1
    simp only [Prod.mk.injEq] at h1
    unfold pairs
    refine List.mem_map.mpr ⟨t, List.mem_filter.mpr ⟨(hm t).mpr ht, by simpa using h1.1⟩, ?_⟩
    rw [h1.2.1, h1.2.2]

theorem switched_isScan {c0 c1 c2 : Fin 3} {vec T : List Triple} {name : Name} (hm : ∀ t, t ∈ vec ↔ t ∈ T)
    (hs : vec.Pairwise fun a b => Lex (key3 c0 c1 c2 a) (key3 c0 c1 c2 b)) (hc : ∀ t, comps name t = (t.at c0, t.at c2, t.at c1)) (key : Nat) :
    IsScan name T key (switched c0 c1 c2 vec key) := by
  have hperm := switched_perm c0 c1 c2 vec key
  have hnd : (switched c0 c1 c2 vec key).Nodup := by
    rw [hperm.nodup_iff]
    unfold List.Nodup
    rw [List.pairwise_map]
    refine (pairs_sorted hs key).imp ?_
    intro a b hab he
    simp only [Prod.mk.injEq] at he
    omega
  refine ⟨?_, fun p => ⟨fun h => ?_, fun h => ?_⟩⟩
  · refine ((sortBy_pairs _).and hnd).imp ?_
    rintro ⟨a1, a2⟩ ⟨b1, b2⟩ ⟨h1, h2⟩
    simp only [ne_eq, Prod.mk.injEq, Before] at *
    omega
  · rw [hperm.mem_iff] at h
    obtain ⟨q, hq, rfl⟩ := List.mem_map.mp h
    obtain ⟨t, ht, h1, rfl⟩ := pairs_mem hq
    exact ⟨t, (hm t).mp ht, by rw [hc, h1]⟩
  · obtain ⟨t, ht, h1⟩ := h
    rw [hc] at h1
    simp only [Prod.mk.injEq] at h1
    rw [hperm.mem_iff]
    refine List.mem_map.mpr ⟨(t.at c1, t.at c2), ?_, Prod.ext h1.2.1 h1.2.2⟩
    unfold pairs
    exact List.mem_map.mpr ⟨t, List.mem_filter.mpr ⟨(hm t).mpr ht, by simpa using h1.1⟩, rfl⟩

/-- What is known about each permutation after the index has been built. -/
def Built (n : Nat) (T : List Triple) (name : Name) (p : Perm) : Prop :=
  p.file.length < 2 ^ 64 ∧ ∃ D adds, Good (kind n name) p.file p.md D adds ∧ ∀ key, IsScan name T key (D key)

theorem createIndex_built (lg : Nat → Nat → Nat) (n : Nat) (T : List Triple) (hne : T ≠ []) (hn : n ≤ MAX_ID)
    (hT : ∀ t ∈ T, t.s < n ∧ t.p < n ∧ t.o < n) (hlen : T.length ≤ MAX_NOF_ELEMENTS) :
    ∃ idx, createIndex lg n T = .ok (some idx) ∧ ∀ name, Built n T name (idx name) := by
  have hM : MAX_ID = 2 ^ 64 - 1 := rfl
  have hmax : MAX_NOF_ELEMENTS = 2 ^ 40 - 1 := by decide
  have lt1 : ∀ a b, sortByPSO a b = true ↔ Lex (key3 1 0 2 a) (key3 1 0 2 b) := by
    intro a b; unfold sortByPSO Lex key3
    simp only [Triple.at]
    by_cases h1 : a.p = b.p <;> by_cases h2 : a.s = b.s <;> simp [h1, h2]
  have lt2 : ∀ a b, sortBySPO a b = true ↔ Lex (key3 0 1 2 a) (key3 0 1 2 b) := by
    intro a b; unfold sortBySPO Lex key3
    simp only [Triple.at]
    by_cases h1 : a.s = b.s <;> by_cases h2 : a.p = b.p <;> simp [h1, h2]
  have lt3 : ∀ a b, sortByOSP a b = true ↔ Lex (key3 2 0 1 a) (key3 2 0 1 b) := by
    intro a b; unfold sortByOSP Lex key3
    simp only [Triple.at]
    by_cases h1 : a.o = b.o <;> by_cases h2 : a.s = b.s <;> simp [h1, h2]
  -- the sorted vectors
  obtain ⟨v1, hv1⟩ : ∃ v, v = sortTriples T sortByPSO true := ⟨_, rfl⟩
  obtain ⟨v2, hv2⟩ : ∃ v, v = sortTriples v1 sortBySPO false := ⟨_, rfl⟩
  obtain ⟨v3, hv3⟩ : ∃ v, v = sortTriples v2 sortByOSP false := ⟨_, rfl⟩
  have e1 : v1 = unique (sortBy sortByPSO T) := by rw [hv1]; rfl
  have e2 : v2 = sortBy sortBySPO v1 := by rw [hv2]; rfl
  have e3 : v3 = sortBy sortByOSP v2 := by rw [hv3]; rfl
  have s1 : v1.Pairwise fun a b => Lex (key3 1 0 2 a) (key3 1 0 2 b) := by
    rw [e1]; exact unique_strict _ inj_pso _ (sortBy_lex _ _ lt1 _)
  have n1 : v1.Nodup := s1.imp fun {a b} h he => by subst he; unfold Lex at h; omega
  have s2 : v2.Pairwise fun a b => Lex (key3 0 1 2 a) (key3 0 1 2 b) := by
    rw [e2]; exact sortBy_strict _ _ lt2 inj_spo _ n1
  have p2 : v2.Perm v1 := by rw [e2]; exact sortBy_perm _ _
  have n2 : v2.Nodup := p2.nodup_iff.mpr n1
  have s3 : v3.Pairwise fun a b => Lex (key3 2 0 1 a) (key3 2 0 1 b) := by
    rw [e3]; exact sortBy_strict _ _ lt3 inj_osp _ n2
  have p3 : v3.Perm v2 := by rw [e3]; exact sortBy_perm _ _
  have m1 : ∀ t, t ∈ v1 ↔ t ∈ T := by intro t; rw [e1, unique_mem, (sortBy_perm _ _).mem_iff]
  have m2 : ∀ t, t ∈ v2 ↔ t ∈ T := by intro t; rw [p2.mem_iff, m1]
  have m3 : ∀ t, t ∈ v3 ↔ t ∈ T := by intro t; rw [p3.mem_iff, m2]
  have l1 : v1.length ≤ T.length := by
    rw [e1]; exact Nat.le_trans (unique_length _) (Nat.le_of_eq (sortBy_perm _ _).length_eq)
  have l2 : v2.length ≤ T.length := by rw [p2.length_eq]; exact l1
  have l3 : v3.length ≤ T.length := by rw [p3.length_eq]; exact l2
  have nen : ∀ v : List Triple, (∀ t, t ∈ v ↔ t ∈ T) → v ≠ [] := by
    intro v hv hc
    cases T with
    | nil => exact hne rfl
    | cons t T => have := (hv t).mpr (by simp); rw [hc] at this; cases this
  have hids : ∀ t ∈ T, ∀ c, t.at c < n := by
    intro t ht c
    obtain ⟨a, b, d⟩ := hT t ht
    match c with
    | 0 => exact a
    | 1 => exact b
    | 2 => exact d
  have bnd : ∀ (v : List Triple) (vs : Option Nat) (c0 : Fin 3), (∀ t, t ∈ v ↔ t ∈ T) → v.length ≤ T.length →
      (∀ m, vs = some m → m = n) → Bounds vs c0 v := by
    intro v vs c0 hv hl hvs
    refine ⟨fun t ht c => ?_, fun t ht m hm => ?_, by omega⟩
    · have := hids t ((hv t).mp ht) c; omega
    · rw [hvs m hm]; exact hids t ((hv t).mp ht) c0
  obtain ⟨a1, a2, ad1, ad2, ha, hg1, hg2, hl1, hl2⟩ := pair_spec (vs := none) (c0 := 1) (c1 := 0) (c2 := 2) lg v1 (nen v1 m1)
    (fun m hm => by cases hm) (bnd v1 _ _ m1 l1 (by simp)) s1
  obtain ⟨b1, b2, bd1, bd2, hb, hg3, hg4, hl3, hl4⟩ := pair_spec (vs := some n) (c0 := 0) (c1 := 1) (c2 := 2) lg v2 (nen v2 m2)
    (fun m hm => by injection hm with hm; omega) (bnd v2 _ _ m2 l2 (by simp [eq_comm])) s2
  obtain ⟨c1, c2, cd1, cd2, hc, hg5, hg6, hl5, hl6⟩ := pair_spec (vs := some n) (c0 := 2) (c1 := 0) (c2 := 1) lg v3 (nen v3 m3)
    (fun m hm => by injection hm with hm; omega) (bnd v3 _ _ m3 l3 (by simp [eq_comm])) s3
  refine ⟨pick (a1, a2) (b1, b2) (c1, c2), ?_, ?_⟩
  · unfold createIndex
    simp only
    rw [← hv1, ha]
    simp only [Outcome.bind]
    rw [← hv2, hb]
    simp only
    rw [← hv3, hc]
  · intro name
    cases name with
    | pso => exact ⟨by simp only [pick]; omega, _, ad1, hg1, pairs_isScan m1 s1 fun t => rfl⟩
    | pos => exact ⟨by simp only [pick]; omega, _, ad2, hg2, switched_isScan m1 s1 fun t => rfl⟩
    | spo => exact ⟨by simp only [pick]; omega, _, bd1, hg3, pairs_isScan m2 s2 fun t => rfl⟩
    | sop => exact ⟨by simp only [pick]; omega, _, bd2, hg4, switched_isScan m2 s2 fun t => rfl⟩
    | osp => exact ⟨by simp only [pick]; omega, _, cd1, hg5, pairs_isScan m3 s3 fun t => rfl⟩
    | ops => exact ⟨by simp only [pick]; omega, _, cd2, hg6, switched_isScan m3 s3 fun t => rfl⟩

theorem scan2_of_scan {name : Name} {T : List Triple} {key : Nat} {res : List Pair} (h : IsScan name T key res) (k2 : Nat) :
    IsScan2 name T key k2 ((res.filter fun x => decide (x.1 = k2)).map Prod.snd) := by
  refine ⟨?_, fun z => ?_⟩
  · rw [List.pairwise_map]
    refine List.Pairwise.imp_of_mem ?_ (h.1.sublist List.filter_sublist)
    intro a b ha hb hab
    have ha := (List.mem_filter.mp ha).2
    have hb := (List.mem_filter.mp hb).2
    simp only [decide_eq_true_eq, Before] at *
    omega
  · rw [List.mem_map]
    constructor
    · rintro ⟨p, hp, rfl⟩
      obtain ⟨h1, h2⟩ := List.mem_filter.mp hp
      obtain ⟨t, ht, h3⟩ := (h.2 p).mp h1
      simp only [decide_eq_true_eq] at h2
      exact ⟨t, ht, by rw [h3, h2]⟩
    · rintro ⟨t, ht, h3⟩
      exact ⟨(k2, z), List.mem_filter.mpr ⟨(h.2 (k2, z)).mpr ⟨t, ht, h3⟩, by simp⟩, rfl⟩

/-- Keys a permutation may be asked for: any id for PSO and POS, ids of the vocabulary for the others. -/
def ValidKey (n : Nat) (name : Name) (key : Nat) : Prop := name = .pso ∨ name = .pos ∨ key < n

theorem inRange_of_valid {n : Nat} {name : Name} {key : Nat} (h : ValidKey n name key) : InRange (kind n name) key := by
  intro m hm
  rcases h with rfl | rfl | h
  · cases hm
  · cases hm
  · cases name <;> simp [kind] at hm <;> omega

/-! ### C27 -/

/-- C27: for every non-empty list of triples, in any order and with repetitions, building the index succeeds and in each of the six
permutations the scan for any key returns exactly the distinct triples with that key, each once and in sorted order. -/
theorem permutations_scan (lg : Nat → Nat → Nat) (n : Nat) (T : List Triple) (hne : T ≠ []) (hn : n ≤ MAX_ID)
    (hT : ∀ t ∈ T, t.s < n ∧ t.p < n ∧ t.o < n) (hlen : T.length ≤ MAX_NOF_ELEMENTS) :
    ∃ idx, createIndex lg n T = .ok (some idx) ∧
      ∀ name key, ValidKey n name key → ∃ res, scan (idx name) key = .ok res ∧ IsScan name T key res := by
  obtain ⟨idx, h1, h2⟩ := createIndex_built lg n T hne hn hT hlen
  refine ⟨idx, h1, fun name key hk => ?_⟩
  obtain ⟨_, D, adds, hg, hD⟩ := h2 name
  exact ⟨_, (hg.serves.scan key (inRange_of_valid hk)).1, hD key⟩

/-- The hypotheses hold for a list with a repeated triple. -/
example : let T : List Triple := [⟨1, 2, 3⟩, ⟨0, 2, 3⟩, ⟨1, 2, 3⟩]; T ≠ [] ∧ 4 ≤ MAX_ID ∧ (∀ t ∈ T, t.s < 4 ∧ t.p < 4 ∧ t.o < 4) ∧
    T.length ≤ MAX_NOF_ELEMENTS := by decide

/-- The result of a scan is determined by the specification. -/
theorem isScan_unique {name : Name} {T : List Triple} {key : Nat} {a b : List Pair} (ha : IsScan name T key a) (hb : IsScan name T key b) :
    a = b := by
  refine List.Perm.eq_of_pairwise (le := fun x y => Before x y) ?_ ha.1 hb.1 ?_
  · intro x y _ _ h1 h2; unfold Before at *; omega
  · refine (List.perm_ext_iff_of_nodup ?_ ?_).mpr fun p => by rw [ha.2, hb.2]
    · exact ha.1.imp fun {x y} h he => by subst he; unfold Before at h; omega
    · exact hb.1.imp fun {x y} h he => by subst he; unfold Before at h; omega

/-- C27, empty input: no permutation is written at all. -/
theorem empty_input_no_index (lg : Nat → Nat → Nat) (n : Nat) : createIndex lg n [] = .ok none := by
  simp [createIndex, sortTriples, sortBy, unique, createPermutationPair, createPermutationPairImpl]

/-! ### C26 -/

/-- C26, exactly what happens: the scan with two keys returns the third components of the matching triples, in order, or — for an
absent second key in a gap of the block index — reads behind the end of the block. -/
theorem scan_two_keys_exact (lg : Nat → Nat → Nat) (n : Nat) (T : List Triple) (hne : T ≠ []) (hn : n ≤ MAX_ID)
    (hT : ∀ t ∈ T, t.s < n ∧ t.p < n ∧ t.o < n) (hlen : T.length ≤ MAX_NOF_ELEMENTS) :
    ∃ idx, createIndex lg n T = .ok (some idx) ∧ ∀ name key, ValidKey n name key →
      ∃ res, IsScan name T key res ∧ ∀ k2,
        (¬ Gap res k2 → ∃ r, scan2 (idx name) key k2 = .ok r ∧ IsScan2 name T key k2 r) ∧
        (Gap res k2 → scan2 (idx name) key k2 = .ub) := by
  obtain ⟨idx, h1, h2⟩ := createIndex_built lg n T hne hn hT hlen
  refine ⟨idx, h1, fun name key hk => ?_⟩
  obtain ⟨_, D, adds, hg, hD⟩ := h2 name
  refine ⟨D key, hD key, fun k2 => ⟨fun hgap => ?_, fun hgap => ?_⟩⟩
  · exact ⟨_, by rw [(hg.serves.scan key (inRange_of_valid hk)).2 k2, if_neg hgap], scan2_of_scan (hD key) k2⟩
  · rw [(hg.serves.scan key (inRange_of_valid hk)).2 k2, if_pos hgap]

/-- C26 for keys that occur together (whatever the block layout), and for every second key if the relation has at most 20000 pairs
or no second key occurs twice in it.  Missing: absent second keys in larger relations, see `scan_two_keys_violated`. -/
theorem scan_two_keys_partial (lg : Nat → Nat → Nat) (n : Nat) (T : List Triple) (hne : T ≠ []) (hn : n ≤ MAX_ID)
    (hT : ∀ t ∈ T, t.s < n ∧ t.p < n ∧ t.o < n) (hlen : T.length ≤ MAX_NOF_ELEMENTS) :
    ∃ idx, createIndex lg n T = .ok (some idx) ∧ ∀ name key, ValidKey n name key → ∀ k2,
      ((∃ t ∈ T, ∃ z, comps name t = (key, k2, z)) ∨ (∀ res, IsScan name T key res → res.length ≤ 20000 ∨ (res.map Prod.fst).Nodup)) →
      ∃ r, scan2 (idx name) key k2 = .ok r ∧ IsScan2 name T key k2 r := by
  obtain ⟨idx, h1, h2⟩ := scan_two_keys_exact lg n T hne hn hT hlen
  refine ⟨idx, h1, fun name key hk k2 hor => ?_⟩
  obtain ⟨res, hres, hall⟩ := h2 name key hk
  refine (hall k2).1 fun hgap => ?_
  rcases hor with ⟨t, ht, z, hz⟩ | hsmall
  · exact hgap.2.1 (List.mem_map.mpr ⟨(k2, z), (hres.2 (k2, z)).mpr ⟨t, ht, hz⟩, rfl⟩)
  · rcases hsmall res hres with h | h
    · have := hgap.1.1; omega
    · exact hgap.1.2 h

/-- Many triples with one predicate: the subjects `0, 0, 1, 1, 2, 2, …` with objects `0, 1, 0, 1, …`. -/
def manyTriples : List Triple := (List.range 20001).map fun i => ⟨i / 2, 0, i % 2⟩

/-- C26 does not hold for all absent keys: scanning PSO of an ordinary relation for a subject of the vocabulary that is larger than
all subjects of the relation reads behind the end of a vector. -/
theorem scan_two_keys_violated (lg : Nat → Nat → Nat) : ∃ idx, createIndex lg 30000 manyTriples = .ok (some idx) ∧
    scan2 (idx .pso) 0 20000 = .ub := by
  have hmem : ∀ t, t ∈ manyTriples ↔ ∃ i, i < 20001 ∧ t = ⟨i / 2, 0, i % 2⟩ := by
    intro t
    unfold manyTriples
    rw [List.mem_map]
    simp only [List.mem_range, eq_comm]
  have hlen : manyTriples.length = 20001 := by unfold manyTriples; rw [List.length_map, List.length_range]
  have hmax : MAX_NOF_ELEMENTS = 2 ^ 40 - 1 := by decide
  have hM : MAX_ID = 2 ^ 64 - 1 := rfl
  obtain ⟨idx, h1, h2⟩ := scan_two_keys_exact lg 30000 manyTriples (by intro h; rw [h] at hlen; simp at hlen) (by omega)
    (by
      intro t ht
      obtain ⟨i, hi, rfl⟩ := (hmem t).mp ht
      refine ⟨?_, ?_, ?_⟩ <;> simp only <;> omega) (by rw [hlen, hmax]; omega)
  refine ⟨idx, h1, ?_⟩
  obtain ⟨res, hres, hall⟩ := h2 .pso 0 (Or.inl rfl)
  refine (hall 20000).2 ?_
  have hres2 : ∀ p, p ∈ res ↔ ∃ i, i < 20001 ∧ p = (i / 2, i % 2) := by
    intro p
    rw [hres.2 p]
    constructor
    · rintro ⟨t, ht, hc⟩
      obtain ⟨i, hi, rfl⟩ := (hmem t).mp ht
      simp only [comps, Prod.mk.injEq, true_and] at hc
      exact ⟨i, hi, by rw [hc.1, hc.2]⟩
    · rintro ⟨i, hi, rfl⟩
      exact ⟨_, (hmem _).mpr ⟨i, hi, rfl⟩, rfl⟩
  have hge : 20001 ≤ res.length := by
    have hnd : ((List.range 20001).map fun i => (i / 2, i % 2)).Nodup := by
      unfold List.Nodup
      rw [List.pairwise_map]
      refine List.nodup_range.imp ?_
      intro a b hab he
      simp only [Prod.mk.injEq] at he
      omega
    have hsub := List.subperm_of_subset hnd (l₂ := res) (by
      intro p hp
      obtain ⟨i, hi, rfl⟩ := List.mem_map.mp hp
      exact (hres2 _).mpr ⟨i, List.mem_range.mp hi, rfl⟩)
    have := hsub.length_le
    rw [List.length_map, List.length_range] at this
    exact this
  have hsmall : ∀ x ∈ res.map Prod.fst, x < 20000 := by
    intro x hx
    obtain ⟨p, hp, rfl⟩ := List.mem_map.mp hx
    obtain ⟨i, hi, rfl⟩ := (hres2 p).mp hp
    simp only
    omega
  have hall : (res.map Prod.fst).filter (fun x => decide (x < 20000)) = res.map Prod.fst :=
    List.filter_eq_self.mpr fun x hx => by simpa using hsmall x hx
  refine ⟨⟨by omega, ?_⟩, fun h => by have := hsmall _ h; omega, ?_⟩
  · intro hnd
    have h0 : ((0, 0) : Pair) ∈ res := (hres2 _).mpr ⟨0, by omega, rfl⟩
    have h1 : ((0, 1) : Pair) ∈ res := (hres2 _).mpr ⟨1, by omega, rfl⟩
    have := List.inj_on_of_nodup_map hnd h0 h1 rfl
    cases this
  · simp only
    rw [hall]
    refine ⟨?_, Or.inl rfl⟩
    have h0 : (0 : Nat) ∈ (res.map Prod.fst).eraseDups :=
      List.mem_eraseDups.mpr (List.mem_map.mpr ⟨(0, 0), (hres2 _).mpr ⟨0, by omega, rfl⟩, rfl⟩)
    exact List.length_pos_of_mem h0

/-! ### After writing the meta data and loading it again -/

/-- The vector given to the reader: persisted separately for vector-based meta data. -/
def persisted : Data → Option (List Full)
  | .sparse _ => none
  | .dense _ vec => some vec

/-- C26, C27: all scans give the same results after the meta data has been appended to the permutation's file and read back, with any
name, any statistics and any iteration order of the hash maps. -/
theorem scans_after_reload (lg : Nat → Nat → Nat) (n : Nat) (T : List Triple) (hne : T ≠ []) (hn : n ≤ MAX_ID)
    (hT : ∀ t ∈ T, t.s < n ∧ t.p < n ∧ t.o < n) (hlen : T.length ≤ MAX_NOF_ELEMENTS) :
    ∃ idx, createIndex lg n T = .ok (some idx) ∧ ∀ name (s' : Index), Reordered (idx name).md s' → s'.name.length < 2 ^ 64 →
      s'.totalElements < 2 ^ 64 → s'.totalBytes < 2 ^ 64 → s'.totalBlocks < 2 ^ 64 →
      ∃ file t, s'.appendToFile (idx name).file = .ok file ∧ Index.readFromFile (persisted (idx name).md.data) file = .ok t ∧
        ∀ key, ValidKey n name key → scan ⟨file, t⟩ key = scan (idx name) key ∧ ∀ k2, scan2 ⟨file, t⟩ key k2 = scan2 (idx name) key k2 := by
  obtain ⟨idx, h1, h2⟩ := createIndex_built lg n T hne hn hT hlen
  refine ⟨idx, h1, fun name s' hre hf1 hf2 hf3 hf4 => ?_⟩
  obtain ⟨hfl, D, adds, hg, hD⟩ := h2 name
  have hcnt := hg.cnt
  have hsz := hg.size
  have hbs := hg.bsize
  have hM : MAX_ID = 2 ^ 64 - 1 := rfl
  have hre' := hre
  obtain ⟨hre1, hre2, hre3⟩ := hre'
  have hfits : s'.Fits := by
    refine ⟨hf1, ?_, by rw [hre3, hg.off]; exact hfl, by rw [hre2.length_eq]; omega, hf2, hf3, hf4⟩
    cases hd : (idx name).md.data with
    | sparse m =>
      cases hd' : s'.data with
      | dense _ _ => rw [hd, hd'] at hre1; exact absurd hre1 id
      | sparse m' =>
        rw [hd, hd'] at hre1
        have hp : m'.Perm m := hre1
        rw [hd] at hsz
        simp only [Data.size] at *
        rw [hp.length_eq]; omega
    | dense a v =>
      cases hd' : s'.data with
      | sparse _ => rw [hd, hd'] at hre1; exact absurd hre1 id
      | dense a' v' =>
        rw [hd, hd'] at hre1
        rw [hd] at hsz
        simp only [Data.size] at *
        omega
  have finish : ∀ file t, file.take (idx name).file.length = (idx name).file →
      (∀ key, InRange (kind n name) key → t.data.exists key = .ok (last adds key).isSome ∧ t.getRmd key = lookupSpec adds key) →
      ∀ key, ValidKey n name key → scan ⟨file, t⟩ key = scan (idx name) key ∧ ∀ k2, scan2 ⟨file, t⟩ key k2 = scan2 (idx name) key k2 := by
    intro file t hfile hlook
    have hfe : file = (idx name).file ++ file.drop (idx name).file.length := by
      conv => lhs; rw [← List.take_append_drop (idx name).file.length file]
      rw [hfile]
    have hserves : Serves (kind n name) ⟨file, t⟩ D := by
      intro k hk
      obtain ⟨g1, g2⟩ := hlook k hk
      cases hl : last adds k with
      | none => left; exact ⟨by show t.data.exists k = _; rw [g1, hl]; rfl, hg.absent k hl⟩
      | some a =>
        right
        refine ⟨by show t.data.exists k = _; rw [g1, hl]; rfl, _, by show t.getRmd k = _; rw [g2]; unfold lookupSpec; rw [hl], ?_⟩
        show RelIn file _ _
        rw [hfe]
        exact (hg.present k a hl).mono _
    intro key hk
    have hr := inRange_of_valid hk
    obtain ⟨a1, a2⟩ := hserves.scan key hr
    obtain ⟨b1, b2⟩ := hg.serves.scan key hr
    exact ⟨a1.trans b1.symm, fun k2 => (a2 k2).trans (b2 k2).symm⟩
  have hs := hg.shape
  cases hd : (idx name).md.data with
  | sparse m =>
    obtain ⟨out, o1, o2, t, o3, _, _, _, _, _, o4⟩ := sparse_reload_of_inv hg.inv hd (fun a ha => ⟨(hg.wf a ha).1, (hg.wf a ha).2.1⟩)
      (idx name).file hfl s' hre hfits
    exact ⟨out, t, o1, o3, finish out t o2 fun key _ => o4 key⟩
  | dense sz vec =>
    rw [hd] at hs
    cases hkd : kind n name with
    | none => rw [hkd] at hs; exact absurd hs id
    | some n' =>
      rw [hkd] at hs
      have hs' : vec.length = n' := hs
      obtain ⟨out, o1, o2, t, o3, _, _, _, _, _, _, o4⟩ := dense_reload_of_inv hg.inv hd hs'
        (fun a ha => ⟨(hg.wf a ha).1, (hg.wf a ha).2.1⟩) (fun a ha => (hg.wf a ha).2.2 n' hkd) (idx name).file hfl s' hre hfits
      exact ⟨out, t, o1, o3, finish out t o2 fun key hk => o4 key (hk n' hkd)⟩

end Verif.Permutation
