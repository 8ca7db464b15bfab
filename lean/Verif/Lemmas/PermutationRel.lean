import Verif.Lemmas.PermutationScan
import Verif.Lemmas.IndexMetaData
import Verif.Spec.Permutation
/-
Lemmas about one relation as a whole: what `writeRel` leaves in the file is what the scans expect.
-/
namespace Verif.Permutation
open Verif.Bytes Verif.MetaData Verif.MetaDataSpec Verif.PermutationSpec

/-- What the scans need to know about a relation. -/
structure RelIn (file : List Nat) (rmd : Full × Option Blocks) (data : List Pair) : Prop where
  ne : data ≠ []
  nof : rmd.1.nofElements = data.length
  pairs : ∃ pre post, file = pre ++ pairBytes data ++ post ∧ rmd.1.start = pre.length
  sorted : data.Pairwise fun a b => a.1 ≤ b.1
  ids : ∀ x ∈ data, x.1 < 2 ^ 64 ∧ x.2 < 2 ^ 64
  some_iff : rmd.2.isSome ↔ Blocked data
  blocks : ∀ b, rmd.2 = some b → rmd.1.isFunctional = false ∧ ∃ pre L, Stored file pre L data b

theorem Stored.mono {file pre : List Nat} {L data : List Pair} {b : Blocks} (h : Stored file pre L data b) (tail : List Nat) :
    Stored (file ++ tail) pre L data b := by
  obtain ⟨⟨post, hf⟩, h2, h3, h4, h5, h6, h7⟩ := h
  exact ⟨⟨post ++ tail, by rw [hf]; simp only [List.append_assoc]⟩, h2, h3, h4, h5, h6, h7⟩

theorem RelIn.mono {file : List Nat} {rmd : Full × Option Blocks} {data : List Pair} (h : RelIn file rmd data) (tail : List Nat) :
    RelIn (file ++ tail) rmd data := by
  obtain ⟨h0, h1, ⟨pre, post, hf, hs⟩, h3, h4, h5, h6⟩ := h
  refine ⟨h0, h1, ⟨pre, post ++ tail, by rw [hf]; simp only [List.append_assoc], hs⟩, h3, h4, h5, fun b hb => ?_⟩
  obtain ⟨g1, pre', L, g2⟩ := h6 b hb
  exact ⟨g1, pre', L, g2.mono tail⟩

theorem RelIn.read {file : List Nat} {rmd : Full × Option Blocks} {data : List Pair} (h : RelIn file rmd data) :
    ∃ bytes, fileRead file rmd.1.start (rmd.1.nofElements * 2 * 8) = .ok bytes ∧ toPairs rmd.1.nofElements bytes = data := by
  obtain ⟨_, h1, ⟨pre, post, hf, hs⟩, _, h4, _, _⟩ := h
  refine ⟨pairBytes data, fileRead_mid _ pre (pairBytes data) post _ _ hf hs (by rw [h1, length_pairBytes]; omega), ?_⟩
  have := toPairs_pairBytes data h4 []
  rw [List.append_nil] at this
  rw [h1, this]

/-- Number of distinct values. -/
theorem length_eq_of_same {a b : List Nat} (ha : a.Nodup) (hb : b.Nodup) (h : ∀ x, x ∈ a ↔ x ∈ b) : a.length = b.length :=
  ((List.perm_ext_iff_of_nodup ha hb).mpr h).length_eq

theorem nodup_eraseDups' (l : List Nat) : l.eraseDups.Nodup := by
  have : ∀ n (l : List Nat), l.length ≤ n → l.eraseDups.Nodup := by
    intro n
    induction n with
    | zero => intro l h; rw [List.length_eq_zero_iff.mp (by omega : l.length = 0)]; simp
    | succ n ih =>
      intro l h
      cases l with
      | nil => simp
      | cons a l =>
        rw [List.eraseDups_cons, List.nodup_cons]
        rw [List.length_cons] at h
        refine ⟨?_, ih _ (by have := List.length_filter_le (fun b => !b == a) l; omega)⟩
        rw [List.mem_eraseDups, List.mem_filter]
        simp
  exact this l.length l (Nat.le_refl _)

/-- Looking up a second key. -/
theorem RelIn.lookup {file : List Nat} {rmd : Full × Option Blocks} {data : List Pair} (h : RelIn file rmd data) (k2 : Nat) :
    (match rmd.2 with
      | some b =>
        (blockFor b k2).bind fun blockOff =>
        if rmd.1.isFunctional then scanFunctionalRelation file blockOff k2
        else
          (followBlockFor b k2).bind fun block2 => scanNonFunctionalRelation file blockOff block2 k2 b.offsetAfter
      | none =>
        (fileRead file rmd.1.start (rmd.1.nofElements * 2 * 8)).bind fun bytes =>
        getRhsForSingleLhs (toPairs rmd.1.nofElements bytes) k2) =
    (open Classical in if Gap data k2 then .ub else .ok ((data.filter fun x => decide (x.1 = k2)).map Prod.snd)) := by
  have hread := h.read
  obtain ⟨hne, h1, hp, hs, h4, h5, h6⟩ := h
  cases hb : rmd.2 with
  | none =>
    have hnb : ¬ Blocked data := fun hc => by have := h5.mpr hc; rw [hb] at this; exact absurd this (by simp)
    rw [if_neg fun hc => hnb hc.1]
    simp only
    obtain ⟨bytes, hr1, hr2⟩ := hread
    rw [hr1]
    simp only [Outcome.bind]
    rw [hr2]
    unfold getRhsForSingleLhs
    have hpart : Filter.Part (fun e : Pair => decide (e.1 < k2)) data := by
      refine List.Pairwise.imp ?_ hs
      intro a b hab; simp only [decide_eq_true_eq]; omega
    rw [Filter.partitionPoint_ok hpart]
    simp only [Outcome.bind]
    obtain ⟨_, hd⟩ := Filter.part_filter hpart
    rw [hd]
    refine congrArg Outcome.ok (congrArg (List.map Prod.snd) ?_)
    have hpart2 : Filter.Part (fun x : Pair => decide (x.1 = k2)) (data.filter fun x => !decide (x.1 < k2)) := by
      have : (data.filter fun x => !decide (x.1 < k2)).Pairwise fun a b => a.1 ≤ b.1 := hs.sublist List.filter_sublist
      refine List.Pairwise.imp_of_mem ?_ this
      intro a b ha _ hab h
      have := (List.mem_filter.mp ha).2
      simp only [decide_eq_true_eq, Bool.not_eq_true', decide_eq_false_iff_not] at *
      omega
    obtain ⟨ht, _⟩ := Filter.part_filter hpart2
    have htw : ∀ (l : List Pair) (p : Pair → Bool), l.take (l.takeWhile p).length = l.takeWhile p := by
      intro l p
      have h := List.take_left' (l₁ := l.takeWhile p) (l₂ := l.dropWhile p) rfl
      rwa [List.takeWhile_append_dropWhile] at h
    rw [htw] at ht
    rw [ht, List.filter_filter]
    apply List.filter_congr
    intro x _
    by_cases h : x.1 = k2 <;> simp [h]
  | some b =>
    obtain ⟨hfun, pre, L, hst⟩ := h6 b hb
    have hbl : Blocked data := h5.mp (by rw [hb]; rfl)
    simp only [hfun, Bool.false_eq_true, if_false]
    have hD : (L.map Prod.fst).Pairwise (· < ·) := List.pairwise_map.mpr hst.hL
    have hDn : (L.map Prod.fst).Nodup := hD.imp fun h => Nat.ne_of_lt h
    have hDm : ∀ x, x ∈ L.map Prod.fst ↔ x ∈ data.map Prod.fst := by
      intro x
      rw [List.mem_map, List.mem_map]
      constructor
      · rintro ⟨e, he, rfl⟩
        obtain ⟨y, hy, hy1⟩ := ((hst.hmem e.1 e.2).mp he).1
        exact ⟨y, hy, hy1⟩
      · rintro ⟨y, hy, rfl⟩
        exact ⟨_, (hst.hmem y.1 _).mpr ⟨⟨y, hy, rfl⟩, rfl⟩, rfl⟩
    have h0 : 0 < L.length := by
      cases data with
      | nil => exact absurd rfl hne
      | cons a data =>
        have := (hDm a.1).mpr (by simp)
        rw [← List.length_map (f := Prod.fst) (as := L)]
        exact List.length_pos_of_mem this
    have hpart : Filter.Part (fun e : Pair => decide (e.1 < k2)) L := by
      refine List.Pairwise.imp ?_ hst.hL
      intro a b hab; simp only [decide_eq_true_eq]; omega
    obtain ⟨k, _, hk, hlt⟩ := partitionPoint_spec hpart
    rw [scanBlocks_spec hst h0 k2 k hk fun i hi => by rw [hlt i hi, decide_eq_true_eq]]
    -- the number of smaller left hand sides
    have hcount : ((data.map Prod.fst).filter fun x => decide (x < k2)).eraseDups.length = k := by
      have e1 : (L.map Prod.fst).filter (fun x => decide (x < k2)) = (L.take k).map Prod.fst := by
        rw [List.filter_map]
        congr 1
        have hpp := Filter.part_filter hpart
        have hkk : (L.takeWhile fun e => decide (e.1 < k2)).length = k := by
          have h1 := Filter.partitionPoint_ok hpart
          have h2 := partitionPoint_spec hpart
          rcases Nat.lt_trichotomy (L.takeWhile fun e => decide (e.1 < k2)).length k with g | g | g
          · exfalso
            have := (hlt _ (by omega : (L.takeWhile fun e => decide (e.1 < k2)).length < L.length)).mp g
            have h3 : L[(L.takeWhile fun e => decide (e.1 < k2)).length] ∈ L.drop (L.takeWhile fun e => decide (e.1 < k2)).length :=
              List.mem_drop_iff_getElem.mpr ⟨0, by omega, by simp⟩
            rw [hpp.2] at h3
            have h4 := (List.mem_filter.mp h3).2
            rw [this] at h4; simp at h4
          · exact g
          · exfalso
            have hkl : k < L.length := Nat.lt_of_lt_of_le g (Filter.takeWhile_length_le _)
            have h3 : L[k] ∈ L.take (L.takeWhile fun e => decide (e.1 < k2)).length :=
              List.mem_take_iff_getElem.mpr ⟨k, by omega, rfl⟩
            rw [hpp.1] at h3
            have := (hlt k hkl).mpr (List.mem_filter.mp h3).2
            omega
        rw [← hkk]
        exact hpp.1.symm
      have e2 : ((data.map Prod.fst).filter fun x => decide (x < k2)).eraseDups.length =
          ((L.map Prod.fst).filter fun x => decide (x < k2)).length := by
        apply length_eq_of_same (nodup_eraseDups' _) (hDn.sublist List.filter_sublist)
        intro x
        rw [List.mem_eraseDups, List.mem_filter, List.mem_filter, hDm]
      rw [e2, e1, List.length_map, List.length_take, Nat.min_eq_left hk]
    have htotal : (data.map Prod.fst).eraseDups.length = L.length := by
      rw [← List.length_map (f := Prod.fst) (as := L)]
      apply length_eq_of_same (nodup_eraseDups' _) hDn
      intro x
      rw [List.mem_eraseDups, hDm]
    have hiff : ((¬ ∃ x ∈ data, x.1 = k2) ∧ 0 < k ∧ (k = L.length ∨ k % DISTINCT_LHS_PER_BLOCK = 0)) ↔ Gap data k2 := by
      unfold Gap
      simp only [hcount, htotal]
      have : (k2 ∉ data.map Prod.fst) ↔ ¬ ∃ x ∈ data, x.1 = k2 := by rw [List.mem_map]
      rw [this]
      exact ⟨fun h => ⟨hbl, h⟩, fun h => h.2⟩
    by_cases hg : Gap data k2
    · rw [if_pos hg, if_pos (hiff.mpr hg)]
    · rw [if_neg hg, if_neg fun hc => hg (hiff.mp hc)]

/-! ### `writeRel` -/

theorem lhsList_length (data : List Pair) (i last : Nat) : (lhsList data i last).length ≤ data.length := by
  induction data generalizing i last with
  | nil => exact Nat.le_refl _
  | cons a data ih =>
    unfold lhsList
    split
    · simpa using ih _ _
    · have := ih (i + 1) last; rw [List.length_cons]; omega

theorem makeBlocks_wf (s : Nat) (L : List Pair) (hL : ∀ e ∈ L, e.1 < 2 ^ 64) : ∀ b ∈ makeBlocks s L, b.firstLhs < 2 ^ 64 ∧ b.startOffset < 2 ^ 64 := by
  intro b hb
  unfold makeBlocks at hb
  obtain ⟨e, he, hb⟩ := List.mem_filterMap.mp hb
  split at hb
  · injection hb with hb
    subst hb
    have : e.1 ∈ L := by
      have := List.mem_zipIdx' he
      rw [this.2]; exact List.getElem_mem _
    exact ⟨hL _ this, Nat.mod_lt _ (by decide)⟩
  · cases hb

theorem makeBlocks_length (s : Nat) (L : List Pair) : (makeBlocks s L).length ≤ L.length := by
  unfold makeBlocks
  refine Nat.le_trans (List.length_filterMap_le _ _) ?_
  rw [List.length_zipIdx]

/-- Writing a relation at the end of a file. -/
theorem writeRel_spec (lg : Nat → Nat → Nat) (out : List Nat) (relId : Nat) (data : List Pair) (distinct : Nat) (functional : Bool)
    (hne : data ≠ []) (hrel : relId < 2 ^ 64) (hn : data.length ≤ MAX_NOF_ELEMENTS) (hfit : out.length + 40 * data.length < 2 ^ 64)
    (hsort : data.Pairwise fun a b => a.1 ≤ b.1) (hid : ∀ x ∈ data, x.1 < MAX_ID ∧ x.2 < MAX_ID)
    (hfun : functional = true ↔ (data.map Prod.fst).Nodup) :
    ∃ tail f b, writeRel lg out out.length relId data distinct functional = .ok (out ++ tail, f, b) ∧ f.relId = relId ∧ f.WF ∧ b.WF ∧
      RelIn (out ++ tail) (f, if f.hasBlocks then some b else none) data ∧ expectedAfter (f, b) = (out ++ tail).length ∧
      16 * data.length ≤ tail.length ∧ tail.length ≤ 40 * data.length := by
  have hmax : MAX_NOF_ELEMENTS = 2 ^ 40 - 1 := by decide
  have hM : MAX_ID = 2 ^ 64 - 1 := rfl
  have hlen : 0 < data.length := List.length_pos_iff.mpr hne
  have hid' : ∀ x ∈ data, x.1 < 2 ^ 64 ∧ x.2 < 2 ^ 64 := fun x hx => ⟨by have := (hid x hx).1; omega, by have := (hid x hx).2; omega⟩
  unfold writeRel
  rw [if_pos hlen]
  simp only
  generalize (if functional = true then 0 else lg data.length distinct) = m1
  generalize hhb : (!functional && decide (data.length > USE_BLOCKS_INDEX_SIZE_TRESHOLD)) = hb
  have hflds := mk'_fields relId out.length data.length m1 5 functional hb (by omega)
  have hids := mk'_ids relId out.length data.length m1 5 functional hb
  have hwlt := mk'_lt relId out.length data.length m1 5 functional hb (by omega)
  have hmod : data.length % 2 ^ 40 = data.length := Nat.mod_eq_of_lt (by omega)
  generalize Full.mk' relId out.length data.length m1 5 functional hb = f at hflds hids hwlt
  unfold fieldsOf at hflds
  rw [hmod] at hflds
  injection hflds with fnof fc1 fc2 ffun fhb
  have hwf : f.WF := ⟨by rw [hids.1]; exact hrel, by rw [hids.2]; omega, hwlt⟩
  have hblk : hb = true ↔ Blocked data := by
    rw [← hhb]
    have : USE_BLOCKS_INDEX_SIZE_TRESHOLD = 20000 := rfl
    rw [this]
    unfold Blocked
    rw [← hfun]
    cases functional <;> simp
  have hnofB : f.nofBytes = 16 * data.length := by unfold Full.nofBytes; rw [fnof]; omega
  cases hfn : functional with
  | true =>
    have hbf : hb = false := by rw [← hhb, hfn]; rfl
    rw [if_pos rfl]
    refine ⟨pairBytes data, f, Blocks.default, ?_, hids.1, hwf, ?_, ?_, ?_, ?_, ?_⟩
    · unfold writeFunctionalRelation
      rw [fhb, hbf]; rfl
    · unfold Blocks.WF Blocks.default; simp
    · refine ⟨hne, fnof, ⟨out, [], by simp, hids.2⟩, hsort, hid', ?_, ?_⟩
      · rw [← hblk, fhb, hbf]; simp
      · rw [fhb, hbf]; intro b h; simp at h
    · unfold expectedAfter
      rw [fhb, hbf, hids.2, hnofB]
      simp only [Bool.false_eq_true, if_false, List.length_append, length_pairBytes]
      omega
    · rw [length_pairBytes]
    · rw [length_pairBytes]; omega
  | false =>
    rw [if_neg (by simp)]
    unfold writeNonFunctionalRelation
    rw [fhb]
    cases hbc : hb with
    | false =>
      simp only [Bool.false_eq_true, if_false, Outcome.bind]
      refine ⟨pairBytes data, f, Blocks.default, by simp, hids.1, hwf, ?_, ?_, ?_, ?_, ?_⟩
      · unfold Blocks.WF Blocks.default; simp
      · refine ⟨hne, fnof, ⟨out, [], by simp, hids.2⟩, hsort, hid', ?_, ?_⟩
        · rw [← hblk, fhb, hbc]; simp
        · rw [fhb, hbc]; intro b h; simp at h
      · unfold expectedAfter
        rw [fhb, hbc, hids.2, hnofB]
        simp only [Bool.false_eq_true, if_false, List.length_append, length_pairBytes]
        omega
      · rw [length_pairBytes]
      · rw [length_pairBytes]; omega
    | true =>
      simp only [if_true]
      have hstart : f.startOfLhs = .ok (out.length + 16 * data.length) := by
        unfold Full.startOfLhs
        rw [fhb, hbc, if_pos rfl, hids.2, fnof]
        congr 1; omega
      rw [hstart]
      simp only [Outcome.bind]
      have hLlen := lhsList_length data 0 MAX_ID
      obtain ⟨hLs, hLm⟩ := lhsList_start data hsort fun x hx => (hid x hx).1
      generalize lhsList data 0 MAX_ID = L0 at hLlen hLs hLm
      have hsr : (out.length + 16 * data.length + L0.length * (8 + 8)) % 2 ^ 64 = out.length + 16 * data.length + 16 * L0.length := by omega
      rw [hsr]
      have hbelow : ∀ d, below data d ≤ data.length := fun d => List.length_filter_le _ _
      have hmapL : (L0.map fun e : Pair => (e.1, (e.2 + (out.length + 16 * data.length + 16 * L0.length)) % 2 ^ 64)) =
          L0.map fun e => (e.1, e.2 + (out.length + 16 * data.length + 16 * L0.length)) := by
        apply List.map_congr_left
        intro e he
        have := ((hLm e.1 e.2).mp he).2
        have hb' := hbelow e.1
        rw [Nat.mod_eq_of_lt (by omega)]
      rw [hmapL]
      obtain ⟨L, hLdef⟩ : ∃ L, L = L0.map fun e : Pair => (e.1, e.2 + (out.length + 16 * data.length + 16 * L0.length)) := ⟨_, rfl⟩
      rw [← hLdef]
      have hLL : L.length = L0.length := by rw [hLdef, List.length_map]
      have hLmem : ∀ d o, (d, o) ∈ L ↔ (∃ x ∈ data, x.1 = d) ∧ o = out.length + 16 * data.length + 16 * L.length + 8 * below data d := by
        intro d o
        rw [hLdef, List.mem_map, ← hLdef, hLL]
        constructor
        · rintro ⟨e, he, heq⟩
          injection heq with e1 e2
          obtain ⟨g1, g2⟩ := (hLm e.1 e.2).mp he
          rw [e1] at g1 g2
          exact ⟨g1, by omega⟩
        · rintro ⟨g1, g2⟩
          exact ⟨(d, 8 * below data d), (hLm _ _).mpr ⟨g1, rfl⟩, by rw [g2]; simp only [Prod.mk.injEq, true_and]; omega⟩
      have hst : Stored (out ++ (pairBytes data ++ (pairBytes L ++ ofArr 8 (data.map Prod.snd)))) (out ++ pairBytes data) L data
          ⟨out.length + 16 * data.length + 16 * L0.length, (out.length + 16 * data.length + 16 * L0.length + f.nofElements * 8) % 2 ^ 64,
            Blocks.default.blocks ++ makeBlocks (out.length + 16 * data.length) L⟩ := by
        have hpl : (out ++ pairBytes data).length = out.length + 16 * data.length := by rw [List.length_append, length_pairBytes]
        refine ⟨⟨[], by simp only [List.append_assoc, List.append_nil]⟩, ?_, ?_, ?_, ?_, hsort, hid'⟩
        · rw [hpl, hLL, fnof]
          congr 1
          omega
        · rw [hpl]; omega
        · rw [hLdef, List.pairwise_map]; exact hLs
        · intro d o; rw [hpl]; exact hLmem d o
      have hoff : (out.length + 16 * data.length + 16 * L0.length + f.nofElements * 8) % 2 ^ 64 =
          out.length + 16 * data.length + 16 * L0.length + 8 * data.length := by rw [fnof]; omega
      refine ⟨pairBytes data ++ (pairBytes L ++ ofArr 8 (data.map Prod.snd)), f,
        ⟨out.length + 16 * data.length + 16 * L0.length, (out.length + 16 * data.length + 16 * L0.length + f.nofElements * 8) % 2 ^ 64,
            Blocks.default.blocks ++ makeBlocks (out.length + 16 * data.length) L⟩, ?_, hids.1, hwf, ?_, ?_, ?_, ?_, ?_⟩
      · simp only [List.append_assoc]
      · rw [hoff]
        have hLid : ∀ e ∈ L, e.1 < 2 ^ 64 := by
          intro e he
          obtain ⟨⟨x, hx, hx1⟩, _⟩ := (hLmem e.1 e.2).mp he
          rw [← hx1]; exact (hid' x hx).1
        have h1 := makeBlocks_length (out.length + 16 * data.length) L
        refine ⟨by dsimp only; omega, by dsimp only; omega, ?_, ?_⟩
        · simp only [Blocks.default, List.nil_append]; omega
        · simpa only [Blocks.default, List.nil_append] using makeBlocks_wf _ L hLid
      · refine ⟨hne, fnof, ⟨out, pairBytes L ++ ofArr 8 (data.map Prod.snd), by simp only [List.append_assoc], hids.2⟩, hsort, hid', ?_, ?_⟩
        · rw [← hblk, fhb, hbc]; simp
        · rw [fhb, hbc]
          intro b hb
          injection hb with hb
          subst hb
          exact ⟨by rw [ffun, hfn], _, L, hst⟩
      · unfold expectedAfter
        rw [fhb, hbc]
        simp only [if_true]
        rw [hoff]
        simp only [List.length_append, length_pairBytes, length_ofArr, List.length_map]
        omega
      · simp only [List.length_append, length_pairBytes, length_ofArr, List.length_map]; omega
      · simp only [List.length_append, length_pairBytes, length_ofArr, List.length_map]; omega

end Verif.Permutation
