import Verif.Lemmas.Permutation
/-
Lemmas about the block index of a relation.
-/
namespace Verif.Permutation
open Verif.Bytes Verif.MetaData

theorem B_pos : 0 < DISTINCT_LHS_PER_BLOCK := by decide

attribute [local irreducible] DISTINCT_LHS_PER_BLOCK
local notation "B" => DISTINCT_LHS_PER_BLOCK

theorem mod_between {n q k : Nat} (hn : 0 < n) (h1 : q * n ≤ k) (h2 : k ≤ q * n + n) (h : k % n = 0) : k = q * n ∨ k = q * n + n := by
  obtain ⟨c, rfl⟩ := Nat.dvd_of_mod_eq_zero h
  rw [Nat.mul_comm n c] at *
  have h3 : q ≤ c := Nat.le_of_mul_le_mul_right h1 hn
  have h4 : c ≤ q + 1 := Nat.le_of_mul_le_mul_right (by rw [Nat.succ_mul]; exact h2) hn
  rcases Nat.lt_or_ge q c with h5 | h5
  · right; rw [show c = q + 1 by omega, Nat.succ_mul]
  · left; rw [show c = q by omega]

theorem makeBlocks_get (s : Nat) (L : List Pair) (hs : s + 16 * L.length < 2 ^ 64) (j : Nat) :
    (makeBlocks s L)[j]? = L[j * B]?.map fun e => (⟨e.1, s + 16 * (j * B)⟩ : Block) := by
  unfold makeBlocks
  have := every_get B B_pos (fun (e : Pair) i => (⟨e.1, (s + i * 16) % 2 ^ 64⟩ : Block)) L.length L 0 (Nat.le_refl _) (Nat.zero_mod _) j
  rw [this]
  by_cases h : j * B < L.length
  · rw [List.getElem?_eq_getElem h, Option.map_some, Option.map_some, Nat.zero_add, Nat.mod_eq_of_lt (by omega), Nat.mul_comm _ 16]
  · rw [List.getElem?_eq_none (by omega)]; rfl

theorem makeBlocks_len (s : Nat) (L : List Pair) (hs : s + 16 * L.length < 2 ^ 64) (j : Nat) :
    j < (makeBlocks s L).length ↔ j * B < L.length := by
  have h := makeBlocks_get s L hs j
  constructor
  · intro hj
    rw [List.getElem?_eq_getElem hj] at h
    apply Classical.byContradiction; intro hn
    rw [List.getElem?_eq_none (by omega)] at h; simp at h
  · intro hj
    rw [List.getElem?_eq_getElem hj] at h
    apply Classical.byContradiction; intro hn
    rw [List.getElem?_eq_none (by omega)] at h; simp at h

theorem makeBlocks_getElem (s : Nat) (L : List Pair) (hs : s + 16 * L.length < 2 ^ 64) (j : Nat) (hj : j < (makeBlocks s L).length)
    (hj' : j * B < L.length) : (makeBlocks s L)[j] = ⟨L[j * B].1, s + 16 * (j * B)⟩ := by
  have h := makeBlocks_get s L hs j
  rw [List.getElem?_eq_getElem hj, List.getElem?_eq_getElem hj'] at h
  simpa using h

theorem lt_of_index {L : List Pair} (hL : L.Pairwise fun a b => a.1 < b.1) {i j : Nat} (hi : i < L.length) (hj : j < L.length)
    (h : i < j) : L[i].1 < L[j].1 := List.pairwise_iff_getElem.mp hL i j hi hj h

theorem index_lt {L : List Pair} (hL : L.Pairwise fun a b => a.1 < b.1) {i j : Nat} (hi : i < L.length) (hj : j < L.length)
    (h : L[i].1 < L[j].1) : i < j := by
  rcases Nat.lt_trichotomy i j with g | g | g
  · exact g
  · subst g; omega
  · have := lt_of_index hL hj hi g; omega

theorem findBlock_spec {s startRhs after : Nat} {L : List Pair} (hs : s + 16 * L.length < 2 ^ 64)
    (hL : L.Pairwise fun a b => a.1 < b.1) (h0 : 0 < L.length) (subj : Nat) :
    (subj < L[0].1 ∧ findBlock ⟨startRhs, after, makeBlocks s L⟩ subj = .ok (.inr (s, 0))) ∨
    ∃ q, ∃ hq : q * B < L.length, findBlock ⟨startRhs, after, makeBlocks s L⟩ subj = .ok (.inl q) ∧ L[q * B].1 ≤ subj ∧
      ∀ h : (q + 1) * B < L.length, subj < L[(q + 1) * B].1 := by
  have hlen := makeBlocks_len s L hs
  have hget := makeBlocks_getElem s L hs
  have hpart : Filter.Part (fun x : Block => decide (x.firstLhs < subj)) (makeBlocks s L) := by
    unfold Filter.Part
    rw [List.pairwise_iff_getElem]
    intro i j hi hj hij h
    have hi' := (hlen i).mp hi
    have hj' := (hlen j).mp hj
    rw [hget j hj hj'] at h
    rw [hget i hi hi']
    have := lt_of_index hL hi' hj' (Nat.mul_lt_mul_of_pos_right hij B_pos)
    simp only [decide_eq_true_eq] at *
    omega
  obtain ⟨it, h1, h2, h3⟩ := partitionPoint_spec hpart
  unfold findBlock
  simp only [h1, Outcome.bind]
  have hzero : (0 : Nat) < (makeBlocks s L).length := (hlen 0).mpr (by omega)
  -- stepping back
  have hback : (∀ h : it * B < L.length, subj < L[it * B].1) →
      (subj < L[0].1 ∧ (if it = 0 then (Outcome.read (makeBlocks s L) it).bind fun x => .ok (.inr (x.startOffset, 0)) else .ok (.inl (it - 1)) :
        Outcome (Nat ⊕ (Nat × Nat))) = .ok (.inr (s, 0))) ∨
      ∃ q, ∃ hq : q * B < L.length, (if it = 0 then (Outcome.read (makeBlocks s L) it).bind fun x => .ok (.inr (x.startOffset, 0)) else .ok (.inl (it - 1)) :
        Outcome (Nat ⊕ (Nat × Nat))) = .ok (.inl q) ∧ L[q * B].1 ≤ subj ∧
        ∀ h : (q + 1) * B < L.length, subj < L[(q + 1) * B].1 := by
    intro hnext
    by_cases hit : it = 0
    · left
      subst hit
      refine ⟨by simpa using hnext (by omega), ?_⟩
      rw [if_pos rfl, Outcome.read_lt _ _ hzero, hget 0 hzero (by omega)]
      simp only [Outcome.bind, Nat.zero_mul, Nat.mul_zero, Nat.add_zero]
    · right
      have hq : it - 1 < (makeBlocks s L).length := by omega
      have hq' := (hlen _).mp hq
      refine ⟨it - 1, hq', if_neg hit, ?_, ?_⟩
      · have := (h3 (it - 1) hq).mp (by omega)
        rw [hget _ hq hq'] at this
        simp only [decide_eq_true_eq] at this
        omega
      · intro h
        have e : it - 1 + 1 = it := by omega
        simp only [e] at h ⊢
        exact hnext h
  by_cases hend : it = (makeBlocks s L).length
  · rw [if_pos hend]
    apply hback
    intro h
    have := (hlen it).mpr h
    omega
  · rw [if_neg hend]
    have hit : it < (makeBlocks s L).length := by omega
    have hit' := (hlen it).mp hit
    have hrd : Outcome.read (makeBlocks s L) it = .ok ⟨L[it * B].1, s + 16 * (it * B)⟩ := by
      rw [Outcome.read_lt _ _ hit, hget it hit hit']
    rw [hrd] at hback ⊢
    simp only [Outcome.bind] at hback ⊢
    by_cases hgt : L[it * B].1 > subj
    · rw [if_pos hgt]
      exact hback fun _ => hgt
    · rw [if_neg hgt]
      right
      refine ⟨it, hit', rfl, by omega, fun h => ?_⟩
      have hn : ¬ (it < it) := Nat.lt_irrefl it
      rw [h3 it hit, hget it hit hit'] at hn
      simp only [decide_eq_true_eq] at hn
      have hlt : it * B < (it + 1) * B := Nat.mul_lt_mul_of_pos_right (Nat.lt_succ_self it) B_pos
      have := lt_of_index hL hit' h hlt
      omega

theorem blockRange_spec {s startRhs after : Nat} {L : List Pair} (hs : s + 16 * L.length < 2 ^ 64) (hr : startRhs = s + 16 * L.length)
    (q : Nat) (hq : q * B < L.length) :
    blockRange ⟨startRhs, after, makeBlocks s L⟩ q = .ok (s + 16 * (q * B), 16 * min B (L.length - q * B)) := by
  have hlen := makeBlocks_len s L hs
  have hget := makeBlocks_getElem s L hs
  have hq1 := (hlen q).mpr hq
  have hsucc : (q + 1) * B = q * B + B := Nat.succ_mul q B
  unfold blockRange
  simp only
  by_cases h : q + 1 = (makeBlocks s L).length
  · have hn : ¬ (q + 1) * B < L.length := by
      intro hc; have := (hlen (q + 1)).mpr hc; omega
    rw [if_neg (by simpa using h), Outcome.read_lt _ _ hq1, hget q hq1 hq]
    simp only [Outcome.bind]
    refine congrArg Outcome.ok (Prod.ext rfl ?_)
    simp only
    omega
  · have h1 : q + 1 < (makeBlocks s L).length := by omega
    have h1' := (hlen (q + 1)).mp h1
    rw [if_pos (by simpa using h), Outcome.read_lt _ _ hq1, Outcome.read_lt _ _ h1, hget q hq1 hq, hget _ h1 h1']
    simp only [Outcome.bind]
    refine congrArg Outcome.ok (Prod.ext rfl ?_)
    simp only
    omega

/-- The number of rows up to the next entry of the list of left hand sides. -/
theorem below_next {data : List Pair} {L : List Pair} (hL : L.Pairwise fun a b => a.1 < b.1)
    (hmem : ∀ x ∈ data, ∃ o, (x.1, o) ∈ L) {k : Nat} (hk : k < L.length) :
    (∀ h : k + 1 < L.length, below data L[k + 1].1 = below data L[k].1 + (data.filter fun x => decide (x.1 = L[k].1)).length) ∧
    (k + 1 = L.length → data.length = below data L[k].1 + (data.filter fun x => decide (x.1 = L[k].1)).length) := by
  have key : ∀ (p : Pair → Bool) (l : List Pair), (∀ x ∈ l, p x = true ↔ x.1 ≤ L[k].1) →
      (l.filter p).length = (l.filter fun x => decide (x.1 < L[k].1)).length + (l.filter fun x => decide (x.1 = L[k].1)).length := by
    intro p l hp
    induction l with
    | nil => rfl
    | cons a l ih =>
      have := ih fun x hx => hp x (by simp [hx])
      have ha := hp a (by simp)
      rw [List.filter_cons, List.filter_cons, List.filter_cons]
      by_cases h1 : a.1 < L[k].1
      · have h2 : ¬ a.1 = L[k].1 := by omega
        have h3 : p a = true := ha.mpr (by omega)
        simp only [h1, h2, h3, decide_true, decide_false, if_true, Bool.false_eq_true, if_false, List.length_cons]; omega
      · by_cases h2 : a.1 = L[k].1
        · have h3 : p a = true := ha.mpr (by omega)
          simp only [h2, h3, decide_true, Nat.lt_irrefl, decide_false, if_true, Bool.false_eq_true, if_false, List.length_cons]; omega
        · have h3 : ¬ p a = true := fun h => by have := ha.mp h; omega
          simp only [h1, h2, h3, decide_false, Bool.false_eq_true, if_false]; omega
  constructor
  · intro h
    apply key
    intro x hx
    obtain ⟨o, ho⟩ := hmem x hx
    obtain ⟨i, hi, hio⟩ := List.getElem_of_mem ho
    have hxi : L[i].1 = x.1 := by rw [hio]
    simp only [decide_eq_true_eq]
    rw [← hxi]
    constructor
    · intro g
      have := index_lt hL hi h g
      rcases Nat.lt_or_ge i k with g' | g'
      · have := lt_of_index hL hi hk g'; omega
      · have : i = k := by omega
        subst this; omega
    · intro g
      have := lt_of_index hL hk h (by omega)
      omega
  · intro h
    have := key (fun _ => true) data (fun x hx => by
      obtain ⟨o, ho⟩ := hmem x hx
      obtain ⟨i, hi, hio⟩ := List.getElem_of_mem ho
      have hxi : L[i].1 = x.1 := by rw [hio]
      simp only [true_iff]
      rw [← hxi]
      rcases Nat.lt_or_ge i k with g' | g'
      · have := lt_of_index hL hi hk g'; omega
      · have : i = k := by omega
        subst this; omega)
    rw [List.filter_eq_self.mpr (by simp)] at this
    exact this

/-- The rows with one left hand side are contiguous. -/
theorem slice_eq {data : List Pair} (hs : data.Pairwise fun a b => a.1 ≤ b.1) (d : Nat) :
    (data.drop (below data d)).take (data.filter fun x => decide (x.1 = d)).length = data.filter fun x => decide (x.1 = d) := by
  have hp : Filter.Part (fun x : Pair => decide (x.1 < d)) data := by
    refine List.Pairwise.imp ?_ hs
    intro a b hab; simp only [decide_eq_true_eq]; omega
  obtain ⟨h1, h2⟩ := Filter.part_filter hp
  have hb : below data d = (data.takeWhile fun x => decide (x.1 < d)).length := by
    unfold below; rw [← h1, List.length_take, Nat.min_eq_left (Filter.takeWhile_length_le _)]
  rw [hb, h2]
  have hp2 : Filter.Part (fun x : Pair => decide (x.1 = d)) (data.filter fun x => !decide (x.1 < d)) := by
    have : (data.filter fun x => !decide (x.1 < d)).Pairwise fun a b => a.1 ≤ b.1 := hs.sublist List.filter_sublist
    refine List.Pairwise.imp_of_mem ?_ this
    intro a b ha _ hab h
    have := (List.mem_filter.mp ha).2
    simp only [decide_eq_true_eq, Bool.not_eq_true', decide_eq_false_iff_not] at *
    omega
  obtain ⟨h3, _⟩ := Filter.part_filter hp2
  have h4 : ((data.filter fun x => !decide (x.1 < d)).filter fun x => decide (x.1 = d)) = data.filter fun x => decide (x.1 = d) := by
    rw [List.filter_filter]
    apply List.filter_congr
    intro x _
    by_cases h : x.1 = d
    · simp [h]
    · simp [h]
  rw [h4] at h3
  have h5 : (data.filter fun x => decide (x.1 = d)).length = ((data.filter fun x => !decide (x.1 < d)).takeWhile fun x => decide (x.1 = d)).length := by
    rw [← h3, List.length_take, Nat.min_eq_left (Filter.takeWhile_length_le _)]
  rw [h5]; exact h3

/-- A relation stored with a block index, at the position `pre.length` of the list of left hand sides. -/
structure Stored (file pre : List Nat) (L data : List Pair) (b : Blocks) : Prop where
  hfile : ∃ post, file = pre ++ pairBytes L ++ (ofArr 8 (data.map Prod.snd) ++ post)
  hb : b = ⟨pre.length + 16 * L.length, pre.length + 16 * L.length + 8 * data.length, makeBlocks pre.length L⟩
  hfit : pre.length + 16 * L.length + 8 * data.length < 2 ^ 64
  hL : L.Pairwise fun a b => a.1 < b.1
  hmem : ∀ d o, (d, o) ∈ L ↔ (∃ x ∈ data, x.1 = d) ∧ o = pre.length + 16 * L.length + 8 * below data d
  hsort : data.Pairwise fun a b => a.1 ≤ b.1
  hid : ∀ x ∈ data, x.1 < 2 ^ 64 ∧ x.2 < 2 ^ 64

/-- Reading the right hand sides of the entry at index `k`. -/
theorem rhs_ok {file pre : List Nat} {L data : List Pair} {b : Blocks} (h : Stored file pre L data b) {k : Nat} (hk : k < L.length)
    {n : Nat} (hn : n = (if h : k + 1 < L.length then L[k + 1].2 else b.offsetAfter)) :
    let m := (n + 2 ^ 64 - L[k].2) % 2 ^ 64
    m % 8 = 0 ∧ ∃ bytes, fileRead file L[k].2 m = .ok bytes ∧
      toArr 8 (m / 8) bytes = (data.filter fun x => decide (x.1 = L[k].1)).map Prod.snd := by
  obtain ⟨⟨post, hfile⟩, hb, hfit, hL, hmem, hsort, hid⟩ := h
  have hk2 := ((hmem L[k].1 L[k].2).mp (List.getElem_mem hk)).2
  have hex : ∀ x ∈ data, ∃ o, (x.1, o) ∈ L := fun x hx => ⟨_, (hmem x.1 _).mpr ⟨⟨x, hx, rfl⟩, rfl⟩⟩
  obtain ⟨g1, g2⟩ := below_next hL hex hk
  have hle : below data L[k].1 + (data.filter fun x => decide (x.1 = L[k].1)).length ≤ data.length := by
    by_cases hc : k + 1 < L.length
    · rw [← g1 hc]; exact List.length_filter_le _ _
    · rw [← g2 (by omega)]
  have hm : (n + 2 ^ 64 - L[k].2) % 2 ^ 64 = 8 * (data.filter fun x => decide (x.1 = L[k].1)).length := by
    by_cases hc : k + 1 < L.length
    · rw [dif_pos hc] at hn
      have hk3 := ((hmem L[k + 1].1 L[k + 1].2).mp (List.getElem_mem hc)).2
      rw [g1 hc] at hk3
      rw [hn, hk3, hk2]; omega
    · rw [dif_neg hc, hb] at hn
      have := g2 (by omega)
      rw [hn, hk2]; simp only; omega
  simp only
  rw [hm]
  refine ⟨by omega, ?_⟩
  obtain ⟨bytes, hr1, hr2⟩ := readIds_slice (file := file) (pre := pre ++ pairBytes L) (post := post) (L := data.map Prod.snd)
    (fun e he => by obtain ⟨x, hx, rfl⟩ := List.mem_map.mp he; exact (hid x hx).2)
    (by rw [hfile]; simp only [List.append_assoc]) (below data L[k].1) (data.filter fun x => decide (x.1 = L[k].1)).length
    (by rw [List.length_map]; exact hle)
  refine ⟨bytes, ?_, ?_⟩
  · rw [← hr1, hk2]
    rw [List.length_append, length_pairBytes]
  · rw [show 8 * (data.filter fun x => decide (x.1 = L[k].1)).length / 8 = (data.filter fun x => decide (x.1 = L[k].1)).length by omega,
      hr2, ← List.map_drop, ← List.map_take, slice_eq hsort]

/-- Looking up a second key in a relation with a block index; `k` is the number of smaller left hand sides. -/
theorem scanBlocks_spec {file pre : List Nat} {L data : List Pair} {b : Blocks} (h : Stored file pre L data b) (h0 : 0 < L.length)
    (subj k : Nat) (hk : k ≤ L.length) (hlt : ∀ i (hi : i < L.length), i < k ↔ L[i].1 < subj) :
    ((blockFor b subj).bind fun bo => (followBlockFor b subj).bind fun fb =>
      scanNonFunctionalRelation file bo fb subj b.offsetAfter) =
    if (¬ ∃ x ∈ data, x.1 = subj) ∧ 0 < k ∧ (k = L.length ∨ k % B = 0) then .ub
    else .ok ((data.filter fun x => decide (x.1 = subj)).map Prod.snd) := by
  have hst := h
  obtain ⟨⟨post, hfile⟩, hb, hfit, hL, hmem, hsort, hid⟩ := h
  have hs : pre.length + 16 * L.length < 2 ^ 64 := by omega
  have hLid : ∀ e ∈ L, e.1 < 2 ^ 64 ∧ e.2 < 2 ^ 64 := by
    intro e he
    obtain ⟨⟨x, hx, hx1⟩, ho⟩ := (hmem e.1 e.2).mp he
    have : below data e.1 ≤ data.length := List.length_filter_le _ _
    exact ⟨by rw [← hx1]; exact (hid x hx).1, by omega⟩
  have hpres : (∃ x ∈ data, x.1 = subj) ↔ ∃ h : k < L.length, L[k].1 = subj := by
    constructor
    · rintro ⟨x, hx, hx1⟩
      have := (hmem subj _).mpr ⟨⟨x, hx, hx1⟩, rfl⟩
      obtain ⟨i, hi, hie⟩ := List.getElem_of_mem this
      have e : L[i].1 = subj := by rw [hie]
      have h1 : ¬ i < k := by rw [hlt i hi]; omega
      have h2 : ¬ k < i := by
        intro hc
        have h3 := lt_of_index hL (by omega : k < L.length) hi hc
        have := (hlt k (by omega)).mpr (by omega)
        omega
      have : i = k := by omega
      subst this
      exact ⟨hi, e⟩
    · rintro ⟨hk', e⟩
      have := ((hmem L[k].1 L[k].2).mp (List.getElem_mem hk')).1
      rw [e] at this; exact this
  have hnone : (¬ ∃ x ∈ data, x.1 = subj) → (data.filter fun x => decide (x.1 = subj)).map Prod.snd = [] := by
    intro hn
    rw [List.map_eq_nil_iff, List.filter_eq_nil_iff]
    intro x hx hc
    exact hn ⟨x, hx, by simpa using hc⟩
  unfold blockFor followBlockFor
  rw [hb]
  rcases findBlock_spec (startRhs := pre.length + 16 * L.length) (after := pre.length + 16 * L.length + 8 * data.length) hs hL h0 subj with
    ⟨hsm, hfb⟩ | ⟨q, hq, hfb, hle, hnext⟩
  · -- smaller than everything
    rw [hfb]
    simp only [Outcome.bind]
    have hk0 : k = 0 := by
      apply Classical.byContradiction; intro hc
      have := (hlt 0 h0).mp (by omega); omega
    unfold scanNonFunctionalRelation
    rw [if_pos rfl, if_neg (by omega), hnone]
    rw [hpres]
    rintro ⟨hk', e⟩
    subst hk0; omega
  · rw [hfb]
    simp only [Outcome.bind]
    rw [blockRange_spec hs rfl q hq]
    simp only
    have hsucc : (q + 1) * B = q * B + B := Nat.succ_mul q B
    have hBp := B_pos
    -- the follow block
    have hlen := makeBlocks_len pre.length L hs
    have hfol : ∃ fsz, blockRange ⟨pre.length + 16 * L.length, pre.length + 16 * L.length + 8 * data.length, makeBlocks pre.length L⟩
        (if q + 1 ≠ (makeBlocks pre.length L).length then q + 1 else q) =
        .ok (if (q + 1) * B < L.length then pre.length + 16 * ((q + 1) * B) else pre.length + 16 * (q * B), fsz) := by
      by_cases hc : (q + 1) * B < L.length
      · have h1 := (hlen (q + 1)).mpr hc
        rw [if_pos (by omega), if_pos hc]
        exact ⟨_, blockRange_spec hs rfl (q + 1) hc⟩
      · have h1 : ¬ q + 1 < (makeBlocks pre.length L).length := fun hx => hc ((hlen _).mp hx)
        have h2 := (hlen q).mpr hq
        rw [if_neg (by omega), if_neg hc]
        exact ⟨_, blockRange_spec hs rfl q hq⟩
    obtain ⟨fsz, hfol⟩ := hfol
    obtain ⟨fs, hfs⟩ : ∃ fs, fs = if (q + 1) * B < L.length then pre.length + 16 * ((q + 1) * B) else pre.length + 16 * (q * B) := ⟨_, rfl⟩
    rw [← hfs] at hfol
    rw [hfol]
    simp only
    unfold scanNonFunctionalRelation
    simp only
    rw [if_neg (by omega), readPairs_slice hLid hfile (q * B) (min B (L.length - q * B)) (by omega)]
    simp only [Outcome.bind]
    -- the block that was read
    have hblen : ((L.drop (q * B)).take (min B (L.length - q * B))).length = min B (L.length - q * B) := by
      rw [List.length_take, List.length_drop]; omega
    have hbget : ∀ i (hi : i < ((L.drop (q * B)).take (min B (L.length - q * B))).length),
        ((L.drop (q * B)).take (min B (L.length - q * B)))[i] = L[q * B + i]'(by rw [hblen] at hi; omega) := by
      intro i hi
      rw [List.getElem_take, List.getElem_drop]
    generalize (L.drop (q * B)).take (min B (L.length - q * B)) = block at hblen hbget
    have hpart : Filter.Part (fun e : Pair => decide (e.1 < subj)) block := by
      unfold Filter.Part
      rw [List.pairwise_iff_getElem]
      intro i j hi hj hij hc
      rw [hbget j hj] at hc
      rw [hbget i hi]
      rw [hblen] at hi hj
      have := lt_of_index hL (i := q * B + i) (j := q * B + j) (by omega) (by omega) (by omega)
      simp only [decide_eq_true_eq] at *
      omega
    obtain ⟨r, hr1, hr2, hr3⟩ := partitionPoint_spec hpart
    rw [hr1]
    simp only
    have hr3' : ∀ i, i < block.length → (i < r ↔ q * B + i < k) := by
      intro i hi
      have hi' : q * B + i < L.length := by rw [hblen] at hi; omega
      rw [hr3 i hi, hlt _ hi', hbget i hi, decide_eq_true_eq]
    -- k lies in the block or right behind it
    have hkq : q * B ≤ k := by
      apply Classical.byContradiction; intro hc
      by_cases hz : k < L.length
      · have h1 := (hlt k hz)
        have h2 := lt_of_index hL hz hq (by omega)
        have : ¬ k < k := by omega
        rw [h1] at this
        omega
      · omega
    have hknext : k ≤ q * B + block.length := by
      rw [hblen]
      by_cases hc : (q + 1) * B < L.length
      · have h1 := hnext hc
        have h2 : ¬ (q + 1) * B < k := by rw [hlt _ hc]; omega
        omega
      · omega
    have hrk : r = k - q * B := by
      rcases Nat.lt_trichotomy r (k - q * B) with g | g | g
      · have := (hr3' r (by omega)).mpr (by omega); omega
      · exact g
      · have := (hr3' (k - q * B) (by omega)).mp g; omega
    have hmod : k % B = 0 → k = q * B ∨ k = (q + 1) * B := by
      intro hc; rw [hsucc]; exact mod_between B_pos hkq (by rw [hblen] at hknext; omega) hc
    by_cases hin : r < block.length
    · rw [Outcome.read_lt _ _ hin, hbget r hin]
      simp only
      have hkL : k < L.length := by rw [hblen] at hin; omega
      have hidx : q * B + r = k := by omega
      simp only [hidx]
      by_cases he : L[k].1 = subj
      · have hp : ∃ x ∈ data, x.1 = subj := hpres.mpr ⟨hkL, he⟩
        rw [if_pos he, if_neg (fun hc => hc.1 hp)]
        -- number of bytes
        have hn : rhsBytes file (pre.length + 16 * (q * B), 16 * min B (L.length - q * B))
            (fs, fsz) (pre.length + 16 * L.length + 8 * data.length) block r L[k] =
            .ok (((if h : k + 1 < L.length then L[k + 1].2 else b.offsetAfter) + 2 ^ 64 - L[k].2) % 2 ^ 64) := by
          unfold rhsBytes
          by_cases hl : r + 1 = block.length
          · rw [if_neg (by simpa using hl)]
            simp only
            by_cases hc : (q + 1) * B < L.length
            · have hk1 : k + 1 = (q + 1) * B := by rw [hblen] at hl; omega
              rw [if_pos hc] at hfs
              rw [if_neg (by omega), hfs]
              have := readPairs_slice hLid hfile ((q + 1) * B) 1 (by omega)
              rw [Nat.mul_one] at this
              rw [this]
              simp only [Outcome.bind]
              have hone : (L.drop ((q + 1) * B)).take 1 = [L[(q + 1) * B]] := by
                rw [List.drop_eq_getElem_cons hc]; rfl
              rw [hone, Outcome.read_lt _ _ (by simp)]
              rw [dif_pos (by omega)]
              simp only [List.getElem_cons_zero, hk1]
            · have hk1 : k + 1 = L.length := by rw [hblen] at hl; omega
              rw [if_neg hc] at hfs
              rw [if_pos hfs, dif_neg (by omega), hb]
          · have hl' : r + 1 < block.length := by omega
            have hk1 : k + 1 < L.length := by rw [hblen] at hl'; omega
            rw [if_pos (by simpa using hl), Outcome.read_lt _ _ hl', hbget _ hl', dif_pos hk1]
            simp only [Outcome.bind]
            have : q * B + (r + 1) = k + 1 := by omega
            simp only [this]
        rw [hn]
        simp only
        obtain ⟨m1, bytes, m2, m3⟩ := rhs_ok hst hkL rfl
        rw [if_neg (by omega), m2]
        simp only
        rw [m3, he]
      · have hnp : ¬ ∃ x ∈ data, x.1 = subj := by rw [hpres]; rintro ⟨_, g⟩; exact he g
        rw [if_neg he, if_neg, hnone hnp]
        rintro ⟨_, hpos, hc | hc⟩
        · omega
        · rcases hmod hc with g | g
          · have h1 : L[k].1 ≤ subj := by
              have e : k = q * B := g
              subst e; exact hle
            have h2 : ¬ k < k := by omega
            rw [hlt k hkL] at h2
            omega
          · rw [hblen] at hin; omega
    · have hre : r = block.length := by omega
      have hnp : ¬ ∃ x ∈ data, x.1 = subj := by
        rw [hpres]; rintro ⟨hkL, g⟩
        rw [hblen] at hre
        have hk1 : k = (q + 1) * B := by omega
        have := hnext (by omega)
        subst hk1; omega
      rw [Outcome.read_ge _ _ (by omega), if_pos]
      refine ⟨hnp, ?_, ?_⟩
      · rw [hblen] at hre; omega
      · rw [hblen] at hre
        by_cases hc : (q + 1) * B < L.length
        · right; rw [show k = (q + 1) * B by omega]; exact Nat.mul_mod_left _ _
        · left; omega

end Verif.Permutation
