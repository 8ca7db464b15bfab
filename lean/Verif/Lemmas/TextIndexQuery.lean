import Verif.Lemmas.TextIndexLookup
/-
Lemmas about queries to the text index.
-/
namespace Verif.TextIndex
open Verif.PostingLists Verif.TextMetaData Verif.Spec.TextIndex

def toText (p : Posting) : Spec.Text.Posting := ⟨p.ctx, p.word, p.score⟩

/-- The postings of the words of a range. -/
def ranged (lo hi : Nat) (ps : List Posting) : List Posting := ps.filter fun p => decide (lo ≤ p.word ∧ p.word ≤ hi)

theorem ReadsAs.nil {file : List Nat} {c : CtxList} {ps : List Posting} {skip : Bool} (h : ReadsAs file c ps skip) :
    readCids file c = .ok (ps.map Posting.ctx) ∧
    (multiple c = true → readWids file c = .ok (ps.map Posting.word)) ∧
    (multiple c = false → readWids file c = .throw) ∧
    (ps ≠ [] → readScores file c = .ok (ps.map Posting.score)) := by
  refine ⟨?_, fun hm => ?_, fun hm => ?_, fun hne => ?_⟩
  · have := h.cids []; rwa [List.append_nil] at this
  · have := h.wids hm []; rwa [List.append_nil] at this
  · have := h.noWids hm []; rwa [List.append_nil] at this
  · have := h.scores hne []; rwa [List.append_nil] at this

theorem map_toText (ps : List Posting) : (ps.map toText).map (·.cid) = ps.map Posting.ctx ∧
    (ps.map toText).map (·.eid) = ps.map Posting.word ∧ (ps.map toText).map (·.score) = ps.map Posting.score := by
  simp only [List.map_map]
  exact ⟨rfl, rfl, rfl⟩

theorem readBlock_spec {file : List Nat} {b : TBlock} {g : List Tuple} (h : BlockOk file b g) {lo hi : Nat}
    (hle : lo ≤ hi) (h1 : b.firstWordId ≤ lo) (h2 : hi ≤ b.lastWordId) {fuel : Nat} (hf : (clOf g).length + 1 < fuel) :
    readBlock fuel file b lo hi = .ok ((ranged lo hi (clOf g)).map Posting.ctx, (ranged lo hi (clOf g)).map Posting.score) := by
  obtain ⟨⟨p1, q1, e1⟩, ⟨p2, q2, e2⟩, h3⟩ := h.range
  have hne : clOf g ≠ [] := by intro e; rw [e] at q1; simp at q1
  obtain ⟨r1, r2, _, r4⟩ := h.cl.nil
  unfold readBlock
  by_cases hc : (multiple b.cl && !(b.firstWordId == lo && b.lastWordId == hi)) = true
  · rw [if_pos hc]
    simp only [Bool.and_eq_true] at hc
    rw [r1, r2 hc.1, r4 hne]
    simp only [Outcome.bind]
    have := FTS.C35_filterByRange lo hi ((clOf g).map toText) fuel (by simpa using hf)
    rw [(map_toText _).1, (map_toText _).2.1, (map_toText _).2.2] at this
    rw [this]
    unfold ranged
    rw [List.filter_map, List.map_map, List.map_map]
    rfl
  · rw [if_neg hc, r1, r4 hne]
    simp only [Outcome.bind]
    have hall : ranged lo hi (clOf g) = clOf g := by
      unfold ranged
      rw [List.filter_eq_self]
      intro p hp
      simp only [decide_eq_true_eq]
      have h4 := h3 p hp
      cases hm : multiple b.cl with
      | true =>
        rw [hm] at hc
        simp only [Bool.true_and, Bool.not_eq_true, Bool.not_eq_false', Bool.and_eq_true, beq_iff_eq] at hc
        omega
      | false =>
        obtain ⟨_, w, hw⟩ := h.cl.single hm hne
        have := hw p1 q1
        have := hw p2 q2
        have := hw p hp
        omega
    rw [hall]

theorem intersect_postings {es : List Posting} (ho : Ordered es) {matching : List Nat} (hm : matching.Pairwise (· ≤ ·))
    {fuel : Nat} (hf : matching.length + es.length + 1 < fuel) :
    FTS.intersect fuel matching (es.map Posting.ctx) (es.map Posting.word) (es.map Posting.score) ⟨[], [], []⟩ =
    .ok ⟨(es.filter fun p => decide (p.ctx ∈ matching)).map Posting.ctx,
      (es.filter fun p => decide (p.ctx ∈ matching)).map Posting.word,
      (es.filter fun p => decide (p.ctx ∈ matching)).map Posting.score⟩ := by
  have hs : Spec.Text.Sorted (es.map toText) := by
    unfold Spec.Text.Sorted
    rw [List.pairwise_map]
    exact ho.imp fun h => by simp only [toText]; omega
  have := FTS.C35_intersect matching (es.map toText) hm hs fuel (by simpa using hf)
  rw [(map_toText _).1, (map_toText _).2.1, (map_toText _).2.2] at this
  rw [this]
  simp only [List.filter_map, List.map_map]
  rfl

section
variable {short : Str → Bool} {gt : Str → Str → Bool} {vocab : List Str} {kb : Str → Option Nat}
    {lines : List Line} {cb : Codebooks} {name : List Nat} {vec : List Tuple} {out : List Nat} {t : TextMeta}
    {Bf : Nat → TBlock} {r : Nat} {es2 : List Nat}

theorem IndexOk.word (hI : IndexOk short gt vocab kb lines vec out t Bf r es2)
    (h : Input short gt vocab kb lines cb name vec) {k : Nat} (hk : k < (boundaries short gt vocab).length) :
    BlockOk out (Bf k) (group vec k) ∧
      (Bf k).firstWordId = (if k = 0 then 0 else (boundaries short gt vocab)[k - 1]'(by omega) + 1) ∧
      (Bf k).lastWordId = (boundaries short gt vocab)[k] := by
  have h1 := hI.ok k (by unfold blockIds; simp [hk])
  exact ⟨h1, isRange_unique h1.range (h.wordBlock hk)⟩

theorem IndexOk.ent (hI : IndexOk short gt vocab kb lines vec out t Bf r es2)
    (h : Input short gt vocab kb lines cb name vec) {e : Nat} (he : e ∈ textEntities kb lines) :
    BlockOk out (Bf (e + (boundaries short gt vocab).length)) (group vec (e + (boundaries short gt vocab).length)) ∧
      (Bf (e + (boundaries short gt vocab).length)).firstWordId = e ∧
      (Bf (e + (boundaries short gt vocab).length)).lastWordId = e := by
  have h1 := hI.ok (e + (boundaries short gt vocab).length) (by unfold blockIds; simp [he])
  exact ⟨h1, isRange_unique h1.range (h.entityBlock he)⟩

/-- The words of a block are the ids between its first and its last one. -/
theorem IndexOk.inBlock (hI : IndexOk short gt vocab kb lines vec out t Bf r es2)
    (h : Input short gt vocab kb lines cb name vec) {k : Nat} (hk : k < (boundaries short gt vocab).length) (w : Nat) :
    wordBlockId (boundaries short gt vocab) w = k ↔ (Bf k).firstWordId ≤ w ∧ w ≤ (Bf k).lastWordId := by
  obtain ⟨_, h1, h2⟩ := hI.word h hk
  have hasc := (boundaries_bounds short gt vocab).asc
  rw [wordBlockId_eq hasc hk, h1, h2, and_comm]
  refine and_congr_left fun _ => ?_
  by_cases h0 : k = 0
  · rw [if_pos h0]
    exact ⟨fun _ => Nat.zero_le _, fun _ j _ hj => by omega⟩
  · rw [if_neg h0]
    constructor
    · intro h'; exact h' (k - 1) (by omega) (by omega)
    · intro h' j hj hjk
      rcases Nat.lt_or_ge j (k - 1) with h3 | h3
      · have := List.pairwise_iff_getElem.mp hasc j (k - 1) hj (by omega) h3
        omega
      · have : j = k - 1 := by omega
        subst this; omega

theorem IndexOk.byRange (hI : IndexOk short gt vocab kb lines vec out t Bf r es2)
    (h : Input short gt vocab kb lines cb name vec) {lo hi : Nat} (hle : lo ≤ hi) (hhi : hi < vocab.length) :
    t.blockByWordRange lo hi =
      if wordBlockId (boundaries short gt vocab) lo = wordBlockId (boundaries short gt vocab) hi then
        .ok (Bf (wordBlockId (boundaries short gt vocab) lo))
      else .throw := by
  obtain ⟨h1, h2⟩ := wordRange_spec _ _ hI.layout t hI.blocks hI.wordBounds lo hi
  have hlt := wordBlockId_lt (boundaries_bounds short gt vocab) (show lo < vocab.length by omega)
  by_cases hs : wordBlockId (boundaries short gt vocab) lo = wordBlockId (boundaries short gt vocab) hi
  · rw [if_pos hs, h1]
    refine ⟨List.mem_append.mpr (Or.inl (List.mem_map.mpr ⟨_, List.mem_range.mpr hlt, rfl⟩)), hle, ?_, ?_⟩
    · exact ((hI.inBlock h hlt lo).mp rfl).1
    · exact ((hI.inBlock h hlt hi).mp hs.symm).2
  · rw [if_neg hs]
    refine h2 ?_
    rintro ⟨b, hb, _, hb1, hb2⟩
    rcases List.mem_append.mp hb with hb | hb
    · obtain ⟨k, hk, rfl⟩ := List.mem_map.mp hb
      have hk' := List.mem_range.mp hk
      have e1 := (hI.inBlock h hk' lo).mpr ⟨hb1, by omega⟩
      have e2 := (hI.inBlock h hk' hi).mpr ⟨by omega, hb2⟩
      exact hs (e1.trans e2.symm)
    · obtain ⟨e, he, rfl⟩ := List.mem_map.mp hb
      have he' := List.mem_range'_1.mp he
      have hmem : e ∈ textEntities kb lines := by rw [hI.split]; exact List.mem_append.mpr (Or.inl he)
      have := (hI.ent h hmem).2.1
      omega

/-- Enough iterations for every loop. -/
def Enough (vec : List Tuple) (fuel : Nat) : Prop := 2 * vec.length + 2 < fuel

theorem clOf_length (vec : List Tuple) (k : Nat) : (clOf (group vec k)).length ≤ vec.length := by
  unfold clOf group
  rw [List.length_map]
  exact Nat.le_trans (List.length_filter_le _ _) (List.length_filter_le _ _)

theorem elOf_length (vec : List Tuple) (k : Nat) : (elOf (group vec k)).length ≤ vec.length := by
  unfold elOf group
  rw [List.length_map]
  exact Nat.le_trans (List.length_filter_le _ _) (List.length_filter_le _ _)

/-- The postings of the words of a range. -/
def rangePostings (short : Str → Bool) (gt : Str → Str → Bool) (vocab : List Str) (vec : List Tuple) (lo hi : Nat) :
    List Posting := ranged lo hi (clOf (group vec (wordBlockId (boundaries short gt vocab) lo)))

theorem IndexOk.words (hI : IndexOk short gt vocab kb lines vec out t Bf r es2)
    (h : Input short gt vocab kb lines cb name vec) {lo hi fuel : Nat} (hle : lo ≤ hi) (hhi : hi < vocab.length)
    (hf : Enough vec fuel) :
    wordPostings fuel out t (.words lo hi) =
      if wordBlockId (boundaries short gt vocab) lo = wordBlockId (boundaries short gt vocab) hi then
        .ok ((rangePostings short gt vocab vec lo hi).map Posting.ctx, (rangePostings short gt vocab vec lo hi).map Posting.score)
      else .throw := by
  unfold wordPostings
  dsimp only
  rw [hI.byRange h hle hhi]
  have hlt := wordBlockId_lt (boundaries_bounds short gt vocab) (show lo < vocab.length by omega)
  by_cases hs : wordBlockId (boundaries short gt vocab) lo = wordBlockId (boundaries short gt vocab) hi
  · rw [if_pos hs, if_pos hs]
    simp only [Outcome.bind]
    refine readBlock_spec (hI.word h hlt).1 hle ((hI.inBlock h hlt lo).mp rfl).1
      ((hI.inBlock h hlt hi).mp hs.symm).2 ?_
    have := clOf_length vec (wordBlockId (boundaries short gt vocab) lo)
    unfold Enough at hf
    omega
  · rw [if_neg hs, if_neg hs]; rfl

theorem ordered_filter {ps : List Posting} (h : Ordered ps) (q : Posting → Bool) : Ordered (ps.filter q) :=
  List.Pairwise.filter q h

theorem Input.rangeOrdered (h : Input short gt vocab kb lines cb name vec) (lo hi : Nat) :
    Ordered (rangePostings short gt vocab vec lo hi) := ordered_filter (h.orderedCl _) _

theorem Input.rangeMem (h : Input short gt vocab kb lines cb name vec) {lo hi : Nat} (hle : lo ≤ hi)
    (hhi : hi < vocab.length)
    (hs : wordBlockId (boundaries short gt vocab) lo = wordBlockId (boundaries short gt vocab) hi) (p : Posting) :
    p ∈ rangePostings short gt vocab vec lo hi ↔ (lo ≤ p.word ∧ p.word ≤ hi) ∧
      Occurs (wordIds vocab lines) p.word p.ctx ∧ p.score = score16 (wordIds vocab lines) p.word p.ctx := by
  unfold rangePostings ranged
  rw [List.mem_filter, h.wordCl (wordBlockId_lt (boundaries_bounds short gt vocab) (show lo < vocab.length by omega))]
  simp only [decide_eq_true_eq]
  constructor
  · rintro ⟨⟨h1, h2, _⟩, h4⟩
    exact ⟨h4, h1, h2⟩
  · rintro ⟨h1, h2, h3⟩
    refine ⟨⟨h2, h3, ?_⟩, h1⟩
    have e1 := wordBlockId_mono (B := boundaries short gt vocab) h1.1
    have e2 := wordBlockId_mono (B := boundaries short gt vocab) h1.2
    omega

/-- Entities whose blocks are found. -/
theorem IndexOk.entitySpec (hI : IndexOk short gt vocab kb lines vec out t Bf r es2)
    (h : Input short gt vocab kb lines cb name vec) (e : Nat) :
    ((∃ e' ∈ es2, e ≤ e') → t.existsEntityBlock e = .ok (decide (e ∈ es2))) ∧
    ((¬ ∃ e' ∈ es2, e ≤ e') → t.existsEntityBlock e = .ub) ∧
    (e ∈ es2 → t.blockByEntityId e = .ok (Bf (e + (boundaries short gt vocab).length))) := by
  obtain ⟨h1, h2, h3⟩ := entity_spec _ _ hI.layout t hI.blocks hI.wordBounds hI.entityBounds e
  have hmem : ∀ e' ∈ es2, e' ∈ textEntities kb lines := fun e' he' => by
    rw [hI.split]; exact List.mem_append.mpr (Or.inr he')
  have hex : (∃ b ∈ es2.map fun e => Bf (e + (boundaries short gt vocab).length), e ≤ b.lastWordId) ↔
      ∃ e' ∈ es2, e ≤ e' := by
    constructor
    · rintro ⟨b, hb, hle⟩
      obtain ⟨e', he', rfl⟩ := List.mem_map.mp hb
      exact ⟨e', he', by rw [(hI.ent h (hmem e' he')).2.2] at hle; exact hle⟩
    · rintro ⟨e', he', hle⟩
      exact ⟨_, List.mem_map.mpr ⟨e', he', rfl⟩, by rw [(hI.ent h (hmem e' he')).2.2]; exact hle⟩
  have hex2 : (∃ b ∈ es2.map fun e => Bf (e + (boundaries short gt vocab).length), b.firstWordId = e) ↔ e ∈ es2 := by
    constructor
    · rintro ⟨b, hb, hle⟩
      obtain ⟨e', he', rfl⟩ := List.mem_map.mp hb
      rw [(hI.ent h (hmem e' he')).2.1] at hle
      rw [← hle]; exact he'
    · intro he
      exact ⟨_, List.mem_map.mpr ⟨e, he, rfl⟩, (hI.ent h (hmem e he)).2.1⟩
  refine ⟨fun hx => ?_, fun hx => h2 (fun hx' => hx (hex.mp hx')), fun he => ?_⟩
  · rw [h1 (hex.mpr hx)]
    congr 1
    exact decide_eq_decide.mpr hex2
  · exact h3 _ (List.mem_map.mpr ⟨e, he, rfl⟩) (hI.ent h (hmem e he)).2.1

/-- The block that is taken for an entity without a block of its own: that of the next one. -/
theorem IndexOk.nextEntity (hI : IndexOk short gt vocab kb lines vec out t Bf r es2)
    (h : Input short gt vocab kb lines cb name vec) (e : Nat) :
    (∀ e', e' ∈ es2 → e ≤ e' → (∀ e'' ∈ es2, e ≤ e'' → e' ≤ e'') →
      t.blockByEntityId e = .ok (Bf (e' + (boundaries short gt vocab).length))) ∧
    ((¬ ∃ e' ∈ es2, e ≤ e') → t.blockByEntityId e = .ub) := by
  have hmem : ∀ e' ∈ es2, e' ∈ textEntities kb lines := fun e' he' => by
    rw [hI.split]; exact List.mem_append.mpr (Or.inr he')
  have hbounds : t.entityBounds = es2 := by
    rw [hI.entityBounds, List.map_map]
    conv => rhs; rw [← List.map_id es2]
    refine List.map_congr_left ?_
    intro e' he'
    exact (hI.ent h (hmem e' he')).2.2
  have hasc : es2.Pairwise (· < ·) := by
    have := textEntities_asc kb lines
    rw [hI.split] at this
    exact (List.pairwise_append.mp this).2.1
  obtain ⟨k, hk, hkl, hki⟩ := lowerBound_spec (hasc.imp Nat.le_of_lt) e
  have hlenw : t.wordBounds.length = ((List.range (boundaries short gt vocab).length).map Bf ++
    (List.range' vocab.length r).map fun e => Bf (e + (boundaries short gt vocab).length)).length := by
    rw [hI.wordBounds, List.length_map]
  unfold TextMeta.blockByEntityId
  rw [hbounds, hk]
  simp only [Outcome.bind]
  rw [hI.blocks, hlenw]
  constructor
  · intro e' he' hle hmin
    obtain ⟨i, hi, hie⟩ := List.mem_iff_getElem.mp he'
    have hik : ¬ i < k := by rw [hki i hi]; omega
    have hkl' : k < es2.length := by omega
    have hke : es2[k] = e' := by
      have h1 : ¬ es2[k] < e := by rw [← hki k hkl']; omega
      have h2 := hmin es2[k] (List.getElem_mem hkl') (by omega)
      rcases Nat.lt_or_ge k i with h3 | h3
      · have := List.pairwise_iff_getElem.mp hasc k i hkl' hi h3
        omega
      · have : k = i := by omega
        subst this; exact hie
    rw [Outcome.read_lt _ _ (by simp only [List.length_append, List.length_map]; omega)]
    rw [List.getElem_append_right (by omega)]
    simp only [Nat.add_sub_cancel]
    rw [List.getElem_map, hke]
  · intro hno
    have : k = es2.length := by
      rcases Nat.lt_or_ge k es2.length with h' | h'
      · have h1 : ¬ es2[k] < e := by rw [← hki k h']; omega
        exact absurd ⟨es2[k], List.getElem_mem h', by omega⟩ hno
      · omega
    rw [Outcome.read_ge _ _ (by simp only [List.length_append, List.length_map]; omega)]

theorem ranged_entity (h : Input short gt vocab kb lines cb name vec) (e : Nat) :
    ranged e e (clOf (group vec (e + (boundaries short gt vocab).length))) =
      clOf (group vec (e + (boundaries short gt vocab).length)) := by
  unfold ranged
  rw [List.filter_eq_self]
  intro p hp
  have := ((h.entityCl e p).mp hp).1
  simp only [decide_eq_true_eq]; omega

theorem IndexOk.entityWords (hI : IndexOk short gt vocab kb lines vec out t Bf r es2)
    (h : Input short gt vocab kb lines cb name vec) {e fuel : Nat} (he : e ∈ es2) (hf : Enough vec fuel) :
    wordPostings fuel out t (.entity e) =
      .ok ((clOf (group vec (e + (boundaries short gt vocab).length))).map Posting.ctx,
        (clOf (group vec (e + (boundaries short gt vocab).length))).map Posting.score) := by
  obtain ⟨h1, _, h3⟩ := hI.entitySpec h e
  have hmem : e ∈ textEntities kb lines := by rw [hI.split]; exact List.mem_append.mpr (Or.inr he)
  unfold wordPostings
  dsimp only
  rw [h1 ⟨e, he, Nat.le_refl _⟩]
  simp only [Outcome.bind, he, decide_true, Bool.not_true, Bool.false_eq_true, if_false]
  rw [h3 he]
  simp only
  obtain ⟨b1, b2, b3⟩ := hI.ent h hmem
  have := readBlock_spec b1 (Nat.le_refl e) (by omega) (by omega) (fuel := fuel) (by
    have := clOf_length vec (e + (boundaries short gt vocab).length)
    unfold Enough at hf; omega)
  rw [this, ranged_entity h]

/-- Reading all entity postings of a block. -/
theorem readAll_spec {file : List Nat} {b : TBlock} {g : List Tuple} (h : BlockOk file b g) :
    ((readCids file b.entityCl).bind fun cids => (readWids file b.entityCl).bind fun eids =>
      (readScores file b.entityCl).bind fun scores => Outcome.ok (FTS.Triple.mk cids eids scores)) =
    if elOf g = [] then .throw else
      .ok ⟨(elOf g).map Posting.ctx, (elOf g).map Posting.word, (elOf g).map Posting.score⟩ := by
  obtain ⟨r1, r2, r3, r4⟩ := h.el.nil
  rw [r1]
  by_cases he : elOf g = []
  · rw [if_pos he, r3 (h.el.empty he)]; rfl
  · rw [if_neg he]
    have hm : multiple b.entityCl = true := by
      cases hm : multiple b.entityCl with
      | true => rfl
      | false => exact absurd (h.el.single hm he).1 (by simp)
    rw [r2 hm, r4 he]; rfl

theorem readAll_intersect {file : List Nat} {b : TBlock} {g : List Tuple} (h : BlockOk file b g) (ho : Ordered (elOf g))
    {matching : List Nat} (hm : matching.Pairwise (· ≤ ·)) {fuel : Nat} (hf : matching.length + (elOf g).length + 1 < fuel) :
    ((readCids file b.entityCl).bind fun cids => (readWids file b.entityCl).bind fun eids =>
      (readScores file b.entityCl).bind fun scores => FTS.intersect fuel matching cids eids scores ⟨[], [], []⟩) =
    if elOf g = [] then .throw else
      .ok ⟨((elOf g).filter fun p => decide (p.ctx ∈ matching)).map Posting.ctx,
        ((elOf g).filter fun p => decide (p.ctx ∈ matching)).map Posting.word,
        ((elOf g).filter fun p => decide (p.ctx ∈ matching)).map Posting.score⟩ := by
  obtain ⟨r1, r2, r3, r4⟩ := h.el.nil
  rw [r1]
  by_cases he : elOf g = []
  · rw [if_pos he, r3 (h.el.empty he)]; rfl
  · rw [if_neg he]
    have hmul : multiple b.entityCl = true := by
      cases hmul : multiple b.entityCl with
      | true => rfl
      | false => exact absurd (h.el.single hmul he).1 (by simp)
    rw [r2 hmul, r4 he]
    simp only [Outcome.bind]
    exact intersect_postings ho hm hf

/-- The entity postings a range of words gives. -/
def coPostings (short : Str → Bool) (gt : Str → Str → Bool) (vocab : List Str) (vec : List Tuple) (lo hi : Nat) :
    List Posting :=
  (elOf (group vec (wordBlockId (boundaries short gt vocab) lo))).filter fun p =>
    decide (p.ctx ∈ (rangePostings short gt vocab vec lo hi).map Posting.ctx)

theorem IndexOk.wordsEntities (hI : IndexOk short gt vocab kb lines vec out t Bf r es2)
    (h : Input short gt vocab kb lines cb name vec) {lo hi fuel : Nat} (hle : lo ≤ hi) (hhi : hi < vocab.length)
    (hf : Enough vec fuel) :
    entityPostings fuel out t (.words lo hi) =
      if wordBlockId (boundaries short gt vocab) lo = wordBlockId (boundaries short gt vocab) hi then
        if elOf (group vec (wordBlockId (boundaries short gt vocab) lo)) = [] then .throw
        else .ok ⟨(coPostings short gt vocab vec lo hi).map Posting.ctx, (coPostings short gt vocab vec lo hi).map Posting.word,
          (coPostings short gt vocab vec lo hi).map Posting.score⟩
      else .throw := by
  unfold entityPostings
  dsimp only
  rw [hI.byRange h hle hhi]
  have hlt := wordBlockId_lt (boundaries_bounds short gt vocab) (show lo < vocab.length by omega)
  by_cases hs : wordBlockId (boundaries short gt vocab) lo = wordBlockId (boundaries short gt vocab) hi
  · rw [if_pos hs, if_pos hs]
    simp only [Outcome.bind]
    obtain ⟨hb, _, _⟩ := hI.word h hlt
    have hlo := (hI.inBlock h hlt lo).mp rfl
    have hhi' := (hI.inBlock h hlt hi).mp hs.symm
    unfold readEntities
    by_cases hc : (!multiple (Bf (wordBlockId (boundaries short gt vocab) lo)).cl ||
        ((Bf (wordBlockId (boundaries short gt vocab) lo)).firstWordId == lo &&
          (Bf (wordBlockId (boundaries short gt vocab) lo)).lastWordId == hi)) = true
    · rw [if_pos hc, readAll_spec hb]
      by_cases he : elOf (group vec (wordBlockId (boundaries short gt vocab) lo)) = []
      · rw [if_pos he, if_pos he]
      · rw [if_neg he, if_neg he]
        have hall : coPostings short gt vocab vec lo hi = elOf (group vec (wordBlockId (boundaries short gt vocab) lo)) := by
          unfold coPostings
          rw [List.filter_eq_self]
          intro p hp
          simp only [decide_eq_true_eq]
          obtain ⟨_, _, w, h4, h5⟩ := (h.wordEl hlt p).mp hp
          refine List.mem_map.mpr ⟨⟨p.ctx, w, score16 (wordIds vocab lines) w p.ctx⟩, ?_, rfl⟩
          rw [h.rangeMem hle hhi hs]
          refine ⟨?_, h4, rfl⟩
          have h6 := (hI.inBlock h hlt w).mp h5
          cases hm : multiple (Bf (wordBlockId (boundaries short gt vocab) lo)).cl with
          | true =>
            rw [hm] at hc
            simp only [Bool.not_true, Bool.false_or, Bool.and_eq_true, beq_iff_eq] at hc
            show lo ≤ w ∧ w ≤ hi
            omega
          | false =>
            obtain ⟨⟨p1, q1, e1⟩, ⟨p2, q2, e2⟩, _⟩ := hb.range
            obtain ⟨_, w', hw'⟩ := hb.cl.single hm (by intro e; rw [e] at q1; simp at q1)
            have := hw' p1 q1
            have := hw' p2 q2
            show lo ≤ w ∧ w ≤ hi
            omega
        rw [hall]
    · rw [if_neg hc, hI.words h hle hhi hf, if_pos hs]
      simp only [Outcome.bind]
      have hlen1 : ((rangePostings short gt vocab vec lo hi).map Posting.ctx).length ≤ vec.length := by
        rw [List.length_map]
        exact Nat.le_trans (List.length_filter_le _ _) (clOf_length _ _)
      have hlen2 := elOf_length vec (wordBlockId (boundaries short gt vocab) lo)
      unfold Enough at hf
      exact readAll_intersect hb (h.orderedEl _) (h.rangeOrdered lo hi).ctx (by omega)
  · rw [if_neg hs, if_neg hs]; rfl

theorem Input.coMem (h : Input short gt vocab kb lines cb name vec) {lo hi : Nat} (hle : lo ≤ hi)
    (hhi : hi < vocab.length)
    (hs : wordBlockId (boundaries short gt vocab) lo = wordBlockId (boundaries short gt vocab) hi) (p : Posting) :
    p ∈ coPostings short gt vocab vec lo hi ↔ Occurs (entityIds kb lines) p.word p.ctx ∧
      p.score = score16 (entityIds kb lines) p.word p.ctx ∧
      ∃ w, lo ≤ w ∧ w ≤ hi ∧ Occurs (wordIds vocab lines) w p.ctx := by
  unfold coPostings
  rw [List.mem_filter, h.wordEl (wordBlockId_lt (boundaries_bounds short gt vocab) (show lo < vocab.length by omega))]
  simp only [decide_eq_true_eq, List.mem_map]
  constructor
  · rintro ⟨⟨h1, h2, _⟩, q, hq, hqc⟩
    obtain ⟨h3, h4, _⟩ := (h.rangeMem hle hhi hs q).mp hq
    exact ⟨h1, h2, q.word, h3.1, h3.2, by rw [← hqc]; exact h4⟩
  · rintro ⟨h1, h2, w, h3, h4, h5⟩
    refine ⟨⟨h1, h2, w, h5, ?_⟩, ⟨p.ctx, w, score16 (wordIds vocab lines) w p.ctx⟩, ?_, rfl⟩
    · have e1 := wordBlockId_mono (B := boundaries short gt vocab) h3
      have e2 := wordBlockId_mono (B := boundaries short gt vocab) h4
      omega
    · rw [h.rangeMem hle hhi hs]
      exact ⟨⟨h3, h4⟩, h5, rfl⟩

theorem Input.coOrdered (h : Input short gt vocab kb lines cb name vec) (lo hi : Nat) :
    Ordered (coPostings short gt vocab vec lo hi) := ordered_filter (h.orderedEl _) _

theorem elOf_entity_ne (h : Input short gt vocab kb lines cb name vec) {e : Nat} (he : e ∈ textEntities kb lines) :
    elOf (group vec (e + (boundaries short gt vocab).length)) ≠ [] := by
  obtain ⟨c, hc⟩ := (mem_textEntities kb lines e).mp he
  intro h0
  have := (h.entityEl e ⟨c, e, score16 (entityIds kb lines) e c⟩).mpr ⟨hc, rfl, hc⟩
  rw [h0] at this
  simp at this

theorem single_entity (hI : IndexOk short gt vocab kb lines vec out t Bf r es2)
    (h : Input short gt vocab kb lines cb name vec) {e : Nat} (he : e ∈ textEntities kb lines) :
    multiple (Bf (e + (boundaries short gt vocab).length)).cl = false :=
  (hI.ent h he).1.cl.same rfl ⟨e, fun p hp => ((h.entityCl e p).mp hp).1⟩

/-- What the entity postings of an entity are read from: the block of the next entity that has one. -/
theorem IndexOk.entityEntities (hI : IndexOk short gt vocab kb lines vec out t Bf r es2)
    (h : Input short gt vocab kb lines cb name vec) {e e' fuel : Nat} (he : e' ∈ es2) (hle : e ≤ e')
    (hmin : ∀ e'' ∈ es2, e ≤ e'' → e' ≤ e'') :
    entityPostings fuel out t (.entity e) =
      .ok ⟨(elOf (group vec (e' + (boundaries short gt vocab).length))).map Posting.ctx,
        (elOf (group vec (e' + (boundaries short gt vocab).length))).map Posting.word,
        (elOf (group vec (e' + (boundaries short gt vocab).length))).map Posting.score⟩ := by
  have hmem : e' ∈ textEntities kb lines := by rw [hI.split]; exact List.mem_append.mpr (Or.inr he)
  unfold entityPostings
  dsimp only
  rw [(hI.nextEntity h e).1 e' he hle hmin]
  simp only [Outcome.bind]
  unfold readEntities
  rw [single_entity hI h hmem]
  simp only [Bool.not_false, Bool.true_or, if_true]
  rw [readAll_spec (hI.ent h hmem).1, if_neg (elOf_entity_ne h hmem)]

end

end Verif.TextIndex
