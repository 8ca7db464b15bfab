import Verif.Props.C28_C29_MetaData
import Mathlib.Data.List.Chain
/-
C29: the meta data of the text index survives being written and read back, and lookups afterwards.
-/
namespace Verif.TextMetaData
open Verif.Bytes Verif.MetaData

/-- The plain numbers fit into 64 bits. -/
def TextMeta.Fits (m : TextMeta) : Prop :=
  m.blocks.length < 2 ^ 64 ∧ (∀ b ∈ m.blocks, b.WF) ∧ m.nofEntities < 2 ^ 64 ∧ m.nofEntityContexts < 2 ^ 64 ∧
    m.nofTextRecords < 2 ^ 64 ∧ m.nofWordPostings < 2 ^ 64 ∧ m.nofEntityPostings < 2 ^ 64 ∧ m.name.length < 2 ^ 64

theorem create_write (m : TextMeta) (h : m.Fits) :
    ∃ t, TextMeta.create m.write = .ok t ∧ t.blocks = m.blocks ∧
      t.nofEntities = m.nofEntities ∧ t.nofEntityContexts = m.nofEntityContexts ∧
      t.nofTextRecords = m.nofTextRecords ∧ t.nofWordPostings = m.nofWordPostings ∧
      t.nofEntityPostings = m.nofEntityPostings ∧ t.name = m.name ∧
      t.wordBounds = (m.blocks.foldl classify (TextMeta.fresh, false)).1.wordBounds ∧
      t.entityBounds = (m.blocks.foldl classify (TextMeta.fresh, false)).1.entityBounds := by
  obtain ⟨h1, h2, h3, h4, h5, h6, h7, h8⟩ := h
  have hb : (m.blocks.foldl classify (TextMeta.fresh, false)).1.blocks = m.blocks := by
    rw [classify_blocks]; simp [TextMeta.fresh]
  refine ⟨{ (m.blocks.foldl classify (TextMeta.fresh, false)).1 with
    nofEntities := m.nofEntities, nofEntityContexts := m.nofEntityContexts, nofTextRecords := m.nofTextRecords,
    nofWordPostings := m.nofWordPostings, nofEntityPostings := m.nofEntityPostings, name := m.name },
    ?_, hb, rfl, rfl, rfl, rfl, rfl, rfl, rfl, rfl⟩
  unfold TextMeta.create TextMeta.write
  simp only [List.append_assoc]
  rw [rd64_zero _ _ h1]
  simp only [Outcome.bind]
  rw [List.drop_left' (length_toLE 8 _), readBlocks_spec _ h2]
  simp only [rd64_8, rd64_at8, rd64_zero _ _ h3, rd64_zero _ _ h4, rd64_zero _ _ h5, rd64_zero _ _ h6, rd64_zero _ _ h7,
    rd64_zero _ _ h8]
  rw [peek_mid' _ (toLE 8 m.nofEntities ++ toLE 8 m.nofEntityContexts ++ toLE 8 m.nofTextRecords ++
    toLE 8 m.nofWordPostings ++ toLE 8 m.nofEntityPostings ++ toLE 8 m.name.length) m.name [] _ _ (by simp) (by simp) rfl]

theorem readFromFile_append {bytes postings : List Nat} {t : TextMeta} (hp : postings.length < 2 ^ 64)
    (ht : TextMeta.create bytes = .ok t) : TextMeta.readFromFile (postings ++ bytes ++ toLE 8 postings.length) = .ok t := by
  unfold TextMeta.readFromFile; rw [metaPart_append _ _ hp]; exact ht

/-- C29: reading the text meta data back from the file it was appended to gives the same blocks, counts and name,
provided the posting lists end where the last block says. -/
theorem text_meta_roundtrip (m : TextMeta) (h : m.Fits) (postings : List Nat)
    (hl : ∃ b, m.blocks.getLast? = some b ∧ b.entityCl.lastByte + 1 = postings.length) (hp : postings.length < 2 ^ 64) :
    ∃ out t, m.appendToFile postings = .ok out ∧ TextMeta.readFromFile out = .ok t ∧ t.blocks = m.blocks ∧
      t.nofEntities = m.nofEntities ∧ t.nofEntityContexts = m.nofEntityContexts ∧
      t.nofTextRecords = m.nofTextRecords ∧ t.nofWordPostings = m.nofWordPostings ∧
      t.nofEntityPostings = m.nofEntityPostings ∧ t.name = m.name ∧
      t.wordBounds.length + t.entityBounds.length = t.blocks.length ∧
      t.wordBounds ++ t.entityBounds = m.blocks.map TBlock.lastWordId := by
  have hoff : m.getOffsetAfter = .ok postings.length := by
    obtain ⟨b, h1, h2⟩ := hl
    unfold TextMeta.getOffsetAfter
    rw [h1, ← h2]
    show Outcome.ok _ = _
    rw [Nat.mod_eq_of_lt (by omega)]
  have hb : ∀ (bs : List TBlock) (st : TextMeta × Bool), (st.2 = false → st.1.entityBounds = []) →
      (bs.foldl classify st).1.wordBounds ++ (bs.foldl classify st).1.entityBounds =
        st.1.wordBounds ++ st.1.entityBounds ++ bs.map TBlock.lastWordId := by
    intro bs
    induction bs with
    | nil => intro st _; simp
    | cons b bs ih =>
      intro st hst
      have hstep : (classify st b).1.wordBounds ++ (classify st b).1.entityBounds =
          st.1.wordBounds ++ st.1.entityBounds ++ [b.lastWordId] ∧
          ((classify st b).2 = false → (classify st b).1.entityBounds = []) := by
        obtain ⟨st1, st2⟩ := st
        unfold classify
        cases st2
        · have he : st1.entityBounds = [] := hst rfl
          simp only [Bool.not_false, if_true]
          split <;> simp [he]
        · simp
      rw [List.foldl_cons, ih _ hstep.2, hstep.1]; simp
  have hb' := hb m.blocks (TextMeta.fresh, false) (fun _ => rfl)
  have hb'' : (m.blocks.foldl classify (TextMeta.fresh, false)).1.wordBounds ++
      (m.blocks.foldl classify (TextMeta.fresh, false)).1.entityBounds = m.blocks.map TBlock.lastWordId := by
    rw [hb']; simp [TextMeta.fresh]
  obtain ⟨t, ht, t1, t2, t3, t4, t5, t6, t7, t8, t9⟩ := create_write m h
  have hcat : t.wordBounds ++ t.entityBounds = m.blocks.map TBlock.lastWordId := by rw [t8, t9]; exact hb''
  refine ⟨postings ++ m.write ++ toLE 8 postings.length, t, ?_, ?_, t1, t2, t3, t4, t5, t6, t7, ?_, hcat⟩
  · unfold TextMeta.appendToFile; rw [hoff]; rfl
  · exact readFromFile_append hp ht
  · have := congrArg List.length hcat
    rw [List.length_append, List.length_map, ← t1] at this
    exact this

/-- The layout the index builder produces: word blocks covering all word ids from 0 without gaps, then one block per
entity in ascending order. -/
structure Layout (words entities : List TBlock) : Prop where
  ne : words ≠ []
  zero : ∀ w, words.head? = some w → w.firstWordId = 0
  range : ∀ w ∈ words, w.firstWordId ≤ w.lastWordId
  contiguous : Contiguous words
  single : ∀ e ∈ entities, e.firstWordId = e.lastWordId
  ascending : entities.Pairwise fun a b => a.lastWordId < b.lastWordId

/-- The block after the words starts a new sequence of ids. -/
def Gap (words entities : List TBlock) : Prop :=
  ∀ w e, words.getLast? = some w → entities.head? = some e → w.lastWordId + 1 ≠ e.firstWordId

theorem contiguous_lt {bs : List TBlock} (hc : Contiguous bs) (hr : ∀ w ∈ bs, w.firstWordId ≤ w.lastWordId) :
    bs.Pairwise fun a b => a.lastWordId < b.firstWordId := by
  induction bs with
  | nil => exact List.Pairwise.nil
  | cons a bs ih =>
    have ht : Contiguous bs := by
      unfold Contiguous at hc ⊢
      cases bs with
      | nil => exact List.IsChain.nil
      | cons b bs => exact (List.isChain_cons_cons.mp hc).2
    have ih := ih ht (fun w hw => hr w (by simp [hw]))
    refine List.pairwise_cons.mpr ⟨?_, ih⟩
    intro x hx
    cases bs with
    | nil => cases hx
    | cons b bs =>
      have h1 := (List.isChain_cons_cons.mp hc).1
      rcases List.mem_cons.mp hx with rfl | hx
      · omega
      · have h2 := (List.pairwise_cons.mp ih).1 x hx
        have h3 := hr b (by simp)
        omega

theorem contiguous_next {bs : List TBlock} (hc : Contiguous bs) (i : Nat) (hi : i + 1 < bs.length) :
    bs[i].lastWordId + 1 = bs[i + 1].firstWordId := List.isChain_iff_getElem.mp hc i hi

/-- C29, word lookups in the object read back (what `create_write` yields for such a layout). -/
theorem wordRange_spec (words entities : List TBlock) (h : Layout words entities) (t : TextMeta)
    (hb : t.blocks = words ++ entities) (hw : t.wordBounds = words.map TBlock.lastWordId) (lo hi : Nat) :
    (∀ b, t.blockByWordRange lo hi = .ok b ↔ b ∈ words ∧ lo ≤ hi ∧ b.firstWordId ≤ lo ∧ hi ≤ b.lastWordId) ∧
    ((¬ ∃ b ∈ words, lo ≤ hi ∧ b.firstWordId ≤ lo ∧ hi ≤ b.lastWordId) → t.blockByWordRange lo hi = .throw) := by
  have hlt := contiguous_lt h.contiguous h.range
  have hsorted : (words.map TBlock.lastWordId).Pairwise (· ≤ ·) := by
    rw [List.pairwise_map]
    refine List.Pairwise.imp_of_mem ?_ hlt
    intro a b _ hbm hab
    have := h.range b hbm
    omega
  have hpos : 0 < words.length := List.length_pos_iff.mpr h.ne
  unfold TextMeta.blockByWordRange
  by_cases hle : lo ≤ hi
  swap
  · rw [if_pos hle]
    refine ⟨fun b => ⟨nofun, fun h' => absurd h'.2.1 hle⟩, fun _ => rfl⟩
  rw [if_neg (by simpa using hle)]
  obtain ⟨k, hk, hkl, hki⟩ := lowerBound_spec hsorted lo
  rw [List.length_map] at hkl
  rw [hw, hk]
  simp only [Outcome.bind, List.length_map]
  rw [if_neg (by omega)]
  have hki' : ∀ i (hi : i < words.length), i < k ↔ words[i].lastWordId < lo := by
    intro i hi
    have := hki i (by simpa using hi)
    simpa using this
  by_cases hend : k = words.length
  · -- beyond the last block
    have hlast : words.length - 1 < words.length := by omega
    have h1 := (hki' _ hlast).mp (by omega)
    rw [if_pos hend, hend, Outcome.read_lt _ _ (by simpa using hlast)]
    simp only [List.getElem_map]
    rw [if_pos (by omega)]
    have hno : ∀ b ∈ words, ¬ (lo ≤ hi ∧ b.firstWordId ≤ lo ∧ hi ≤ b.lastWordId) := by
      rintro b hb' ⟨_, _, h4⟩
      obtain ⟨i, hi', rfl⟩ := List.mem_iff_getElem.mp hb'
      have := (hki' i hi').mp (by omega)
      omega
    refine ⟨fun b => ⟨nofun, fun h' => absurd h'.2 (hno b h'.1)⟩, fun _ => rfl⟩
  · have hkl' : k < words.length := by omega
    rw [if_neg hend, Outcome.read_lt _ _ (by simpa using hkl')]
    simp only [List.getElem_map]
    have hge : lo ≤ words[k].lastWordId := by
      have := hki' k hkl'
      have h2 : ¬ words[k].lastWordId < lo := fun h' => absurd (this.mpr h') (Nat.lt_irrefl k)
      omega
    have hfirst : words[k].firstWordId ≤ lo := by
      by_cases h0 : k = 0
      · have := h.zero words[0] (by rw [List.head?_eq_getElem?, List.getElem?_eq_getElem hpos])
        subst h0; omega
      · have h1 := contiguous_next h.contiguous (k - 1) (by omega)
        have h2 := (hki' (k - 1) (by omega)).mp (by omega)
        have h3 : words[k - 1 + 1]'(by omega) = words[k] := by congr 1; omega
        rw [h3] at h1
        omega
    -- no other block contains `lo`
    have huniq : ∀ b ∈ words, b.firstWordId ≤ lo → hi ≤ b.lastWordId → b = words[k] := by
      intro b hbm h1 h2
      obtain ⟨i, hi', rfl⟩ := List.mem_iff_getElem.mp hbm
      by_cases hik : i < k
      · have := (hki' i hi').mp hik; omega
      · by_cases hik' : i = k
        · subst hik'; rfl
        · have := List.pairwise_iff_getElem.mp hlt k i hkl' hi' (by omega)
          omega
    by_cases hup : hi > words[k].lastWordId
    · rw [if_pos hup]
      have hno : ∀ b ∈ words, ¬ (lo ≤ hi ∧ b.firstWordId ≤ lo ∧ hi ≤ b.lastWordId) := by
        rintro b hb' ⟨_, h3, h4⟩
        have := huniq b hb' h3 h4
        subst this; omega
      refine ⟨fun b => ⟨nofun, fun h' => absurd h'.2 (hno b h'.1)⟩, fun _ => rfl⟩
    · rw [if_neg hup, hb, Outcome.read_lt _ _ (by rw [List.length_append]; omega), List.getElem_append_left hkl']
      refine ⟨fun b => ⟨fun h' => ?_, fun h' => ?_⟩, fun h' => ?_⟩
      · injection h' with h'; subst h'
        exact ⟨List.getElem_mem hkl', hle, hfirst, by omega⟩
      · rw [huniq b h'.1 h'.2.2.1 h'.2.2.2]
      · exact absurd ⟨_, List.getElem_mem hkl', hle, hfirst, by omega⟩ h'

/-- Entity lookups in the object read back: undefined exactly for ids beyond all entities with text, otherwise right. -/
theorem entity_spec (words entities : List TBlock) (h : Layout words entities) (t : TextMeta)
    (hb : t.blocks = words ++ entities) (hw : t.wordBounds = words.map TBlock.lastWordId)
    (he : t.entityBounds = entities.map TBlock.lastWordId) (eid : Nat) :
    ((∃ e ∈ entities, eid ≤ e.lastWordId) →
      t.existsEntityBlock eid = .ok (decide (∃ e ∈ entities, e.firstWordId = eid))) ∧
    ((¬ ∃ e ∈ entities, eid ≤ e.lastWordId) → t.existsEntityBlock eid = .ub) ∧
    (∀ e ∈ entities, e.firstWordId = eid → t.blockByEntityId eid = .ok e) := by
  have hsorted : (entities.map TBlock.lastWordId).Pairwise (· ≤ ·) := by
    rw [List.pairwise_map]
    exact List.Pairwise.imp (fun h => Nat.le_of_lt h) h.ascending
  obtain ⟨k, hk, hkl, hki⟩ := lowerBound_spec hsorted eid
  rw [List.length_map] at hkl
  have hki' : ∀ i (hi : i < entities.length), i < k ↔ entities[i].lastWordId < eid := by
    intro i hi
    have := hki i (by simpa using hi)
    simpa using this
  have hat : ∀ e ∈ entities, e.firstWordId = eid → ∃ hk : k < entities.length, entities[k] = e := by
    intro e hem hfe
    obtain ⟨i, hi, rfl⟩ := List.mem_iff_getElem.mp hem
    have h1 := h.single _ hem
    have hnk : ¬ i < k := by rw [hki' i hi]; omega
    have hkl' : k < entities.length := by omega
    refine ⟨hkl', ?_⟩
    by_cases hik : k = i
    · subst hik; rfl
    · have h2 := List.pairwise_iff_getElem.mp h.ascending k i hkl' hi (by omega)
      have h3 := (hki' k hkl').mpr (by omega)
      omega
  unfold TextMeta.existsEntityBlock TextMeta.blockByEntityId
  rw [he, hk]
  simp only [Outcome.bind]
  refine ⟨fun hex => ?_, fun hno => ?_, fun e hem hfe => ?_⟩
  · obtain ⟨e, hem, hle⟩ := hex
    obtain ⟨i, hi, rfl⟩ := List.mem_iff_getElem.mp hem
    have hnk : ¬ i < k := by rw [hki' i hi]; omega
    have hkl' : k < entities.length := by omega
    rw [Outcome.read_lt _ _ (by simpa using hkl')]
    simp only [List.getElem_map]
    congr 1
    rw [Bool.eq_iff_iff, beq_iff_eq, decide_eq_true_eq]
    constructor
    · intro h'; exact ⟨_, List.getElem_mem hkl', (h.single _ (List.getElem_mem hkl')).trans h'⟩
    · rintro ⟨e, hem, hfe⟩
      obtain ⟨_, h2⟩ := hat e hem hfe
      rw [h2, ← h.single e hem]; exact hfe
  · have hkl' : k = entities.length := by
      apply Classical.byContradiction; intro hne
      have hkl' : k < entities.length := by omega
      have : ¬ entities[k].lastWordId < eid := fun h' => absurd ((hki' k hkl').mpr h') (Nat.lt_irrefl k)
      exact hno ⟨_, List.getElem_mem hkl', by omega⟩
    rw [Outcome.read_ge _ _ (by simp [hkl'])]
  · obtain ⟨hkl', h2⟩ := hat e hem hfe
    rw [hb, hw, List.length_map, Outcome.read_lt _ _ (by rw [List.length_append]; omega)]
    rw [List.getElem_append_right (by omega)]
    congr 1
    rw [← h2]; congr 1; omega

/-- C29 (partial: needs `Gap`, see the two theorems below; entity ids beyond the last one are undefined): for every
layout the builder produces, the lookups in the object read from the file find exactly the blocks written. -/
theorem text_lookup_reload_partial (words entities : List TBlock) (h : Layout words entities) (hg : Gap words entities)
    (m : TextMeta) (hm : m.blocks = words ++ entities) (hf : m.Fits) :
    ∃ t, TextMeta.create m.write = .ok t ∧
      (∀ lo hi b, t.blockByWordRange lo hi = .ok b ↔ b ∈ words ∧ lo ≤ hi ∧ b.firstWordId ≤ lo ∧ hi ≤ b.lastWordId) ∧
      (∀ lo hi, (¬ ∃ b ∈ words, lo ≤ hi ∧ b.firstWordId ≤ lo ∧ hi ≤ b.lastWordId) → t.blockByWordRange lo hi = .throw) ∧
      (∀ eid, (∃ e ∈ entities, eid ≤ e.lastWordId) →
        t.existsEntityBlock eid = .ok (decide (∃ e ∈ entities, e.firstWordId = eid))) ∧
      (∀ eid, (¬ ∃ e ∈ entities, eid ≤ e.lastWordId) → t.existsEntityBlock eid = .ub) ∧
      (∀ e ∈ entities, t.blockByEntityId e.firstWordId = .ok e) := by
  obtain ⟨t, ht, t1, _, _, _, _, _, _, t8, t9⟩ := create_write m hf
  rw [hm, classify_split words entities h.ne h.contiguous hg] at t8 t9
  have hb := t1.trans hm
  exact ⟨t, ht, fun lo hi => (wordRange_spec words entities h t hb t8 lo hi).1,
    fun lo hi => (wordRange_spec words entities h t hb t8 lo hi).2,
    fun eid => (entity_spec words entities h t hb t8 t9 eid).1,
    fun eid => (entity_spec words entities h t hb t8 t9 eid).2.1,
    fun e he => (entity_spec words entities h t hb t8 t9 _).2.2 e he rfl⟩

def ex0 : CtxList := ⟨1, 0, 8, 8, 15⟩
def exWords : List TBlock := [⟨0, 3, ex0, ex0⟩, ⟨4, 9, ex0, ex0⟩]

/-- The hypotheses hold for two word blocks and two entities. -/
example : Layout exWords [⟨50, 50, ex0, ex0⟩, ⟨60, 60, ex0, ex0⟩] ∧ Gap exWords [⟨50, 50, ex0, ex0⟩, ⟨60, 60, ex0, ex0⟩] :=
  ⟨⟨by decide, by decide, by decide, by unfold Contiguous; decide, by decide, by decide⟩,
    fun w e h1 h2 => by cases h1; cases h2; decide⟩

/-- C29 is violated by the code: if the first entity with text happens to have the id following the last word id, its
block is taken for a word block, so that the lookup of this entity denies its existence (or, if it is the only one, is
undefined), and the lookup of a word id that does not exist returns the entity's block. -/
theorem text_reload_violated : ∀ (words entities : List TBlock) (e : TBlock), Layout words (e :: entities) →
    (∀ w, words.getLast? = some w → w.lastWordId + 1 = e.firstWordId) →
    (∀ e', entities.head? = some e' → e.lastWordId + 1 ≠ e'.firstWordId) →
    ∀ m : TextMeta, m.blocks = words ++ e :: entities → m.Fits →
    ∃ t, TextMeta.create m.write = .ok t ∧
      t.existsEntityBlock e.firstWordId = (if entities = [] then .ub else .ok false) ∧
      t.blockByWordRange e.firstWordId e.firstWordId = .ok e := by
  intro words entities e h hno hgap m hm hf
  have hlen : words ≠ [] := h.ne
  have hc2 : Contiguous (words ++ [e]) := by
    unfold Contiguous
    rw [List.isChain_append]
    refine ⟨h.contiguous, by simp, ?_⟩
    intro x hx y hy
    simp at hy
    subst hy
    exact hno x (by simpa using hx)
  have hgap2 : Gap (words ++ [e]) entities := by
    intro w e' hw he'
    rw [List.getLast?_append] at hw
    simp at hw
    subst hw
    exact hgap e' he'
  have he1 := h.single e (by simp)
  have hasc := List.pairwise_cons.mp h.ascending
  have h' : Layout (words ++ [e]) entities := by
    refine ⟨by simp, ?_, ?_, hc2, fun x hx => h.single x (by simp [hx]), hasc.2⟩
    · intro w hw
      rw [List.head?_append] at hw
      cases hh : words.head? with
      | none => exact absurd (List.head?_eq_none_iff.mp hh) hlen
      | some x => rw [hh] at hw; injection hw with hw; subst hw; exact h.zero x hh
    · intro w hw
      rcases List.mem_append.mp hw with hw | hw
      · exact h.range w hw
      · rw [List.mem_singleton.mp hw]; omega
  have hm' : m.blocks = (words ++ [e]) ++ entities := by rw [hm]; simp
  obtain ⟨t, ht, h1, _, h3, h4, _⟩ := text_lookup_reload_partial (words ++ [e]) entities h' hgap2 m hm' hf
  refine ⟨t, ht, ?_, (h1 _ _ e).mpr ⟨by simp, Nat.le_refl _, Nat.le_refl _, by omega⟩⟩
  by_cases hent : entities = []
  · rw [if_pos hent]
    exact h4 _ (by rw [hent]; simp)
  · rw [if_neg hent]
    obtain ⟨x, hx⟩ := List.exists_mem_of_ne_nil _ hent
    have hlt := hasc.1 x hx
    rw [h3 _ ⟨x, hx, by omega⟩]
    refine congrArg Outcome.ok (decide_eq_false_iff_not.mpr ?_)
    rintro ⟨y, hy, hye⟩
    have := hasc.1 y hy
    have := h.single y (by simp [hy])
    omega

/-- The hypotheses hold: word ids 0 to 9, entities 10 and 60. -/
example : Layout exWords [⟨10, 10, ex0, ex0⟩, ⟨60, 60, ex0, ex0⟩] :=
  ⟨by decide, by decide, by decide, by unfold Contiguous; decide, by decide, by decide⟩

/-- A concrete run: the entity 10 has a block, but after reloading it is not found. -/
theorem text_reload_violated_concrete :
    let m : TextMeta := { TextMeta.fresh with blocks := exWords ++ [⟨10, 10, ex0, ex0⟩, ⟨60, 60, ex0, ex0⟩] }
    ∃ t, TextMeta.create m.write = .ok t ∧ t.existsEntityBlock 10 = .ok false ∧ t.existsEntityBlock 61 = .ub := by
  obtain ⟨t, ht, _, _, _, _, _, _, _, t8, t9⟩ := create_write
    { TextMeta.fresh with blocks := exWords ++ [⟨10, 10, ex0, ex0⟩, ⟨60, 60, ex0, ex0⟩] }
    ⟨by decide, by unfold TBlock.WF CtxList.WF; decide, by decide, by decide, by decide, by decide, by decide, by decide⟩
  have h9 : t.entityBounds = [60] := t9
  refine ⟨t, ht, ?_, ?_⟩ <;> (unfold TextMeta.existsEntityBlock; rw [h9]; decide)

end Verif.TextMetaData
