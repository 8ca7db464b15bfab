import Verif.Model.TextMetaData
import Verif.Lemmas.MetaData
import Verif.Lemmas.Filter
namespace Verif.TextMetaData
open Verif.Bytes Verif.MetaData

def CtxList.WF (m : CtxList) : Prop :=
  m.nofElements < 2 ^ 64 ∧ m.startContextlist < 2 ^ 64 ∧ m.startWordlist < 2 ^ 64 ∧ m.startScorelist < 2 ^ 64 ∧
    m.lastByte < 2 ^ 64

def TBlock.WF (m : TBlock) : Prop := m.firstWordId < 2 ^ 64 ∧ m.lastWordId < 2 ^ 64 ∧ m.cl.WF ∧ m.entityCl.WF

theorem rd64_at8 (x : Nat) (r : List Nat) : rd64 (toLE 8 x ++ r) 8 = rd64 r 0 := rd64_8 x r 0

theorem ctx_roundtrip (m : CtxList) (h : m.WF) (r : List Nat) : CtxList.create (m.write ++ r) = .ok m := by
  obtain ⟨h1, h2, h3, h4, h5⟩ := h
  unfold CtxList.create CtxList.write
  simp only [List.append_assoc, rd64_8, rd64_at8, rd64_zero _ _ h1, rd64_zero _ _ h2, rd64_zero _ _ h3,
    rd64_zero _ _ h4, rd64_zero _ _ h5, Outcome.bind]

@[simp] theorem ctx_length (m : CtxList) : m.write.length = CtxList.sizeOnDisk := by
  simp [CtxList.write, CtxList.sizeOnDisk]

theorem tblock_roundtrip (m : TBlock) (h : m.WF) (r : List Nat) : TBlock.create (m.write ++ r) = .ok m := by
  obtain ⟨h1, h2, h3, h4⟩ := h
  unfold TBlock.create TBlock.write
  have e1 : (toLE 8 m.firstWordId ++ toLE 8 m.lastWordId ++ m.cl.write ++ m.entityCl.write ++ r).drop (8 + 8) =
      m.cl.write ++ (m.entityCl.write ++ r) := by
    simp only [List.append_assoc]
    rw [← List.append_assoc (toLE 8 m.firstWordId)]
    exact List.drop_left' (by simp)
  have e2 : (toLE 8 m.firstWordId ++ toLE 8 m.lastWordId ++ m.cl.write ++ m.entityCl.write ++ r).drop
      (8 + 8 + CtxList.sizeOnDisk) = m.entityCl.write ++ r := by
    rw [List.append_assoc]
    exact List.drop_left' (by simp; omega)
  rw [e1, e2]
  simp only [List.append_assoc, rd64_at8, rd64_zero _ _ h1, rd64_zero _ _ h2, Outcome.bind, ctx_roundtrip _ h3,
    ctx_roundtrip _ h4]

@[simp] theorem tblock_length (m : TBlock) : m.write.length = TBlock.sizeOnDisk := by
  simp [TBlock.write, TBlock.sizeOnDisk, CtxList.sizeOnDisk]

theorem readBlocks_spec (bs : List TBlock) (h : ∀ b ∈ bs, b.WF) (st : TextMeta × Bool) (r : List Nat) :
    readBlocks bs.length st (bs.flatMap TBlock.write ++ r) = .ok (bs.foldl classify st, r) := by
  induction bs generalizing st with
  | nil => rfl
  | cons b bs ih =>
    simp only [List.length_cons, readBlocks, List.flatMap_cons, List.append_assoc, List.foldl_cons]
    rw [tblock_roundtrip _ (h b (by simp))]
    simp only [Outcome.bind]
    rw [List.drop_left' (tblock_length b)]
    exact ih (fun x hx => h x (by simp [hx])) _

theorem classify_step (st : TextMeta × Bool) (b : TBlock) : ∃ wb eb s', classify st b =
    ({ st.1 with wordBounds := wb, entityBounds := eb, blocks := st.1.blocks ++ [b] }, s') := by
  unfold classify
  by_cases h1 : (!st.2) = true
  · by_cases h2 : (st.1.blocks.isEmpty || st.1.blocks.getLast?.any (fun l => l.lastWordId + 1 == b.firstWordId)) = true
    · exact ⟨st.1.wordBounds ++ [b.lastWordId], st.1.entityBounds, false, by simp only [h1, h2, if_true]⟩
    · exact ⟨st.1.wordBounds, st.1.entityBounds ++ [b.lastWordId], true, by simp only [h1, h2, if_true]; rfl⟩
  · exact ⟨st.1.wordBounds, st.1.entityBounds ++ [b.lastWordId], true, by simp only [h1]; rfl⟩

theorem classify_blocks (bs : List TBlock) (st : TextMeta × Bool) :
    (bs.foldl classify st).1 = { st.1 with wordBounds := (bs.foldl classify st).1.wordBounds,
                                           entityBounds := (bs.foldl classify st).1.entityBounds,
                                           blocks := st.1.blocks ++ bs } := by
  induction bs generalizing st with
  | nil => simp
  | cons b bs ih =>
    obtain ⟨wb, eb, s', h⟩ := classify_step st b
    rw [List.foldl_cons, ih, h]
    simp

/-- Word blocks continue where the previous one ends. -/
def Contiguous (bs : List TBlock) : Prop := List.IsChain (fun a b => a.lastWordId + 1 = b.firstWordId) bs

theorem foldl_words (ws : List TBlock) (m : TextMeta)
    (h : List.IsChain (fun a b => a.lastWordId + 1 = b.firstWordId) (m.blocks.getLast?.toList ++ ws)) :
    ws.foldl classify (m, false) = ({ m with wordBounds := m.wordBounds ++ ws.map TBlock.lastWordId,
                                             blocks := m.blocks ++ ws }, false) := by
  induction ws generalizing m with
  | nil => simp
  | cons b ws ih =>
    have hc : classify (m, false) b =
        ({ m with wordBounds := m.wordBounds ++ [b.lastWordId], blocks := m.blocks ++ [b] }, false) := by
      unfold classify
      simp only [Bool.not_false, if_true]
      rw [if_pos]
      cases hl : m.blocks.getLast? with
      | none => simp [List.getLast?_eq_none_iff.mp hl]
      | some l =>
        rw [hl] at h
        simp only [Option.toList_some, List.singleton_append, List.isChain_cons_cons] at h
        simp [h.1]
    rw [List.foldl_cons, hc, ih]
    · simp
    · simp only [List.getLast?_append, List.getLast?_singleton, Option.some_or, Option.toList_some]
      cases hl : m.blocks.getLast? with
      | none => rw [hl] at h; simpa using h
      | some l => rw [hl] at h; exact (by simpa using h : _ ∧ _).2

theorem foldl_entities (es : List TBlock) (m : TextMeta) :
    (es.foldl classify (m, true)).1 = { m with entityBounds := m.entityBounds ++ es.map TBlock.lastWordId,
                                               blocks := m.blocks ++ es } := by
  induction es generalizing m with
  | nil => simp
  | cons b es ih =>
    rw [List.foldl_cons]
    have : classify (m, true) b =
        ({ m with entityBounds := m.entityBounds ++ [b.lastWordId], blocks := m.blocks ++ [b] }, true) := by
      simp [classify]
    rw [this, ih]; simp

/-- Which blocks are taken for word blocks when the file is read. -/
theorem classify_split (words entities : List TBlock) (hne : words ≠ []) (hc : Contiguous words)
    (hg : ∀ w e, words.getLast? = some w → entities.head? = some e → w.lastWordId + 1 ≠ e.firstWordId) :
    ((words ++ entities).foldl classify (TextMeta.fresh, false)).1 =
      { TextMeta.fresh with wordBounds := words.map TBlock.lastWordId,
                            entityBounds := entities.map TBlock.lastWordId,
                            blocks := words ++ entities } := by
  rw [List.foldl_append, foldl_words words TextMeta.fresh (by simpa [TextMeta.fresh, Contiguous] using hc)]
  cases entities with
  | nil => simp [TextMeta.fresh]
  | cons e es =>
    rw [List.foldl_cons]
    obtain ⟨w, hw⟩ : ∃ w, words.getLast? = some w := by
      cases h : words.getLast? with
      | none => exact absurd (List.getLast?_eq_none_iff.mp h) hne
      | some w => exact ⟨w, rfl⟩
    have := hg w e hw rfl
    have hcl : classify ({ TextMeta.fresh with
        wordBounds := TextMeta.fresh.wordBounds ++ words.map TBlock.lastWordId,
        blocks := TextMeta.fresh.blocks ++ words }, false) e =
        ({ TextMeta.fresh with wordBounds := words.map TBlock.lastWordId, entityBounds := [e.lastWordId],
                               blocks := words ++ [e] }, true) := by
      simp [classify, TextMeta.fresh, hw, hne, this]
    rw [hcl, foldl_entities]
    simp

theorem lowerBound_spec {l : List Nat} (h : l.Pairwise (· ≤ ·)) (v : Nat) :
    ∃ k, lowerBound l v = .ok k ∧ k ≤ l.length ∧ ∀ i (hi : i < l.length), i < k ↔ l[i] < v := by
  have hp : Filter.Part (fun x => decide (x < v)) l := by
    refine List.Pairwise.imp ?_ h
    intro a b hab; simp only [decide_eq_true_eq]; omega
  refine ⟨_, Filter.partitionPoint_ok hp, Filter.takeWhile_length_le _, fun i hi => ?_⟩
  obtain ⟨ht, hd⟩ := Filter.part_filter hp
  generalize (l.takeWhile fun x => decide (x < v)).length = lo at *
  constructor
  · intro hlo
    have : l[i] ∈ l.take lo := List.mem_take_iff_getElem.mpr ⟨i, by omega, rfl⟩
    rw [ht] at this
    simpa using (List.mem_filter.mp this).2
  · intro hlt
    apply Classical.byContradiction; intro hlo
    have : l[i] ∈ l.drop lo := List.mem_drop_iff_getElem.mpr ⟨i - lo, by omega, by congr 1; omega⟩
    rw [hd] at this
    have := (List.mem_filter.mp this).2
    simp at this; omega

end Verif.TextMetaData
