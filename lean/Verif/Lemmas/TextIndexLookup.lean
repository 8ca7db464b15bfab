import Verif.Lemmas.TextIndexBuild
/-
Lemmas about the text index as a whole: what the file written for a text contains, and what the lookups find in it.
-/
namespace Verif.TextIndex
open Verif.PostingLists Verif.TextMetaData Verif.Spec.TextIndex Verif.Bytes Verif.MetaData

/-! ### The sorted vector -/

theorem sortText_block {a b : Tuple} (h : sortText b a = false) : a.block ≤ b.block := by
  unfold sortText at h
  by_cases hb : b.block = a.block
  · omega
  · rw [if_neg hb] at h; simp at h; exact h

theorem sortText_ent {a b : Tuple} (h : sortText b a = false) (hb : a.block = b.block) (ha : a.ent = true) :
    b.ent = true := by
  unfold sortText at h
  rw [if_pos hb.symm] at h
  by_cases he : b.ent = a.ent
  · rw [he, ha]
  · rw [if_neg he] at h; simpa using h

theorem sortText_ctx {a b : Tuple} (h : sortText b a = false) (hb : a.block = b.block) (he : a.ent = b.ent) :
    a.ctx < b.ctx ∨ (a.ctx = b.ctx ∧ (a.word < b.word ∨ (a.word = b.word ∧ a.score ≤ b.score))) := by
  unfold sortText at h
  rw [if_pos hb.symm, if_pos he.symm] at h
  by_cases hc : b.ctx = a.ctx
  · rw [if_pos hc] at h
    by_cases hw : b.word = a.word
    · rw [if_pos hw] at h; simp at h; omega
    · rw [if_neg hw] at h; simp at h; omega
  · rw [if_neg hc] at h; simp at h; omega

/-- Everything the theorems assume about the input of the index builder. -/
structure Input (short : Str → Bool) (gt : Str → Str → Bool) (vocab : List Str) (kb : Str → Option Nat)
    (lines : List Line) (cb : Codebooks) (name : List Nat) (vec : List Tuple) : Prop where
  /-- the text vocabulary has the words of the text -/
  words : IsVocab lines vocab
  /-- the lines are sorted by record -/
  sorted : lines.Pairwise fun a b => a.ctx ≤ b.ctx
  /-- there is a word -/
  word : ∃ l ∈ lines, l.isEntity = false
  ctx : ∀ l ∈ lines, l.ctx < 2 ^ 60
  entity : ∀ w e, kb w = some e → e < 2 ^ 63
  count : lines.length < 2 ^ 60
  nameLength : name.length < 2 ^ 64
  codebooks : cb.Right
  /-- the vector has the elements written, in ascending order -/
  isVec : IsSortedVec (pass (boundaries short gt vocab) vocab kb lines).out vec
  size : vec.length < 2 ^ 60

theorem vocab_length {lines : List Line} {vocab : List Str} (h : IsVocab lines vocab) : vocab.length ≤ lines.length := by
  have hsub : vocab ⊆ lines.map Line.word := by
    intro w hw
    obtain ⟨l, hl, _, rfl⟩ := (h.2 w).mp hw
    exact List.mem_map.mpr ⟨l, hl, rfl⟩
  have := List.Subperm.length_le (List.subperm_of_subset h.1 hsub)
  simpa using this

/-- A word occurs in a record, in terms of ids. -/
theorem occurs_word {lines : List Line} {vocab : List Str} (i c : Nat) :
    Occurs (wordIds vocab lines) i c ↔ ∃ l ∈ lines, l.isEntity = false ∧ vocab.idxOf l.word = i ∧ l.ctx = c := by
  unfold Occurs wordIds
  constructor
  · rintro ⟨s, hs⟩
    obtain ⟨l, hl, he⟩ := List.mem_map.mp hs
    obtain ⟨h1, h2⟩ := List.mem_filter.mp hl
    simp only [Prod.mk.injEq] at he
    exact ⟨l, h1, by simpa using h2, he.1, he.2.1⟩
  · rintro ⟨l, h1, h2, h3, h4⟩
    exact ⟨l.score, List.mem_map.mpr ⟨l, List.mem_filter.mpr ⟨h1, by simp [h2]⟩, by rw [h3, h4]⟩⟩

theorem occurs_entity {lines : List Line} {kb : Str → Option Nat} (e c : Nat) :
    Occurs (entityIds kb lines) e c ↔ ∃ l ∈ lines, l.isEntity = true ∧ kb l.word = some e ∧ l.ctx = c := by
  unfold Occurs entityIds
  constructor
  · rintro ⟨s, hs⟩
    obtain ⟨l, hl, he⟩ := List.mem_filterMap.mp hs
    obtain ⟨h1, h2⟩ := List.mem_filter.mp hl
    cases hk : kb l.word with
    | none => rw [hk] at he; simp at he
    | some e' =>
      rw [hk] at he
      simp only [Option.map_some, Option.some.injEq, Prod.mk.injEq] at he
      exact ⟨l, h1, by simpa using h2, by rw [hk, he.1], he.2.1⟩
  · rintro ⟨l, h1, h2, h3, h4⟩
    exact ⟨l.score, List.mem_filterMap.mpr ⟨l, List.mem_filter.mpr ⟨h1, by simp [h2]⟩, by rw [h3, h4]; rfl⟩⟩

section
variable {short : Str → Bool} {gt : Str → Str → Bool} {vocab : List Str} {kb : Str → Option Nat}
    {lines : List Line} {cb : Codebooks} {name : List Nat} {vec : List Tuple}

theorem Input.idx (h : Input short gt vocab kb lines cb name vec) {i c : Nat} (ho : Occurs (wordIds vocab lines) i c) :
    i < vocab.length := by
  obtain ⟨l, h1, h2, h3, _⟩ := (occurs_word i c).mp ho
  rw [← h3]
  exact List.idxOf_lt_length_iff.mpr ((h.words.2 _).mpr ⟨l, h1, h2, rfl⟩)

theorem Input.ex (h : Input short gt vocab kb lines cb name vec) {i : Nat} (hi : i < vocab.length) :
    ∃ c, Occurs (wordIds vocab lines) i c := by
  obtain ⟨l, h1, h2, h3⟩ := (h.words.2 _).mp (List.getElem_mem hi)
  exact ⟨l.ctx, (occurs_word _ _).mpr ⟨l, h1, h2, by rw [h3]; exact h.words.1.idxOf_getElem _ _, rfl⟩⟩

theorem nbLe (short : Str → Bool) (gt : Str → Str → Bool) (vocab : List Str) :
    (boundaries short gt vocab).length ≤ vocab.length := by
  have hb := boundaries_bounds short gt vocab
  have hsub : boundaries short gt vocab ⊆ List.range vocab.length := fun b hb' => List.mem_range.mpr (hb.lt b hb')
  have := List.Subperm.length_le (List.subperm_of_subset (hb.asc.imp Nat.ne_of_lt) hsub)
  simpa using this

theorem Input.eid (h : Input short gt vocab kb lines cb name vec) {e c : Nat} (ho : Occurs (entityIds kb lines) e c) :
    e < 2 ^ 63 ∧ entityBlockId (boundaries short gt vocab) e = e + (boundaries short gt vocab).length := by
  obtain ⟨l, _, _, h3, _⟩ := (occurs_entity e c).mp ho
  have h1 := h.entity _ _ h3
  have h2 := nbLe short gt vocab
  have h4 := vocab_length h.words
  have h5 := h.count
  refine ⟨h1, ?_⟩
  unfold entityBlockId
  rw [Nat.mod_eq_of_lt (by omega)]

theorem Input.apart (h : Input short gt vocab kb lines cb name vec) :
    Apart (boundaries short gt vocab) (wordIds vocab lines) (entityIds kb lines) := by
  intro w c e c' hw he
  have h1 := wordBlockId_lt (boundaries_bounds short gt vocab) (h.idx hw)
  rw [(h.eid he).2]; omega

theorem Input.mem (h : Input short gt vocab kb lines cb name vec) (x : Tuple) :
    x ∈ vec ↔ Written (boundaries short gt vocab) (wordIds vocab lines) (entityIds kb lines) x := by
  rw [h.isVec.1.mem_iff]; exact (pass_spec h.sorted h.apart).2 x

theorem Input.nodup (h : Input short gt vocab kb lines cb name vec) : vec.Nodup :=
  h.isVec.1.nodup_iff.mpr (pass_spec h.sorted h.apart).1

/-- The elements of a block. -/
def group (vec : List Tuple) (k : Nat) : List Tuple := vec.filter fun x => decide (x.block = k)

/-- Postings sorted by record and word, each pair once. -/
def Ordered (ps : List Posting) : Prop := ps.Pairwise fun a b => a.ctx < b.ctx ∨ (a.ctx = b.ctx ∧ a.word < b.word)

theorem score_det {B : List Nat} {W E : Text Nat} (ha : Apart B W E) {a b : Tuple} (h1 : Written B W E a)
    (h2 : Written B W E b) (hb : a.block = b.block) (he : a.ent = b.ent) (hc : a.ctx = b.ctx) (hw : a.word = b.word) :
    a = b := by
  obtain ⟨ak, ac, aw, as, ae⟩ := a
  obtain ⟨bk, bc, bw, bs, be⟩ := b
  simp only at hb he hc hw
  subst hb he hc hw
  congr 1
  rcases h1 with h1 | h1 | h1 <;> rcases h2 with h2 | h2 | h2 <;> simp only at h1 h2
  · rw [h1.2.2.1, h2.2.2.1]
  · exact absurd (h1.2.2.2.symm.trans h2.2.2.2) (ha _ _ _ _ h1.2.1 h2.2.1)
  · rw [h1.1] at h2; simp at h2
  · exact absurd (h2.2.2.2.symm.trans h1.2.2.2) (ha _ _ _ _ h2.2.1 h1.2.1)
  · rw [h1.2.2.1, h2.2.2.1]
  · rw [h1.1] at h2; simp at h2
  · rw [h1.1] at h2; simp at h2
  · rw [h1.1] at h2; simp at h2
  · rw [h1.2.2.1, h2.2.2.1]

theorem Input.ordered (h : Input short gt vocab kb lines cb name vec) (k : Nat) (en : Bool) :
    Ordered (((group vec k).filter fun x => x.ent == en).map Tuple.posting) := by
  unfold Ordered
  rw [List.pairwise_map]
  unfold group
  rw [List.filter_filter]
  have h1 : vec.Pairwise fun a b => sortText b a = false ∧ a ≠ b := h.isVec.2.and h.nodup
  refine List.Pairwise.imp_of_mem ?_ (h1.filter _)
  intro a b ha hb hab
  obtain ⟨ha1, ha2⟩ := List.mem_filter.mp ha
  obtain ⟨hb1, hb2⟩ := List.mem_filter.mp hb
  simp only [Bool.and_eq_true, beq_iff_eq, decide_eq_true_eq] at ha2 hb2
  have hbl : a.block = b.block := ha2.2.trans hb2.2.symm
  have hen : a.ent = b.ent := ha2.1.trans hb2.1.symm
  show a.ctx < b.ctx ∨ a.ctx = b.ctx ∧ a.word < b.word
  rcases sortText_ctx hab.1 hbl hen with h' | ⟨h', h'' | ⟨h'', _⟩⟩
  · exact Or.inl h'
  · exact Or.inr ⟨h', h''⟩
  · exact absurd (score_det h.apart ((h.mem a).mp ha1) ((h.mem b).mp hb1) hbl hen h' h'') hab.2

theorem clOf_eq (g : List Tuple) : clOf g = (g.filter fun x => x.ent == false).map Tuple.posting := by
  unfold clOf; congr 1; exact List.filter_congr fun x _ => by cases x.ent <;> rfl

theorem elOf_eq (g : List Tuple) : elOf g = (g.filter fun x => x.ent == true).map Tuple.posting := by
  unfold elOf; congr 1; exact List.filter_congr fun x _ => by cases x.ent <;> rfl

theorem Input.orderedCl (h : Input short gt vocab kb lines cb name vec) (k : Nat) : Ordered (clOf (group vec k)) := by
  rw [clOf_eq]; exact h.ordered k false

theorem Input.orderedEl (h : Input short gt vocab kb lines cb name vec) (k : Nat) : Ordered (elOf (group vec k)) := by
  rw [elOf_eq]; exact h.ordered k true

theorem mem_clOf (vec : List Tuple) (k : Nat) (p : Posting) :
    p ∈ clOf (group vec k) ↔ (⟨k, p.ctx, p.word, p.score, false⟩ : Tuple) ∈ vec := by
  obtain ⟨c, w, s⟩ := p
  simp only [clOf, group, List.mem_map, List.mem_filter, Tuple.posting]
  constructor
  · rintro ⟨⟨k', c', w', s', e'⟩, ⟨⟨h1, h2⟩, h3⟩, h4⟩
    simp only [Posting.mk.injEq, decide_eq_true_eq, Bool.not_eq_true'] at h2 h3 h4
    obtain ⟨rfl, rfl, rfl⟩ := h4
    subst h2 h3
    exact h1
  · intro h
    exact ⟨_, ⟨⟨h, by simp⟩, by simp⟩, rfl⟩

theorem mem_elOf (vec : List Tuple) (k : Nat) (p : Posting) :
    p ∈ elOf (group vec k) ↔ (⟨k, p.ctx, p.word, p.score, true⟩ : Tuple) ∈ vec := by
  obtain ⟨c, w, s⟩ := p
  simp only [elOf, group, List.mem_map, List.mem_filter, Tuple.posting]
  constructor
  · rintro ⟨⟨k', c', w', s', e'⟩, ⟨⟨h1, h2⟩, h3⟩, h4⟩
    simp only [Posting.mk.injEq, decide_eq_true_eq] at h2 h3 h4
    obtain ⟨rfl, rfl, rfl⟩ := h4
    subst h2 h3
    exact h1
  · intro h
    exact ⟨_, ⟨⟨h, by simp⟩, rfl⟩, rfl⟩

/-- The postings of a block of words. -/
theorem Input.wordCl (h : Input short gt vocab kb lines cb name vec) {k : Nat}
    (hk : k < (boundaries short gt vocab).length) (p : Posting) :
    p ∈ clOf (group vec k) ↔ Occurs (wordIds vocab lines) p.word p.ctx ∧ p.score = score16 (wordIds vocab lines) p.word p.ctx ∧
      wordBlockId (boundaries short gt vocab) p.word = k := by
  rw [mem_clOf, h.mem]
  unfold Written
  constructor
  · rintro (h1 | h1 | h1)
    · exact ⟨h1.2.1, h1.2.2.1, h1.2.2.2.symm⟩
    · have h2 := h1.2.2.2
      simp only at h2
      rw [(h.eid h1.2.1).2] at h2; omega
    · simp at h1
  · rintro ⟨h1, h2, h3⟩
    exact Or.inl ⟨rfl, h1, h2, h3.symm⟩

/-- The postings of the block of an entity. -/
theorem Input.entityCl (h : Input short gt vocab kb lines cb name vec) (e : Nat) (p : Posting) :
    p ∈ clOf (group vec (e + (boundaries short gt vocab).length)) ↔
      p.word = e ∧ Occurs (entityIds kb lines) e p.ctx ∧ p.score = score16 (entityIds kb lines) e p.ctx := by
  rw [mem_clOf, h.mem]
  unfold Written
  constructor
  · rintro (h1 | h1 | h1)
    · have h2 := h1.2.2.2
      have h3 := wordBlockId_lt (boundaries_bounds short gt vocab) (h.idx h1.2.1)
      simp only at h2 h3
      omega
    · have h2 : e + (boundaries short gt vocab).length = entityBlockId (boundaries short gt vocab) p.word := h1.2.2.2
      have h4 : entityBlockId (boundaries short gt vocab) p.word = p.word + _ := (h.eid h1.2.1).2
      have h3 : p.word = e := by omega
      obtain ⟨c, w, s⟩ := p
      simp only at h1 h3
      subst h3
      exact ⟨rfl, h1.2.1, h1.2.2.1⟩
    · simp at h1
  · rintro ⟨h1, h2, h3⟩
    subst h1
    exact Or.inr (Or.inl ⟨rfl, h2, h3, (h.eid h2).2.symm⟩)

/-- The entity postings of a block of words. -/
theorem Input.wordEl (h : Input short gt vocab kb lines cb name vec) {k : Nat}
    (hk : k < (boundaries short gt vocab).length) (p : Posting) :
    p ∈ elOf (group vec k) ↔ Occurs (entityIds kb lines) p.word p.ctx ∧ p.score = score16 (entityIds kb lines) p.word p.ctx ∧
      ∃ w, Occurs (wordIds vocab lines) w p.ctx ∧ wordBlockId (boundaries short gt vocab) w = k := by
  rw [mem_elOf, h.mem]
  unfold Written
  constructor
  · rintro (h1 | h1 | h1)
    · simp at h1
    · simp at h1
    · refine ⟨h1.2.1, h1.2.2.1, ?_⟩
      rcases h1.2.2.2 with ⟨w, h2, h3⟩ | ⟨e, h2, h3⟩
      · exact ⟨w, h2, h3.symm⟩
      · simp only at h3
        rw [(h.eid h2).2] at h3; omega
  · rintro ⟨h1, h2, w, h3, h4⟩
    exact Or.inr (Or.inr ⟨rfl, h1, h2, Or.inl ⟨w, h3, h4.symm⟩⟩)

/-- The entity postings of the block of an entity. -/
theorem Input.entityEl (h : Input short gt vocab kb lines cb name vec) (e : Nat) (p : Posting) :
    p ∈ elOf (group vec (e + (boundaries short gt vocab).length)) ↔
      Occurs (entityIds kb lines) p.word p.ctx ∧ p.score = score16 (entityIds kb lines) p.word p.ctx ∧
      Occurs (entityIds kb lines) e p.ctx := by
  rw [mem_elOf, h.mem]
  unfold Written
  constructor
  · rintro (h1 | h1 | h1)
    · simp at h1
    · simp at h1
    · refine ⟨h1.2.1, h1.2.2.1, ?_⟩
      rcases h1.2.2.2 with ⟨w, h2, h3⟩ | ⟨e', h2, h3⟩
      · have h4 := wordBlockId_lt (boundaries_bounds short gt vocab) (h.idx h2)
        simp only at h3
        omega
      · simp only at h3 h2
        rw [(h.eid h2).2] at h3
        have : e' = e := by omega
        rw [← this]; exact h2
  · rintro ⟨h1, h2, h3⟩
    exact Or.inr (Or.inr ⟨rfl, h1, h2, Or.inr ⟨e, h3, (h.eid h3).2.symm⟩⟩)

theorem Input.tuple (h : Input short gt vocab kb lines cb name vec) {x : Tuple} (hx : x ∈ vec) :
    x.ctx < 2 ^ 60 ∧ x.word < 2 ^ 64 ∧ x.score < 2 ^ 16 := by
  have hn := vocab_length h.words
  have hl := h.count
  have h16 : ∀ t : Text Nat, ∀ i c, score16 t i c < 2 ^ 16 := fun t i c => Nat.mod_lt _ (by decide)
  rcases (h.mem x).mp hx with h1 | h1 | h1
  · obtain ⟨l, h2, _, _, h3⟩ := (occurs_word _ _).mp h1.2.1
    have := h.ctx l h2
    have := h.idx h1.2.1
    exact ⟨by omega, by omega, by rw [h1.2.2.1]; exact h16 _ _ _⟩
  · obtain ⟨l, h2, _, _, h3⟩ := (occurs_entity _ _).mp h1.2.1
    have := h.ctx l h2
    have := (h.eid h1.2.1).1
    exact ⟨by omega, by omega, by rw [h1.2.2.1]; exact h16 _ _ _⟩
  · obtain ⟨l, h2, _, _, h3⟩ := (occurs_entity _ _).mp h1.2.1
    have := h.ctx l h2
    have := (h.eid h1.2.1).1
    exact ⟨by omega, by omega, by rw [h1.2.2.1]; exact h16 _ _ _⟩

theorem Ordered.ctx {ps : List Posting} (h : Ordered ps) : (ps.map Posting.ctx).Pairwise (· ≤ ·) := by
  rw [List.pairwise_map]; exact h.imp fun h => by omega

theorem Input.groupOk (h : Input short gt vocab kb lines cb name vec) {k : Nat}
    (hk : ∃ p, p ∈ clOf (group vec k)) : GroupOk k (group vec k) := by
  have hsz := h.size
  have hlen : (group vec k).length ≤ vec.length := List.length_filter_le _ _
  refine ⟨fun x hx => by simpa using (List.mem_filter.mp hx).2, ?_, ⟨(h.orderedCl k).ctx, ?_, ?_, ?_, ?_⟩,
    ⟨(h.orderedEl k).ctx, ?_, ?_, ?_, ?_⟩⟩
  · obtain ⟨p, hp⟩ := hk
    have hs : (group vec k).Pairwise fun a b => sortText b a = false := h.isVec.2.filter _
    have hmem : (⟨k, p.ctx, p.word, p.score, false⟩ : Tuple) ∈ group vec k :=
      List.mem_filter.mpr ⟨(mem_clOf vec k p).mp hp, by simp⟩
    have hbl : ∀ x ∈ group vec k, x.block = k := fun x hx => by simpa using (List.mem_filter.mp hx).2
    cases hg : group vec k with
    | nil => rw [hg] at hmem; simp at hmem
    | cons x g' =>
      refine ⟨x, g', rfl, ?_⟩
      rw [hg] at hs hmem hbl
      rcases List.mem_cons.mp hmem with h' | h'
      · rw [← h']
      · cases he : x.ent with
        | false => rfl
        | true =>
          have := sortText_ent ((List.pairwise_cons.mp hs).1 _ h') (hbl x (by simp)) he
          simp at this
  · intro p hp; exact (h.tuple ((mem_clOf vec k p).mp hp)).1
  · intro p hp; exact (h.tuple ((mem_clOf vec k p).mp hp)).2.1
  · intro p hp; exact (h.tuple ((mem_clOf vec k p).mp hp)).2.2
  · have : (clOf (group vec k)).length ≤ (group vec k).length := by
      unfold clOf; rw [List.length_map]; exact List.length_filter_le _ _
    omega
  · intro p hp; exact (h.tuple ((mem_elOf vec k p).mp hp)).1
  · intro p hp; exact (h.tuple ((mem_elOf vec k p).mp hp)).2.1
  · intro p hp; exact (h.tuple ((mem_elOf vec k p).mp hp)).2.2
  · have : (elOf (group vec k)).length ≤ (group vec k).length := by
      unfold elOf; rw [List.length_map]; exact List.length_filter_le _ _
    omega

/-- The entities that occur in the text, in ascending order. -/
def textEntities (kb : Str → Option Nat) (lines : List Line) : List Nat :=
  (List.range (((entityIds kb lines).map fun x => x.1 + 1).sum)).filter fun e =>
    (entityIds kb lines).any fun x => x.1 == e

theorem mem_textEntities (kb : Str → Option Nat) (lines : List Line) (e : Nat) :
    e ∈ textEntities kb lines ↔ ∃ c, Occurs (entityIds kb lines) e c := by
  have hsum : ∀ (t : Text Nat) x, x ∈ t → x.1 < (t.map fun x => x.1 + 1).sum := by
    intro t x hx
    induction t with
    | nil => simp at hx
    | cons y t ih =>
      simp only [List.map_cons, List.sum_cons]
      rcases List.mem_cons.mp hx with rfl | hx
      · omega
      · have := ih hx; omega
  unfold textEntities Occurs
  rw [List.mem_filter, List.mem_range, List.any_eq_true]
  constructor
  · rintro ⟨_, ⟨a, c, s⟩, h1, h2⟩
    simp only [beq_iff_eq] at h2
    subst h2
    exact ⟨c, s, h1⟩
  · rintro ⟨c, s, h1⟩
    exact ⟨hsum _ _ h1, _, h1, by simp⟩

theorem textEntities_asc (kb : Str → Option Nat) (lines : List Line) : (textEntities kb lines).Pairwise (· < ·) :=
  List.pairwise_lt_range.filter _

/-- The blocks in the order of the vector. -/
def blockIds (B : List Nat) (es : List Nat) : List Nat := List.range B.length ++ es.map fun e => e + B.length

theorem blockIds_asc (B es : List Nat) (h : es.Pairwise (· < ·)) : (blockIds B es).Pairwise (· < ·) := by
  unfold blockIds
  rw [List.pairwise_append]
  refine ⟨List.pairwise_lt_range, ?_, ?_⟩
  · rw [List.pairwise_map]; exact h.imp fun h => by omega
  · intro a ha b hb
    obtain ⟨e, _, rfl⟩ := List.mem_map.mp hb
    have := List.mem_range.mp ha
    omega

theorem Input.wordBlock (h : Input short gt vocab kb lines cb name vec) {k : Nat}
    (hk : k < (boundaries short gt vocab).length) :
    IsRange (if k = 0 then 0 else (boundaries short gt vocab)[k - 1]'(by omega) + 1) (boundaries short gt vocab)[k]
      (clOf (group vec k)) := by
  have hb := boundaries_bounds short gt vocab
  have hex : ∀ w, w < vocab.length → wordBlockId (boundaries short gt vocab) w = k → ∃ p ∈ clOf (group vec k), p.word = w := by
    intro w hw hwk
    obtain ⟨c, hc⟩ := h.ex hw
    exact ⟨⟨c, w, score16 (wordIds vocab lines) w c⟩, (h.wordCl hk _).mpr ⟨hc, rfl, hwk⟩, rfl⟩
  have hlt := hb.lt _ (List.getElem_mem hk)
  refine ⟨hex _ ?_ ?_, hex _ hlt (wordBlockId_self hb.asc hk), ?_⟩
  · by_cases h0 : k = 0
    · rw [if_pos h0]; omega
    · rw [if_neg h0]
      have := List.pairwise_iff_getElem.mp hb.asc (k - 1) k (by omega) hk (by omega)
      omega
  · rw [wordBlockId_eq hb.asc hk]
    by_cases h0 : k = 0
    · rw [if_pos h0]; exact ⟨by omega, fun j _ hj => by omega⟩
    · rw [if_neg h0]
      have h1 := List.pairwise_iff_getElem.mp hb.asc (k - 1) k (by omega) hk (by omega)
      refine ⟨by omega, fun j hj hjk => ?_⟩
      rcases Nat.lt_or_ge j (k - 1) with h2 | h2
      · have := List.pairwise_iff_getElem.mp hb.asc j (k - 1) hj (by omega) h2
        omega
      · have : j = k - 1 := by omega
        subst this; omega
  · intro p hp
    have h1 := ((h.wordCl hk p).mp hp).2.2
    rw [wordBlockId_eq hb.asc hk] at h1
    refine ⟨?_, h1.1⟩
    by_cases h0 : k = 0
    · rw [if_pos h0]; omega
    · rw [if_neg h0]; exact h1.2 (k - 1) (by omega) (by omega)

theorem isRange_unique {lo hi lo' hi' : Nat} {ps : List Posting} (h : IsRange lo hi ps) (h' : IsRange lo' hi' ps) :
    lo = lo' ∧ hi = hi' := by
  obtain ⟨⟨p1, h1, e1⟩, ⟨p2, h2, e2⟩, h3⟩ := h
  obtain ⟨⟨q1, k1, f1⟩, ⟨q2, k2, f2⟩, k3⟩ := h'
  have := h3 q1 k1
  have := h3 q2 k2
  have := k3 p1 h1
  have := k3 p2 h2
  omega

theorem pass_counts (B : List Nat) (vocab : List Str) (kb : Str → Option Nat) (lines : List Line) :
    (pass B vocab kb lines).nofContexts ≤ lines.length + 1 ∧ (pass B vocab kb lines).nofWordPostings ≤ lines.length ∧
    (pass B vocab kb lines).nofEntityPostings ≤ lines.length := by
  have key : ∀ (ls : List Line) (st : Pass),
      (ls.foldl (Pass.step B vocab kb) st).nofContexts ≤ st.nofContexts + ls.length ∧
      (ls.foldl (Pass.step B vocab kb) st).nofWordPostings ≤ st.nofWordPostings + ls.length ∧
      (ls.foldl (Pass.step B vocab kb) st).nofEntityPostings ≤ st.nofEntityPostings + ls.length := by
    intro ls
    induction ls with
    | nil => intro st; simp
    | cons l ls ih =>
      intro st
      rw [List.foldl_cons]
      have h1 := ih (st.step B vocab kb l)
      have h2 : (st.step B vocab kb l).nofContexts ≤ st.nofContexts + 1 ∧
          (st.step B vocab kb l).nofWordPostings ≤ st.nofWordPostings + 1 ∧
          (st.step B vocab kb l).nofEntityPostings ≤ st.nofEntityPostings + 1 := by
        unfold Pass.step Pass.add Pass.change
        by_cases hc : l.ctx ≠ st.cur <;> by_cases hl : l.isEntity = true <;> cases kb l.word <;> simp [hc, hl]
      simp only [List.length_cons]
      omega
  have h := key lines Pass.start
  simp only [Pass.start] at h
  unfold pass Pass.finish
  simp only [Pass.start]
  omega

theorem run_split (es : List Nat) : ∀ n, ∃ r es2, es = List.range' n r ++ es2 ∧ es2.head? ≠ some (n + r) := by
  induction es with
  | nil => intro n; exact ⟨0, [], by simp, by simp⟩
  | cons e es ih =>
    intro n
    by_cases he : e = n
    · subst he
      obtain ⟨r, es2, h1, h2⟩ := ih (e + 1)
      exact ⟨r + 1, es2, by rw [List.range'_succ, List.cons_append, ← h1],
        by rw [show e + (r + 1) = e + 1 + r by omega]; exact h2⟩
    · exact ⟨0, e :: es, by simp, by simpa using he⟩

theorem sum_filter_le (f : Nat → Nat) (q : Nat → Bool) (ks : List Nat) :
    ((ks.filter q).map f).sum ≤ (ks.map f).sum := by
  induction ks with
  | nil => simp
  | cons k ks ih =>
    by_cases h : q k = true
    · rw [List.filter_cons_of_pos h]; simp; omega
    · rw [List.filter_cons_of_neg h]; simp; omega

theorem sum_map_le (f g : Nat → Nat) (ks : List Nat) (h : ∀ k ∈ ks, f k ≤ g k) : (ks.map f).sum ≤ (ks.map g).sum := by
  induction ks with
  | nil => simp
  | cons k ks ih =>
    have := h k (by simp)
    have := ih fun k' hk' => h k' (by simp [hk'])
    simp only [List.map_cons, List.sum_cons]; omega

theorem length_le_sum (f : Nat → Nat) (ks : List Nat) (h : ∀ k ∈ ks, 1 ≤ f k) : ks.length ≤ (ks.map f).sum := by
  induction ks with
  | nil => simp
  | cons k ks ih =>
    have := h k (by simp)
    have := ih fun k' hk' => h k' (by simp [hk'])
    simp; omega

/-- The index as it is read from the file. -/
structure IndexOk (short : Str → Bool) (gt : Str → Str → Bool) (vocab : List Str) (kb : Str → Option Nat)
    (lines : List Line) (vec : List Tuple) (out : List Nat) (t : TextMeta) (Bf : Nat → TBlock) (r : Nat) (es2 : List Nat) :
    Prop where
  split : textEntities kb lines = List.range' vocab.length r ++ es2
  gap : es2.head? ≠ some (vocab.length + r)
  blocks : t.blocks = ((List.range (boundaries short gt vocab).length).map Bf ++
    (List.range' vocab.length r).map fun e => Bf (e + (boundaries short gt vocab).length)) ++
    es2.map fun e => Bf (e + (boundaries short gt vocab).length)
  wordBounds : t.wordBounds = ((List.range (boundaries short gt vocab).length).map Bf ++
    (List.range' vocab.length r).map fun e => Bf (e + (boundaries short gt vocab).length)).map TBlock.lastWordId
  entityBounds : t.entityBounds = (es2.map fun e => Bf (e + (boundaries short gt vocab).length)).map TBlock.lastWordId
  ok : ∀ k ∈ blockIds (boundaries short gt vocab) (textEntities kb lines), BlockOk out (Bf k) (group vec k)
  layout : Layout ((List.range (boundaries short gt vocab).length).map Bf ++
    (List.range' vocab.length r).map fun e => Bf (e + (boundaries short gt vocab).length))
    (es2.map fun e => Bf (e + (boundaries short gt vocab).length))
  nofEntities : t.nofEntities = (textEntities kb lines).length
  nofRecords : t.nofTextRecords = (pass (boundaries short gt vocab) vocab kb lines).nofContexts

theorem Input.entityBlock (h : Input short gt vocab kb lines cb name vec) {e : Nat} (he : e ∈ textEntities kb lines) :
    IsRange e e (clOf (group vec (e + (boundaries short gt vocab).length))) := by
  obtain ⟨c, hc⟩ := (mem_textEntities kb lines e).mp he
  have hm : (⟨c, e, score16 (entityIds kb lines) e c⟩ : Posting) ∈
      clOf (group vec (e + (boundaries short gt vocab).length)) := (h.entityCl e _).mpr ⟨rfl, hc, rfl⟩
  refine ⟨⟨_, hm, rfl⟩, ⟨_, hm, rfl⟩, fun p hp => ?_⟩
  have := ((h.entityCl e p).mp hp).1
  omega

theorem layout_of {B : List Nat} {n r : Nat} {es es2 : List Nat} {Bf : Nat → TBlock} (hb : Bounds B n) (hn : 0 < n)
    (hfirst : ∀ k (hk : k < B.length), (Bf k).firstWordId = (if k = 0 then 0 else B[k - 1]'(by omega) + 1) ∧
      (Bf k).lastWordId = B[k])
    (hent : ∀ e ∈ es, (Bf (e + B.length)).firstWordId = e ∧ (Bf (e + B.length)).lastWordId = e)
    (hr1 : es = List.range' n r ++ es2) (hr2 : es2.head? ≠ some (n + r)) (hasc : es.Pairwise (· < ·)) :
    Layout ((List.range B.length).map Bf ++ (List.range' n r).map fun e => Bf (e + B.length))
        (es2.map fun e => Bf (e + B.length)) ∧
    Gap ((List.range B.length).map Bf ++ (List.range' n r).map fun e => Bf (e + B.length))
        (es2.map fun e => Bf (e + B.length)) := by
  have hnb : 0 < B.length := List.length_pos_of_mem (hb.last hn)
  have hBlast : B[B.length - 1]'(by omega) = n - 1 := by
    obtain ⟨i, hi, hbi⟩ := List.mem_iff_getElem.mp (hb.last hn)
    rcases Nat.lt_or_ge i (B.length - 1) with h' | h'
    · have h1 := List.pairwise_iff_getElem.mp hb.asc i (B.length - 1) hi (by omega) h'
      have h2 := hb.lt _ (List.getElem_mem (show B.length - 1 < B.length by omega))
      omega
    · have : i = B.length - 1 := by omega
      subst this; exact hbi
  have hes1 : ∀ e, n ≤ e → e < n + r → e ∈ es := by
    intro e h1 h2
    rw [hr1, List.mem_append, List.mem_range'_1]; exact Or.inl ⟨h1, h2⟩
  have hlayout : Layout ((List.range B.length).map Bf ++ (List.range' n r).map fun e => Bf (e + B.length))
      (es2.map fun e => Bf (e + B.length)) := by
    refine ⟨?_, ?_, ?_, ?_, ?_, ?_⟩
    · intro e
      have := congrArg List.length e
      rw [List.length_append, List.length_map, List.length_range] at this
      simp only [List.length_nil] at this
      omega
    · intro w hw
      obtain ⟨mm, hmm⟩ : ∃ mm, B.length = mm + 1 := ⟨B.length - 1, by omega⟩
      rw [hmm, List.range_succ_eq_map] at hw
      simp at hw
      rw [← hw, (hfirst 0 hnb).1]; rfl
    · intro w hw
      rcases List.mem_append.mp hw with hw | hw
      · obtain ⟨k, hk, rfl⟩ := List.mem_map.mp hw
        have hk' := List.mem_range.mp hk
        rw [(hfirst k hk').1, (hfirst k hk').2]
        by_cases h0 : k = 0
        · rw [if_pos h0]; omega
        · rw [if_neg h0]
          exact List.pairwise_iff_getElem.mp hb.asc (k - 1) k (by omega) hk' (by omega)
      · obtain ⟨e, he, rfl⟩ := List.mem_map.mp hw
        have he' := List.mem_range'_1.mp he
        have := hent e (hes1 e he'.1 he'.2)
        omega
    · unfold Contiguous
      rw [List.isChain_iff_getElem]
      intro i hi
      simp only [List.length_append, List.length_map, List.length_range, List.length_range'] at hi
      have hget : ∀ j (hj : j < ((List.range B.length).map Bf ++
          (List.range' n r).map fun e => Bf (e + B.length)).length),
          ((List.range B.length).map Bf ++ (List.range' n r).map fun e => Bf (e + B.length))[j] =
            if j < B.length then Bf j else Bf (n + (j - B.length) + B.length) := by
        intro j hj
        by_cases hjb : j < B.length
        · rw [if_pos hjb, List.getElem_append_left (by simpa using hjb)]; simp
        · rw [if_neg hjb, List.getElem_append_right (by simpa using hjb)]; simp
      rw [hget i (by simp; omega), hget (i + 1) (by simp; omega)]
      by_cases hi1 : i + 1 < B.length
      · rw [if_pos (by omega), if_pos hi1, (hfirst i (by omega)).2, (hfirst (i + 1) hi1).1, if_neg (by omega)]
        simp
      · rw [if_neg hi1]
        by_cases hi2 : i < B.length
        · have hi3 : i = B.length - 1 := by omega
          rw [if_pos hi2, (hfirst i hi2).2, (hent (n + (i + 1 - B.length)) (hes1 _ (by omega) (by omega))).1]
          subst hi3
          rw [hBlast]; omega
        · rw [if_neg hi2, (hent (n + (i - B.length)) (hes1 _ (by omega) (by omega))).2,
            (hent (n + (i + 1 - B.length)) (hes1 _ (by omega) (by omega))).1]
          omega
    · intro w hw
      obtain ⟨e, he, rfl⟩ := List.mem_map.mp hw
      have := hent e (by rw [hr1]; simp [he])
      omega
    · rw [List.pairwise_map]
      have hasc2 : es2.Pairwise (· < ·) := by rw [hr1] at hasc; exact (List.pairwise_append.mp hasc).2.1
      refine List.Pairwise.imp_of_mem ?_ hasc2
      intro a b ha hb' hab
      rw [(hent a (by rw [hr1]; simp [ha])).2, (hent b (by rw [hr1]; simp [hb'])).2]
      exact hab
  have hgap : Gap ((List.range B.length).map Bf ++ (List.range' n r).map fun e => Bf (e + B.length))
      (es2.map fun e => Bf (e + B.length)) := by
    intro w e hw he heq
    rw [List.head?_map] at he
    cases hh : es2.head? with
    | none => rw [hh] at he; simp at he
    | some e0 =>
      rw [hh] at he
      simp at he
      subst he
      have hmem : e0 ∈ es2 := List.mem_of_mem_head? hh
      rw [(hent e0 (by rw [hr1]; simp [hmem])).1] at heq
      refine hr2 ?_
      rw [hh]
      congr 1
      by_cases hr0 : r = 0
      · subst hr0
        simp only [List.range'_zero, List.map_nil, List.append_nil] at hw
        obtain ⟨mm, hmm⟩ : ∃ mm, B.length = mm + 1 := ⟨B.length - 1, by omega⟩
        rw [hmm, List.range_succ, List.map_append, List.getLast?_append] at hw
        simp at hw
        have h2 := (hfirst mm (by omega)).2
        rw [hw] at h2
        have h3 : B[mm]'(by omega) = n - 1 := by
          rw [← hBlast]; congr 1; omega
        omega
      · obtain ⟨r', hr'⟩ : ∃ r', r = r' + 1 := ⟨r - 1, by omega⟩
        rw [hr', List.range'_concat, List.map_append, ← List.append_assoc, List.getLast?_append] at hw
        simp at hw
        have h2 := (hent (n + r') (hes1 _ (by omega) (by omega))).2
        rw [hw] at h2
        omega
  exact ⟨hlayout, hgap⟩

theorem Input.build (h : Input short gt vocab kb lines cb name vec) :
    ∃ out, createTextIndex (boundaries short gt vocab) cb (pass (boundaries short gt vocab) vocab kb lines) name vec =
      .ok out ∧ (out.length < 2 ^ 63 → ∃ t Bf r es2, TextMeta.readFromFile out = .ok t ∧
        IndexOk short gt vocab kb lines vec out t Bf r es2) := by
  generalize hB : boundaries short gt vocab = B
  have hb : Bounds B vocab.length := hB ▸ boundaries_bounds short gt vocab
  have hasc := textEntities_asc kb lines
  generalize hes : textEntities kb lines = es at hasc
  have hn : 0 < vocab.length := by
    obtain ⟨l, h1, h2⟩ := h.word
    exact List.length_pos_of_mem ((h.words.2 l.word).mpr ⟨l, h1, h2, rfl⟩)
  have hnb : 0 < B.length := List.length_pos_of_mem (hb.last hn)
  have hks := blockIds_asc B es hasc
  have hgroups : ∀ k ∈ blockIds B es, ∃ p, p ∈ clOf (group vec k) := by
    intro k hk
    rcases List.mem_append.mp hk with hk | hk
    · have hk' := List.mem_range.mp hk
      obtain ⟨⟨p, hp, _⟩, _⟩ := h.wordBlock (k := k) (by rw [hB]; exact hk')
      exact ⟨p, hp⟩
    · obtain ⟨e, he, rfl⟩ := List.mem_map.mp hk
      obtain ⟨⟨p, hp, _⟩, _⟩ := h.entityBlock (e := e) (by rw [hes]; exact he)
      rw [hB] at hp
      exact ⟨p, hp⟩
  have hvec : vec = (blockIds B es).flatMap (group vec) := by
    refine split_blocks (blockIds B es) vec hks (h.isVec.2.imp fun h => sortText_block h) ?_
    intro x hx
    unfold blockIds
    rw [List.mem_append, List.mem_range, List.mem_map]
    have hw := fun w c (ho : Occurs (wordIds vocab lines) w c) => wordBlockId_lt hb (h.idx ho)
    have he : ∀ e c, Occurs (entityIds kb lines) e c → ∃ a ∈ es, a + B.length = entityBlockId B e := by
      intro e c ho
      refine ⟨e, by rw [← hes]; exact (mem_textEntities _ _ _).mpr ⟨c, ho⟩, ?_⟩
      have := (h.eid ho).2
      rw [hB] at this
      exact this.symm
    have hx' := (h.mem x).mp hx
    rw [hB] at hx'
    rcases hx' with h1 | h1 | h1
    · left; rw [h1.2.2.2]; exact hw _ _ h1.2.1
    · right; rw [h1.2.2.2]; exact he _ _ h1.2.1
    · rcases h1.2.2.2 with ⟨w, h2, h3⟩ | ⟨e, h2, h3⟩
      · left; rw [h3]; exact hw _ _ h2
      · right; rw [h3]; exact he _ _ h2
  -- the first block
  obtain ⟨ks', hks'⟩ : ∃ ks', blockIds B es = 0 :: ks' := by
    unfold blockIds
    obtain ⟨m, hm⟩ : ∃ m, B.length = m + 1 := ⟨B.length - 1, by omega⟩
    rw [hm, List.range_succ_eq_map]
    exact ⟨_, rfl⟩
  have hg : ∀ k ∈ blockIds B es, GroupOk k (group vec k) := fun k hk => h.groupOk (hgroups k hk)
  have hg0 := hg 0 (by rw [hks']; simp)
  have hnd : (0 :: ks').Nodup := by rw [← hks']; exact hks.imp Nat.ne_of_lt
  have hfull := full_group (st := Create.start) hg0 rfl rfl rfl (Or.inl ⟨rfl, rfl⟩)
  obtain ⟨st', Bf, more, l1, l2, l3, l4, l5, l6⟩ := groups_spec (B := B) h.codebooks (G := group vec) ks' 0 _ hnd
    (by rw [← hks']; exact hg) hfull
  obtain ⟨f1, f2, _, _, _, f6, f7, _⟩ := foldl_add (group vec 0) Create.start
  rw [← hks'] at l2 l4 l5 l6
  rw [f2] at l2
  rw [f6] at l5
  rw [f7] at l6
  have hloop : Create.loop B cb Create.start vec =
      Create.loop B cb ((group vec 0).foldl Create.add Create.start) (ks'.flatMap (group vec)) := by
    conv => lhs; rw [hvec, hks', List.flatMap_cons]
    exact loop_same B cb _ _ _ hg0.block
  replace l2 : st'.blocks = (blockIds B es).map Bf := by rw [l2]; simp [Create.start]
  replace l5 : st'.nofEntities = ((blockIds B es).filter fun k => isEntityBlockId B k).length := by
    rw [l5]; simp [Create.start]
  replace l6 : st'.nofEntityContexts =
      (((blockIds B es).filter fun k => isEntityBlockId B k).map fun k => (clOf (group vec k)).length).sum := by
    rw [l6]; simp [Create.start]
  have hfilter : ((blockIds B es).filter fun k => isEntityBlockId B k) = es.map fun e => e + B.length := by
    unfold blockIds
    rw [List.filter_append]
    have h1 : (List.range B.length).filter (fun k => isEntityBlockId B k) = [] := by
      rw [List.filter_eq_nil_iff]
      intro k hk
      have := List.mem_range.mp hk
      simp [isEntityBlockId]; omega
    have h2 : (es.map fun e => e + B.length).filter (fun k => isEntityBlockId B k) = es.map fun e => e + B.length := by
      rw [List.filter_eq_self]
      intro k hk
      obtain ⟨e, _, rfl⟩ := List.mem_map.mp hk
      simp [isEntityBlockId]
    rw [h1, h2]; rfl
  generalize hm : (⟨st'.blocks.map TBlock.lastWordId, [], st'.nofEntities, st'.nofEntityContexts,
    (pass B vocab kb lines).nofContexts, (pass B vocab kb lines).nofWordPostings,
    (pass B vocab kb lines).nofEntityPostings, name, st'.blocks⟩ : TextMeta) = m
  obtain ⟨lb, hlb⟩ : ∃ lb, st'.blocks.getLast? = some lb := by
    rw [l2, hks']
    exact ⟨_, List.getLast?_eq_some_getLast (by simp)⟩
  have happ : m.appendToFile st'.file =
      .ok (st'.file ++ m.write ++ toLE 8 ((lb.entityCl.lastByte + 1) % 2 ^ 64)) := by
    unfold TextMeta.appendToFile TextMeta.getOffsetAfter
    rw [← hm]
    simp only
    rw [hlb]
    rfl
  refine ⟨st'.file ++ m.write ++ toLE 8 ((lb.entityCl.lastByte + 1) % 2 ^ 64), ?_, ?_⟩
  · unfold createTextIndex
    rw [hloop]
    cases hL : Create.loop B cb ((group vec 0).foldl Create.add Create.start) (ks'.flatMap (group vec)) with
    | ok s =>
      rw [hL] at l1
      simp only [Outcome.bind] at l1 ⊢
      rw [l1]
      simp only
      rw [hm]
      exact happ
    | throw => rw [hL] at l1; simp [Outcome.bind] at l1
    | ub => rw [hL] at l1; simp [Outcome.bind] at l1
    | diverge => rw [hL] at l1; simp [Outcome.bind] at l1
  · intro hlen
    have hfl : st'.file.length < 2 ^ 63 := by simp only [List.length_append] at hlen; omega
    obtain ⟨hok, hlast⟩ := l4 hfl
    have hoff : (lb.entityCl.lastByte + 1) % 2 ^ 64 = st'.file.length := by rw [hlast lb hlb]; omega
    rw [hoff]
    -- sizes
    have hsum : ((blockIds B es).map fun k => (group vec k).length).sum = vec.length := by
      conv => rhs; rw [hvec]
      rw [List.length_flatMap]
    have hklen : (blockIds B es).length ≤ vec.length := by
      rw [← hsum]
      refine length_le_sum _ _ fun k hk => ?_
      obtain ⟨x, g', hx, _⟩ := (hg k hk).first
      rw [hx]; simp
    have hsz := h.size
    have hcnt := pass_counts B vocab kb lines
    have hln := h.count
    have hwf : ∀ k ∈ blockIds B es, (Bf k).WF := by
      intro k hk
      have hk' := hok k hk
      obtain ⟨⟨p1, q1, e1⟩, ⟨p2, q2, e2⟩, _⟩ := hk'.range
      refine ⟨?_, ?_, hk'.cl.wf, hk'.el.wf⟩
      · rw [← e1]; exact (hg k hk).cl.word p1 q1
      · rw [← e2]; exact (hg k hk).cl.word p2 q2
    have hfits : m.Fits := by
      rw [← hm]
      refine ⟨?_, ?_, ?_, ?_, ?_, ?_, ?_, h.nameLength⟩
      · show st'.blocks.length < _
        rw [l2, List.length_map]; omega
      · intro b hb'
        replace hb' : b ∈ st'.blocks := hb'
        rw [l2] at hb'
        obtain ⟨k, hk, rfl⟩ := List.mem_map.mp hb'
        exact hwf k hk
      · show st'.nofEntities < _
        rw [l5]
        have := List.length_filter_le (fun k => isEntityBlockId B k) (blockIds B es)
        omega
      · show st'.nofEntityContexts < _
        rw [l6]
        have h1 := sum_filter_le (fun k => (clOf (group vec k)).length) (fun k => isEntityBlockId B k) (blockIds B es)
        have h2 : ((blockIds B es).map fun k => (clOf (group vec k)).length).sum ≤
            ((blockIds B es).map fun k => (group vec k).length).sum := by
          refine sum_map_le _ _ _ ?_
          intro k _
          unfold clOf; rw [List.length_map]; exact List.length_filter_le _ _
        omega
      · show (pass B vocab kb lines).nofContexts < _; omega
      · show (pass B vocab kb lines).nofWordPostings < _; omega
      · show (pass B vocab kb lines).nofEntityPostings < _; omega
    obtain ⟨t, ht, t1, t2, _, t4, _, _, _, t8, t9⟩ := create_write m hfits
    obtain ⟨r, es2, hr1, hr2⟩ := run_split es vocab.length
    have hblocks : m.blocks = ((List.range B.length).map Bf ++ (List.range' vocab.length r).map fun e => Bf (e + B.length)) ++
        es2.map fun e => Bf (e + B.length) := by
      rw [← hm]
      show st'.blocks = _
      rw [l2]
      unfold blockIds
      rw [hr1]
      simp [List.map_append, List.map_map, Function.comp_def]
    have hfirst : ∀ k (hk : k < B.length), (Bf k).firstWordId = (if k = 0 then 0 else B[k - 1]'(by omega) + 1) ∧
        (Bf k).lastWordId = B[k] := by
      intro k hk
      have h1 := (hok k (by unfold blockIds; simp [hk])).range
      have h2 := h.wordBlock (k := k) (by rw [hB]; exact hk)
      subst hB
      exact isRange_unique h1 h2
    have hent : ∀ e ∈ es, (Bf (e + B.length)).firstWordId = e ∧ (Bf (e + B.length)).lastWordId = e := by
      intro e he
      have h1 := (hok (e + B.length) (by unfold blockIds; simp [he])).range
      have h2 := h.entityBlock (e := e) (by rw [hes]; exact he)
      rw [hB] at h2
      exact isRange_unique h1 h2
    obtain ⟨hlayout, hgap⟩ := layout_of hb hn hfirst hent hr1 hr2 hasc
    rw [hblocks, classify_split _ _ hlayout.ne hlayout.contiguous hgap] at t8 t9
    refine ⟨t, Bf, r, es2, ?_, ⟨?_, hr2, ?_, ?_, ?_, ?_, ?_, ?_, ?_⟩⟩
    · exact readFromFile_append (by omega) ht
    · rw [hes]; exact hr1
    · rw [hB, t1, hblocks]
    · rw [hB, t8]
    · rw [hB, t9]
    · rw [hB, hes]
      intro k hk
      rw [List.append_assoc]
      exact (hok k hk).append _
    · rw [hB]; exact hlayout
    · rw [t2, hes, ← hm]
      show st'.nofEntities = _
      rw [l5, hfilter, List.length_map]
    · rw [t4, hB, ← hm]

end

end Verif.TextIndex
