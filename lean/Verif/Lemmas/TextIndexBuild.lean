import Verif.Lemmas.TextIndex
/-
Lemmas about writing the blocks of the text index.
-/
namespace Verif.TextIndex
open Verif.PostingLists Verif.TextMetaData Verif.Spec.TextIndex

def Tuple.posting (x : Tuple) : Posting := ⟨x.ctx, x.word, x.score⟩

/-- The postings of the words (or of the entity) of a block. -/
def clOf (g : List Tuple) : List Posting := (g.filter fun x => !x.ent).map Tuple.posting

/-- The postings of the entities that occur together with the words of a block. -/
def elOf (g : List Tuple) : List Posting := (g.filter fun x => x.ent).map Tuple.posting

/-- Smallest and largest word of postings. -/
def IsRange (lo hi : Nat) (ps : List Posting) : Prop :=
  (∃ p ∈ ps, p.word = lo) ∧ (∃ p ∈ ps, p.word = hi) ∧ ∀ p ∈ ps, lo ≤ p.word ∧ p.word ≤ hi

theorem loop_same (B : List Nat) (cb : Codebooks) (g : List Tuple) : ∀ (st : Create) (rest : List Tuple),
    (∀ x ∈ g, x.block = st.cur) → Create.loop B cb st (g ++ rest) = Create.loop B cb (g.foldl Create.add st) rest := by
  induction g with
  | nil => intro st rest _; rfl
  | cons x g ih =>
    intro st rest h
    rw [List.cons_append, Create.loop, Create.step, if_neg (by simp [h x (by simp)])]
    simp only [Outcome.bind, List.foldl_cons]
    refine ih _ rest fun y hy => ?_
    rw [h y (by simp [hy])]
    unfold Create.add; split <;> rfl

theorem foldl_add (g : List Tuple) : ∀ st : Create,
    (g.foldl Create.add st).file = st.file ∧ (g.foldl Create.add st).blocks = st.blocks ∧
    (g.foldl Create.add st).cur = st.cur ∧ (g.foldl Create.add st).classic = st.classic ++ clOf g ∧
    (g.foldl Create.add st).entity = st.entity ++ elOf g ∧ (g.foldl Create.add st).nofEntities = st.nofEntities ∧
    (g.foldl Create.add st).nofEntityContexts = st.nofEntityContexts ∧
    (g.foldl Create.add st).minId ≤ st.minId ∧ st.maxId ≤ (g.foldl Create.add st).maxId ∧
    (∀ p ∈ clOf g, (g.foldl Create.add st).minId ≤ p.word ∧ p.word ≤ (g.foldl Create.add st).maxId) ∧
    ((g.foldl Create.add st).minId = st.minId ∨ ∃ p ∈ clOf g, p.word = (g.foldl Create.add st).minId) ∧
    ((g.foldl Create.add st).maxId = st.maxId ∨ ∃ p ∈ clOf g, p.word = (g.foldl Create.add st).maxId) := by
  induction g with
  | nil => intro st; simp [clOf, elOf]
  | cons x g ih =>
    intro st
    rw [List.foldl_cons]
    obtain ⟨h1, h2, h3, h4, h5, h6, h7, h8, h9, h10, h11, h12⟩ := ih (st.add x)
    by_cases hx : x.ent = true
    · have hcl : clOf (x :: g) = clOf g := by simp [clOf, hx]
      have hel : elOf (x :: g) = x.posting :: elOf g := by simp [elOf, hx]
      have hadd : st.add x = { st with entity := st.entity ++ [x.posting] } := by
        unfold Create.add; rw [if_neg (by simp [hx])]; rfl
      rw [hcl, hel]
      rw [hadd] at h1 h2 h3 h4 h5 h6 h7 h8 h9 h10 h11 h12 ⊢
      exact ⟨h1, h2, h3, h4, by rw [h5]; simp, h6, h7, h8, h9, h10, h11, h12⟩
    · have hx' : x.ent = false := by simpa using hx
      have hcl : clOf (x :: g) = x.posting :: clOf g := by simp [clOf, hx']
      have hel : elOf (x :: g) = elOf g := by simp [elOf, hx']
      have hadd : st.add x = ⟨st.file, st.blocks, st.cur, if x.word < st.minId then x.word else st.minId,
          if x.word > st.maxId then x.word else st.maxId, st.classic ++ [x.posting], st.entity, st.nofEntities,
          st.nofEntityContexts⟩ := by
        unfold Create.add; rw [if_pos (by simp [hx'])]; rfl
      rw [hcl, hel]
      have hw : x.posting.word = x.word := rfl
      have hmin : (st.add x).minId ≤ st.minId ∧ (st.add x).minId ≤ x.word ∧
          ((st.add x).minId = st.minId ∨ (st.add x).minId = x.word) := by
        rw [hadd]; simp only; split <;> omega
      have hmax : st.maxId ≤ (st.add x).maxId ∧ x.word ≤ (st.add x).maxId ∧
          ((st.add x).maxId = st.maxId ∨ (st.add x).maxId = x.word) := by
        rw [hadd]; simp only; split <;> omega
      refine ⟨by rw [h1, hadd], by rw [h2, hadd], by rw [h3, hadd], by rw [h4, hadd]; simp, by rw [h5, hadd],
        by rw [h6, hadd], by rw [h7, hadd], by omega, by omega, ?_, ?_, ?_⟩
      · intro p hp
        rcases List.mem_cons.mp hp with rfl | hp
        · rw [hw]; omega
        · exact h10 p hp
      · rcases h11 with h | ⟨p, hp, h⟩
        · rcases hmin.2.2 with h' | h'
          · exact Or.inl (h.trans h')
          · exact Or.inr ⟨x.posting, by simp, by rw [hw]; omega⟩
        · exact Or.inr ⟨p, by simp [hp], h⟩
      · rcases h12 with h | ⟨p, hp, h⟩
        · rcases hmax.2.2 with h' | h'
          · exact Or.inl (h.trans h')
          · exact Or.inr ⟨x.posting, by simp, by rw [hw]; omega⟩
        · exact Or.inr ⟨p, by simp [hp], h⟩

/-- The elements of a block: the words first, and everything can be written. -/
structure GroupOk (k : Nat) (g : List Tuple) : Prop where
  block : ∀ x ∈ g, x.block = k
  first : ∃ x g', g = x :: g' ∧ x.ent = false
  cl : Writable (clOf g)
  el : Writable (elOf g)

/-- The block has been read completely. -/
structure Full (st : Create) (k : Nat) (g : List Tuple) : Prop where
  cur : st.cur = k
  classic : st.classic = clOf g
  entity : st.entity = elOf g
  range : IsRange st.minId st.maxId (clOf g)

theorem full_group {st : Create} {k : Nat} {g : List Tuple} (hg : GroupOk k g) (hcur : st.cur = k)
    (hc : st.classic = []) (he : st.entity = [])
    (hm : (st.minId = 2 ^ 64 - 1 ∧ st.maxId = 0) ∨ ∀ x g', g = x :: g' → st.minId = x.word ∧ st.maxId = x.word) :
    Full (g.foldl Create.add st) k g := by
  obtain ⟨_, _, h3, h4, h5, _, _, _, _, h10, h11, h12⟩ := foldl_add g st
  refine ⟨by rw [h3, hcur], by rw [h4, hc]; rfl, by rw [h5, he]; rfl, ?_⟩
  obtain ⟨x, g', hx, hent⟩ := hg.first
  have hmem : x.posting ∈ clOf g := by rw [hx]; simp [clOf, hent]
  have hxw : x.posting.word = x.word := rfl
  refine ⟨?_, ?_, h10⟩
  · rcases h11 with h | h
    · rcases hm with hm | hm
      · have h1 := h10 _ hmem
        have h2 := hg.cl.word _ hmem
        exact ⟨_, hmem, by omega⟩
      · have := hm x g' hx
        exact ⟨_, hmem, by omega⟩
    · exact h
  · rcases h12 with h | h
    · rcases hm with hm | hm
      · have h1 := h10 _ hmem
        exact ⟨_, hmem, by omega⟩
      · have := hm x g' hx
        exact ⟨_, hmem, by omega⟩
    · exact h

/-- What the file and the meta data say about a block. -/
structure BlockOk (file : List Nat) (b : TBlock) (g : List Tuple) : Prop where
  range : IsRange b.firstWordId b.lastWordId (clOf g)
  cl : ReadsAs file b.cl (clOf g) true
  el : ReadsAs file b.entityCl (elOf g) false

theorem BlockOk.append {file : List Nat} {b : TBlock} {g : List Tuple} (h : BlockOk file b g) (more : List Nat) :
    BlockOk (file ++ more) b g := ⟨h.range, h.cl.append _, h.el.append _⟩

theorem flush_spec {B : List Nat} {cb : Codebooks} (hcb : cb.Right) {st : Create} {k : Nat} {g : List Tuple}
    (hg : GroupOk k g) (h : Full st k g) : ∃ b more, st.flush B cb = .ok { st with
        file := st.file ++ more, blocks := st.blocks ++ [b], classic := [], entity := [],
        nofEntities := if isEntityBlockId B k then st.nofEntities + 1 else st.nofEntities,
        nofEntityContexts := if isEntityBlockId B k then st.nofEntityContexts + (clOf g).length
          else st.nofEntityContexts } ∧ more ≠ [] ∧
      ((st.file ++ more).length < 2 ^ 63 →
        BlockOk (st.file ++ more) b g ∧ b.entityCl.lastByte + 1 = (st.file ++ more).length) := by
  obtain ⟨x, g', hx, hent⟩ := hg.first
  have hne : clOf g ≠ [] := by rw [hx]; simp [clOf, hent]
  obtain ⟨b1, c1, w1, n1, r1⟩ := write_spec hcb st.file hg.cl true
  obtain ⟨b2, c2, w2, _, r2⟩ := write_spec hcb (st.file ++ b1) hg.el false
  refine ⟨⟨st.minId, st.maxId, c1, c2⟩, b1 ++ b2, ?_, ?_, ?_⟩
  · unfold Create.flush
    rw [h.classic, h.entity, h.cur, if_neg (by have := List.length_pos_iff.mpr hne; omega), w1]
    simp only [Outcome.bind]
    rw [w2]
    simp only [List.append_assoc]
  · simp [n1 hne]
  · intro hl
    rw [← List.append_assoc] at hl ⊢
    have hl1 : (st.file ++ b1).length < 2 ^ 63 := by rw [List.length_append] at hl; omega
    refine ⟨⟨h.range, (r1 hl1).1.append _, (r2 hl).1⟩, (r2 hl).2 (by simp [n1 hne])⟩

theorem groups_spec {B : List Nat} {cb : Codebooks} (hcb : cb.Right) {G : Nat → List Tuple} (ks : List Nat) :
    ∀ (k : Nat) (st : Create), (k :: ks).Nodup → (∀ k' ∈ k :: ks, GroupOk k' (G k')) → Full st k (G k) →
    ∃ st' Bf more, ((Create.loop B cb st (ks.flatMap G)).bind fun s => s.flush B cb) = .ok st' ∧
      st'.blocks = st.blocks ++ (k :: ks).map Bf ∧ st'.file = st.file ++ more ∧
      (st'.file.length < 2 ^ 63 → (∀ k' ∈ k :: ks, BlockOk st'.file (Bf k') (G k')) ∧
        ∀ b, st'.blocks.getLast? = some b → b.entityCl.lastByte + 1 = st'.file.length) ∧
      st'.nofEntities = st.nofEntities + ((k :: ks).filter fun k => isEntityBlockId B k).length ∧
      st'.nofEntityContexts = st.nofEntityContexts +
        (((k :: ks).filter fun k => isEntityBlockId B k).map fun k => (clOf (G k)).length).sum := by
  induction ks with
  | nil =>
    intro k st hnd hg hf
    obtain ⟨b, more, h1, h2, h3⟩ := flush_spec (B := B) hcb (hg k (by simp)) hf
    refine ⟨_, fun _ => b, more, (by simp only [List.flatMap_nil, Create.loop, Outcome.bind]; exact h1), by simp, rfl,
      ?_, ?_, ?_⟩
    · intro hl
      refine ⟨fun k' hk' => ?_, fun b' hb' => ?_⟩
      · rw [List.mem_singleton.mp hk']; exact (h3 hl).1
      · simp at hb'; subst hb'; exact (h3 hl).2
    · cases h : isEntityBlockId B k <;> simp [h]
    · cases h : isEntityBlockId B k <;> simp [h]
  | cons k2 ks ih =>
    intro k st hnd hg hf
    obtain ⟨b, more, h1, h2, h3⟩ := flush_spec (B := B) hcb (hg k (by simp)) hf
    have hg2 := hg k2 (by simp)
    obtain ⟨x, g', hx, hent⟩ := hg2.first
    have hkk : k ≠ k2 := by
      have := (List.nodup_cons.mp hnd).1
      intro e; subst e; simp at this
    generalize hst1 : ({ st with
        file := st.file ++ more, blocks := st.blocks ++ [b], classic := [], entity := [],
        nofEntities := if isEntityBlockId B k then st.nofEntities + 1 else st.nofEntities,
        nofEntityContexts := if isEntityBlockId B k then st.nofEntityContexts + (clOf (G k)).length
          else st.nofEntityContexts } : Create) = st1 at h1
    have hloop : Create.loop B cb st ((k2 :: ks).flatMap G) =
        Create.loop B cb ((G k2).foldl Create.add { st1 with cur := x.block, minId := x.word, maxId := x.word })
          (ks.flatMap G) := by
      rw [List.flatMap_cons, hx, List.cons_append, Create.loop, Create.step,
        if_pos (by rw [hg2.block x (by rw [hx]; simp), hf.cur]; exact fun e => hkk e.symm), h1]
      simp only [Outcome.map, Outcome.bind, List.foldl_cons]
      refine loop_same B cb g' _ _ fun y hy => ?_
      rw [hg2.block y (by rw [hx]; simp [hy])]
      have := hg2.block x (by rw [hx]; simp)
      unfold Create.add; split <;> exact this.symm
    have hf2 : Full ((G k2).foldl Create.add { st1 with cur := x.block, minId := x.word, maxId := x.word }) k2 (G k2) := by
      refine full_group hg2 (hg2.block x (by rw [hx]; simp)) ?_ ?_ (Or.inr ?_)
      · rw [← hst1]
      · rw [← hst1]
      · intro y g'' hy
        rw [hx] at hy
        injection hy with hy1 hy2
        subst hy1
        exact ⟨rfl, rfl⟩
    obtain ⟨st', Bf, more2, i1, i2, i3, i4, i5, i6⟩ := ih k2 _ (List.nodup_cons.mp hnd).2
      (fun k' hk' => hg k' (by simp at hk' ⊢; exact Or.inr hk')) hf2
    obtain ⟨f1, f2, _, _, _, f6, f7, _⟩ := foldl_add (G k2) { st1 with cur := x.block, minId := x.word, maxId := x.word }
    rw [f2] at i2
    rw [f1] at i3
    rw [f6] at i5
    rw [f7] at i6
    rw [← hst1] at i2 i3 i5 i6
    simp only at i2 i3 i5 i6
    refine ⟨st', fun k' => if k' = k then b else Bf k', more ++ more2, ?_, ?_, ?_, ?_, ?_, ?_⟩
    · rw [hloop]; exact i1
    · rw [i2]
      simp only [List.append_assoc, List.map_cons, if_true, List.cons_append, List.nil_append]
      congr 2
      rw [if_neg (fun e => hkk e.symm)]
      congr 1
      refine List.map_congr_left ?_
      intro k' hk'
      rw [if_neg]
      rintro rfl
      have := (List.nodup_cons.mp hnd).1
      simp [hk'] at this
    · rw [i3]; simp
    · intro hl
      refine ⟨fun k' hk' => ?_, (i4 hl).2⟩
      simp only
      by_cases hkk' : k' = k
      · subst hkk'
        rw [if_pos rfl, i3]
        refine BlockOk.append (h3 ?_).1 _
        rw [i3, List.length_append] at hl; omega
      · rw [if_neg hkk']
        refine (i4 hl).1 k' ?_
        rcases List.mem_cons.mp hk' with h | h
        · exact absurd h hkk'
        · exact h
    · rw [i5, List.filter_cons (x := k)]
      cases h : isEntityBlockId B k <;> simp; omega
    · rw [i6, List.filter_cons (x := k)]
      cases h : isEntityBlockId B k <;> simp; omega

/-- A vector that is sorted by block consists of its blocks, one after the other. -/
theorem split_blocks (ks : List Nat) : ∀ vec : List Tuple, ks.Pairwise (· < ·) →
    vec.Pairwise (fun a b => a.block ≤ b.block) → (∀ x ∈ vec, x.block ∈ ks) →
    vec = ks.flatMap fun k => vec.filter fun x => decide (x.block = k) := by
  induction ks with
  | nil =>
    intro vec _ _ h
    cases vec with
    | nil => rfl
    | cons x vec => exact absurd (h x (by simp)) (by simp)
  | cons k ks ih =>
    intro vec hk hs hm
    have hk' := List.pairwise_cons.mp hk
    have hmin : ∀ x ∈ vec, k ≤ x.block := fun x hx => by
      rcases List.mem_cons.mp (hm x hx) with h | h
      · omega
      · exact Nat.le_of_lt (hk'.1 _ h)
    have hsplit : ∀ v : List Tuple, v.Pairwise (fun a b => a.block ≤ b.block) → (∀ x ∈ v, k ≤ x.block) →
        v = (v.filter fun x => decide (x.block = k)) ++ v.filter fun x => !decide (x.block = k) := by
      intro v
      induction v with
      | nil => intro _ _; rfl
      | cons x v ihv =>
        intro hs hm
        have hs' := List.pairwise_cons.mp hs
        by_cases hx : x.block = k
        · rw [List.filter_cons_of_pos (by simp [hx]), List.filter_cons_of_neg (by simp [hx]), List.cons_append,
            ← ihv hs'.2 (fun y hy => hm y (by simp [hy]))]
        · have hxk := hm x (by simp)
          have hnone : ((x :: v).filter fun x => decide (x.block = k)) = [] := by
            rw [List.filter_eq_nil_iff]
            intro y hy
            simp only [decide_eq_true_eq]
            rcases List.mem_cons.mp hy with rfl | hy
            · exact hx
            · have := hs'.1 y hy; omega
          have hall : ((x :: v).filter fun x => !decide (x.block = k)) = x :: v := by
            rw [List.filter_eq_self]
            intro y hy
            have := List.filter_eq_nil_iff.mp hnone y hy
            simpa using this
          rw [hnone, hall]; rfl
    rw [List.flatMap_cons]
    have h1 := hsplit vec hs hmin
    have h2 := ih (vec.filter fun x => !decide (x.block = k)) hk'.2 (hs.filter _) (by
      intro x hx
      obtain ⟨hx1, hx2⟩ := List.mem_filter.mp hx
      rcases List.mem_cons.mp (hm x hx1) with h | h
      · simp [h] at hx2
      · exact h)
    conv => lhs; rw [h1]
    congr 1
    conv => lhs; rw [h2]
    refine List.flatMap_congr ?_
    intro k' hk2
    rw [List.filter_filter]
    refine List.filter_congr ?_
    intro x _
    have := hk'.1 k' hk2
    by_cases hx : x.block = k'
    · simp [hx]; omega
    · simp [hx]

end Verif.TextIndex
