import Verif.Lemmas.VocabularyItems
import Verif.Lemmas.IndexMetaData
import Verif.Lemmas.Bytes
/-
Partial vocabularies.
-/
namespace Verif.VocabularyMerger
open Verif.VocabularySpec Verif.MetaData Verif.Bytes
open Verif.ExternalVocabulary (Word)

/-! ### `createInternalMapping` -/

theorem mappingLoop_spec (le : Word → Word → Prop) (hanti : ∀ a b, le a b → le b a → a = b) (els : List Entry) :
    ∀ (last : Word) (next : Nat) (res : Map Nat), (last :: els.map Prod.fst).Pairwise le → (els.map Prod.snd).Nodup →
      (∀ e ∈ els, res.get e.2 = none) →
      ∃ res' els', mappingLoop false last next res els = .ok (res', els') ∧ els'.map Prod.fst = els.map Prod.fst ∧
        List.Forall₂ (fun e e' : Entry => e.1 = e'.1 ∧ res'.get e.2 = some e'.2) els els' ∧
        (∀ k, k ∉ els.map Prod.snd → res'.get k = res.get k) ∧
        els'.Pairwise (fun a b => a.2 ≤ b.2 ∧ (a.2 = b.2 ↔ a.1 = b.1)) ∧
        (∀ e ∈ els', next ≤ e.2 ∧ (e.2 = next ↔ e.1 = last) ∧ e.2 ≤ next + els.length) := by
  induction els with
  | nil => intro last next res _ _ _; exact ⟨res, [], rfl, rfl, .nil, fun _ _ => rfl, .nil, by simp⟩
  | cons el els ih =>
    intro last next res hs hn hr
    obtain ⟨next', hnext⟩ : ∃ n, n = if last = el.1 then next else next + 1 := ⟨_, rfl⟩
    have hnew : (if (!false && last != el.1) = true then next + 1 else next) = next' := by
      rw [hnext]; by_cases h : last = el.1 <;> simp [h]
    have hlast : (if (!false && last != el.1) = true then el.1 else last) = el.1 := by
      by_cases h : last = el.1 <;> simp [h]
    simp only [List.map_cons, List.nodup_cons, List.pairwise_cons, List.mem_cons, forall_eq_or_imp] at hs hn hr
    obtain ⟨⟨hs0, hs1⟩, hs2, hs3⟩ := hs
    have hres : ∀ e ∈ els, (res.set el.2 next').get e.2 = none := by
      intro e he
      rw [get_set, if_neg]
      · exact hr.2 e he
      · intro h; exact hn.1 (h ▸ List.mem_map_of_mem he)
    obtain ⟨res', els', h1, h2, h3, h4, h5, h6⟩ := ih el.1 next' (res.set el.2 next')
      (List.pairwise_cons.mpr ⟨hs2, hs3⟩) hn.2 hres
    refine ⟨res', (el.1, next') :: els', ?_, by simp [h2], ?_, ?_, ?_, ?_⟩
    · rw [mappingLoop]
      simp only [hnew, hlast]
      rw [if_neg (by simp [hr.1]), h1]
      rfl
    · refine .cons ⟨rfl, ?_⟩ h3
      rw [h4 el.2 hn.1, get_set, if_pos rfl]
    · intro k hk
      simp only [List.map_cons, List.mem_cons, not_or] at hk
      rw [h4 k hk.2, get_set, if_neg (fun h => hk.1 h.symm)]
    · refine List.pairwise_cons.mpr ⟨fun e he => ?_, h5⟩
      have := h6 e he
      refine ⟨this.1, ?_⟩
      simp only
      constructor
      · intro h; exact (this.2.1.mp h.symm).symm
      · intro h; exact (this.2.1.mpr h.symm).symm
    · intro e he
      rcases List.mem_cons.mp he with rfl | he'
      · simp only [List.length_cons]
        by_cases h : last = el.1
        · simp only [h, if_true] at hnext; subst hnext
          exact ⟨Nat.le_refl _, by simp [h], by omega⟩
        · simp only [h, if_false] at hnext; subst hnext
          refine ⟨by omega, ⟨fun h' => by omega, fun h' => absurd h'.symm h⟩, by omega⟩
      · obtain ⟨h7, h8, h9⟩ := h6 e he'
        simp only [List.length_cons]
        by_cases h : last = el.1
        · simp only [h, if_true] at hnext; subst hnext
          exact ⟨h7, by rw [h]; exact h8, by omega⟩
        · simp only [h, if_false] at hnext; subst hnext
          refine ⟨by omega, ⟨fun h' => by omega, fun h' => ?_⟩, by omega⟩
          exfalso
          have hm : e.1 ∈ els.map Prod.fst := by rw [← h2]; exact List.mem_map_of_mem he'
          exact h (hanti _ _ hs0 (h' ▸ hs2 _ hm))

/-! ### `std::unique` -/

theorem uniqueIds_spec (l : List Entry) (h : l.Pairwise fun a b => a.2 ≤ b.2) :
    (uniqueIds l).Sublist l ∧ (uniqueIds l).head? = l.head? ∧ ((uniqueIds l).Pairwise fun a b => a.2 < b.2) ∧
    (∀ e ∈ l, ∃ e' ∈ uniqueIds l, e'.2 = e.2) := by
  induction hn : l.length using Nat.strongRecOn generalizing l with
  | ind n ih =>
    match l, h with
    | [], _ => simp [uniqueIds]
    | [a], _ => simp [uniqueIds]
    | a :: b :: l, h =>
      rw [uniqueIds]
      simp only [List.length_cons] at hn
      by_cases hab : a.2 = b.2
      · rw [if_pos hab]
        have hs : (a :: l).Sublist (a :: b :: l) := (List.sublist_cons_self b l).cons_cons a
        obtain ⟨h1, h2, h3, h4⟩ := ih (l.length + 1) (by omega) (a :: l) (h.sublist hs) (by simp)
        refine ⟨h1.trans hs, by rw [h2]; rfl, h3, ?_⟩
        intro e he
        rcases List.mem_cons.mp he with rfl | he
        · exact h4 _ (List.mem_cons_self ..)
        · rcases List.mem_cons.mp he with rfl | he
          · rw [← hab]; exact h4 a (List.mem_cons_self ..)
          · exact h4 e (List.mem_cons_of_mem _ he)
      · rw [if_neg hab]
        rw [List.pairwise_cons] at h
        obtain ⟨h1, h2, h3, h4⟩ := ih (l.length + 1) (by omega) (b :: l) h.2 (by simp)
        refine ⟨h1.cons_cons a, rfl, List.pairwise_cons.mpr ⟨?_, h3⟩, ?_⟩
        · intro e he
          have he' := h1.subset he
          have hlt : a.2 < b.2 := by
            have := h.1 b (List.mem_cons_self ..)
            omega
          rcases List.mem_cons.mp he' with rfl | he''
          · exact hlt
          · have := (List.pairwise_cons.mp h.2).1 e he''
            omega
        · intro e he
          rcases List.mem_cons.mp he with rfl | he
          · exact ⟨e, List.mem_cons_self .., rfl⟩
          · obtain ⟨e', he', h5⟩ := h4 e he
            exact ⟨e', List.mem_cons_of_mem _ he', h5⟩

/-! ### Files -/

theorem readEntry_encode (e : Entry) (rest : List Nat) (h1 : e.1.length < 2 ^ 64) (h2 : e.2 < 2 ^ 64) :
    readEntry (encodeEntry e ++ rest) = some (e, rest) := by
  unfold readEntry
  rw [if_neg (by simp [encodeEntry])]
  have ht : (encodeEntry e ++ rest).take 8 = toLE 8 e.1.length := by
    rw [encodeEntry, List.append_assoc, List.append_assoc, List.take_left' (length_toLE _ _)]
  have hd : (encodeEntry e ++ rest).drop 8 = e.1.map Char.toNat ++ (toLE 8 e.2 ++ rest) := by
    rw [encodeEntry, List.append_assoc, List.append_assoc, List.drop_left' (length_toLE _ _)]
  simp only [ht, hd, ofLE_toLE _ _ (show e.1.length < 256 ^ 8 by omega)]
  rw [List.take_left' (by simp), ← List.drop_drop, List.drop_left' (by simp), List.take_left' (length_toLE _ _),
    List.drop_left' (length_toLE _ _), ofLE_toLE _ _ (by omega)]
  have : (e.1.map Char.toNat).map Char.ofNat = e.1 := by
    rw [List.map_map]
    conv => rhs; rw [← List.map_id e.1]
    apply List.map_congr_left
    intro c _
    simp [Char.ofNat_toNat]
  rw [this]

theorem readVocab_encode (els : List Entry) (h : ∀ e ∈ els, e.1.length < 2 ^ 64 ∧ e.2 < 2 ^ 64) :
    ∀ fuel, els.length ≤ fuel → readVocab fuel (encodeVocab els) = els := by
  induction els with
  | nil =>
    intro fuel _
    cases fuel with
    | zero => rfl
    | succ n => simp [readVocab, encodeVocab, readEntry]
  | cons e els ih =>
    intro fuel hf
    cases fuel with
    | zero => simp at hf
    | succ n =>
      have he := h e (List.mem_cons_self ..)
      have : encodeVocab (e :: els) = encodeEntry e ++ encodeVocab els := by simp [encodeVocab]
      rw [this, readVocab, readEntry_encode e _ he.1 he.2]
      simp only
      rw [ih (fun x hx => h x (List.mem_cons_of_mem _ hx)) n (by simpa using hf)]

theorem length_encodeVocab (els : List Entry) : els.length ≤ (encodeVocab els).length := by
  induction els with
  | nil => simp
  | cons e els ih =>
    have : encodeVocab (e :: els) = encodeEntry e ++ encodeVocab els := by simp [encodeVocab]
    rw [this, List.length_append, List.length_cons]
    have : (encodeEntry e).length = 8 + e.1.length + 8 := by simp [encodeEntry]; omega
    omega

/-! ### Triples -/

theorem mapTriples_spec (m : Map Nat) (ids : List Ids) (ts : List Words) (R : Nat → Word → Prop) (Q : Nat → Word → Prop)
    (hm : ∀ id w, R id w → ∃ x, m.get id = some x ∧ Q x w)
    (h : List.Forall₂ (fun (i : Ids) (w : Words) => R i.1 w.1 ∧ R i.2.1 w.2.1 ∧ R i.2.2 w.2.2) ids ts) :
    ∃ ids', mapTriples m ids = .ok ids' ∧
      List.Forall₂ (fun (i : Ids) (w : Words) => Q i.1 w.1 ∧ Q i.2.1 w.2.1 ∧ Q i.2.2 w.2.2) ids' ts := by
  induction h with
  | nil => exact ⟨[], rfl, .nil⟩
  | cons h1 _ ih =>
    obtain ⟨ids', h2, h3⟩ := ih
    obtain ⟨a, ha, qa⟩ := hm _ _ h1.1
    obtain ⟨b, hb, qb⟩ := hm _ _ h1.2.1
    obtain ⟨c, hc, qc⟩ := hm _ _ h1.2.2
    exact ⟨(a, b, c) :: ids', by simp [mapTriples, mapTriple, ha, hb, hc, h2], .cons ⟨qa, qb, qc⟩ h3⟩

/-- What is known about the words. -/
structure WordsOk (S : Word → Prop) (cmp : Word → Word → Int) : Prop where
  order : OrderOn S cmp
  first : FirstByte S cmp
  nonempty : ∀ w, S w → w ≠ []
  prefixes : ∀ c cs, S (c :: cs) → c.toNat ≤ 128
  length : ∀ w, S w → w.length < 2 ^ 64

/-- What is known about a partial vocabulary file `F` and the triples. -/
structure PartialOk (cmp : Word → Word → Int) (F : List Entry) (ids : List Ids) (ts : List Words) : Prop where
  pids : F.Pairwise fun a b => a.2 < b.2
  sorted : F.Pairwise fun a b => ¬ cmp b.1 a.1 < 0
  strict : ∀ e F', F = e :: F' → F'.Pairwise fun a b => cmp a.1 b.1 < 0
  words : ∀ w, w ∈ F.map Prod.fst ↔ w = languagePredicate ∨ w ∈ wordsOf ts
  has : List.Forall₂ (Has F) ids ts
  small : ∀ e ∈ F, e.2 < 2 ^ 64

theorem partial_spec {S : Word → Prop} {cmp : Word → Word → Int} (hS : WordsOk S cmp) {entries vec : List Entry} {ids : List Ids}
    {ts : List Words} (hm : MapsOk entries ids ts) (hw : ∀ e ∈ entries, S e.1) (hp : vec.Perm entries)
    (hs : vec.Pairwise fun a b => ¬ cmp b.1 a.1 < 0) :
    ∃ F ids', partialVocab vec ids = .ok (encodeVocab F, ids') ∧ PartialOk cmp F ids' ts ∧
      readVocab (encodeVocab F).length (encodeVocab F) = F := by
  have hnd : (vec.map Prod.snd).Nodup := (hp.map Prod.snd).nodup_iff.mpr hm.nodup
  have hwv : ∀ e ∈ vec, S e.1 := fun e he => hw e (hp.mem_iff.mp he)
  have hlv : vec.length < 2 ^ 64 := by rw [hp.length_eq]; exact hm.len
  obtain ⟨e0, rest, rfl⟩ : ∃ e r, vec = e :: r := by
    obtain ⟨e, he, _⟩ := List.mem_map.mp hm.lang
    have := hp.mem_iff.mpr he
    cases vec with
    | nil => simp at this
    | cons a b => exact ⟨a, b, rfl⟩
  let le : Word → Word → Prop := fun a b => a = [] ∨ (b ≠ [] ∧ S a ∧ S b ∧ ¬ cmp b a < 0)
  have hanti : ∀ a b, le a b → le b a → a = b := by
    rintro a b (rfl | ⟨h1, h2, h3, h4⟩) h
    · rcases h with rfl | h
      · rfl
      · exact absurd rfl h.1
    · rcases h with rfl | ⟨h5, _, _, h6⟩
      · exact absurd rfl h1
      · rw [hS.order.flip b a h3 h2] at h4
        exact (hS.order.eq_zero a b h2 h3).mp (by omega)
  rw [List.pairwise_cons] at hs
  rw [List.map_cons, List.nodup_cons] at hnd
  have hle : ([] :: rest.map Prod.fst).Pairwise le := by
    refine List.pairwise_cons.mpr ⟨fun w _ => .inl rfl, ?_⟩
    rw [List.pairwise_map]
    refine hs.2.imp_of_mem fun {a b} ha hb hab => .inr ⟨?_, ?_, ?_, hab⟩
    · exact hS.nonempty _ (hwv b (List.mem_cons_of_mem _ hb))
    · exact hwv a (List.mem_cons_of_mem _ ha)
    · exact hwv b (List.mem_cons_of_mem _ hb)
  obtain ⟨res', els', h1, h2, h3, h4, h5, h6⟩ := mappingLoop_spec le hanti rest [] 0 (Map.set ([] : Map Nat) e0.2 0) hle hnd.2 (by
    intro e he
    rw [get_set, if_neg]
    · rfl
    · intro h; exact hnd.1 (h ▸ List.mem_map_of_mem he))
  have hcim : createInternalMapping (e0 :: rest) = .ok (res', (e0.1, 0) :: els') := by
    unfold createInternalMapping
    rw [mappingLoop]
    simp only [Bool.not_true, Bool.false_and, if_false, Bool.false_eq_true]
    rw [if_neg (by simp [Map.get])]
    rw [h1]; rfl
  have hels : ∀ e ∈ els', 0 < e.2 ∧ S e.1 := by
    intro e he
    have hm1 : e.1 ∈ rest.map Prod.fst := by rw [← h2]; exact List.mem_map_of_mem he
    obtain ⟨e', he', heq⟩ := List.mem_map.mp hm1
    have hS' : S e.1 := heq ▸ hwv e' (List.mem_cons_of_mem _ he')
    refine ⟨?_, hS'⟩
    have := (h6 e he).2.1
    have hne := hS.nonempty _ hS'
    rcases Nat.eq_zero_or_pos e.2 with h | h
    · exact absurd (this.mp h) hne
    · exact h
  have hfull : ((e0.1, 0) :: els').Pairwise fun a b => a.2 ≤ b.2 :=
    List.pairwise_cons.mpr ⟨fun e _ => Nat.zero_le _, h5.imp fun h => h.1⟩
  obtain ⟨u1, u2, u3, u4⟩ := uniqueIds_spec _ hfull
  -- equal ids mean equal words
  have hsame : ∀ a ∈ (e0.1, 0) :: els', ∀ b ∈ (e0.1, 0) :: els', a.2 = b.2 → a.1 = b.1 := by
    have hsym : els'.Pairwise fun a b => a.2 = b.2 → a.1 = b.1 := h5.imp fun h => h.2.mp
    intro a ha b hb hab
    rcases List.mem_cons.mp ha with rfl | ha <;> rcases List.mem_cons.mp hb with rfl | hb
    · rfl
    · have := (hels b hb).1; simp only at hab; omega
    · have := (hels a ha).1; simp only at hab; omega
    · obtain ⟨i, hi, rfl⟩ := List.mem_iff_getElem.mp ha
      obtain ⟨j, hj, rfl⟩ := List.mem_iff_getElem.mp hb
      rw [List.pairwise_iff_getElem] at hsym
      rcases Nat.lt_trichotomy i j with h | h | h
      · exact hsym i j hi hj h hab
      · subst h; rfl
      · exact (hsym j i hj hi h hab.symm).symm
  have hmem : ∀ e, e ∈ uniqueIds ((e0.1, 0) :: els') ↔ e ∈ (e0.1, 0) :: els' := by
    intro e
    refine ⟨fun h => u1.subset h, fun h => ?_⟩
    obtain ⟨e', he', heq⟩ := u4 e h
    have : e' = e := Prod.ext (hsame e' (u1.subset he') e h heq) heq
    exact this ▸ he'
  have hfst : ((e0.1, 0) :: els').map Prod.fst = (e0 :: rest).map Prod.fst := by simp [h2]
  have hsorted : ((e0.1, 0) :: els').Pairwise fun a b => ¬ cmp b.1 a.1 < 0 := by
    have : (((e0.1, 0) :: els').map Prod.fst).Pairwise fun a b => ¬ cmp b a < 0 := by
      rw [hfst, List.pairwise_map]
      exact List.pairwise_cons.mpr hs
    rwa [List.pairwise_map] at this
  -- ids of the vector are mapped to ids of the same word
  have hget : ∀ e ∈ e0 :: rest, ∃ x, res'.get e.2 = some x ∧ (e.1, x) ∈ uniqueIds ((e0.1, 0) :: els') := by
    intro e he
    rcases List.mem_cons.mp he with rfl | he
    · refine ⟨0, ?_, (hmem _).mpr (List.mem_cons_self ..)⟩
      rw [h4 _ hnd.1, get_set, if_pos rfl]
    · obtain ⟨i, hi, rfl⟩ := List.mem_iff_getElem.mp he
      have hi' : i < els'.length := by rw [← h3.length_eq]; exact hi
      have := List.Forall₂.get h3 hi hi'
      refine ⟨els'[i].2, this.2, (hmem _).mpr (List.mem_cons_of_mem _ ?_)⟩
      have hx : (rest[i].1, els'[i].2) = els'[i] := Prod.ext this.1 rfl
      rw [hx]; exact List.getElem_mem hi'
  have hts : List.Forall₂ (fun (i : Ids) (w : Words) => (w.1, i.1) ∈ e0 :: rest ∧ (w.2.1, i.2.1) ∈ e0 :: rest ∧ (w.2.2, i.2.2) ∈ e0 :: rest) ids ts :=
    hm.has.imp fun a b h => ⟨hp.mem_iff.mpr h.1, hp.mem_iff.mpr h.2.1, hp.mem_iff.mpr h.2.2⟩
  obtain ⟨ids', t1, t2⟩ := mapTriples_spec res' ids ts (fun id w => (w, id) ∈ e0 :: rest)
    (fun x w => (w, x) ∈ uniqueIds ((e0.1, 0) :: els')) (fun id w h => hget (w, id) h) hts
  have hsmall : ∀ e ∈ uniqueIds ((e0.1, 0) :: els'), e.2 < 2 ^ 64 := by
    intro e he
    rcases List.mem_cons.mp (u1.subset he) with rfl | he'
    · simp
    · have := (h6 e he').2.2
      simp only [List.length_cons] at hlv
      omega
  refine ⟨uniqueIds ((e0.1, 0) :: els'), ids', ?_, ⟨u3, hsorted.sublist u1, ?_, ?_, t2, hsmall⟩, ?_⟩
  · unfold partialVocab
    rw [hcim]
    simp only [Outcome.bind, t1, Outcome.map]
  · intro e F' hF
    have he : e = (e0.1, 0) := by
      have := u2
      rw [hF] at this
      simpa using this
    have hsub : F'.Sublist els' := by
      rw [hF, he] at u1
      exact List.cons_sublist_cons.mp u1
    have hs' : F'.Pairwise fun a b => ¬ cmp b.1 a.1 < 0 := (List.pairwise_cons.mp hsorted).2.sublist hsub
    have h5' := h5.sublist hsub
    have hp' : F'.Pairwise fun a b => a.2 < b.2 := by rw [hF] at u3; exact (List.pairwise_cons.mp u3).2
    refine (hs'.and (h5'.and hp')).imp_of_mem fun {a b} ha hb h => ?_
    obtain ⟨h7, h8, h9⟩ := h
    have hne : a.1 ≠ b.1 := fun h10 => by have := h8.2.mpr h10; omega
    have sa := (hels a (hsub.subset ha)).2
    have sb := (hels b (hsub.subset hb)).2
    rw [hS.order.flip b.1 a.1 sb sa] at h7
    have : cmp a.1 b.1 ≠ 0 := fun h => hne ((hS.order.eq_zero _ _ sa sb).mp h)
    omega
  · intro w
    constructor
    · intro h
      obtain ⟨e, he, rfl⟩ := List.mem_map.mp h
      have h7 : e.1 ∈ (e0 :: rest).map Prod.fst := by
        rw [← hfst]; exact List.mem_map_of_mem (u1.subset he)
      obtain ⟨e', he', heq⟩ := List.mem_map.mp h7
      rw [← heq]
      exact hm.words e' (hp.mem_iff.mp he')
    · intro h
      have h7 : w ∈ (e0 :: rest).map Prod.fst := by
        rcases h with rfl | h
        · obtain ⟨e, he, heq⟩ := List.mem_map.mp hm.lang
          exact heq ▸ List.mem_map_of_mem (hp.mem_iff.mpr he)
        · obtain ⟨t, ht, heq⟩ := mem_wordsOf.mp h
          obtain ⟨j, hj, rfl⟩ := List.mem_iff_getElem.mp ht
          have hj' : j < ids.length := by rw [hts.length_eq]; exact hj
          have := List.Forall₂.get hts hj' hj
          rcases heq with rfl | rfl | rfl
          · exact List.mem_map.mpr ⟨_, this.1, rfl⟩
          · exact List.mem_map.mpr ⟨_, this.2.1, rfl⟩
          · exact List.mem_map.mpr ⟨_, this.2.2, rfl⟩
      rw [← hfst] at h7
      obtain ⟨e, he, rfl⟩ := List.mem_map.mp h7
      exact List.mem_map_of_mem ((hmem e).mpr he)
  · refine readVocab_encode _ (fun e he => ⟨?_, hsmall e he⟩) _ (length_encodeVocab _)
    have h7 : e.1 ∈ (e0 :: rest).map Prod.fst := by
      rw [← hfst]; exact List.mem_map_of_mem (u1.subset he)
    obtain ⟨e', he', heq⟩ := List.mem_map.mp h7
    exact hS.length _ (heq ▸ hwv e' he')

end Verif.VocabularyMerger
