import Verif.Lemmas.MetaData
namespace Verif.MetaData
open Verif.Bytes Verif.MetaDataSpec

/-! ### Maps -/

theorem get_some_iff {m : Map α} (hn : (m.map Prod.fst).Nodup) (k : Nat) (v : α) :
    m.get k = some v ↔ (k, v) ∈ m := by
  induction m with
  | nil => simp [Map.get]
  | cons e m ih =>
    have hn' : e.1 ∉ m.map Prod.fst ∧ (m.map Prod.fst).Nodup := List.nodup_cons.mp hn
    have ih := ih hn'.2
    unfold Map.get at *
    by_cases h : e.1 = k
    · have : (e.1 == k) = true := by simpa using h
      rw [List.find?_cons_of_pos (by simpa using h)]
      simp only [Option.map_some, Option.some.injEq, List.mem_cons]
      constructor
      · rintro rfl; left; rw [← h]
      · rintro (h' | h')
        · rw [← h']
        · exact absurd (List.mem_map.mpr ⟨_, h', h.symm⟩) hn'.1
    · rw [List.find?_cons_of_neg (by simpa using h), ih]
      simp only [List.mem_cons]
      constructor
      · exact Or.inr
      · rintro (h' | h')
        · exact absurd (by rw [← h']) h
        · exact h'

theorem get_perm {m m' : Map α} (hn : (m.map Prod.fst).Nodup) (hp : m'.Perm m) (k : Nat) : m'.get k = m.get k := by
  have hn' : (m'.map Prod.fst).Nodup := (hp.map Prod.fst).nodup_iff.mpr hn
  apply Option.ext; intro v
  rw [get_some_iff hn', get_some_iff hn, hp.mem_iff]

theorem get_set (m : Map α) (k : Nat) (v : α) (k' : Nat) : (m.set k v).get k' = if k = k' then some v else m.get k' := by
  unfold Map.set Map.get
  by_cases h : k = k'
  · simp [h]
  · rw [List.find?_cons_of_neg (by simpa using h), if_neg h, List.find?_filter]
    congr 1
    have : (fun e : Nat × α => decide ((e.1 != k) = true ∧ (e.1 == k') = true)) = fun e => e.1 == k' := by
      funext e
      by_cases h1 : e.1 = k'
      · have : ¬ k' = k := fun h' => h h'.symm
        simp [h1, this]
      · simp [h1]
    rw [this]

theorem nodup_set {m : Map α} (hn : (m.map Prod.fst).Nodup) (k : Nat) (v : α) : ((m.set k v).map Prod.fst).Nodup := by
  unfold Map.set
  rw [List.map_cons, List.nodup_cons]
  constructor
  · simp only [List.mem_map, List.mem_filter, not_exists, not_and, and_imp]
    intro e _ he h; simp at he; exact he h
  · exact hn.sublist ((List.filter_sublist (l := m)).map Prod.fst)

theorem mem_set {m : Map α} {k : Nat} {v : α} {e : Nat × α} (h : e ∈ m.set k v) : e = (k, v) ∨ e ∈ m := by
  unfold Map.set at h
  rcases List.mem_cons.mp h with h | h
  · exact Or.inl h
  · exact Or.inr ((List.mem_filter.mp h).1)

/-! ### The values added last -/

/-- What `add` was called with. -/
abbrev Add := Full × Blocks

/-- The pair added last for a relation. -/
def last (adds : List Add) (id : Nat) : Option Add := lastFor (fun a => a.1.relId) adds id

theorem last_append (adds : List Add) (a : Add) (id : Nat) :
    last (adds ++ [a]) id = if a.1.relId = id then some a else last adds id := by
  unfold last lastFor
  by_cases h : a.1.relId = id
  · simp [h]
  · simp [h]

theorem last_mem {adds : List Add} {id : Nat} {a : Add} (h : last adds id = some a) : a ∈ adds ∧ a.1.relId = id := by
  unfold last lastFor at h
  have := List.mem_of_getLast? h
  have := List.mem_filter.mp this
  exact ⟨this.1, by simpa using this.2⟩

/-- The end of a relation's data. -/
def expectedAfter (a : Add) : Nat :=
  if a.1.hasBlocks then a.2.offsetAfter else (a.1.start + a.1.nofBytes) % 2 ^ 64

/-- Calling `add` for each element of a list. -/
def addAll : Index → List Add → Outcome Index
  | s, [] => .ok s
  | s, a :: as => (s.add a.1 a.2).bind fun s => addAll s as

theorem addAll_append (s : Index) (as bs : List Add) :
    addAll s (as ++ bs) = (addAll s as).bind fun t => addAll t bs := by
  induction as generalizing s with
  | nil => rfl
  | cons a as ih =>
    simp only [List.cons_append, addAll]
    cases h : s.add a.1 a.2 <;> simp [ih]

/-- The data part of the invariant. -/
def DataInv (d : Data) (adds : List Add) : Prop :=
  match d with
  | .sparse m => (m.map Prod.fst).Nodup ∧ (∀ id, m.get id = (last adds id).map Prod.fst)
  | .dense _ vec => vec.length < 2 ^ 64 ∧
      ∀ id, id < vec.length → vec[id]? = some (((last adds id).map Prod.fst).getD Full.empty)

structure Inv (s : Index) (adds : List Add) : Prop where
  data : DataInv s.data adds
  blocks : ∀ id a, last adds id = some a → a.1.hasBlocks = true → s.blockData.get id = some a.2
  bkeys : (s.blockData.map Prod.fst).Nodup
  bprov : ∀ e ∈ s.blockData, ∃ a ∈ adds, a.1.relId = e.1 ∧ a.2 = e.2
  off : ∀ a ∈ adds, expectedAfter a ≤ s.offsetAfter

theorem last_none {adds : List Add} {id : Nat} (h : ∀ a ∈ adds, a.1.relId ≠ id) : last adds id = none := by
  unfold last lastFor
  rw [List.filter_eq_nil_iff.mpr (by intro a ha; simpa using h a ha)]; rfl

theorem last_isSome {adds : List Add} {a : Add} (h : a ∈ adds) : ∃ b, last adds a.1.relId = some b := by
  unfold last lastFor
  have : a ∈ adds.filter fun b => b.1.relId == a.1.relId := List.mem_filter.mpr ⟨h, by simp⟩
  exact ⟨_, List.getLast?_eq_some_getLast (List.ne_nil_of_mem this)⟩

theorem empty_relId : Full.empty.relId = 2 ^ 64 - 1 := (mk'_ids _ _ _ _ _ _ _).1

theorem inv_step {s t : Index} {adds : List Add} (h : Inv s adds) {a : Add} (ha : s.add a.1 a.2 = .ok t) :
    Inv t (adds ++ [a]) ∧ t.offsetAfter = max s.offsetAfter (expectedAfter a) ∧ t.name = s.name ∧
      (∀ id, (last (adds ++ [a]) id).isSome → (∃ m, t.data = .sparse m) ∨
        ∃ n vec, t.data = .dense n vec ∧ (id < vec.length ∨ (last adds id).isSome)) := by
  unfold Index.add at ha
  cases hd : s.data.set a.1.relId a.1 with
  | throw => rw [hd] at ha; cases ha
  | ub => rw [hd] at ha; cases ha
  | diverge => rw [hd] at ha; cases ha
  | ok d =>
    rw [hd] at ha
    have ht : t = { s with data := d }.addPersistent a.1 a.2 := by injection ha with ha; exact ha.symm
    have hoff : t.offsetAfter = max s.offsetAfter (expectedAfter a) := by
      rw [ht]; simp only [Index.addPersistent, expectedAfter]
      generalize (if a.1.hasBlocks = true then a.2.offsetAfter else (a.1.start + a.1.nofBytes) % 2 ^ 64) = x
      split <;> omega
    have htd : t.data = d := by rw [ht]; rfl
    have htb : t.blockData = if a.1.hasBlocks then s.blockData.set a.1.relId a.2 else s.blockData := by rw [ht]; rfl
    have hdata : DataInv d (adds ++ [a]) ∧ (∀ id, (last (adds ++ [a]) id).isSome → (∃ m, d = .sparse m) ∨
        ∃ n vec, d = .dense n vec ∧ (id < vec.length ∨ (last adds id).isSome)) := by
      have hi := h.data
      cases hs : s.data with
      | sparse m =>
        rw [hs] at hd hi
        injection hd with hd; subst hd
        refine ⟨⟨nodup_set hi.1 _ _, fun id => ?_⟩, fun id _ => Or.inl ⟨_, rfl⟩⟩
        rw [get_set, last_append]
        split
        · rfl
        · exact hi.2 id
      | dense n vec =>
        rw [hs] at hd hi
        unfold Data.set at hd
        simp only at hd
        split at hd
        · cases hd
        · rename_i hlt
          have hlt : a.1.relId < vec.length := by omega
          rw [Outcome.read_lt _ _ hlt] at hd
          injection hd with hd; subst hd
          refine ⟨⟨by simpa using hi.1, fun id hid => ?_⟩, fun id hid => Or.inr ⟨_, _, rfl, ?_⟩⟩
          · rw [last_append, List.getElem?_set]
            by_cases e : a.1.relId = id
            · rw [if_pos e, if_pos e, if_pos hlt]; rfl
            · rw [if_neg e, if_neg e]; exact hi.2 id (by simpa using hid)
          · rw [last_append] at hid
            by_cases e : a.1.relId = id
            · left; rw [List.length_set]; rw [← e]; exact hlt
            · rw [if_neg e] at hid; exact Or.inr hid
    refine ⟨⟨htd ▸ hdata.1, ?_, ?_, ?_, ?_⟩, hoff, by rw [ht]; rfl, htd ▸ hdata.2⟩
    · intro id b hb hbl
      rw [htb]
      rw [last_append] at hb
      by_cases e : a.1.relId = id
      · rw [if_pos e] at hb; injection hb with hb; subst hb
        rw [if_pos hbl, get_set, if_pos e]
      · rw [if_neg e] at hb
        have := h.blocks id b hb hbl
        split
        · rw [get_set, if_neg e]; exact this
        · exact this
    · rw [htb]; split
      · exact nodup_set h.bkeys _ _
      · exact h.bkeys
    · intro e he
      rw [htb] at he
      have hold : e ∈ s.blockData → ∃ b ∈ adds ++ [a], b.1.relId = e.1 ∧ b.2 = e.2 := by
        intro he
        obtain ⟨b, hb, h1⟩ := h.bprov e he
        exact ⟨b, by simp [hb], h1⟩
      split at he
      · rcases mem_set he with rfl | he
        · exact ⟨a, by simp, rfl, rfl⟩
        · exact hold he
      · exact hold he
    · intro b hb
      rw [hoff]
      rcases List.mem_append.mp hb with hb | hb
      · have := h.off b hb; omega
      · rw [List.mem_singleton.mp hb]; omega

theorem inv_addAll {s t : Index} {done : List Add} (h : Inv s done) :
    ∀ adds, addAll s adds = .ok t → Inv t (done ++ adds) ∧ t.name = s.name ∧ s.offsetAfter ≤ t.offsetAfter ∧
      ((∀ a ∈ adds, expectedAfter a ≤ s.offsetAfter) → t.offsetAfter = s.offsetAfter) := by
  intro adds
  induction adds generalizing s done with
  | nil => intro h'; injection h' with h'; subst h'; simpa using h
  | cons a as ih =>
    intro h'
    unfold addAll at h'
    cases ha : s.add a.1 a.2 with
    | throw => rw [ha] at h'; cases h'
    | ub => rw [ha] at h'; cases h'
    | diverge => rw [ha] at h'; cases h'
    | ok u =>
      rw [ha] at h'
      obtain ⟨h1, h2, h3, _⟩ := inv_step h ha
      obtain ⟨i1, i2, i3, i4⟩ := ih h1 h'
      refine ⟨by simpa using i1, i2.trans h3, by omega, fun hle => ?_⟩
      have := hle a (by simp)
      rw [i4 (fun b hb => by have := hle b (by simp [hb]); omega)]
      omega

theorem inv_sparse_fresh : Inv (Index.fresh (.sparse [])) [] :=
  ⟨⟨by simp, fun _ => rfl⟩, fun id a h => absurd h (by simp [last, lastFor]), by simp [Index.fresh], by simp [Index.fresh], by simp⟩

theorem addAll_sparse {s : Index} (h : ∃ m, s.data = .sparse m) (adds : List Add) :
    ∃ t, addAll s adds = .ok t ∧ ∃ m, t.data = .sparse m := by
  induction adds generalizing s with
  | nil => exact ⟨s, rfl, h⟩
  | cons a as ih =>
    obtain ⟨m, hm⟩ := h
    unfold addAll Index.add
    rw [hm]
    exact ih (s := { s with data := .sparse (m.set a.1.relId a.1) }.addPersistent a.1 a.2) ⟨_, rfl⟩

theorem addAll_dense {s : Index} {n : Nat} {vec : List Full} (h : s.data = .dense n vec) (adds : List Add)
    (ha : ∀ a ∈ adds, a.1.relId < vec.length) :
    ∃ t, addAll s adds = .ok t ∧ ∃ n' vec', t.data = .dense n' vec' ∧ vec'.length = vec.length := by
  induction adds generalizing s n vec with
  | nil => exact ⟨s, rfl, n, vec, h, rfl⟩
  | cons a as ih =>
    have hlt := ha a (by simp)
    unfold addAll Index.add
    rw [h]
    simp only [Data.set]
    rw [if_neg (by omega), Outcome.read_lt _ _ hlt]
    simp only [Outcome.bind]
    obtain ⟨t, h1, n', vec', h2, h3⟩ := ih (s := { s with
      data := .dense (if vec[a.1.relId] = Full.empty then n + 1 else n) (vec.set a.1.relId a.1) }.addPersistent a.1 a.2)
      rfl (fun b hb => by simpa using ha b (by simp [hb]))
    exact ⟨t, h1, n', vec', h2, by simpa using h3⟩

theorem inv_dense_fresh (n : Nat) (hn : n < 2 ^ 64) :
    Inv (Index.fresh (.dense 0 (List.replicate n Full.empty))) [] := by
  refine ⟨⟨by simpa using hn, fun id hid => ?_⟩, fun id a h => absurd h (by simp [last, lastFor]), by simp [Index.fresh], by simp [Index.fresh],
    by simp⟩
  have : id < n := by simpa using hid
  simp [last, lastFor, this]

/-- What lookups must return. -/
def lookupSpec (adds : List Add) (id : Nat) : Outcome (Full × Option Blocks) :=
  match last adds id with
  | none => .throw
  | some a => .ok (a.1, if a.1.hasBlocks then some a.2 else none)

theorem lookup_of_data {s : Index} {adds : List Add} (hdata : DataInv s.data adds)
    (hblocks : ∀ id a, last adds id = some a → a.1.hasBlocks = true → s.blockData.get id = some a.2) (id : Nat)
    (hid : ∀ n vec, s.data = .dense n vec → id < vec.length) :
    s.data.exists id = .ok (last adds id).isSome ∧ s.getRmd id = lookupSpec adds id := by
  have key : ∀ a, last adds id = some a → s.data.getAsserted id = .ok a.1 → s.getRmd id = lookupSpec adds id := by
    intro a ha hg
    unfold Index.getRmd lookupSpec
    rw [hg, ha]
    simp only [Outcome.bind]
    by_cases hb : a.1.hasBlocks = true
    · rw [if_pos hb, hblocks id a ha hb, if_pos hb]
    · rw [if_neg hb, if_neg hb]
  cases hd : s.data with
  | sparse m =>
    have hi := hdata
    rw [hd] at hi
    have hg := hi.2 id
    cases hl : last adds id with
    | none =>
      rw [hl] at hg
      simp only [Data.exists, hg, Index.getRmd, hd, Data.getAsserted, lookupSpec, hl, Outcome.bind]
      simp
    | some a =>
      rw [hl] at hg
      have hga : s.data.getAsserted id = .ok a.1 := by rw [hd]; unfold Data.getAsserted; simp only [hg, Option.map_some]
      rw [key a hl hga]
      simp [Data.exists, hg]
  | dense n vec =>
    have hi := hdata
    rw [hd] at hi
    have hlt := hid n vec hd
    have hg := hi.2 id hlt
    have hr : Outcome.read vec id = .ok (((last adds id).map Prod.fst).getD Full.empty) := by
      unfold Outcome.read; rw [hg]
    cases hl : last adds id with
    | none =>
      rw [hl] at hr
      simp only [Option.map_none, Option.getD_none] at hr
      simp only [Data.exists, hr, Index.getRmd, hd, Data.getAsserted, lookupSpec, hl, Outcome.bind]
      simp
    | some a =>
      rw [hl] at hr
      simp only [Option.map_some, Option.getD_some] at hr
      have hne : a.1 ≠ Full.empty := by
        intro e
        have h1 := (last_mem hl).2
        rw [e, empty_relId] at h1
        have := hi.1
        omega
      have hga : s.data.getAsserted id = .ok a.1 := by
        rw [hd]; simp only [Data.getAsserted, hr, Outcome.bind]; rw [if_neg hne]
      rw [key a hl hga]
      simp [Data.exists, hr, hne]

/-! ### Reading back -/

/-- The second argument of `add` when an entry is read back. -/
def entryAdd (bd : Map Blocks) (e : Nat × Full) : Add :=
  (e.2, if e.2.hasBlocks then (bd.get e.2.relId).getD Blocks.default else Blocks.default)

theorem readEntries_spec (bd : Map Blocks) (es : List (Nat × Full))
    (h : ∀ e ∈ es, e.2.WF ∧ (e.2.hasBlocks = true → ∃ b, bd.get e.2.relId = some b ∧ b.WF)) :
    ∃ bytes, writeEntries bd es = .ok bytes ∧ ∀ s r, readEntries es.length s (bytes ++ r) =
      (addAll s (es.map (entryAdd bd))).bind fun t => .ok (t, r) := by
  induction es with
  | nil => exact ⟨[], rfl, fun s r => rfl⟩
  | cons e es ih =>
    obtain ⟨bytes, hw, hr⟩ := ih (fun x hx => h x (by simp [hx]))
    obtain ⟨hwf, hb⟩ := h e (by simp)
    by_cases hbl : e.2.hasBlocks = true
    · obtain ⟨b, hget, hbwf⟩ := hb hbl
      refine ⟨e.2.write ++ b.write ++ bytes, ?_, fun s r => ?_⟩
      · unfold writeEntries writeEntry
        rw [if_pos hbl, hget, hw]; rfl
      · have he : entryAdd bd e = (e.2, b) := by unfold entryAdd; rw [if_pos hbl, hget]; rfl
        simp only [List.length_cons, List.map_cons, he, addAll, readEntries, List.append_assoc]
        rw [full_roundtrip _ hwf]
        simp only [Outcome.bind]
        rw [if_pos hbl, List.drop_left' (full_length _), blocks_roundtrip _ hbwf]
        simp only
        rw [List.drop_left' (blocks_length _)]
        cases s.add e.2 b with
        | ok t => exact hr t r
        | throw => rfl
        | ub => rfl
        | diverge => rfl
    · refine ⟨e.2.write ++ bytes, ?_, fun s r => ?_⟩
      · unfold writeEntries writeEntry
        rw [if_neg hbl, hw]; rfl
      · have he : entryAdd bd e = (e.2, Blocks.default) := by unfold entryAdd; rw [if_neg hbl]
        simp only [List.length_cons, List.map_cons, he, addAll, readEntries, List.append_assoc]
        rw [full_roundtrip _ hwf]
        simp only [Outcome.bind]
        rw [if_neg hbl, List.drop_left' (full_length _)]
        cases s.add e.2 Blocks.default with
        | ok t => exact hr t r
        | throw => rfl
        | ub => rfl
        | diverge => rfl

theorem readBlockData_spec {adds : List Add} {n : Nat} {vec : List Full} (hd : DataInv (.dense n vec) adds)
    (es : List (Nat × Blocks)) (s : Index) (r : List Nat) (hs : s.data = .dense n vec)
    (hn : (es.map Prod.fst).Nodup)
    (h : ∀ e ∈ es, e.1 < vec.length ∧ e.2.WF ∧ ∃ a, last adds e.1 = some a ∧ (a.1.hasBlocks = true → e.2 = a.2) ∧
      expectedAfter a ≤ s.offsetAfter) :
    ∃ t, readBlockData es.length s ((es.flatMap fun e => toLE 8 e.1 ++ e.2.write) ++ r) = .ok (t, r) ∧
      t.data = s.data ∧ t.name = s.name ∧ t.offsetAfter = s.offsetAfter ∧
      (∀ e ∈ es, (∃ a, last adds e.1 = some a ∧ a.1.hasBlocks = true) → t.blockData.get e.1 = some e.2) ∧
      ∀ id, id ∉ es.map Prod.fst → t.blockData.get id = s.blockData.get id := by
  induction es generalizing s with
  | nil => exact ⟨s, rfl, rfl, rfl, rfl, by simp, fun _ _ => rfl⟩
  | cons e es ih =>
    obtain ⟨hlt, hwf, a, hl, heq, hoff⟩ := h e (by simp)
    have hnd : e.1 ∉ es.map Prod.fst ∧ (es.map Prod.fst).Nodup := List.nodup_cons.mp hn
    have hvl := hd.1
    have hrel := (last_mem hl).2
    have hg : s.data.getAsserted e.1 = .ok a.1 := by
      rw [hs]; unfold Data.getAsserted
      have hr : Outcome.read vec e.1 = .ok a.1 := by unfold Outcome.read; rw [hd.2 e.1 hlt, hl]; rfl
      simp only [hr, Outcome.bind]
      rw [if_neg]
      intro e'
      have := hrel; rw [e', empty_relId] at this; omega
    have hexp : (s.addPersistent a.1 e.2).offsetAfter = s.offsetAfter := by
      have : (if a.1.hasBlocks then e.2.offsetAfter else (a.1.start + a.1.nofBytes) % 2 ^ 64) ≤ s.offsetAfter := by
        unfold expectedAfter at hoff
        by_cases hb : a.1.hasBlocks = true
        · rw [if_pos hb] at hoff ⊢; rw [heq hb]; exact hoff
        · rw [if_neg hb] at hoff ⊢; exact hoff
      exact if_neg (by omega)
    obtain ⟨t, h1, h2, h3, h4, h5, h6⟩ := ih (s.addPersistent a.1 e.2) hs hnd.2 (fun x hx => by
      obtain ⟨g1, g2, b, g3, g4, g5⟩ := h x (by simp [hx])
      exact ⟨g1, g2, b, g3, g4, by rw [hexp]; exact g5⟩)
    refine ⟨t, ?_, h2, h3, h4.trans hexp, ?_, ?_⟩
    · simp only [List.length_cons, readBlockData, List.flatMap_cons, List.append_assoc]
      rw [rd64_zero _ _ (by omega)]
      simp only [Outcome.bind]
      rw [List.drop_left' (length_toLE 8 _), blocks_roundtrip _ hwf]
      simp only
      rw [List.drop_left' (blocks_length _), hg]
      exact h1
    · intro x hx hex
      rcases List.mem_cons.mp hx with rfl | hx
      · rw [h6 _ hnd.1]
        obtain ⟨b, hb1, hb2⟩ := hex
        rw [hl] at hb1; injection hb1 with hb1; subst hb1
        simp only [Index.addPersistent]
        rw [if_pos hb2, get_set, if_pos hrel]
      · exact h5 x hx hex
    · intro id hid
      have hid' : ¬ id = e.1 ∧ id ∉ es.map Prod.fst := by
        rw [List.map_cons, List.mem_cons] at hid; exact not_or.mp hid
      rw [h6 id hid'.2]
      simp only [Index.addPersistent]
      split
      · rw [get_set, if_neg (by rw [hrel]; exact fun h' => hid'.1 h'.symm)]
      · rfl

end Verif.MetaData
