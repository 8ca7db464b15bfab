import Verif.Lemmas.PermutationBuild
import Verif.Spec.Permutation
/-
Lemmas about exchanging multiplicities, sorting the triples and looking up relations.
-/
namespace Verif.Permutation
open Verif.Bytes Verif.MetaData Verif.MetaDataSpec Verif.PermutationSpec

/-! ### `exchangeMultiplicities` -/

/-- The same relation, apart from the multiplicities. -/
def Same (a a' : Add) : Prop :=
  a'.2 = a.2 ∧ a'.1.relId = a.1.relId ∧ a'.1.start = a.1.start ∧ a'.1.nofElements = a.1.nofElements ∧
    a'.1.isFunctional = a.1.isFunctional ∧ a'.1.hasBlocks = a.1.hasBlocks ∧ a'.1.word < 2 ^ 64

theorem same_setCol2 (a : Add) (h : a.1.word < 2 ^ 64) (c : Nat) (hc : c < 256) : Same a (a.1.setCol2 c, a.2) := by
  have h1 := setter_fields (.col2 c) a.1 h hc
  have h2 := setter_ids (.col2 c) a.1
  have h3 := setter_lt (.col2 c) a.1 h
  unfold fieldsOf at h1
  simp only [setter, Update.apply] at h1 h2 h3
  injection h1 with g1 g2 g3 g4 g5
  exact ⟨rfl, h2.1, h2.2, g1, g4, g5, h3⟩

/-- Changing the entries for one key. -/
def upd (k c : Nat) (a : Add) : Add := if a.1.relId = k then (a.1.setCol2 c, a.2) else a

theorem last_map {adds : List Add} (g : Add → Add) (hg : ∀ a ∈ adds, (g a).1.relId = a.1.relId) (k : Nat) :
    last (adds.map g) k = (last adds k).map g := by
  unfold last lastFor
  rw [List.filter_map, List.getLast?_map]
  congr 2
  apply List.filter_congr
  intro a ha
  simp only [Function.comp]
  rw [hg a ha]

theorem get_mapVal (m : Map Full) (k c id : Nat) :
    Map.get (m.map fun e => if e.1 = k then (e.1, e.2.setCol2 c) else e) id =
      (m.get id).map fun v => if id = k then v.setCol2 c else v := by
  unfold Map.get
  induction m with
  | nil => rfl
  | cons e m ih =>
    rw [List.map_cons, List.find?_cons, List.find?_cons]
    by_cases h : e.1 = id
    · have h1 : ((if e.1 = k then (e.1, e.2.setCol2 c) else e).1 == id) = true := by split <;> simpa using h
      rw [h1]
      have h2 : (e.1 == id) = true := by simpa using h
      rw [h2]
      simp only [Option.map_some]
      by_cases hk : id = k
      · rw [if_pos hk, if_pos (h.trans hk)]
      · rw [if_neg hk, if_neg (by rw [h]; exact hk)]
    · have h1 : ((if e.1 = k then (e.1, e.2.setCol2 c) else e).1 == id) = false := by split <;> simpa using h
      rw [h1]
      have h2 : (e.1 == id) = false := by simpa using h
      rw [h2]
      exact ih

theorem getAsserted_of {vs : Option Nat} {d : Data} {adds : List Add} (hd : DataInv d adds) (hs : Shape vs d) {k : Nat} {a : Add}
    (hl : last adds k = some a) (hin : InRange vs k) : d.getAsserted k = .ok a.1 ∧ (∀ n vec, d = .dense n vec → a.1 ≠ Full.empty ∧ vec[k]? = some a.1) := by
  cases d with
  | sparse m =>
    refine ⟨?_, by simp⟩
    unfold Data.getAsserted
    simp only [hd.2 k, hl, Option.map_some]
  | dense n vec =>
    cases vs with
    | none => exact absurd hs id
    | some n' =>
      have hs' : vec.length = n' := hs
      have hlt : k < vec.length := by rw [hs']; exact hin n' rfl
      have hv := hd.2 k hlt
      rw [hl] at hv
      simp only [Option.map_some, Option.getD_some] at hv
      have hne : a.1 ≠ Full.empty := by
        intro e
        have h1 := (last_mem hl).2
        rw [e, empty_relId] at h1
        have := hd.1
        omega
      refine ⟨?_, ?_⟩
      · simp only [Data.getAsserted, Outcome.read, hv, Outcome.bind]
        rw [if_neg hne]
      · intro n2 vec2 he; cases he; exact ⟨hne, hv⟩

theorem modify_spec {vs : Option Nat} {d : Data} {adds : List Add} (hd : DataInv d adds) (hs : Shape vs d) {k : Nat} {a : Add}
    (hl : last adds k = some a) (hin : InRange vs k) (hw : ∀ a ∈ adds, a.1.word < 2 ^ 64) (c : Nat) (hc : c < 256) :
    ∃ d', modify d k (fun r => r.setCol2 c) = .ok d' ∧ DataInv d' (adds.map (upd k c)) ∧ Shape vs d' ∧ d'.size = d.size ∧
      ∀ a ∈ adds, Same a (upd k c a) := by
  have hsame : ∀ a ∈ adds, Same a (upd k c a) := by
    intro a ha
    unfold upd
    split
    · exact same_setCol2 a (hw a ha) c hc
    · exact ⟨rfl, rfl, rfl, rfl, rfl, rfl, hw a ha⟩
  have hlast : ∀ id, last (adds.map (upd k c)) id = (last adds id).map (upd k c) := last_map _ fun a ha => (hsame a ha).2.1
  have hval : ∀ id x, last adds id = some x → (upd k c x).1 = if id = k then x.1.setCol2 c else x.1 := by
    intro id x hx
    unfold upd
    rw [(last_mem hx).2]
    split <;> rfl
  obtain ⟨_, hga⟩ := getAsserted_of hd hs hl hin
  cases d with
  | sparse m =>
    have hg : m.get k = some a.1 := by rw [hd.2 k, hl]; rfl
    refine ⟨.sparse (m.map fun e => if e.1 = k then (e.1, e.2.setCol2 c) else e), ?_, ⟨?_, ?_⟩, ?_, ?_, hsame⟩
    · simp only [modify, hg]
    · rw [List.map_map]
      have : (m.map (Prod.fst ∘ fun e => if e.1 = k then (e.1, e.2.setCol2 c) else e)) = m.map Prod.fst := by
        apply List.map_congr_left
        intro e _
        simp only [Function.comp]
        split <;> rfl
      rw [this]; exact hd.1
    · intro id
      rw [get_mapVal, hd.2 id, hlast id]
      cases hx : last adds id with
      | none => rfl
      | some x => simp only [Option.map_some, hval id x hx]
    · cases vs with
      | none => trivial
      | some n => exact absurd hs id
    · simp [Data.size]
  | dense n vec =>
    obtain ⟨hne, hv⟩ := hga n vec rfl
    refine ⟨.dense n (vec.set k (a.1.setCol2 c)), ?_, ⟨by simpa using hd.1, ?_⟩, ?_, rfl, hsame⟩
    · simp only [modify, Outcome.read, hv, Outcome.bind]
      rw [if_neg hne]
    · intro id hid
      rw [List.length_set] at hid
      rw [hlast id, List.getElem?_set]
      by_cases hk : k = id
      · subst hk
        rw [if_pos rfl, if_pos hid, hl]
        simp only [Option.map_some, Option.getD_some, hval k a hl, if_true]
      · rw [if_neg hk, hd.2 id hid]
        cases hx : last adds id with
        | none => rfl
        | some x => simp only [Option.map_some, Option.getD_some, hval id x hx, if_neg (Ne.symm hk)]
    · cases vs with
      | none => exact absurd hs id
      | some n' => simpa [Shape] using hs

theorem col1_lt (m : Full) : m.col1 < 256 := by unfold Full.col1; exact Nat.mod_lt _ (by decide)

theorem Same.trans {a b c : Add} (h1 : Same a b) (h2 : Same b c) : Same a c := by
  obtain ⟨a1, a2, a3, a4, a5, a6, _⟩ := h1
  obtain ⟨b1, b2, b3, b4, b5, b6, b7⟩ := h2
  exact ⟨b1.trans a1, b2.trans a2, b3.trans a3, b4.trans a4, b5.trans a5, b6.trans a6, b7⟩

theorem exchangeLoop_spec {vs : Option Nat} (ks : List Nat) : ∀ (d1 d2 : Data) (adds1 adds2 : List Add), DataInv d1 adds1 → DataInv d2 adds2 →
    Shape vs d1 → Shape vs d2 → (∀ a ∈ adds1, a.1.word < 2 ^ 64) → (∀ a ∈ adds2, a.1.word < 2 ^ 64) →
    (∀ k ∈ ks, InRange vs k ∧ (last adds1 k).isSome ∧ (last adds2 k).isSome) →
    ∃ d1' d2' g1 g2, exchangeLoop ks d1 d2 = .ok (d1', d2') ∧ DataInv d1' (adds1.map g1) ∧ DataInv d2' (adds2.map g2) ∧
      Shape vs d1' ∧ Shape vs d2' ∧ d1'.size = d1.size ∧ d2'.size = d2.size ∧ (∀ a ∈ adds1, Same a (g1 a)) ∧ (∀ a ∈ adds2, Same a (g2 a)) := by
  induction ks with
  | nil =>
    intro d1 d2 adds1 adds2 h1 h2 s1 s2 w1 w2 _
    exact ⟨d1, d2, id, id, rfl, by simpa using h1, by simpa using h2, s1, s2, rfl, rfl, fun a ha => ⟨rfl, rfl, rfl, rfl, rfl, rfl, w1 a ha⟩,
      fun a ha => ⟨rfl, rfl, rfl, rfl, rfl, rfl, w2 a ha⟩⟩
  | cons k ks ih =>
    intro d1 d2 adds1 adds2 h1 h2 s1 s2 w1 w2 hk
    obtain ⟨hr, hk1, hk2⟩ := hk k (by simp)
    obtain ⟨x1, hx1⟩ := Option.isSome_iff_exists.mp hk1
    obtain ⟨x2, hx2⟩ := Option.isSome_iff_exists.mp hk2
    have ga1 := (getAsserted_of h1 s1 hx1 hr).1
    obtain ⟨e2, m2, i2, t2, z2, u2⟩ := modify_spec h2 s2 hx2 hr w2 x1.1.col1 (col1_lt _)
    have hl2' : ∀ id, last (adds2.map (upd k x1.1.col1)) id = (last adds2 id).map (upd k x1.1.col1) :=
      last_map _ fun a ha => (u2 a ha).2.1
    have ga2 := (getAsserted_of i2 t2 (a := upd k x1.1.col1 x2) (by rw [hl2', hx2]; rfl) hr).1
    obtain ⟨e1, m1, i1, t1, z1, u1⟩ := modify_spec h1 s1 hx1 hr w1 (upd k x1.1.col1 x2).1.col1 (col1_lt _)
    have hl1' : ∀ id, last (adds1.map (upd k (upd k x1.1.col1 x2).1.col1)) id = (last adds1 id).map (upd k (upd k x1.1.col1 x2).1.col1) :=
      last_map _ fun a ha => (u1 a ha).2.1
    obtain ⟨d1', d2', g1, g2, r1, r2, r3, r4, r5, r6, r7, r8, r9⟩ := ih e1 e2 _ _ i1 i2 t1 t2
      (by intro a ha; obtain ⟨b, hb, rfl⟩ := List.mem_map.mp ha; exact (u1 b hb).2.2.2.2.2.2)
      (by intro a ha; obtain ⟨b, hb, rfl⟩ := List.mem_map.mp ha; exact (u2 b hb).2.2.2.2.2.2)
      (by
        intro q hq
        obtain ⟨q1, q2, q3⟩ := hk q (by simp [hq])
        rw [hl1', hl2', Option.isSome_map, Option.isSome_map]
        exact ⟨q1, q2, q3⟩)
    refine ⟨d1', d2', g1 ∘ upd k (upd k x1.1.col1 x2).1.col1, g2 ∘ upd k x1.1.col1, ?_, ?_, ?_, r4, r5, by rw [r6, z1], by rw [r7, z2], ?_, ?_⟩
    · unfold exchangeLoop
      rw [ga1]
      simp only [Outcome.bind]
      rw [m2]
      simp only
      rw [ga2]
      simp only
      rw [m1]
      exact r1
    · rw [← List.map_map]; exact r2
    · rw [← List.map_map]; exact r3
    · intro a ha
      exact (u1 a ha).trans (r8 _ (List.mem_map_of_mem ha))
    · intro a ha
      exact (u2 a ha).trans (r9 _ (List.mem_map_of_mem ha))

theorem RelIn.same {file : List Nat} {a a' : Add} {data : List Pair} (h : Same a a')
    (hr : RelIn file (a.1, if a.1.hasBlocks then some a.2 else none) data) :
    RelIn file (a'.1, if a'.1.hasBlocks then some a'.2 else none) data := by
  obtain ⟨h1, h2, h3, h4, h5, h6, _⟩ := h
  obtain ⟨r1, r2, r3, r4, r5, r6, r7⟩ := hr
  rw [h6, h1]
  exact ⟨r1, h4.trans r2, by simpa only [h3] using r3, r4, r5, r6, fun b hb => by simpa only [h5] using r7 b hb⟩

theorem Good.map {vs : Option Nat} {out : List Nat} {md : Index} {D : Nat → List Pair} {adds : List Add} (h : Good vs out md D adds)
    {d' : Data} {g : Add → Add} (hd : DataInv d' (adds.map g)) (hs : Shape vs d') (hz : d'.size = md.data.size)
    (hg : ∀ a ∈ adds, Same a (g a)) : Good vs out { md with data := d' } D (adds.map g) := by
  have hl : ∀ id, last (adds.map g) id = (last adds id).map g := last_map _ fun a ha => (hg a ha).2.1
  have hexp : ∀ a ∈ adds, expectedAfter (g a) = expectedAfter a := by
    intro a ha
    obtain ⟨h1, _, h3, h4, _, h6, _⟩ := hg a ha
    unfold expectedAfter Full.nofBytes
    rw [h6, h1, h3, h4]
  refine ⟨⟨hd, ?_, h.inv.bkeys, ?_, ?_⟩, hs, h.off, ?_, ?_, ?_, ?_, ?_, ?_⟩
  · intro id a ha hb
    rw [hl] at ha
    cases hx : last adds id with
    | none => rw [hx] at ha; cases ha
    | some x =>
      rw [hx] at ha
      injection ha with ha
      subst ha
      have hs := hg x (last_mem hx).1
      rw [hs.1]
      exact h.inv.blocks id x hx (by rw [← hs.2.2.2.2.2.1]; exact hb)
  · intro e he
    obtain ⟨a, ha, h1, h2⟩ := h.inv.bprov e he
    exact ⟨g a, List.mem_map_of_mem ha, (hg a ha).2.1.trans h1, (hg a ha).1.trans h2⟩
  · intro a ha
    obtain ⟨b, hb, rfl⟩ := List.mem_map.mp ha
    rw [hexp b hb]; exact h.inv.off b hb
  · intro k hk
    rw [hl] at hk
    exact h.absent k (by simpa using hk)
  · intro k a hk
    rw [hl] at hk
    cases hx : last adds k with
    | none => rw [hx] at hk; cases hk
    | some x =>
      rw [hx] at hk
      injection hk with hk
      subst hk
      exact (h.present k x hx).same (hg x (last_mem hx).1)
  · intro a ha
    obtain ⟨b, hb, rfl⟩ := List.mem_map.mp ha
    obtain ⟨w1, w2, w3⟩ := h.wf b hb
    obtain ⟨h1, h2, h3, _, _, _, h7⟩ := hg b hb
    exact ⟨⟨by rw [h2]; exact w1.1, by rw [h3]; exact w1.2.1, h7⟩, by rw [h1]; exact w2, by rw [h2]; exact w3⟩
  · rw [List.length_map, hz]; exact h.size
  · rw [List.length_map]; exact h.bsize
  · rw [List.length_map]; exact h.cnt

theorem entries_last {vs : Option Nat} {d : Data} {adds : List Add} (hd : DataInv d adds) (hs : Shape vs d) {k : Nat}
    (hk : k ∈ d.entries.map Prod.fst) : InRange vs k ∧ (last adds k).isSome := by
  obtain ⟨e, he, rfl⟩ := List.mem_map.mp hk
  cases d with
  | sparse m =>
    have : m.get e.1 = some e.2 := (get_some_iff hd.1 e.1 e.2).mpr he
    rw [hd.2] at this
    refine ⟨?_, ?_⟩
    · cases vs with
      | none => intro n hn; cases hn
      | some n => exact absurd hs id
    · cases hx : last adds e.1 with
      | none => rw [hx] at this; cases this
      | some x => rfl
  | dense n vec =>
    simp only [Data.entries] at he
    obtain ⟨x, hx, rfl⟩ := List.mem_map.mp he
    obtain ⟨hx1, hx2⟩ := List.mem_filter.mp hx
    obtain ⟨hlt, hval⟩ := List.mem_zipIdx' hx1
    cases vs with
    | none => exact absurd hs id
    | some n' =>
      have hs' : vec.length = n' := hs
      refine ⟨fun n2 hn2 => by injection hn2 with hn2; rw [← hn2, ← hs']; exact hlt, ?_⟩
      have := hd.2 x.2 hlt
      simp only
      cases hy : last adds x.2 with
      | some y => rfl
      | none =>
        rw [hy] at this
        rw [List.getElem?_eq_getElem hlt] at this
        injection this with this
        rw [hval, this] at hx2
        simp at hx2

theorem exchange_spec {vs : Option Nat} {out1 out2 : List Nat} {md1 md2 : Index} {D1 D2 : Nat → List Pair} {adds1 adds2 : List Add}
    (h1 : Good vs out1 md1 D1 adds1) (h2 : Good vs out2 md2 D2 adds2) (hD : ∀ k, D2 k = [] → D1 k = []) :
    ∃ m1 m2 a1 a2, exchangeMultiplicities md1 md2 = .ok (m1, m2) ∧ Good vs out1 m1 D1 a1 ∧ Good vs out2 m2 D2 a2 := by
  obtain ⟨d1, d2, g1, g2, r1, r2, r3, r4, r5, r6, r7, r8, r9⟩ := exchangeLoop_spec (vs := vs) (md1.data.entries.map Prod.fst) md1.data md2.data adds1 adds2
    h1.inv.data h2.inv.data h1.shape h2.shape (fun a ha => (h1.wf a ha).1.2.2) (fun a ha => (h2.wf a ha).1.2.2)
    (by
      intro k hk
      obtain ⟨e1, e2⟩ := entries_last h1.inv.data h1.shape hk
      refine ⟨e1, e2, ?_⟩
      obtain ⟨x, hx⟩ := Option.isSome_iff_exists.mp e2
      cases hy : last adds2 k with
      | some y => rfl
      | none => exact absurd (hD k (h2.absent k hy)) (h1.present k x hx).ne)
  refine ⟨_, _, _, _, ?_, h1.map r2 r4 r6 r8, h2.map r3 r5 r7 r9⟩
  unfold exchangeMultiplicities
  rw [r1]
  rfl

/-! ### A pair of permutations -/

theorem pair_spec {vs : Option Nat} {c0 c1 c2 : Fin 3} (lg : Nat → Nat → Nat) (vec : List Triple) (hne : vec ≠ []) (hv : ∀ n, vs = some n → n < 2 ^ 64)
    (hb : Bounds vs c0 vec) (hs : vec.Pairwise fun a b => Lex (key3 c0 c1 c2 a) (key3 c0 c1 c2 b)) :
    ∃ p1 p2 adds1 adds2, createPermutationPair lg vs vec c0 c1 c2 = .ok (some (p1, p2)) ∧
      Good vs p1.file p1.md (pairs c0 c1 c2 vec) adds1 ∧ Good vs p2.file p2.md (switched c0 c1 c2 vec) adds2 ∧
      p1.file.length ≤ 40 * vec.length ∧ p2.file.length ≤ 40 * vec.length := by
  obtain ⟨p1, p2, a1, a2, h1, h2, h3, h4, h5⟩ := impl_spec lg vec hne hv hb hs
  obtain ⟨m1, m2, b1, b2, e1, e2, e3⟩ := exchange_spec h2 h3 (by
    intro k hk
    have := switched_length c0 c1 c2 vec k
    rw [hk] at this
    exact List.length_eq_zero_iff.mp this.symm)
  refine ⟨⟨p1.file, m1⟩, ⟨p2.file, m2⟩, b1, b2, ?_, e2, e3, h4, h5⟩
  unfold createPermutationPair
  rw [h1]
  simp only [Outcome.bind]
  rw [e1]

/-! ### Scans -/

/-- The meta data and the file give the relations `D` for keys in range. -/
def Serves (vs : Option Nat) (p : Perm) (D : Nat → List Pair) : Prop :=
  ∀ k, InRange vs k → (p.md.data.exists k = .ok false ∧ D k = []) ∨
    (p.md.data.exists k = .ok true ∧ ∃ rmd, p.md.getRmd k = .ok rmd ∧ RelIn p.file rmd (D k))

theorem Good.serves {vs : Option Nat} {p : Perm} {D : Nat → List Pair} {adds : List Add} (h : Good vs p.file p.md D adds) : Serves vs p D := by
  intro k hk
  obtain ⟨h1, h2⟩ := lookup_of_data h.inv.data h.inv.blocks k (by
    intro n vec he
    have hs := h.shape
    rw [he] at hs
    cases vs with
    | none => exact absurd hs id
    | some n' => have hs' : vec.length = n' := hs; rw [hs']; exact hk n' rfl)
  cases hl : last adds k with
  | none =>
    left; rw [h1, hl]; exact ⟨rfl, h.absent k hl⟩
  | some a =>
    right
    rw [h1, hl, h2]
    unfold lookupSpec
    rw [hl]
    exact ⟨rfl, _, rfl, h.present k a hl⟩

theorem not_gap_nil (k2 : Nat) : ¬ Gap [] k2 := fun h => by have := h.1.1; simp at this

theorem Serves.scan {vs : Option Nat} {p : Perm} {D : Nat → List Pair} (h : Serves vs p D) (k : Nat) (hk : InRange vs k) :
    scan p k = .ok (D k) ∧ ∀ k2, scan2 p k k2 =
      (open Classical in if Gap (D k) k2 then .ub else .ok (((D k).filter fun x => decide (x.1 = k2)).map Prod.snd)) := by
  rcases h k hk with ⟨h1, h2⟩ | ⟨h1, rmd, h2, h3⟩
  · unfold Permutation.scan scan2
    rw [h1, h2]
    simp only [Outcome.bind, Bool.false_eq_true, if_false, true_and]
    intro k2
    rw [if_neg (not_gap_nil k2)]
    rfl
  · unfold Permutation.scan scan2
    rw [h1, h2]
    simp only [Outcome.bind, if_true]
    refine ⟨?_, fun k2 => h3.lookup k2⟩
    obtain ⟨bytes, hb1, hb2⟩ := h3.read
    rw [hb1]
    simp only [hb2]

/-! ### Sorting triples -/

theorem Lex.trans {a b c : Nat × Nat × Nat} (h1 : ¬ Lex b a) (h2 : ¬ Lex c b) : ¬ Lex c a := by
  unfold Lex at *; omega

theorem Lex.total (a b : Nat × Nat × Nat) : ¬ Lex b a ∨ ¬ Lex a b := by unfold Lex; omega

theorem Lex.antisymm {a b : Nat × Nat × Nat} (h1 : ¬ Lex b a) (h2 : a ≠ b) : Lex a b := by
  obtain ⟨a1, a2, a3⟩ := a
  obtain ⟨b1, b2, b3⟩ := b
  unfold Lex at *
  simp only [ne_eq, Prod.mk.injEq] at *
  omega

theorem sortBy_lex (lt : Triple → Triple → Bool) (key : Triple → Nat × Nat × Nat) (hlt : ∀ a b, lt a b = true ↔ Lex (key a) (key b)) (l : List Triple) :
    (sortBy lt l).Pairwise fun a b => ¬ Lex (key b) (key a) := by
  have := List.pairwise_mergeSort (le := fun a b : Triple => !lt b a)
    (by
      intro a b c h1 h2
      simp only [Bool.not_eq_true', ← Bool.not_eq_true, hlt] at *
      exact Lex.trans h1 h2)
    (by
      intro a b
      simp only [Bool.or_eq_true, Bool.not_eq_true', ← Bool.not_eq_true, hlt]
      exact Lex.total _ _) l
  unfold sortBy
  refine this.imp ?_
  intro a b hab
  simpa only [Bool.not_eq_true', ← Bool.not_eq_true, hlt] using hab

theorem sortBy_strict (lt : Triple → Triple → Bool) (key : Triple → Nat × Nat × Nat) (hlt : ∀ a b, lt a b = true ↔ Lex (key a) (key b))
    (hinj : ∀ a b, key a = key b → a = b) (l : List Triple) (hn : l.Nodup) :
    (sortBy lt l).Pairwise fun a b => Lex (key a) (key b) := by
  have h1 := sortBy_lex lt key hlt l
  have h2 : (sortBy lt l).Nodup := (sortBy_perm lt l).nodup_iff.mpr hn
  refine (h1.and h2).imp ?_
  intro a b hab
  exact Lex.antisymm hab.1 fun he => hab.2 (hinj a b he)

theorem unique_mem (l : List Triple) (t : Triple) : t ∈ unique l ↔ t ∈ l := by
  induction l with
  | nil => simp [unique]
  | cons a l ih =>
    cases l with
    | nil => simp [unique]
    | cons b l =>
      unfold unique
      split
      · rename_i h
        rw [ih, h]; simp
      · rw [List.mem_cons, ih, List.mem_cons (a := t) (b := a)]

theorem unique_length (l : List Triple) : (unique l).length ≤ l.length := by
  induction l with
  | nil => simp [unique]
  | cons a l ih =>
    cases l with
    | nil => simp [unique]
    | cons b l =>
      unfold unique
      split
      · rw [List.length_cons]; omega
      · rw [List.length_cons, List.length_cons]; omega

theorem unique_strict (key : Triple → Nat × Nat × Nat) (hinj : ∀ a b, key a = key b → a = b) (l : List Triple)
    (hs : l.Pairwise fun a b => ¬ Lex (key b) (key a)) : (unique l).Pairwise fun a b => Lex (key a) (key b) := by
  induction l with
  | nil => simp [unique]
  | cons a l ih =>
    cases l with
    | nil => simp [unique]
    | cons b l =>
      obtain ⟨h1, h2⟩ := List.pairwise_cons.mp hs
      unfold unique
      split
      · exact ih h2
      · rename_i hab
        refine List.pairwise_cons.mpr ⟨?_, ih h2⟩
        intro x hx
        rw [unique_mem] at hx
        have hb := Lex.antisymm (h1 b (by simp)) fun he => hab (hinj a b he)
        rcases List.mem_cons.mp hx with rfl | hx
        · exact hb
        · have h3 := (List.pairwise_cons.mp h2).1 x hx
          unfold Lex at *
          omega

end Verif.Permutation
