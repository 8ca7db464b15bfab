import Verif.Lemmas.PermutationRel
import Verif.Props.C28_C29_MetaData
/-
Lemmas about building a pair of permutations.
-/
namespace Verif.Permutation
open Verif.Bytes Verif.MetaData Verif.MetaDataSpec Verif.PermutationSpec

/-- The kind of meta data: hash map, or vector with one entry per id. -/
def Shape (vs : Option Nat) (d : Data) : Prop :=
  match vs, d with
  | none, .sparse _ => True
  | some n, .dense _ vec => vec.length = n
  | _, _ => False

/-- Ids the meta data can be asked for. -/
def InRange (vs : Option Nat) (k : Nat) : Prop := ∀ n, vs = some n → k < n

/-- A file together with its meta data holds the relations `D`. -/
structure Good (vs : Option Nat) (out : List Nat) (md : Index) (D : Nat → List Pair) (adds : List Add) : Prop where
  inv : Inv md adds
  shape : Shape vs md.data
  off : md.offsetAfter = out.length
  absent : ∀ k, last adds k = none → D k = []
  present : ∀ k a, last adds k = some a → RelIn out (a.1, if a.1.hasBlocks then some a.2 else none) (D k)
  wf : ∀ a ∈ adds, a.1.WF ∧ a.2.WF ∧ InRange vs a.1.relId
  size : md.data.size ≤ adds.length
  bsize : md.blockData.length ≤ adds.length
  cnt : 16 * adds.length ≤ out.length

theorem set_length_le (m : Map α) (k : Nat) (v : α) : (m.set k v).length ≤ m.length + 1 := by
  unfold Map.set
  rw [List.length_cons]
  have := List.length_filter_le (fun e : Nat × α => e.1 != k) m
  omega

theorem Good.fresh (vs : Option Nat) (hv : ∀ n, vs = some n → n < 2 ^ 64) : Good vs [] (freshMeta vs) (fun _ => []) [] := by
  cases vs with
  | none =>
    exact ⟨inv_sparse_fresh, trivial, rfl, fun _ _ => rfl, fun k a h => by simp [last, lastFor] at h, by simp, by simp [freshMeta, Index.fresh, Data.size],
      by simp [freshMeta, Index.fresh], by simp⟩
  | some n =>
    exact ⟨inv_dense_fresh n (hv n rfl), by simp [Shape, freshMeta, Index.fresh], rfl, fun _ _ => rfl, fun k a h => by simp [last, lastFor] at h, by simp,
      by simp [freshMeta, Index.fresh, Data.size], by simp [freshMeta, Index.fresh], by simp⟩

theorem Good.add {vs : Option Nat} {out : List Nat} {md : Index} {D : Nat → List Pair} {adds : List Add} (h : Good vs out md D adds)
    (lg : Nat → Nat → Nat) (rel : Nat) (data : List Pair) (distinct : Nat) (functional : Bool) (hin : InRange vs rel)
    (hne : data ≠ []) (hrel : rel < 2 ^ 64) (hn : data.length ≤ MAX_NOF_ELEMENTS) (hfit : out.length + 40 * data.length < 2 ^ 64)
    (hsort : data.Pairwise fun a b => a.1 ≤ b.1) (hid : ∀ x ∈ data, x.1 < MAX_ID ∧ x.2 < MAX_ID)
    (hfun : functional = true ↔ (data.map Prod.fst).Nodup) :
    ∃ out' f b md', writeRel lg out out.length rel data distinct functional = .ok (out', f, b) ∧ md.add f b = .ok md' ∧
      Good vs out' md' (fun k => if k = rel then data else D k) (adds ++ [(f, b)]) ∧ out'.length ≤ out.length + 40 * data.length ∧
      md'.offsetAfter = out'.length := by
  obtain ⟨tail, f, b, hw, hfr, hfwf, hbwf, hrelin, hexp, hl1, hl2⟩ :=
    writeRel_spec lg out rel data distinct functional hne hrel hn hfit hsort hid hfun
  have hlen : 0 < data.length := List.length_pos_iff.mpr hne
  have hadd : ∃ md', md.add f b = .ok md' ∧ Shape vs md'.data ∧ md'.data.size ≤ md.data.size + 1 ∧
      md'.blockData.length ≤ md.blockData.length + 1 := by
    have hs := h.shape
    unfold Index.add
    have hbs : (if f.hasBlocks then md.blockData.set f.relId b else md.blockData).length ≤ md.blockData.length + 1 := by
      split
      · exact set_length_le _ _ _
      · omega
    cases hd : md.data with
    | sparse m =>
      rw [hd] at hs
      refine ⟨_, rfl, ?_, ?_, hbs⟩
      · cases vs with
        | none => trivial
        | some n => exact hs
      · exact set_length_le m f.relId f
    | dense n vec =>
      rw [hd] at hs
      cases vs with
      | none => exact absurd hs id
      | some n' =>
        have hs' : vec.length = n' := hs
        have hlt : f.relId < vec.length := by rw [hfr, hs']; exact hin n' rfl
        simp only [Data.set]
        rw [if_neg (by omega), Outcome.read_lt _ _ hlt]
        refine ⟨_, rfl, ?_, ?_, hbs⟩
        · simpa [Shape, Index.addPersistent] using hs'
        · simp only [Index.addPersistent, Data.size]; split <;> omega
  obtain ⟨md', hmd, hshape, hsz, hbsz⟩ := hadd
  obtain ⟨hinv, hoff, _, _⟩ := inv_step (a := (f, b)) h.inv hmd
  refine ⟨out ++ tail, f, b, md', hw, hmd, ⟨hinv, hshape, ?_, ?_, ?_, ?_, ?_, ?_, ?_⟩, ?_, ?_⟩
  · rw [hoff, hexp, h.off]; simp
  · intro k hk
    rw [last_append] at hk
    simp only [hfr] at hk
    by_cases hkr : rel = k
    · rw [if_pos hkr] at hk; cases hk
    · rw [if_neg hkr] at hk
      rw [if_neg (Ne.symm hkr)]; exact h.absent k hk
  · intro k a hk
    rw [last_append] at hk
    simp only [hfr] at hk
    by_cases hkr : rel = k
    · rw [if_pos hkr] at hk
      injection hk with hk
      rw [if_pos hkr.symm, ← hk]
      exact hrelin
    · rw [if_neg hkr] at hk
      rw [if_neg (Ne.symm hkr)]
      exact (h.present k a hk).mono tail
  · intro a ha
    rcases List.mem_append.mp ha with ha | ha
    · exact h.wf a ha
    · rw [List.mem_singleton.mp ha]
      exact ⟨hfwf, hbwf, by simpa only [hfr] using hin⟩
  · have := h.size; simp only [List.length_append, List.length_singleton]; omega
  · have := h.bsize; simp only [List.length_append, List.length_singleton]; omega
  · have := h.cnt; simp only [List.length_append, List.length_singleton]; omega
  · rw [List.length_append]; omega
  · rw [hoff, hexp, h.off]; simp

/-! ### Sorting -/

/-- The comparison functions are those of a linear order given by keys. -/
theorem sortBy_perm (lt : α → α → Bool) (l : List α) : (sortBy lt l).Perm l := List.mergeSort_perm l _

theorem pairLt_eq (a b : Pair) : pairLt a b = decide (a.1 < b.1 ∨ (a.1 = b.1 ∧ a.2 < b.2)) := by
  unfold pairLt
  by_cases h : a.1 = b.1
  · simp [h]
  · simp [h]

theorem sortBy_pairs (l : List Pair) : (sortBy pairLt l).Pairwise fun a b => a.1 < b.1 ∨ (a.1 = b.1 ∧ a.2 ≤ b.2) := by
  have := List.pairwise_mergeSort (le := fun a b : Pair => !pairLt b a)
    (by intro a b c; simp only [pairLt_eq, Bool.not_eq_true', decide_eq_false_iff_not]; omega)
    (by intro a b; simp only [pairLt_eq, Bool.or_eq_true, Bool.not_eq_true', decide_eq_false_iff_not]; omega) l
  unfold sortBy
  refine this.imp ?_
  intro a b hab
  simp only [pairLt_eq, Bool.not_eq_true', decide_eq_false_iff_not] at hab
  omega

theorem countLhs_spec (l : List Pair) (lastLhs : Nat) (fn : Bool) (d : Nat) (hs : l.Pairwise fun a b => a.1 ≤ b.1)
    (h : (∀ x ∈ l, lastLhs ≤ x.1) ∨ ∀ x ∈ l, x.1 ≠ lastLhs) :
    (countLhs l lastLhs fn d).1 = true ↔ fn = true ∧ (l.map Prod.fst).Nodup ∧ lastLhs ∉ l.map Prod.fst := by
  induction l generalizing lastLhs fn d with
  | nil => simp [countLhs]
  | cons e l ih =>
    unfold countLhs
    obtain ⟨hs1, hs2⟩ := List.pairwise_cons.mp hs
    have hih := fun fn d => ih e.1 fn d hs2 (Or.inl hs1)
    by_cases he : e.1 = lastLhs
    · rw [if_pos (by simpa using he), hih]
      simp [he]
    · rw [if_neg (by simpa using he), hih]
      simp only [List.map_cons, List.nodup_cons, List.mem_cons, not_or]
      constructor
      · rintro ⟨h1, h2, h3⟩
        refine ⟨h1, ⟨h3, h2⟩, Ne.symm he, ?_⟩
        intro hm
        obtain ⟨x, hx, hx1⟩ := List.mem_map.mp hm
        rcases h with h | h
        · have := h e (by simp)
          have := hs1 x hx
          omega
        · exact h x (by simp [hx]) hx1
      · rintro ⟨h1, ⟨h2, h3⟩, _, _⟩
        exact ⟨h1, h3, h2⟩

/-! ### The loop over the triples -/

/-- Order of triples by three components. -/
def Lex (a b : Nat × Nat × Nat) : Prop := a.1 < b.1 ∨ (a.1 = b.1 ∧ (a.2.1 < b.2.1 ∨ (a.2.1 = b.2.1 ∧ a.2.2 < b.2.2)))

/-- The three components in the order of a permutation. -/
def key3 (c0 c1 c2 : Fin 3) (t : Triple) : Nat × Nat × Nat := (t.at c0, t.at c1, t.at c2)

/-- The relation of a key: second and third component, in the order of the list. -/
def pairs (c0 c1 c2 : Fin 3) (l : List Triple) (k : Nat) : List Pair :=
  (l.filter fun t => decide (t.at c0 = k)).map fun t => (t.at c1, t.at c2)

/-- The same for the other permutation of the pair. -/
def switched (c0 c1 c2 : Fin 3) (l : List Triple) (k : Nat) : List Pair :=
  sortBy pairLt ((pairs c0 c1 c2 l k).map fun e => (e.2, e.1))

theorem pairs_append (c0 c1 c2 : Fin 3) (l : List Triple) (t : Triple) (k : Nat) :
    pairs c0 c1 c2 (l ++ [t]) k = if t.at c0 = k then pairs c0 c1 c2 l k ++ [(t.at c1, t.at c2)] else pairs c0 c1 c2 l k := by
  unfold pairs
  rw [List.filter_append, List.map_append]
  by_cases h : t.at c0 = k <;> simp [h]

theorem pairs_sorted {c0 c1 c2 : Fin 3} {l : List Triple} (h : l.Pairwise fun a b => Lex (key3 c0 c1 c2 a) (key3 c0 c1 c2 b)) (k : Nat) :
    (pairs c0 c1 c2 l k).Pairwise fun a b => a.1 < b.1 ∨ (a.1 = b.1 ∧ a.2 < b.2) := by
  unfold pairs
  rw [List.pairwise_map]
  refine List.Pairwise.imp_of_mem ?_ (h.sublist List.filter_sublist)
  intro a b ha hb hab
  have ha := (List.mem_filter.mp ha).2
  have hb := (List.mem_filter.mp hb).2
  simp only [decide_eq_true_eq] at ha hb
  unfold Lex key3 at hab
  simp only at hab
  omega

theorem pairs_mem {c0 c1 c2 : Fin 3} {l : List Triple} {k : Nat} {x : Pair} (h : x ∈ pairs c0 c1 c2 l k) :
    ∃ t ∈ l, t.at c0 = k ∧ x = (t.at c1, t.at c2) := by
  unfold pairs at h
  obtain ⟨t, ht, rfl⟩ := List.mem_map.mp h
  have := List.mem_filter.mp ht
  exact ⟨t, this.1, by simpa using this.2, rfl⟩

theorem pairs_length_le (c0 c1 c2 : Fin 3) (l : List Triple) (k : Nat) : (pairs c0 c1 c2 l k).length ≤ l.length := by
  unfold pairs; rw [List.length_map]; exact List.length_filter_le _ _

theorem switched_perm (c0 c1 c2 : Fin 3) (l : List Triple) (k : Nat) :
    (switched c0 c1 c2 l k).Perm ((pairs c0 c1 c2 l k).map fun e => (e.2, e.1)) := sortBy_perm _ _

theorem switched_length (c0 c1 c2 : Fin 3) (l : List Triple) (k : Nat) :
    (switched c0 c1 c2 l k).length = (pairs c0 c1 c2 l k).length := by
  rw [(switched_perm c0 c1 c2 l k).length_eq, List.length_map]

theorem switched_nil {c0 c1 c2 : Fin 3} {l : List Triple} {k : Nat} (h : pairs c0 c1 c2 l k = []) : switched c0 c1 c2 l k = [] := by
  rw [← List.length_eq_zero_iff, switched_length, h]; rfl

/-- What the loop has established after the triples `done`. -/
structure LoopInv (vs : Option Nat) (c0 c1 c2 : Fin 3) (done : List Triple) (st : PairState) : Prop where
  buf : st.buffer = pairs c0 c1 c2 done st.currentRel
  le : ∀ t ∈ done, t.at c0 ≤ st.currentRel
  func : st.functional = true ↔ (st.buffer.map Prod.fst).Nodup
  lhs : (done = [] ∧ st.lastLhs = MAX_ID) ∨ ∃ l x, st.buffer = l ++ [x] ∧ x.1 = st.lastLhs
  g1 : ∃ adds, Good vs st.out1 st.meta1 (fun k => if k < st.currentRel then pairs c0 c1 c2 done k else []) adds
  g2 : ∃ adds, Good vs st.out2 st.meta2 (fun k => if k < st.currentRel then switched c0 c1 c2 done k else []) adds
  off1 : st.lastOffset1 = st.out1.length
  off2 : st.lastOffset2 = st.out2.length
  len1 : st.out1.length + 40 * st.buffer.length ≤ 40 * done.length
  len2 : st.out2.length + 40 * st.buffer.length ≤ 40 * done.length

/-- Bounds on the triples. -/
structure Bounds (vs : Option Nat) (c0 : Fin 3) (vec : List Triple) : Prop where
  ids : ∀ t ∈ vec, ∀ c, t.at c < MAX_ID
  range : ∀ t ∈ vec, InRange vs (t.at c0)
  len : vec.length ≤ MAX_NOF_ELEMENTS

/-- Writing a finished relation. -/
theorem flush_spec {vs : Option Nat} {c0 c1 c2 : Fin 3} {done : List Triple} {st : PairState} (lg : Nat → Nat → Nat)
    (h : LoopInv vs c0 c1 c2 done st) (hne : done ≠ []) (hb : Bounds vs c0 done)
    (hs : done.Pairwise fun a b => Lex (key3 c0 c1 c2 a) (key3 c0 c1 c2 b)) :
    ∃ out1 out2 meta1 meta2, st.flush lg = .ok { st with out1 := out1, meta1 := meta1, out2 := out2, meta2 := meta2 } ∧
      meta1.offsetAfter = out1.length ∧ meta2.offsetAfter = out2.length ∧
      out1.length ≤ 40 * done.length ∧ out2.length ≤ 40 * done.length ∧
      (∃ adds, Good vs out1 meta1 (fun k => if k ≤ st.currentRel then pairs c0 c1 c2 done k else []) adds) ∧
      (∃ adds, Good vs out2 meta2 (fun k => if k ≤ st.currentRel then switched c0 c1 c2 done k else []) adds) := by
  have hmax : MAX_NOF_ELEMENTS = 2 ^ 40 - 1 := by decide
  have hM : MAX_ID = 2 ^ 64 - 1 := rfl
  obtain ⟨adds1, hg1⟩ := h.g1
  obtain ⟨adds2, hg2⟩ := h.g2
  have hbne : st.buffer ≠ [] := by
    rcases h.lhs with ⟨h1, _⟩ | ⟨l, x, h1, _⟩
    · exact absurd h1 hne
    · rw [h1]; simp
  have hmem : ∀ x ∈ st.buffer, x.1 < MAX_ID ∧ x.2 < MAX_ID := by
    intro x hx
    rw [h.buf] at hx
    obtain ⟨t, ht, _, rfl⟩ := pairs_mem hx
    exact ⟨hb.ids t ht c1, hb.ids t ht c2⟩
  obtain ⟨t0, ht0, ht0k⟩ : ∃ t ∈ done, t.at c0 = st.currentRel := by
    cases hbb : st.buffer with
    | nil => exact absurd hbb hbne
    | cons x l =>
      have : x ∈ pairs c0 c1 c2 done st.currentRel := by rw [← h.buf, hbb]; simp
      obtain ⟨t, ht, h1, _⟩ := pairs_mem this
      exact ⟨t, ht, h1⟩
  have hrel : st.currentRel < 2 ^ 64 := by have := hb.ids t0 ht0 c0; omega
  have hrange : InRange vs st.currentRel := by rw [← ht0k]; exact hb.range t0 ht0
  have hbl : st.buffer.length ≤ done.length := by rw [h.buf]; exact pairs_length_le _ _ _ _ _
  have hdl := hb.len
  have hsort1 : st.buffer.Pairwise fun a b => a.1 ≤ b.1 := by
    rw [h.buf]; refine (pairs_sorted hs _).imp ?_; intro a b hab; omega
  have hl1 := h.len1
  have hl2 := h.len2
  obtain ⟨out1, f1, b1, md1, e1, e2, e3, e4, e5⟩ := hg1.add lg st.currentRel st.buffer st.distinctC1 st.functional
    hrange hbne hrel (by omega) (by omega) hsort1 hmem h.func
  -- the other file
  obtain ⟨sw, hsw⟩ : ∃ sw, sw = switched c0 c1 c2 done st.currentRel := ⟨_, rfl⟩
  have hsw' : sortBy pairLt (st.buffer.map fun el => (el.2, el.1)) = sw := by rw [hsw, h.buf]; rfl
  have hswl : sw.length = st.buffer.length := by rw [hsw, switched_length, h.buf]
  have hswm : ∀ x ∈ sw, x.1 < MAX_ID ∧ x.2 < MAX_ID := by
    intro x hx
    rw [hsw, (switched_perm _ _ _ _ _).mem_iff, ← h.buf] at hx
    obtain ⟨y, hy, rfl⟩ := List.mem_map.mp hx
    exact (hmem y hy).symm
  have hsort2 : sw.Pairwise fun a b => a.1 ≤ b.1 := by
    rw [hsw]; refine (sortBy_pairs _).imp ?_; intro a b hab; omega
  have hcount := countLhs_spec sw MAX_ID true 0 hsort2 (Or.inr fun x hx => by have := (hswm x hx).1; omega)
  have hfun2 : (countLhs sw MAX_ID true 0).1 = true ↔ (sw.map Prod.fst).Nodup := by
    rw [hcount]
    refine ⟨fun h => h.2.1, fun h => ⟨rfl, h, ?_⟩⟩
    intro hm
    obtain ⟨x, hx, hx1⟩ := List.mem_map.mp hm
    have := (hswm x hx).1
    omega
  have hswne : sw ≠ [] := by
    intro hc; rw [hc] at hswl
    exact hbne (List.length_eq_zero_iff.mp (by simpa using hswl.symm))
  obtain ⟨out2, f2, b2, md2, e1', e2', e3', e4', e5'⟩ := hg2.add lg st.currentRel sw (countLhs sw MAX_ID true 0).2
    (countLhs sw MAX_ID true 0).1 hrange hswne hrel (by omega) (by omega) hsort2 hswm hfun2
  refine ⟨out1, out2, md1, md2, ?_, e5, e5', by omega, by omega, ⟨adds1 ++ [(f1, b1)], ?_⟩, ⟨adds2 ++ [(f2, b2)], ?_⟩⟩
  · unfold PairState.flush writeSwitchedRel
    rw [h.off1, e1]
    simp only [Outcome.bind]
    rw [e2]
    simp only
    rw [hsw', h.off2, e1']
    simp only
    rw [e2']
  · have : (fun k => if k ≤ st.currentRel then pairs c0 c1 c2 done k else []) =
        fun k => if k = st.currentRel then st.buffer else if k < st.currentRel then pairs c0 c1 c2 done k else [] := by
      funext k
      by_cases hk : k = st.currentRel
      · rw [if_pos hk, if_pos (by omega), hk, h.buf]
      · rw [if_neg hk]
        by_cases hk2 : k < st.currentRel
        · rw [if_pos hk2, if_pos (by omega)]
        · rw [if_neg hk2, if_neg (by omega)]
    rw [this]; exact e3
  · have : (fun k => if k ≤ st.currentRel then switched c0 c1 c2 done k else []) =
        fun k => if k = st.currentRel then sw else if k < st.currentRel then switched c0 c1 c2 done k else [] := by
      funext k
      by_cases hk : k = st.currentRel
      · rw [if_pos hk, if_pos (by omega), hk, hsw]
      · rw [if_neg hk]
        by_cases hk2 : k < st.currentRel
        · rw [if_pos hk2, if_pos (by omega)]
        · rw [if_neg hk2, if_neg (by omega)]
    rw [this]; exact e3'

theorem Bounds.sub {vs : Option Nat} {c0 : Fin 3} {a b : List Triple} (h : Bounds vs c0 (a ++ b)) : Bounds vs c0 a :=
  ⟨fun t ht => h.ids t (by simp [ht]), fun t ht => h.range t (by simp [ht]), by have := h.len; rw [List.length_append] at this; omega⟩

theorem switched_append_ne {c0 c1 c2 : Fin 3} {l : List Triple} {t : Triple} {k : Nat} (h : t.at c0 ≠ k) :
    switched c0 c1 c2 (l ++ [t]) k = switched c0 c1 c2 l k := by
  unfold switched; rw [pairs_append, if_neg h]

theorem pairs_eq_nil {c0 c1 c2 : Fin 3} {l : List Triple} {k : Nat} (h : ∀ t ∈ l, t.at c0 ≠ k) : pairs c0 c1 c2 l k = [] := by
  unfold pairs
  rw [List.filter_eq_nil_iff.mpr (by intro t ht; simpa using h t ht)]; rfl

theorem step_spec {vs : Option Nat} {c0 c1 c2 : Fin 3} {done : List Triple} {st : PairState} (lg : Nat → Nat → Nat) (t : Triple)
    (h : LoopInv vs c0 c1 c2 done st) (hb : Bounds vs c0 (done ++ [t]))
    (hs : (done ++ [t]).Pairwise fun a b => Lex (key3 c0 c1 c2 a) (key3 c0 c1 c2 b))
    (hge : st.currentRel ≤ t.at c0) (h0 : done = [] → t.at c0 = st.currentRel) :
    ∃ st', st.step lg c0 c1 c2 t = .ok st' ∧ LoopInv vs c0 c1 c2 (done ++ [t]) st' ∧ st'.currentRel = t.at c0 := by
  have hM : MAX_ID = 2 ^ 64 - 1 := rfl
  obtain ⟨hsd, _, hsx⟩ := List.pairwise_append.mp hs
  have hsx' : ∀ d ∈ done, Lex (key3 c0 c1 c2 d) (key3 c0 c1 c2 t) := fun d hd => hsx d hd t (by simp)
  unfold PairState.step
  by_cases hrel : t.at c0 = st.currentRel
  · rw [if_neg (by simpa using hrel)]
    have hbuf : st.buffer ++ [(t.at c1, t.at c2)] = pairs c0 c1 c2 (done ++ [t]) st.currentRel := by
      rw [pairs_append, if_pos hrel, h.buf]
    have hfnew : ∀ fn : Bool, (fn = true ↔ (st.functional = true ∧ t.at c1 ≠ st.lastLhs)) →
        (fn = true ↔ ((st.buffer ++ [(t.at c1, t.at c2)]).map Prod.fst).Nodup) := by
      intro fn hfn
      rw [hfn, h.func, List.map_append, List.map_singleton, List.nodup_append]
      constructor
      · rintro ⟨g1, g2⟩
        refine ⟨g1, by simp, ?_⟩
        intro a ha b hb'
        rw [List.mem_singleton.mp hb']
        rcases h.lhs with ⟨hd, hl⟩ | ⟨l, x, hl, hx⟩
        · rw [h.buf, hd] at ha; simp [pairs] at ha
        · have hps := pairs_sorted hs st.currentRel
          rw [← hbuf, hl] at hps
          rw [hl, List.map_append, List.mem_append] at ha
          have hsub : (l ++ [x]).Pairwise fun a b : Pair => a.1 < b.1 ∨ (a.1 = b.1 ∧ a.2 < b.2) := (List.pairwise_append.mp hps).1
          have hxt := (List.pairwise_append.mp hps).2.2 x (by simp) _ (List.mem_singleton_self _)
          simp only at hxt
          rcases ha with ha | ha
          · obtain ⟨y, hy, rfl⟩ := List.mem_map.mp ha
            have := (List.pairwise_append.mp hsub).2.2 y hy x (by simp)
            omega
          · simp only [List.map_cons, List.map_nil, List.mem_singleton] at ha
            omega
      · rintro ⟨g1, _, g3⟩
        refine ⟨g1, ?_⟩
        rcases h.lhs with ⟨hd, hl⟩ | ⟨l, x, hl, hx⟩
        · rw [hl]
          have := hb.ids t (by simp) c1
          omega
        · intro he
          refine g3 x.1 (by rw [hl]; simp) (t.at c1) (by simp) ?_
          rw [hx, he]
    have hD1 : (fun k => if k < st.currentRel then pairs c0 c1 c2 (done ++ [t]) k else []) =
        fun k => if k < st.currentRel then pairs c0 c1 c2 done k else [] := by
      funext k
      by_cases hk : k < st.currentRel
      · rw [if_pos hk, if_pos hk, pairs_append, if_neg (by omega)]
      · rw [if_neg hk, if_neg hk]
    have hD2 : (fun k => if k < st.currentRel then switched c0 c1 c2 (done ++ [t]) k else []) =
        fun k => if k < st.currentRel then switched c0 c1 c2 done k else [] := by
      funext k
      by_cases hk : k < st.currentRel
      · rw [if_pos hk, if_pos hk, switched_append_ne (by omega)]
      · rw [if_neg hk, if_neg hk]
    have hle : ∀ u ∈ done ++ [t], u.at c0 ≤ st.currentRel := by
      intro u hu
      rcases List.mem_append.mp hu with hu | hu
      · exact h.le u hu
      · rw [List.mem_singleton.mp hu, hrel]
    have hlen1 : st.out1.length + 40 * (st.buffer ++ [(t.at c1, t.at c2)]).length ≤ 40 * (done ++ [t]).length := by
      have := h.len1; simp only [List.length_append, List.length_singleton]; omega
    have hlen2 : st.out2.length + 40 * (st.buffer ++ [(t.at c1, t.at c2)]).length ≤ 40 * (done ++ [t]).length := by
      have := h.len2; simp only [List.length_append, List.length_singleton]; omega
    obtain ⟨a1, hg1⟩ := h.g1
    obtain ⟨a2, hg2⟩ := h.g2
    by_cases hc : t.at c1 = st.lastLhs
    · rw [if_pos hc]
      refine ⟨_, rfl, ⟨hbuf, hle, hfnew false (by simp [hc]), Or.inr ⟨st.buffer, _, rfl, rfl⟩, ⟨a1, ?_⟩, ⟨a2, ?_⟩, h.off1, h.off2, hlen1, hlen2⟩,
        hrel.symm⟩
      · show Good vs st.out1 st.meta1 (fun k => if k < st.currentRel then pairs c0 c1 c2 (done ++ [t]) k else []) a1
        rw [hD1]; exact hg1
      · show Good vs st.out2 st.meta2 (fun k => if k < st.currentRel then switched c0 c1 c2 (done ++ [t]) k else []) a2
        rw [hD2]; exact hg2
    · rw [if_neg hc]
      refine ⟨_, rfl, ⟨hbuf, hle, hfnew st.functional (by simp [hc]), Or.inr ⟨st.buffer, _, rfl, rfl⟩, ⟨a1, ?_⟩, ⟨a2, ?_⟩, h.off1, h.off2, hlen1, hlen2⟩,
        hrel.symm⟩
      · show Good vs st.out1 st.meta1 (fun k => if k < st.currentRel then pairs c0 c1 c2 (done ++ [t]) k else []) a1
        rw [hD1]; exact hg1
      · show Good vs st.out2 st.meta2 (fun k => if k < st.currentRel then switched c0 c1 c2 (done ++ [t]) k else []) a2
        rw [hD2]; exact hg2
  · rw [if_pos hrel]
    have hne : done ≠ [] := fun hc => hrel (h0 hc)
    obtain ⟨out1, out2, meta1, meta2, hf, ho1, ho2, hl1, hl2, ⟨a1, hg1⟩, ⟨a2, hg2⟩⟩ := flush_spec lg h hne hb.sub hsd
    rw [hf]
    have hnil : ∀ k, st.currentRel < k → pairs c0 c1 c2 done k = [] :=
      fun k hk => pairs_eq_nil fun u hu => by have := h.le u hu; omega
    have hD1 : (fun k => if k < t.at c0 then pairs c0 c1 c2 (done ++ [t]) k else []) =
        fun k => if k ≤ st.currentRel then pairs c0 c1 c2 done k else [] := by
      funext k
      by_cases hk : k < t.at c0
      · rw [if_pos hk, pairs_append, if_neg (by omega)]
        by_cases hk2 : k ≤ st.currentRel
        · rw [if_pos hk2]
        · rw [if_neg hk2, hnil k (by omega)]
      · rw [if_neg hk, if_neg (by omega)]
    have hD2 : (fun k => if k < t.at c0 then switched c0 c1 c2 (done ++ [t]) k else []) =
        fun k => if k ≤ st.currentRel then switched c0 c1 c2 done k else [] := by
      funext k
      by_cases hk : k < t.at c0
      · rw [if_pos hk, switched_append_ne (by omega)]
        by_cases hk2 : k ≤ st.currentRel
        · rw [if_pos hk2]
        · rw [if_neg hk2, switched_nil (hnil k (by omega))]
      · rw [if_neg hk, if_neg (by omega)]
    refine ⟨_, rfl, ⟨?_, ?_, ?_, Or.inr ⟨[], _, rfl, rfl⟩, ⟨a1, ?_⟩, ⟨a2, ?_⟩, ho1, ho2, ?_, ?_⟩, rfl⟩
    · show [] ++ [(t.at c1, t.at c2)] = pairs c0 c1 c2 (done ++ [t]) (t.at c0)
      rw [pairs_append, if_pos rfl, hnil _ (by omega)]
    · intro u hu
      show u.at c0 ≤ t.at c0
      rcases List.mem_append.mp hu with hu | hu
      · have := h.le u hu; omega
      · rw [List.mem_singleton.mp hu]
    · show true = true ↔ (([] ++ [(t.at c1, t.at c2)] : List Pair).map Prod.fst).Nodup
      simp
    · show Good vs out1 meta1 (fun k => if k < t.at c0 then pairs c0 c1 c2 (done ++ [t]) k else []) a1
      rw [hD1]; exact hg1
    · show Good vs out2 meta2 (fun k => if k < t.at c0 then switched c0 c1 c2 (done ++ [t]) k else []) a2
      rw [hD2]; exact hg2
    · show out1.length + 40 * ([] ++ [(t.at c1, t.at c2)] : List Pair).length ≤ 40 * (done ++ [t]).length
      simp only [List.length_append, List.length_singleton, List.length_nil]; omega
    · show out2.length + 40 * ([] ++ [(t.at c1, t.at c2)] : List Pair).length ≤ 40 * (done ++ [t]).length
      simp only [List.length_append, List.length_singleton, List.length_nil]; omega

theorem run_spec {vs : Option Nat} {c0 c1 c2 : Fin 3} (lg : Nat → Nat → Nat) (rest : List Triple) (done : List Triple) (st : PairState)
    (h : LoopInv vs c0 c1 c2 done st) (hb : Bounds vs c0 (done ++ rest))
    (hs : (done ++ rest).Pairwise fun a b => Lex (key3 c0 c1 c2 a) (key3 c0 c1 c2 b))
    (hge : ∀ t ∈ rest, st.currentRel ≤ t.at c0) (h0 : done = [] → ∀ t ts, rest = t :: ts → t.at c0 = st.currentRel) :
    ∃ st', st.run lg c0 c1 c2 rest = .ok st' ∧ LoopInv vs c0 c1 c2 (done ++ rest) st' := by
  induction rest generalizing done st with
  | nil => exact ⟨st, rfl, by rw [List.append_nil]; exact h⟩
  | cons t ts ih =>
    have e : done ++ t :: ts = done ++ [t] ++ ts := by simp
    rw [e] at hb hs
    obtain ⟨st', h1, h2, h3⟩ := step_spec lg t h hb.sub (List.pairwise_append.mp hs).1 (hge t (by simp)) (fun hd => h0 hd t ts rfl)
    have hge' : ∀ u ∈ ts, st'.currentRel ≤ u.at c0 := by
      intro u hu
      have := (List.pairwise_append.mp hs).2.2 t (by simp) u hu
      rw [h3]
      unfold Lex key3 at this
      simp only at this
      omega
    obtain ⟨st'', h4, h5⟩ := ih (done ++ [t]) st' h2 hb hs hge' (by simp)
    refine ⟨st'', ?_, by rw [e]; exact h5⟩
    unfold PairState.run
    rw [h1]
    exact h4

theorem Good.congr {vs : Option Nat} {out : List Nat} {md : Index} {D D' : Nat → List Pair} {adds : List Add} (h : Good vs out md D adds)
    (e : ∀ k, D' k = D k) : Good vs out md D' adds := by
  have : D' = D := funext e
  rw [this]; exact h

theorem Good.stats {vs : Option Nat} {out : List Nat} {md : Index} {D : Nat → List Pair} {adds : List Add} (h : Good vs out md D adds) :
    Good vs out md.calcStats D adds :=
  ⟨⟨h.inv.data, h.inv.blocks, h.inv.bkeys, h.inv.bprov, h.inv.off⟩, h.shape, h.off, h.absent, h.present, h.wf, h.size, h.bsize, h.cnt⟩

/-- Building a pair of permutations from sorted triples. -/
theorem impl_spec {vs : Option Nat} {c0 c1 c2 : Fin 3} (lg : Nat → Nat → Nat) (vec : List Triple) (hne : vec ≠ []) (hv : ∀ n, vs = some n → n < 2 ^ 64)
    (hb : Bounds vs c0 vec) (hs : vec.Pairwise fun a b => Lex (key3 c0 c1 c2 a) (key3 c0 c1 c2 b)) :
    ∃ p1 p2 adds1 adds2, createPermutationPairImpl lg vs vec c0 c1 c2 = .ok (some (p1, p2)) ∧
      Good vs p1.file p1.md (pairs c0 c1 c2 vec) adds1 ∧ Good vs p2.file p2.md (switched c0 c1 c2 vec) adds2 ∧
      p1.file.length ≤ 40 * vec.length ∧ p2.file.length ≤ 40 * vec.length := by
  cases vec with
  | nil => exact absurd rfl hne
  | cons t ts =>
    have hinit : LoopInv vs c0 c1 c2 [] ⟨[], [], freshMeta vs, freshMeta vs, 0, 0, t.at c0, [], true, 1, MAX_ID⟩ := by
      refine ⟨rfl, by simp, by simp, Or.inl ⟨rfl, rfl⟩, ⟨[], (Good.fresh vs hv).congr fun k => ?_⟩, ⟨[], (Good.fresh vs hv).congr fun k => ?_⟩,
        rfl, rfl, by simp, by simp⟩
      · show (if k < t.at c0 then pairs c0 c1 c2 [] k else []) = []
        split <;> rfl
      · show (if k < t.at c0 then switched c0 c1 c2 [] k else []) = []
        split
        · exact switched_nil rfl
        · rfl
    have hge : ∀ u ∈ t :: ts, t.at c0 ≤ u.at c0 := by
      intro u hu
      rcases List.mem_cons.mp hu with rfl | hu
      · exact Nat.le_refl _
      · have := (List.pairwise_cons.mp hs).1 u hu
        unfold Lex key3 at this
        simp only at this
        omega
    obtain ⟨st, h1, h2⟩ := run_spec lg (t :: ts) [] _ hinit hb hs hge (fun _ u us he => by injection he with he; rw [he])
    rw [List.nil_append] at h2
    obtain ⟨out1, out2, meta1, meta2, hf, ho1, ho2, hl1, hl2, ⟨a1, hg1⟩, ⟨a2, hg2⟩⟩ := flush_spec lg h2 hne hb hs
    refine ⟨⟨out1, meta1.calcStats⟩, ⟨out2, meta2.calcStats⟩, a1, a2, ?_, (hg1.congr fun k => ?_).stats, (hg2.congr fun k => ?_).stats, hl1, hl2⟩
    · unfold createPermutationPairImpl
      simp only
      rw [h1]
      simp only [Outcome.bind]
      rw [hf]
    · by_cases hk : k ≤ st.currentRel
      · rw [if_pos hk]
      · rw [if_neg hk]; exact pairs_eq_nil fun u hu => by have := h2.le u hu; omega
    · by_cases hk : k ≤ st.currentRel
      · rw [if_pos hk]
      · rw [if_neg hk]; exact switched_nil (pairs_eq_nil fun u hu => by have := h2.le u hu; omega)

end Verif.Permutation
