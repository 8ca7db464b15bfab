import Verif.Lemmas.VocabularyPartial
import Verif.Lemmas.ExternalVocabulary
import Mathlib.Data.List.Perm.Subperm
/-
Merging the partial vocabularies.
-/
namespace Verif.VocabularyMerger
open Verif.VocabularySpec Verif.MetaData Verif.Bytes
open Verif.ExternalVocabulary (Word)

variable {S : Word → Prop} {cmp : Word → Word → Int}

theorem WordsOk.lt_of (h : WordsOk S cmp) {a b : Word} (ha : S a) (hb : S b) (h1 : ¬ cmp b a < 0) (h2 : a ≠ b) : cmp a b < 0 := by
  rw [h.order.flip b a hb ha] at h1
  have : cmp a b ≠ 0 := fun h0 => h2 ((h.order.eq_zero a b ha hb).mp h0)
  omega

theorem WordsOk.not_lt (h : WordsOk S cmp) {a b : Word} (ha : S a) (hb : S b) (h1 : cmp a b < 0) : ¬ cmp b a < 0 := by
  rw [h.order.flip b a hb ha]; omega

theorem WordsOk.ne (h : WordsOk S cmp) {a b : Word} (ha : S a) (hb : S b) (h1 : cmp a b < 0) : a ≠ b := by
  intro e
  have := (h.order.eq_zero a b ha hb).mpr e
  omega

theorem WordsOk.le_trans (h : WordsOk S cmp) {a b c : Word} (ha : S a) (hb : S b) (hc : S c) (h1 : ¬ cmp b a < 0)
    (h2 : ¬ cmp c b < 0) : ¬ cmp c a < 0 := by
  by_cases hab : a = b
  · subst hab; exact h2
  · by_cases hbc : b = c
    · subst hbc; exact h1
    · exact h.not_lt ha hc (h.order.trans a b c ha hb hc (h.lt_of ha hb h1 hab) (h.lt_of hb hc h2 hbc))

/-- Internal words are smaller than external words. -/
theorem WordsOk.int_lt_ext (h : WordsOk S cmp) {a b : Word} (ha : S a) (hb : S b) (h1 : isInternal a = true)
    (h2 : isInternal b = false) : cmp a b < 0 := by
  cases a with
  | nil => exact absurd rfl (h.nonempty _ ha)
  | cons c cs =>
    cases b with
    | nil => exact absurd rfl (h.nonempty _ hb)
    | cons d ds =>
      simp only [isInternal, decide_eq_true_eq, decide_eq_false_iff_not] at h1 h2
      exact h.first c cs d ds ha hb (by omega)

/-! ### The merge order -/

/-- The entries that come from file `i`. -/
def proj (i : Nat) (out : List (Nat × Entry)) : List Entry := out.filterMap fun q => if q.1 = i then some q.2 else none

theorem proj_cons_same (i : Nat) (e : Entry) (out : List (Nat × Entry)) : proj i ((i, e) :: out) = e :: proj i out := by simp [proj]

theorem proj_cons_other {i j : Nat} (h : j ≠ i) (e : Entry) (out : List (Nat × Entry)) : proj i ((j, e) :: out) = proj i out := by
  simp [proj, h]

theorem proj_append (i : Nat) (a b : List (Nat × Entry)) : proj i (a ++ b) = proj i a ++ proj i b := by simp [proj]

theorem mem_proj {i : Nat} {e : Entry} {out : List (Nat × Entry)} : e ∈ proj i out ↔ (i, e) ∈ out := by
  simp only [proj, List.mem_filterMap]
  constructor
  · rintro ⟨⟨j, e'⟩, h1, h2⟩
    split at h2
    · rename_i h3; simp only at h3; simp at h2; subst h3 h2; exact h1
    · simp at h2
  · intro h; exact ⟨(i, e), h, by simp⟩

theorem merged_spec (hS : WordsOk S cmp) {fs : List (List Entry)} {out : List (Nat × Entry)} (h : Merged cmp fs out)
    (hs : ∀ f ∈ fs, f.Pairwise fun a b => ¬ cmp b.1 a.1 < 0) (hw : ∀ f ∈ fs, ∀ e ∈ f, S e.1) :
    (out.Pairwise fun a b => ¬ cmp b.2.1 a.2.1 < 0) ∧ (∀ i, i < fs.length → proj i out = fs[i]?.getD []) ∧
    (∀ q ∈ out, q.1 < fs.length) := by
  induction h with
  | @done fs hall =>
    refine ⟨.nil, fun i hi => ?_, by simp⟩
    rw [List.getElem?_eq_getElem hi, hall _ (List.getElem_mem hi)]
    rfl
  | @pop fs out i e r hi hmin hm ih =>
    have hil := (List.getElem?_eq_some_iff.mp hi).1
    have hei := (List.getElem?_eq_some_iff.mp hi).2
    have hfm : e :: r ∈ fs := List.mem_of_getElem? hi
    have hset : ∀ f ∈ fs.set i r, f = r ∨ f ∈ fs := fun f hf => by
      rcases List.mem_or_eq_of_mem_set hf with h | h
      · exact .inr h
      · exact .inl h
    obtain ⟨h1, h2, h3⟩ := ih
      (fun f hf => by
        rcases hset f hf with rfl | h
        · exact (List.pairwise_cons.mp (hs _ hfm)).2
        · exact hs f h)
      (fun f hf e' he' => by
        rcases hset f hf with rfl | h
        · exact hw _ hfm e' (List.mem_cons_of_mem _ he')
        · exact hw f h e' he')
    rw [List.length_set] at h2 h3
    refine ⟨List.pairwise_cons.mpr ⟨?_, h1⟩, ?_, ?_⟩
    · rintro ⟨j, e'⟩ hq
      have hj : j < fs.length := h3 _ hq
      have hp := h2 j hj
      have hmem : e' ∈ (fs.set i r)[j]?.getD [] := by rw [← hp]; exact mem_proj.mpr hq
      simp only
      have hse : S e.1 := hw _ hfm e (List.mem_cons_self ..)
      by_cases hij : i = j
      · subst hij
        rw [List.getElem?_set_self hj] at hmem
        exact (List.pairwise_cons.mp (hs _ hfm)).1 e' hmem
      · rw [List.getElem?_set_ne hij, List.getElem?_eq_getElem hj] at hmem
        simp only [Option.getD_some] at hmem
        have hfj : fs[j] ∈ fs := List.getElem_mem hj
        cases hf : fs[j] with
        | nil => rw [hf] at hmem; simp at hmem
        | cons a t =>
          have h4 := hmin _ hfj a t hf
          have hsa : S a.1 := hw _ hfj a (by rw [hf]; exact List.mem_cons_self ..)
          have hse' : S e'.1 := hw _ hfj e' hmem
          rw [hf] at hmem
          rcases List.mem_cons.mp hmem with rfl | hmem
          · exact h4
          · have h5 := hs _ hfj
            rw [hf] at h5
            exact hS.le_trans hse hsa hse' h4 ((List.pairwise_cons.mp h5).1 e' hmem)
    · intro j hj
      by_cases hij : i = j
      · subst hij
        rw [proj_cons_same, h2 i hj, List.getElem?_set_self hj, hi]
        rfl
      · rw [proj_cons_other hij, h2 j hj, List.getElem?_set_ne hij]
    · intro q hq
      rcases List.mem_cons.mp hq with rfl | hq
      · exact hil
      · exact h3 q hq

/-! ### Writing the vocabulary -/

/-- The text written for some words. -/
def linesOf (ws : List Word) : List Char := (ws.map fun w => RdfEscaping.escapeNB w ++ ['\n']).flatten

theorem linesOf_snoc (ws : List Word) (w : Word) : linesOf (ws ++ [w]) = linesOf ws ++ RdfEscaping.escapeNB w ++ ['\n'] := by
  simp [linesOf]

/-- Starts with `@`. -/
def isLang (w : Word) : Prop := w.head? = some '@'

instance (w : Word) : Decidable (isLang w) := by unfold isLang; infer_instance

/-- The bounds of the language predicates. -/
def LangInv (voc : List Word) (st : Merger) : Prop :=
  (st.langSeen = false ∧ st.langLower = 0 ∧ st.langUpper = 0 ∧ ∀ w ∈ voc, ¬ isLang w) ∨
  (st.langSeen = true ∧ (∃ w, voc[st.langLower]? = some w ∧ isLang w) ∧
    (∃ w, 0 < st.langUpper ∧ voc[st.langUpper - 1]? = some w ∧ isLang w) ∧
    ∀ (i : Nat) (w : Word), voc[i]? = some w → isLang w → st.langLower ≤ i ∧ i < st.langUpper)

/-- Invariant: the queue words `done` have been written, `voc` is the vocabulary so far. -/
structure MergeInv (cmp : Word → Word → Int) (n : Nat) (voc : List Word) (done : List (Nat × Entry)) (st : Merger) : Prop where
  total : st.total = voc.length
  le : voc.length ≤ done.length
  outInt : st.outfile = linesOf (voc.filter isInternal)
  outExt : st.outfileExternal = linesOf ((voc.filter fun w => !isInternal w).map shown)
  vecs : st.idVecs.length = n
  ids : ∀ i v, st.idVecs[i]? = some v →
    List.Forall₂ (fun (e : Entry) (p : Nat × Nat) => p.1 = e.2 ∧ voc[p.2]? = some e.1) (proj i done) v
  last : (voc = [] ∧ st.last = []) ∨
    ∃ w, voc.getLast? = some w ∧ (isInternal w = true → st.last = w) ∧ (isInternal w = false → isInternal st.last = true)
  sorted : voc.Pairwise fun a b => cmp a b < 0 ∨ (a = b ∧ isInternal a = false)
  mem : ∀ w, w ∈ voc ↔ w ∈ done.map fun q => q.2.1
  ext : (voc.filter fun w => !isInternal w) = (done.map fun q => q.2.1).filter fun w => !isInternal w
  lang : LangInv voc st

theorem getElem?_snoc_of {voc : List Word} {w x : Word} {i : Nat} (h : voc[i]? = some x) : (voc ++ [w])[i]? = some x := by
  rw [List.getElem?_append_left (List.getElem?_eq_some_iff.mp h).1]; exact h

theorem pushId_ok (vecs : List (List (Nat × Nat))) (i : Nat) (p : Nat × Nat) (h : i < vecs.length) :
    pushId vecs i p = .ok (vecs.set i (vecs[i] ++ [p])) := by
  simp [pushId, Outcome.read_lt _ _ h]

theorem ids_push {voc voc' : List Word} {done : List (Nat × Entry)} {vecs : List (List (Nat × Nat))}
    (hids : ∀ i v, vecs[i]? = some v →
      List.Forall₂ (fun (e : Entry) (p : Nat × Nat) => p.1 = e.2 ∧ voc[p.2]? = some e.1) (proj i done) v)
    (hmono : ∀ (i : Nat) (x : Word), voc[i]? = some x → voc'[i]? = some x) (j : Nat) (e : Entry) (g : Nat) (hg : voc'[g]? = some e.1)
    (hj' : j < vecs.length) :
    ∀ i v, (vecs.set j (vecs[j] ++ [(e.2, g)]))[i]? = some v →
      List.Forall₂ (fun (e : Entry) (p : Nat × Nat) => p.1 = e.2 ∧ voc'[p.2]? = some e.1) (proj i (done ++ [(j, e)])) v := by
  intro i v hiv
  rw [proj_append]
  by_cases hij : j = i
  · subst hij
    rw [List.getElem?_set_self hj'] at hiv
    simp only [Option.some.injEq] at hiv
    subst hiv
    have h1 := hids j vecs[j] (List.getElem?_eq_getElem hj')
    refine forall₂_append' (h1.imp fun a b h => ⟨h.1, hmono _ _ h.2⟩) ?_
    have : proj j [(j, e)] = [e] := by simp [proj]
    rw [this]
    exact .cons ⟨rfl, hg⟩ .nil
  · rw [List.getElem?_set_ne hij] at hiv
    have : proj i [(j, e)] = [] := by simp [proj, hij]
    rw [this, List.append_nil]
    exact (hids i v hiv).imp fun a b h => ⟨h.1, hmono _ _ h.2⟩

theorem mergeStep_spec (hS : WordsOk S cmp) {n : Nat} {voc : List Word} {done : List (Nat × Entry)} {st : Merger}
    (h : MergeInv cmp n voc done st) (j : Nat) (e : Entry) (hj : j < n) (hw : S e.1) (hvoc : ∀ v ∈ voc, S v)
    (hmax : ∀ v ∈ voc, ¬ cmp e.1 v < 0) (hlen : done.length + 1 < 2 ^ 64) :
    ∃ st' voc', mergeStep st (j, e) = .ok st' ∧ MergeInv cmp n voc' (done ++ [(j, e)]) st' := by
  have hj' : j < st.idVecs.length := by rw [h.vecs]; exact hj
  have hdone : (done ++ [(j, e)]).map (fun q => q.2.1) = done.map (fun q => q.2.1) ++ [e.1] := by simp
  unfold mergeStep
  simp only
  by_cases hlast : e.1 = st.last
  · -- a duplicate
    rw [if_neg (by simpa using hlast)]
    obtain ⟨w, hw1, hw2, hw3⟩ : ∃ w, voc.getLast? = some w ∧ (isInternal w = true → st.last = w) ∧
        (isInternal w = false → isInternal st.last = true) := by
      rcases h.last with ⟨_, h0⟩ | h0
      · exact absurd (hlast.trans h0) (hS.nonempty _ hw)
      · exact h0
    have hwm : w ∈ voc := List.mem_of_getLast? hw1
    have hwi : isInternal w = true := by
      by_contra hc
      have hc' : isInternal w = false := by simpa using hc
      exact hmax w hwm (hS.int_lt_ext hw (hvoc w hwm) (hlast ▸ hw3 hc') hc')
    have hew : e.1 = w := hlast.trans (hw2 hwi)
    have hpos : 0 < voc.length := List.length_pos_of_mem hwm
    have hle := h.le
    have hm1 : (st.total + 2 ^ 64 - 1) % 2 ^ 64 = voc.length - 1 := by rw [h.total]; omega
    have hg : voc[voc.length - 1]? = some e.1 := by
      rw [hew, ← hw1, List.getLast?_eq_getElem?]
    rw [hm1, pushId_ok _ _ _ hj']
    refine ⟨_, voc, rfl, ?_⟩
    refine ⟨h.total, by simp; omega, h.outInt, h.outExt, by simp [h.vecs], ?_, h.last, h.sorted, ?_, ?_, h.lang⟩
    · exact ids_push h.ids (fun _ _ hx => hx) j e _ hg hj'
    · intro x
      rw [hdone, List.mem_append, ← h.mem]
      constructor
      · exact .inl
      · rintro (hx | hx)
        · exact hx
        · simp at hx; rw [hx, hew]; exact hwm
    · rw [hdone, List.filter_append, ← h.ext]
      simp [hew, hwi]
  · -- a new word
    rw [if_pos hlast]
    have hne : ∀ v ∈ voc, cmp v e.1 < 0 ∨ (v = e.1 ∧ isInternal v = false) := by
      intro v hv
      by_cases hve : v = e.1
      · right
        refine ⟨hve, ?_⟩
        by_contra hc
        have hvi : isInternal v = true := by simpa using hc
        rcases h.last with ⟨h0, _⟩ | ⟨u, hu1, hu2, hu3⟩
        · rw [h0] at hv; simp at hv
        · have hum : u ∈ voc := List.mem_of_getLast? hu1
          have huv : u = v := by
            by_contra hne
            -- v < u because u is the last word
            have hlt : cmp v u < 0 := by
              obtain ⟨ys, rfl⟩ := List.getLast?_eq_some_iff.mp hu1
              have hv' : v ∈ ys := by
                rcases List.mem_append.mp hv with h1 | h1
                · exact h1
                · simp at h1; exact absurd h1.symm hne
              rcases (List.pairwise_append.mp h.sorted).2.2 v hv' u (by simp) with h1 | h1
              · exact h1
              · exact absurd h1.1.symm hne
            exact hmax u hum (hve ▸ hlt)
          exact hlast ((huv ▸ hve.symm).trans (hu2 (huv ▸ hvi)).symm)
      · exact .inl (hS.lt_of (hvoc v hv) hw (hmax v hv) hve)
    have hsorted : (voc ++ [e.1]).Pairwise fun a b => cmp a b < 0 ∨ (a = b ∧ isInternal a = false) := by
      refine List.pairwise_append.mpr ⟨h.sorted, by simp, ?_⟩
      intro a ha b hb
      simp at hb
      subst hb
      exact hne a ha
    have hmem : ∀ x, x ∈ voc ++ [e.1] ↔ x ∈ (done ++ [(j, e)]).map fun q => q.2.1 := by
      intro x
      rw [hdone, List.mem_append, List.mem_append, h.mem]
    have hext : ((voc ++ [e.1]).filter fun w => !isInternal w) = ((done ++ [(j, e)]).map fun q => q.2.1).filter fun w => !isInternal w := by
      rw [hdone, List.filter_append, List.filter_append, h.ext]
    have hg : (voc ++ [e.1])[voc.length]? = some e.1 := by simp
    have hlang : ∀ st'' : Merger, st''.langSeen = (if isLang e.1 then true else st.langSeen) →
        st''.langLower = (if isLang e.1 then (if st.langSeen then st.langLower else st.total) else st.langLower) →
        st''.langUpper = (if isLang e.1 then st.total + 1 else st.langUpper) → LangInv (voc ++ [e.1]) st'' := by
      intro st'' h1 h2 h3
      have htot := h.total
      by_cases hl : isLang e.1
      · simp only [hl, if_true] at h1 h2 h3
        right
        rcases h.lang with ⟨a1, a2, a3, a4⟩ | ⟨a1, ⟨x, a2, a2'⟩, ⟨y, a3, a3', a3''⟩, a4⟩
        · rw [a1] at h2
          simp only [Bool.false_eq_true, if_false] at h2
          refine ⟨h1, ⟨e.1, by rw [h2, htot]; exact hg, hl⟩, ⟨e.1, by omega, by rw [h3, htot]; exact hg, hl⟩, ?_⟩
          intro i w hi hwl
          rw [List.getElem?_append] at hi
          split at hi
          · exact absurd hwl (a4 w (List.mem_of_getElem? hi))
          · have := (List.getElem?_eq_some_iff.mp hi).1
            simp at this
            omega
        · rw [a1] at h2
          simp only [if_true] at h2
          refine ⟨h1, ⟨x, by rw [h2]; exact getElem?_snoc_of a2, a2'⟩, ⟨e.1, by omega, by rw [h3, htot]; exact hg, hl⟩, ?_⟩
          have := (List.getElem?_eq_some_iff.mp a2).1
          intro i w hi hwl
          rw [List.getElem?_append] at hi
          split at hi
          · have := a4 i w hi hwl
            omega
          · have := (List.getElem?_eq_some_iff.mp hi).1
            simp at this
            omega
      · simp only [hl, if_false] at h1 h2 h3
        have hold : ∀ (i : Nat) (w : Word), (voc ++ [e.1])[i]? = some w → isLang w → voc[i]? = some w := by
          intro i w hi hwl
          rw [List.getElem?_append] at hi
          split at hi
          · exact hi
          · have := (List.getElem?_eq_some_iff.mp hi).1
            simp at this
            have h0 : i - voc.length = 0 := by omega
            rw [h0] at hi
            simp at hi
            exact absurd (hi ▸ hwl) hl
        rcases h.lang with ⟨a1, a2, a3, a4⟩ | ⟨a1, ⟨x, a2, a2'⟩, ⟨y, a3, a3', a3''⟩, a4⟩
        · left
          refine ⟨by rw [h1, a1], by rw [h2, a2], by rw [h3, a3], ?_⟩
          intro w hw' hwl
          rcases List.mem_append.mp hw' with h5 | h5
          · exact a4 w h5 hwl
          · simp at h5; exact hl (h5 ▸ hwl)
        · right
          refine ⟨by rw [h1, a1], ⟨x, by rw [h2]; exact getElem?_snoc_of a2, a2'⟩,
            ⟨y, by rw [h3]; exact a3, by rw [h3]; exact getElem?_snoc_of a3', a3''⟩, ?_⟩
          intro i w hi hwl
          rw [h2, h3]
          exact a4 i w (hold i w hi hwl) hwl
    have hids := ids_push h.ids (voc' := voc ++ [e.1]) (fun _ _ hx => getElem?_snoc_of hx) j e st.total
      (by rw [h.total]; exact hg) hj'
    have hle := h.le
    by_cases hi : isInternal e.1 = true
    · rw [if_pos hi]
      simp only [Outcome.bind]
      rw [pushId_ok _ _ _ hj']
      simp only [Outcome.map]
      have hlastv : (voc ++ [e.1] = [] ∧ e.1 = []) ∨ ∃ w, (voc ++ [e.1]).getLast? = some w ∧ (isInternal w = true → e.1 = w) ∧
          (isInternal w = false → isInternal e.1 = true) :=
        .inr ⟨e.1, by simp, fun _ => rfl, fun _ => hi⟩
      have hoi : st.outfile ++ RdfEscaping.escapeNB e.1 ++ ['\n'] = linesOf ((voc ++ [e.1]).filter isInternal) := by
        rw [List.filter_append, List.filter_cons_of_pos hi, List.filter_nil, linesOf_snoc, h.outInt]
      have hoe : st.outfileExternal = linesOf (((voc ++ [e.1]).filter fun w => !isInternal w).map shown) := by
        rw [List.filter_append, List.filter_cons_of_neg (by simp [hi]), List.filter_nil, List.append_nil, h.outExt]
      by_cases hl : e.1.head? = some '@'
      · rw [if_pos hl]
        refine ⟨_, voc ++ [e.1], rfl, ?_⟩
        exact ⟨by simp [h.total], by simp; omega, hoi, hoe, by simp [h.vecs], hids, hlastv, hsorted, hmem, hext,
          hlang _ (by simp [isLang, hl]) (by simp [isLang, hl]) (by simp [isLang, hl])⟩
      · rw [if_neg hl]
        refine ⟨_, voc ++ [e.1], rfl, ?_⟩
        exact ⟨by simp [h.total], by simp; omega, hoi, hoe, by simp [h.vecs], hids, hlastv, hsorted, hmem, hext,
          hlang _ (by simp [isLang, hl]) (by simp [isLang, hl]) (by simp [isLang, hl])⟩
    · rw [if_neg hi]
      have hstrip : stripExternal e.1 = .ok (shown e.1) ∧ isInternal (shown e.1) = true := by
        cases he : e.1 with
        | nil => exact absurd he (hS.nonempty _ hw)
        | cons c cs =>
          have h128 := hS.prefixes c cs (he ▸ hw)
          rw [he] at hi
          simp only [isInternal, decide_eq_true_eq] at hi
          simp only [stripExternal, shown]
          by_cases hc : c.toNat = 127
          · simp only [hc, if_true]; exact ⟨trivial, by simp [isInternal]⟩
          · have hc' : c.toNat = 128 := by omega
            simp only [hc', if_true]
            rw [if_neg (by decide), if_neg (by decide)]
            exact ⟨rfl, by simp [isInternal]⟩
      rw [hstrip.1]
      simp only [Outcome.bind, Outcome.map]
      rw [pushId_ok _ _ _ hj']
      simp only
      have hi' : isInternal e.1 = false := by simpa using hi
      have hlastv : (voc ++ [e.1] = [] ∧ shown e.1 = []) ∨ ∃ w, (voc ++ [e.1]).getLast? = some w ∧
          (isInternal w = true → shown e.1 = w) ∧ (isInternal w = false → isInternal (shown e.1) = true) :=
        .inr ⟨e.1, by simp, fun h => absurd h hi, fun _ => hstrip.2⟩
      have hoi : st.outfile = linesOf ((voc ++ [e.1]).filter isInternal) := by
        rw [List.filter_append, List.filter_cons_of_neg hi, List.filter_nil, List.append_nil, h.outInt]
      have hoe : st.outfileExternal ++ RdfEscaping.escapeNB (shown e.1) ++ ['\n'] =
          linesOf (((voc ++ [e.1]).filter fun w => !isInternal w).map shown) := by
        rw [List.filter_append, List.filter_cons_of_pos (by simp [hi']), List.filter_nil, List.map_append, List.map_cons, List.map_nil,
          linesOf_snoc, h.outExt]
      by_cases hl : e.1.head? = some '@'
      · rw [if_pos hl]
        refine ⟨_, voc ++ [e.1], rfl, ?_⟩
        exact ⟨by simp [h.total], by simp; omega, hoi, hoe, by simp [h.vecs], hids, hlastv, hsorted, hmem, hext,
          hlang _ (by simp [isLang, hl]) (by simp [isLang, hl]) (by simp [isLang, hl])⟩
      · rw [if_neg hl]
        refine ⟨_, voc ++ [e.1], rfl, ?_⟩
        exact ⟨by simp [h.total], by simp; omega, hoi, hoe, by simp [h.vecs], hids, hlastv, hsorted, hmem, hext,
          hlang _ (by simp [isLang, hl]) (by simp [isLang, hl]) (by simp [isLang, hl])⟩

theorem mergeAll_spec (hS : WordsOk S cmp) {n : Nat} (rest : List (Nat × Entry)) :
    ∀ (voc : List Word) (done : List (Nat × Entry)) (st : Merger), MergeInv cmp n voc done st →
      (∀ q ∈ done ++ rest, q.1 < n ∧ S q.2.1) → ((done ++ rest).Pairwise fun a b => ¬ cmp b.2.1 a.2.1 < 0) →
      (done ++ rest).length < 2 ^ 64 →
      ∃ st' voc', mergeAll st rest = .ok st' ∧ MergeInv cmp n voc' (done ++ rest) st' := by
  induction rest with
  | nil => intro voc done st h _ _ _; exact ⟨st, voc, rfl, by simpa using h⟩
  | cons q rest ih =>
    obtain ⟨j, e⟩ := q
    intro voc done st h hq hs hl
    have hvm : ∀ v ∈ voc, ∃ q ∈ done, q.2.1 = v := fun v hv => List.mem_map.mp ((h.mem v).mp hv)
    obtain ⟨hj, hw⟩ := hq (j, e) (by simp)
    obtain ⟨st', voc', h1, h2⟩ := mergeStep_spec hS h j e hj hw
      (fun v hv => by obtain ⟨q, hq', rfl⟩ := hvm v hv; exact (hq q (List.mem_append_left _ hq')).2)
      (fun v hv => by
        obtain ⟨q, hq', rfl⟩ := hvm v hv
        exact (List.pairwise_append.mp hs).2.2 q hq' (j, e) (by simp))
      (by simp at hl; omega)
    obtain ⟨st'', voc'', h3, h4⟩ := ih voc' (done ++ [(j, e)]) st' h2 (by simpa using hq) (by simpa using hs) (by simpa using hl)
    exact ⟨st'', voc'', by simp [mergeAll, h1, h3], by simpa using h4⟩

theorem mergeInv_init (n : Nat) : MergeInv cmp n [] [] (Merger.init n) := by
  refine ⟨rfl, by simp, rfl, rfl, by simp [Merger.init], ?_, .inl ⟨rfl, rfl⟩, .nil, by simp, rfl, .inl ⟨rfl, rfl, rfl, by simp⟩⟩
  intro i v hv
  have := List.mem_of_getElem? hv
  simp [Merger.init] at this
  rw [this.2]
  exact .nil

/-! ### Translating the ids -/

theorem idMap_get (v : List (Nat × Nat)) (hn : (v.map Prod.fst).Nodup) (k g : Nat) (h : (k, g) ∈ v) :
    (idMap v).get k = some g := by
  unfold idMap
  have key : ∀ (v : List (Nat × Nat)) (m : Map Nat), (v.map Prod.fst).Nodup →
      (k, g) ∈ v ∨ (k ∉ v.map Prod.fst ∧ m.get k = some g) →
      Map.get (v.foldl (fun m e => m.set e.1 e.2) m) k = some g := by
    intro v
    induction v with
    | nil => intro m _ h; simpa using h
    | cons e v ih =>
      intro m hn h
      rw [List.map_cons, List.nodup_cons] at hn
      rw [List.foldl_cons]
      apply ih _ hn.2
      rcases h with h | ⟨h1, h2⟩
      · rcases List.mem_cons.mp h with h | h
        · right
          subst h
          exact ⟨hn.1, by rw [get_set, if_pos rfl]⟩
        · exact .inl h
      · right
        simp only [List.map_cons, List.mem_cons, not_or] at h1
        exact ⟨h1.2, by rw [get_set, if_neg (fun h => h1.1 h.symm)]; exact h2⟩
  exact key v [] hn (.inl h)

/-- The relation between a partial vocabulary with its triples and the id vector written for it. -/
def VecOk (voc : List Word) (F : List Entry) (v : List (Nat × Nat)) : Prop :=
  List.Forall₂ (fun (e : Entry) (p : Nat × Nat) => p.1 = e.2 ∧ voc[p.2]? = some e.1) F v

theorem vecOk_get {voc : List Word} {F : List Entry} {v : List (Nat × Nat)} (h : VecOk voc F v) (hp : F.Pairwise fun a b => a.2 < b.2)
    (id : Nat) (w : Word) (hm : (w, id) ∈ F) : ∃ x, (idMap v).get id = some x ∧ voc[x]? = some w := by
  obtain ⟨i, hi, hf⟩ := List.mem_iff_getElem.mp hm
  have hi' : i < v.length := by rw [← h.length_eq]; exact hi
  have h1 := List.Forall₂.get h hi hi'
  simp only [List.get_eq_getElem] at h1
  rw [hf] at h1
  have hv : v.map Prod.fst = F.map Prod.snd := by
    apply List.ext_getElem (by simp [h.length_eq])
    intro k h2 h3
    simp only [List.length_map] at h2 h3
    simpa using (List.Forall₂.get h h3 h2).1
  have hn : (v.map Prod.fst).Nodup := by
    rw [hv]
    exact (List.pairwise_map.mpr hp).imp fun h => Nat.ne_of_lt h
  exact ⟨v[i].2, idMap_get v hn id _ (by
    have h2 : (id, v[i].2) = v[i] := Prod.ext h1.1.symm rfl
    rw [h2]; exact List.getElem_mem hi'), h1.2⟩

theorem convert_spec {voc : List Word} {ps : List (List Nat × List Ids)} {xs : List (List Entry × List Words)}
    (h1 : List.Forall₂ (fun p (x : List Entry × List Words) => PartialOk cmp x.1 p.2 x.2) ps xs) :
    ∀ vecs, List.Forall₂ (fun (x : List Entry × List Words) v => VecOk voc x.1 v) xs vecs →
    ∃ data, convert vecs (ps.map fun p => p.2.length) (ps.map fun p => p.2).flatten = .ok data ∧
      List.Forall₂ (Denote voc) data (xs.map Prod.snd).flatten := by
  induction h1 with
  | nil => intro vecs h; cases h; exact ⟨[], rfl, .nil⟩
  | @cons p x ps xs h1 _ ih =>
    intro vecs h
    cases h with
    | @cons _ v _ vs h2 h3 =>
      obtain ⟨data, h4, h5⟩ := ih vs h3
      obtain ⟨a, h6, h7⟩ := mapTriples_spec (idMap v) p.2 x.2 (fun id w => (w, id) ∈ x.1) (fun id w => voc[id]? = some w)
        (vecOk_get h2 h1.pids) h1.has
      refine ⟨a ++ data, ?_, ?_⟩
      · simp only [List.map_cons, convert, List.flatten_cons]
        rw [if_pos (by simp), List.take_left', List.drop_left', h6]
        · simp only [Outcome.bind, h4, Outcome.map]
        · rfl
        · rfl
      · simp only [List.map_cons, List.flatten_cons]
        exact forall₂_append' h7 h5

/-! ### The order of the merged words and the files -/

theorem merged_perm {fs : List (List Entry)} {out : List (Nat × Entry)} (h : Merged cmp fs out) : (out.map Prod.snd).Perm fs.flatten := by
  induction h with
  | @done fs hall =>
    have : fs.flatten = [] := by
      rw [List.flatten_eq_nil_iff]; exact hall
    rw [this]; exact .nil
  | @pop fs out i e r hi _ _ ih =>
    rw [List.map_cons]
    refine (ih.cons e).trans ?_
    obtain ⟨hil, hie⟩ := List.getElem?_eq_some_iff.mp hi
    have h1 : fs = fs.take i ++ (e :: r) :: fs.drop (i + 1) := by
      rw [← hie, List.getElem_cons_drop, List.take_append_drop]
    have h2 : fs.set i r = fs.take i ++ r :: fs.drop (i + 1) := List.set_eq_take_append_cons_drop .. |>.trans (by rw [if_pos hil])
    rw [h2]
    conv => rhs; rw [h1]
    simp only [List.flatten_append, List.flatten_cons, List.cons_append]
    exact List.perm_middle.symm

theorem merged_exists (cmp : Word → Word → Int) (hS : WordsOk S cmp) : ∀ (n : Nat) (fs : List (List Entry)), fs.flatten.length = n →
    (∀ f ∈ fs, ∀ e ∈ f, S e.1) → ∃ out, Merged cmp fs out := by
  intro n
  induction n with
  | zero =>
    intro fs h _
    exact ⟨[], .done (List.flatten_eq_nil_iff.mp (List.length_eq_zero_iff.mp h))⟩
  | succ n ih =>
    intro fs h hw
    -- a minimal head
    have hmin : ∀ (l : List (List Entry)), (∀ f ∈ l, ∀ e ∈ f, S e.1) → l.flatten ≠ [] →
        ∃ (i : Nat) (e : Entry) (r : List Entry), l[i]? = some (e :: r) ∧ ∀ f ∈ l, ∀ e' r', f = e' :: r' → ¬ cmp e'.1 e.1 < 0 := by
      intro l
      induction l with
      | nil => intro _ h; exact absurd rfl h
      | cons f l ihl =>
        intro hw' hne
        cases f with
        | nil =>
          obtain ⟨i, e, r, h1, h2⟩ := ihl (fun f hf => hw' f (List.mem_cons_of_mem _ hf)) (by simpa using hne)
          refine ⟨i + 1, e, r, by simpa using h1, fun f hf e' r' hfe => ?_⟩
          rcases List.mem_cons.mp hf with rfl | hf
          · simp at hfe
          · exact h2 f hf e' r' hfe
        | cons a t =>
          have ha : S a.1 := hw' _ (List.mem_cons_self ..) a (List.mem_cons_self ..)
          have haa : ¬ cmp a.1 a.1 < 0 := by rw [(hS.order.eq_zero _ _ ha ha).mpr rfl]; decide
          by_cases hl : l.flatten = []
          · refine ⟨0, a, t, rfl, fun f hf e' r' hfe => ?_⟩
            rcases List.mem_cons.mp hf with rfl | hf
            · simp at hfe; rw [← hfe.1]; exact haa
            · have := List.flatten_eq_nil_iff.mp hl f hf
              rw [this] at hfe; simp at hfe
          · obtain ⟨i, e, r, h1, h2⟩ := ihl (fun f hf => hw' f (List.mem_cons_of_mem _ hf)) hl
            have he : S e.1 := hw' _ (List.mem_cons_of_mem _ (List.mem_of_getElem? h1)) e (List.mem_cons_self ..)
            by_cases hc : cmp a.1 e.1 < 0
            · refine ⟨0, a, t, rfl, fun f hf e' r' hfe => ?_⟩
              rcases List.mem_cons.mp hf with rfl | hf
              · simp at hfe; rw [← hfe.1]; exact haa
              · have he' : S e'.1 := hw' f (List.mem_cons_of_mem _ hf) e' (by rw [hfe]; exact List.mem_cons_self ..)
                exact hS.le_trans ha he he' (hS.not_lt ha he hc) (h2 f hf e' r' hfe)
            · refine ⟨i + 1, e, r, by simpa using h1, fun f hf e' r' hfe => ?_⟩
              rcases List.mem_cons.mp hf with rfl | hf
              · simp at hfe; rw [← hfe.1]; exact hc
              · exact h2 f hf e' r' hfe
    obtain ⟨i, e, r, h1, h2⟩ := hmin fs hw (fun h0 => by rw [h0] at h; simp at h)
    have hset : ∀ f ∈ fs.set i r, f = r ∨ f ∈ fs := fun f hf => by
      rcases List.mem_or_eq_of_mem_set hf with h | h
      · exact .inr h
      · exact .inl h
    obtain ⟨hil, hie⟩ := List.getElem?_eq_some_iff.mp h1
    have hlen : (fs.set i r).flatten.length = n := by
      have g1 : fs = fs.take i ++ (e :: r) :: fs.drop (i + 1) := by
        rw [← hie, List.getElem_cons_drop, List.take_append_drop]
      have g2 : fs.set i r = fs.take i ++ r :: fs.drop (i + 1) := List.set_eq_take_append_cons_drop .. |>.trans (by rw [if_pos hil])
      rw [g2]
      rw [g1] at h
      simp only [List.flatten_append, List.flatten_cons, List.length_append, List.length_cons] at h ⊢
      omega
    obtain ⟨out, ho⟩ := ih (fs.set i r) hlen (fun f hf e' he' => by
      rcases hset f hf with rfl | h
      · exact hw _ (List.mem_of_getElem? h1) e' (List.mem_cons_of_mem _ he')
      · exact hw f h e' he')
    exact ⟨(i, e) :: out, .pop _ _ _ h1 h2 ho⟩

/-- Every list can be sorted. -/
theorem sort_exists (hS : WordsOk S cmp) (l : List Entry) (hw : ∀ e ∈ l, S e.1) :
    ∃ q : List Entry, q.Perm l ∧ q.Pairwise fun a b => ¬ cmp b.1 a.1 < 0 := by
  have hins : ∀ (q : List Entry) (e : Entry), S e.1 → (∀ x ∈ q, S x.1) → (q.Pairwise fun a b => ¬ cmp b.1 a.1 < 0) →
      ∃ q' : List Entry, q'.Perm (e :: q) ∧ q'.Pairwise fun a b => ¬ cmp b.1 a.1 < 0 := by
    intro q
    induction q with
    | nil => intro e _ _ _; exact ⟨[e], .refl _, by simp⟩
    | cons a q ih =>
      intro e he hq hs
      have ha := hq a (List.mem_cons_self ..)
      rw [List.pairwise_cons] at hs
      by_cases hc : cmp a.1 e.1 < 0
      · obtain ⟨q', h1, h2⟩ := ih e he (fun x hx => hq x (List.mem_cons_of_mem _ hx)) hs.2
        refine ⟨a :: q', (h1.cons a).trans (.swap ..), List.pairwise_cons.mpr ⟨fun b hb => ?_, h2⟩⟩
        rcases List.mem_cons.mp (h1.mem_iff.mp hb) with rfl | hb
        · exact hS.not_lt ha he hc
        · exact hs.1 b hb
      · refine ⟨e :: a :: q, .refl _, List.pairwise_cons.mpr ⟨fun b hb => ?_, List.pairwise_cons.mpr hs⟩⟩
        rcases List.mem_cons.mp hb with rfl | hb
        · exact hc
        · exact hS.le_trans he ha (hq b (List.mem_cons_of_mem _ hb)) hc (hs.1 b hb)
  induction l with
  | nil => exact ⟨[], .nil, .nil⟩
  | cons e l ih =>
    obtain ⟨q, h1, h2⟩ := ih fun x hx => hw x (List.mem_cons_of_mem _ hx)
    obtain ⟨q', h3, h4⟩ := hins q e (hw e (List.mem_cons_self ..))
      (fun x hx => hw x (List.mem_cons_of_mem _ (h1.mem_iff.mp hx))) h2
    exact ⟨q', h3.trans (h1.cons e), h4⟩

/-! ### All partial vocabularies -/

/-- A written partial vocabulary, the words in it and the triples. -/
def PartOk (cmp : Word → Word → Int) (p : List Nat × List Ids) (x : List Entry × List Words) : Prop :=
  PartialOk cmp x.1 p.2 x.2 ∧ readVocab p.1.length p.1 = x.1

theorem partials_spec (hS : WordsOk S cmp) {maxT : Nat} (hT : 400 * maxT < 2 ^ 64) {parts : List (List (Fin 4 × Item))}
    {qs : List (List Entry × List Ids)} (h : List.Forall₂ (SortOf cmp maxT) parts qs) (hp : ∀ part ∈ parts, 1 + 6 * part.length ≤ 100 * maxT)
    (hl : S languagePredicate) (hw : ∀ part ∈ parts, ∀ w ∈ wordsOf (storedOf part), S w) :
    ∃ ps xs, partials qs = .ok ps ∧ List.Forall₂ (PartOk cmp) ps xs ∧ xs.map Prod.snd = parts.map storedOf := by
  induction h with
  | nil => exact ⟨[], [], rfl, .nil, rfl⟩
  | @cons part q parts qs h1 _ ih =>
    obtain ⟨ps, xs, h2, h3, h4⟩ := ih (fun p hp' => hp p (List.mem_cons_of_mem _ hp')) (fun p hp' => hw p (List.mem_cons_of_mem _ hp'))
    obtain ⟨a1, a2, a3⟩ := h1
    have hm := maps_spec maxT hT part (hp part (List.mem_cons_self ..))
    rw [← a3] at hm
    obtain ⟨F, ids', b1, b2, b3⟩ := partial_spec hS hm (fun e he => by
      rcases hm.words e he with h | h
      · rw [h]; exact hl
      · exact hw part (List.mem_cons_self ..) _ h) a1 a2
    refine ⟨(encodeVocab F, ids') :: ps, (F, storedOf part) :: xs, ?_, .cons ⟨b2, b3⟩ h3, by simp [h4]⟩
    simp [partials, b1, h2]

theorem sortOf_exists (hS : WordsOk S cmp) {maxT : Nat} (hT : 400 * maxT < 2 ^ 64) (parts : List (List (Fin 4 × Item)))
    (hp : ∀ part ∈ parts, 1 + 6 * part.length ≤ 100 * maxT)
    (hl : S languagePredicate) (hw : ∀ part ∈ parts, ∀ w ∈ wordsOf (storedOf part), S w) :
    ∃ qs, List.Forall₂ (SortOf cmp maxT) parts qs := by
  induction parts with
  | nil => exact ⟨[], .nil⟩
  | cons part parts ih =>
    obtain ⟨qs, h⟩ := ih (fun p hp' => hp p (List.mem_cons_of_mem _ hp')) (fun p hp' => hw p (List.mem_cons_of_mem _ hp'))
    have hm := maps_spec maxT hT part (hp part (List.mem_cons_self ..))
    obtain ⟨q, h1, h2⟩ := sort_exists hS (allEntries (processAll maxT (initMaps maxT) part).1) (fun e he => by
      rcases hm.words e he with h | h
      · rw [h]; exact hl
      · exact hw part (List.mem_cons_self ..) _ h)
    exact ⟨(q, (processAll maxT (initMaps maxT) part).2) :: qs, .cons ⟨h1, h2, rfl⟩ h⟩

/-- The external words of a partial vocabulary are distinct. -/
theorem PartialOk.ext_nodup (hS : WordsOk S cmp) {F : List Entry} {ids : List Ids} {ts : List Words} (h : PartialOk cmp F ids ts)
    (hw : ∀ e ∈ F, S e.1) (w : Word) (he : isInternal w = false) :
    (F.map Prod.fst).count w = if w ∈ wordsOf ts then 1 else 0 := by
  have hl : languagePredicate ∈ F.map Prod.fst := (h.words _).mpr (.inl rfl)
  have hli : isInternal languagePredicate = true := by decide
  cases hF : F with
  | nil => rw [hF] at hl; simp at hl
  | cons e0 F' =>
    obtain ⟨el, hel, hel'⟩ := List.mem_map.mp hl
    have h0 : isInternal e0.1 = true := by
      by_contra hc
      have hc' : isInternal e0.1 = false := by simpa using hc
      have h1 := hS.int_lt_ext (hw el hel) (hw e0 (by rw [hF]; exact List.mem_cons_self ..)) (hel' ▸ hli) hc'
      have h2 := h.sorted
      rw [hF] at h2 hel
      rcases List.mem_cons.mp hel with h3 | h3
      · rw [h3] at hel'; rw [hel', hli] at hc'; exact absurd hc' (by decide)
      · exact (List.pairwise_cons.mp h2).1 el h3 h1
    have hne : e0.1 ≠ w := fun hx => by rw [hx, he] at h0; exact absurd h0 (by decide)
    have hnd : (F'.map Prod.fst).Nodup := by
      have hs := h.strict e0 F' hF
      rw [List.Nodup, List.pairwise_map]
      refine hs.imp_of_mem fun {a b} ha hb hab => ?_
      exact hS.ne (hw a (by rw [hF]; exact List.mem_cons_of_mem _ ha)) (hw b (by rw [hF]; exact List.mem_cons_of_mem _ hb)) hab
    rw [List.map_cons, List.count_cons_of_ne hne]
    have hmem : w ∈ F'.map Prod.fst ↔ w ∈ wordsOf ts := by
      have h1 := h.words w
      rw [hF, List.map_cons, List.mem_cons] at h1
      constructor
      · intro h2
        rcases h1.mp (.inr h2) with h3 | h3
        · rw [h3, hli] at he; exact absurd he (by decide)
        · exact h3
      · intro h2
        rcases h1.mpr (.inr h2) with h3 | h3
        · exact absurd h3.symm hne
        · exact h3
    by_cases hx : w ∈ wordsOf ts
    · rw [if_pos hx, hnd.count, if_pos (hmem.mpr hx)]
    · rw [if_neg hx, List.count_eq_zero_of_not_mem (fun h2 => hx (hmem.mp h2))]

theorem PartialOk.length_le (hS : WordsOk S cmp) {F : List Entry} {ids : List Ids} {ts : List Words} (h : PartialOk cmp F ids ts)
    (hw : ∀ e ∈ F, S e.1) : F.length ≤ 2 + 3 * ts.length := by
  cases hF : F with
  | nil => simp
  | cons e0 F' =>
    have hnd : (F'.map Prod.fst).Nodup := by
      have hs := h.strict e0 F' hF
      rw [List.Nodup, List.pairwise_map]
      refine hs.imp_of_mem fun {a b} ha hb hab => ?_
      exact hS.ne (hw a (by rw [hF]; exact List.mem_cons_of_mem _ ha)) (hw b (by rw [hF]; exact List.mem_cons_of_mem _ hb)) hab
    have hsub : F'.map Prod.fst ⊆ languagePredicate :: wordsOf ts := by
      intro w hw'
      have := (h.words w).mp (by rw [hF, List.map_cons]; exact List.mem_cons_of_mem _ hw')
      simpa using this
    have hlen := (List.subperm_of_subset hnd hsub).length_le
    have h3 : (wordsOf ts).length = 3 * ts.length := by
      unfold wordsOf
      clear hsub hlen h
      induction ts with
      | nil => rfl
      | cons t ts ih => simp only [List.flatMap_cons, List.length_append, List.length_cons, List.length_nil, ih]; omega
    simp only [List.length_map, List.length_cons, h3] at hlen ⊢
    omega

/-! ### Internal words come first -/

theorem split_filter {α : Type} (p : α → Bool) (l : List α) (h : l.Pairwise fun a b => p b = true → p a = true) :
    l = l.filter p ++ l.filter fun x => !p x := by
  induction l with
  | nil => rfl
  | cons a l ih =>
    rw [List.pairwise_cons] at h
    by_cases ha : p a = true
    · rw [List.filter_cons_of_pos ha, List.filter_cons_of_neg (by simp [ha]), List.cons_append, ← ih h.2]
    · have hno : ∀ b ∈ l, ¬ p b = true := fun b hb hp => ha (h.1 b hb hp)
      rw [List.filter_cons_of_neg ha, List.filter_eq_nil_iff.mpr hno, List.nil_append, List.filter_eq_self.mpr]
      intro x hx
      rcases List.mem_cons.mp hx with rfl | hx
      · simpa using ha
      · simpa using hno x hx

end Verif.VocabularyMerger
