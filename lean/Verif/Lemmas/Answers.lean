import Verif.Model.Answers
import Verif.Spec.TriplePattern
import Verif.Props.C58_VocabularyLookup
import Mathlib.Data.List.Nodup
import Mathlib.Data.List.Perm.Subperm
import Mathlib.Tactic.Common
/-
Solutions in terms of ids and in terms of words.
-/
namespace Verif.Answers
open Verif.Collation Verif.VocabularyMerger VocabularySpec
open Verif.ExternalVocabulary (Word)
open PlannerSpec (Sol)
open TermSpec
open TriplePatternSpec

/-- What is known about a loaded vocabulary with the words `voc`. -/
structure Knows (c : Collator) (fuel : Nat) (v : Collation.Vocab) (l : Loaded) (voc : List Word) : Prop where
  found : ∀ i w, voc[i]? = some w → getId (triple c) fuel v (shown w) = .ok (i, true)
  shows : ∀ i w, voc[i]? = some w → idToOptionalString l i = .ok (some (shown w))
  beyond : ∀ i, voc.length ≤ i → idToOptionalString l i = if i = 2 ^ 64 - 3 then .ok none else .throw
  absent : ∀ u, shouldBeExternalized v u = false → (∀ w ∈ voc, shown w ≠ u) → ∃ i, getId (triple c) fuel v u = .ok (i, false)
  bound : ∀ u i, getId (triple c) fuel v u = .ok (i, true) → i < voc.length

/-- The lookup of the constant is defined: it is kept in memory or it occurs. -/
def Searchable (v : Collation.Vocab) (voc : List Word) (q : String) : Prop :=
  shouldBeExternalized v q.toList = false ∨ ∃ w ∈ voc, shown w = q.toList

section
variable {c : Collator} {fuel : Nat} {v : Collation.Vocab} {l : Loaded} {voc : List Word} (hk : Knows c fuel v l voc)
include hk

theorem showId_iff (i : Nat) (u : Word) : showId l i = some u ↔ ∃ w, voc[i]? = some w ∧ shown w = u := by
  unfold showId
  rcases Nat.lt_or_ge i voc.length with h | h
  · rw [hk.shows i _ (List.getElem?_eq_getElem h)]
    simp [List.getElem?_eq_getElem h]
  · rw [hk.beyond i h, List.getElem?_eq_none h]
    split
    · rename_i w hw
      split at hw
      · cases hw; simp
      · cases hw
    · simp

theorem index_unique {i j : Nat} {w w' : Word} (h : voc[i]? = some w) (h' : voc[j]? = some w') (he : shown w = shown w') : i = j := by
  have h1 := hk.found i w h
  have h2 := hk.found j w' h'
  rw [he, h2] at h1
  injection h1 with h1
  injection h1 with h1
  exact h1.symm

theorem lookup_iff {q : String} (hq : Searchable v voc q) (i : Nat) :
    lookup c fuel v q = some i ↔ ∃ w, voc[i]? = some w ∧ shown w = q.toList := by
  unfold lookup
  by_cases hw : ∃ w ∈ voc, shown w = q.toList
  · obtain ⟨w, hw, he⟩ := hw
    obtain ⟨j, hj⟩ := List.mem_iff_getElem?.mp hw
    rw [← he, hk.found j w hj]
    constructor
    · intro h
      injection h with h
      subst h
      exact ⟨w, hj, rfl⟩
    · rintro ⟨w', h1, h2⟩
      rw [index_unique hk h1 hj h2]
  · rcases hq with hq | hq
    · obtain ⟨j, hj⟩ := hk.absent q.toList hq (fun w h1 h2 => hw ⟨w, h1, h2⟩)
      rw [hj]
      constructor
      · intro h; cases h
      · rintro ⟨w, h1, h2⟩
        exact absurd ⟨w, List.mem_of_getElem? h1, h2⟩ hw
    · exact absurd hq hw

/-- A term stands for an id exactly if it means the word of the id. -/
theorem denotes_iff {isVar : String → Bool} {term : String} (hq : isVar term = false → Searchable v voc term) {sol : Sol} {i : Nat}
    {w : Word} (h : voc[i]? = some w) :
    Denotes (lookup c fuel v) isVar sol term i ↔ Means isVar (showSol l sol) term (shown w) := by
  unfold Denotes Means
  cases hv : isVar term with
  | true =>
    rw [if_pos rfl, if_pos rfl]
    unfold showSol
    constructor
    · intro h1
      rw [h1]
      exact (showId_iff hk i _).mpr ⟨w, h, rfl⟩
    · intro h1
      obtain ⟨j, hj, h2⟩ := Option.bind_eq_some_iff.mp h1
      obtain ⟨w', h3, h4⟩ := (showId_iff hk j _).mp h2
      rw [hj, index_unique hk h3 h h4]
  | false =>
    rw [if_neg (by simp), if_neg (by simp), lookup_iff hk (hq hv)]
    constructor
    · rintro ⟨w', h1, h2⟩
      rw [h] at h1
      cases h1
      exact h2.symm
    · intro h1
      exact ⟨w, h, h1.symm⟩

end

/-- The constants of the patterns can be looked up. -/
def ConstantsOk (isVar : String → Bool) (v : Collation.Vocab) (voc : List Word) (ps : List (String × String × String)) : Prop :=
  ∀ q ∈ ps, ∀ x, x = q.1 ∨ x = q.2.1 ∨ x = q.2.2 → isVar x = false → Searchable v voc x

section
variable {c : Collator} {fuel : Nat} {v : Collation.Vocab} {l : Loaded} {voc : List Word} (hk : Knows c fuel v l voc)
  {isVar : String → Bool} {ps : List (String × String × String)} (hps : ConstantsOk isVar v voc ps) {data : List Ids} {D : List Words}
  (hD : List.Forall₂ (Denote voc) data D)
include hk hps hD

theorem bgp_to {sol : Sol} (h : Bgp (lookup c fuel v) isVar ps (data.map fun x => ⟨x.1, x.2.1, x.2.2⟩) sol) :
    TermBgp isVar ps (D.map shownTriple) (showSol l sol) := by
  obtain ⟨h1, h2⟩ := h
  refine ⟨fun q hq => ?_, fun x hx => ?_⟩
  · obtain ⟨t, ht, a1, a2, a3⟩ := h1 q hq
    obtain ⟨x, hx, rfl⟩ := List.mem_map.mp ht
    obtain ⟨i, hi⟩ := List.mem_iff_getElem?.mp hx
    have hl := hD.length_eq
    have hil := (List.getElem?_eq_some_iff.mp hi).1
    have hd : Denote voc x D[i] := by
      have := (List.forall₂_iff_get.mp hD).2 i hil (by omega)
      simpa [(List.getElem?_eq_some_iff.mp hi).2] using this
    have hc := hps q hq
    exact ⟨shownTriple D[i], List.mem_map_of_mem (List.getElem_mem _),
      (denotes_iff hk (hc _ (.inl rfl)) hd.1).mp a1, (denotes_iff hk (hc _ (.inr (.inl rfl))) hd.2.1).mp a2,
      (denotes_iff hk (hc _ (.inr (.inr rfl))) hd.2.2).mp a3⟩
  · unfold showSol
    rw [h2 x hx]
    rfl

omit hk hps in
/-- The values of a solution are ids of words. -/
theorem bgp_values {sol : Sol} (h : Bgp (lookup c fuel v) isVar ps (data.map fun x => ⟨x.1, x.2.1, x.2.2⟩) sol) {x : String} {i : Nat}
    (hx : sol x = some i) : ∃ w, voc[i]? = some w := by
  obtain ⟨h1, h2⟩ := h
  by_cases hv : isVar x = true ∧ ∃ q ∈ ps, x = q.1 ∨ x = q.2.1 ∨ x = q.2.2
  · obtain ⟨hv, q, hq, he⟩ := hv
    obtain ⟨t, ht, a1, a2, a3⟩ := h1 q hq
    obtain ⟨y, hy, rfl⟩ := List.mem_map.mp ht
    obtain ⟨k, hi⟩ := List.mem_iff_getElem?.mp hy
    have hl := hD.length_eq
    have hil := (List.getElem?_eq_some_iff.mp hi).1
    have hd : Denote voc y D[k] := by
      have := (List.forall₂_iff_get.mp hD).2 k hil (by omega)
      simpa [(List.getElem?_eq_some_iff.mp hi).2] using this
    unfold Denotes at a1 a2 a3
    rcases he with he | he | he
    · rw [← he, if_pos hv, hx] at a1
      cases a1
      exact ⟨_, hd.1⟩
    · rw [← he, if_pos hv, hx] at a2
      cases a2
      exact ⟨_, hd.2.1⟩
    · rw [← he, if_pos hv, hx] at a3
      cases a3
      exact ⟨_, hd.2.2⟩
  · rw [h2 x hv] at hx
    cases hx

omit hps in
theorem bgp_injective {sol sol' : Sol} (h : Bgp (lookup c fuel v) isVar ps (data.map fun x => ⟨x.1, x.2.1, x.2.2⟩) sol)
    (h' : Bgp (lookup c fuel v) isVar ps (data.map fun x => ⟨x.1, x.2.1, x.2.2⟩) sol') (he : showSol l sol = showSol l sol') :
    sol = sol' := by
  funext x
  have hx := congrFun he x
  unfold showSol at hx
  have key : ∀ (s : Sol), Bgp (lookup c fuel v) isVar ps (data.map fun x => ⟨x.1, x.2.1, x.2.2⟩) s → ∀ i, s x = some i →
      ∃ w, voc[i]? = some w ∧ (s x).bind (showId l) = some (shown w) := by
    intro s hs i hi
    obtain ⟨w, hw⟩ := bgp_values hD hs hi
    refine ⟨w, hw, ?_⟩
    rw [hi]
    exact (showId_iff hk i _).mpr ⟨w, hw, rfl⟩
  cases hs : sol x with
  | none =>
    cases hs' : sol' x with
    | none => rfl
    | some j =>
      obtain ⟨w, _, h1⟩ := key sol' h' j hs'
      rw [← hx, hs] at h1
      cases h1
  | some i =>
    obtain ⟨w, hw, h1⟩ := key sol h i hs
    cases hs' : sol' x with
    | none =>
      rw [hx, hs'] at h1
      cases h1
    | some j =>
      obtain ⟨w', hw', h1'⟩ := key sol' h' j hs'
      rw [hx, h1'] at h1
      injection h1 with h1
      rw [index_unique hk hw hw' h1.symm]

theorem bgp_from {tsol : TermSol} (h : TermBgp isVar ps (D.map shownTriple) tsol) :
    ∃ sol, Bgp (lookup c fuel v) isVar ps (data.map fun x => ⟨x.1, x.2.1, x.2.2⟩) sol ∧ showSol l sol = tsol := by
  obtain ⟨h1, h2⟩ := h
  -- the triple for a pattern, with its ids
  have htri : ∀ q ∈ ps, ∃ t ∈ data, ∃ d, Denote voc t d ∧ Means isVar tsol q.1 (shown d.1) ∧ Means isVar tsol q.2.1 (shown d.2.1) ∧
      Means isVar tsol q.2.2 (shown d.2.2) := by
    intro q hq
    obtain ⟨t, ht, a1, a2, a3⟩ := h1 q hq
    obtain ⟨d, hd, rfl⟩ := List.mem_map.mp ht
    obtain ⟨k, hi⟩ := List.mem_iff_getElem?.mp hd
    have hl := hD.length_eq
    have hil := (List.getElem?_eq_some_iff.mp hi).1
    have hde : Denote voc (data[k]'(by omega)) d := by
      have := (List.forall₂_iff_get.mp hD).2 k (by omega) hil
      simpa [(List.getElem?_eq_some_iff.mp hi).2] using this
    exact ⟨_, List.getElem_mem _, d, hde, a1, a2, a3⟩
  have hval : ∀ x u, tsol x = some u → ∃ (i : Nat) (w : Word), voc[i]? = some w ∧ shown w = u := by
    intro x u hx
    by_cases hv : isVar x = true ∧ ∃ q ∈ ps, x = q.1 ∨ x = q.2.1 ∨ x = q.2.2
    · obtain ⟨hv, q, hq, he⟩ := hv
      obtain ⟨t, _, d, hd, a1, a2, a3⟩ := htri q hq
      unfold Means at a1 a2 a3
      rcases he with he | he | he
      · rw [← he, if_pos hv, hx] at a1
        cases a1
        exact ⟨_, _, hd.1, rfl⟩
      · rw [← he, if_pos hv, hx] at a2
        cases a2
        exact ⟨_, _, hd.2.1, rfl⟩
      · rw [← he, if_pos hv, hx] at a3
        cases a3
        exact ⟨_, _, hd.2.2, rfl⟩
    · rw [h2 x hv] at hx
      cases hx
  let sol : Sol := fun x => (tsol x).bind fun u => match getId (triple c) fuel v u with
    | .ok (i, true) => some i
    | _ => none
  have hsol : ∀ x u (i : Nat) (w : Word), tsol x = some u → voc[i]? = some w → shown w = u → sol x = some i := by
    intro x u i w hx hi hw
    show (tsol x).bind _ = _
    rw [hx, ← hw]
    show (match getId (triple c) fuel v (shown w) with
      | .ok (i, true) => some i
      | _ => none) = some i
    rw [hk.found i w hi]
  have hshow : showSol l sol = tsol := by
    funext x
    unfold showSol
    cases hx : tsol x with
    | none =>
      have : sol x = none := by show (tsol x).bind _ = _; rw [hx]; rfl
      rw [this]; rfl
    | some u =>
      obtain ⟨i, w, hi, hw⟩ := hval x u hx
      rw [hsol x u i w hx hi hw]
      exact (showId_iff hk i _).mpr ⟨w, hi, hw⟩
  refine ⟨sol, ⟨fun q hq => ?_, fun x hx => ?_⟩, hshow⟩
  · obtain ⟨t, ht, d, hd, a1, a2, a3⟩ := htri q hq
    have hc := hps q hq
    rw [← hshow] at a1 a2 a3
    exact ⟨_, List.mem_map_of_mem ht, (denotes_iff hk (hc _ (.inl rfl)) hd.1).mpr a1,
      (denotes_iff hk (hc _ (.inr (.inl rfl))) hd.2.1).mpr a2, (denotes_iff hk (hc _ (.inr (.inr rfl))) hd.2.2).mpr a3⟩
  · show (tsol x).bind _ = _
    rw [h2 x hx]
    rfl

end

/-! ### The vocabulary of an index -/

theorem getId_bound {c : Collator} {fuel : Nat} {v : Collation.Vocab} {u : Word} {i : Nat} (hs : v.words.length + v.ext.size < 2 ^ 64)
    (h : getId (triple c) fuel v u = .ok (i, true)) : i < v.words.length + v.ext.size := by
  unfold getId at h
  split at h
  · cases h1 : Filter.lowerBound ((triple c).less .total) v.words u with
    | ok j =>
      rw [h1] at h
      simp only [Outcome.bind] at h
      split at h
      · rename_i hj
        unfold Outcome.read at h
        rw [List.getElem?_eq_getElem hj] at h
        simp only [Outcome.map] at h
        injection h with h
        injection h with h
        omega
      · cases h
    | throw => rw [h1] at h; cases h
    | ub => rw [h1] at h; cases h
    | diverge => rw [h1] at h; cases h
  · unfold ExternalVocabulary.getId at h
    cases h1 : ExternalVocabulary.binarySearch fuel (fun a b => (triple c).compare a b .total) v.ext u with
    | ok j =>
      rw [h1] at h
      simp only [Outcome.bind] at h
      split at h
      · rename_i hj
        cases h2 : ExternalVocabulary.get v.ext j with
        | ok w =>
          rw [h2] at h
          simp only [Outcome.map] at h
          injection h with h
          injection h with h
          rw [Nat.mod_eq_of_lt (by omega)] at h
          omega
        | throw => rw [h2] at h; cases h
        | ub => rw [h2] at h; cases h
        | diverge => rw [h2] at h; cases h
      · cases h
    | throw => rw [h1] at h; cases h
    | ub => rw [h1] at h; cases h
    | diverge => rw [h1] at h; cases h

theorem shown_internal {w : Word} (h : isInternal w = true) : shown w = w := by
  cases w with
  | nil => rfl
  | cons x xs =>
    simp only [isInternal, decide_eq_true_eq] at h
    rw [shown, if_neg (by omega), if_neg (by omega)]

open Verif.C58 in
/-- The vocabulary of an index built as in C31. -/
theorem knows (c : Collator) (N : Word → Prop) (hc : c.Laws N) (parts : List (List (Fin 4 × Item))) (r : Result)
    (voc : List Word) (hcorrect : Correct (order c) parts r voc) (hfits : ExternalVocabulary.Fits (voc.map shown))
    (hvoc : ∀ w ∈ voc, Stored N w ∧ CollationSpec.Closed (shown w) ∧ N (CollationSpec.content (shown w)))
    (hmark : ∀ a b, c.key .identical (Char.ofNat 128 :: a) < c.key .identical (Char.ofNat 128 :: b) →
      c.key .identical ('<' :: a) < c.key .identical ('<' :: b))
    (hdup : ∀ w, External w → (parts.filter fun part => decide (w ∈ wordsOf (storedOf part))).length ≤ 1) :
    ∃ l, load r = .ok l ∧ ∀ (prefixes langs : List Word) (fuel : Nat),
      (∀ w ∈ voc, shouldBeExternalized (vocabOf l prefixes langs) (shown w) = !isInternal w) → voc.length + 1 < fuel →
      Knows c fuel (vocabOf l prefixes langs) l voc := by
  obtain ⟨l, h1, h2, h3, h4⟩ := hcorrect.loads hfits
  refine ⟨l, h1, fun prefixes langs fuel htest hfuel => ?_⟩
  have hlen : voc.length < 2 ^ 61 := by
    unfold ExternalVocabulary.Fits at hfits; simp only [List.length_map] at hfits; omega
  have hsum : (vocabOf l prefixes langs).words.length + (vocabOf l prefixes langs).ext.size = voc.length := by
    have hsplit := congrArg List.length hcorrect.split
    rw [List.length_append] at hsplit
    have hf2 : ExternalVocabulary.Fits ((voc.filter fun w => !isInternal w).map shown) := by
      have h0 := congrArg (fun l => (l.map shown).flatten.length) hcorrect.split
      simp only [List.map_append, List.flatten_append, List.length_append] at h0
      unfold ExternalVocabulary.Fits at hfits ⊢
      simp only [List.length_map] at hfits ⊢
      omega
    rw [ExternalVocabulary.build_spec _ hf2] at h3
    injection h3 with h3
    show l.words.length + l.ext.size = _
    rw [h2, ← h3]
    show _ + (List.map shown _).length = _
    rw [List.length_map]
    omega
  refine ⟨?_, fun i w hi => (h4 i).1 w hi, fun i hi => (h4 i).2 hi, ?_, ?_⟩
  · obtain ⟨l', h1', h5⟩ := input_found_partial c N hc parts r voc hcorrect hfits hvoc hmark hdup prefixes langs
    rw [h1] at h1'
    cases h1'
    exact h5 htest fuel hfuel
  · intro u hu hno
    have hstrict : voc.Pairwise fun a b => order c a b < 0 := by
      rw [List.pairwise_iff_getElem]
      intro j k hj hk hjk
      exact (ids_ordered_partial (Stored N) (order c) parts (words_ok c N) r voc hcorrect (fun w hw => (hvoc w hw).1)
        hdup j k _ _ (List.getElem?_eq_getElem hj) (List.getElem?_eq_getElem hk)).2.mp hjk
    obtain ⟨res, g1, g2⟩ := find_internal c fuel (vocabOf l prefixes langs) u
      (by show l.words.Pairwise _; rw [h2]; exact hstrict.filter _) hu
    have hmem : ¬ u ∈ (vocabOf l prefixes langs).words := by
      show ¬ u ∈ l.words
      rw [h2, List.mem_filter]
      rintro ⟨m1, m2⟩
      exact hno u m1 (shown_internal m2)
    unfold Finds at g2
    rw [if_neg hmem] at g2
    exact ⟨res.1, by rw [g1, ← g2]⟩
  · intro u i h
    rw [← hsum]
    exact getId_bound (by omega) h

end Verif.Answers
