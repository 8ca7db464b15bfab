import Verif.Model.TextIndexTerms
import Verif.Props.C73_TextIndex
import Verif.Props.C35_C36_TextIntersection
/-
C73 for queries with any number of words.
-/
namespace Verif.TextIndex
open Verif.PostingLists Verif.TextMetaData Verif.Spec.TextIndex

section
variable {short : Str → Bool} {gt : Str → Str → Bool} {vocab : List Str} {kb : Str → Option Nat} {lines : List Line}
    {cb : Codebooks} {name : List Nat} {vec : List Tuple} {file : List Nat} {t : TextMeta} {Bf : Nat → TBlock} {r : Nat}
    {es2 : List Nat}

/-! ### Helpers -/

/-- The postings of a word. -/
def postingsOf (short : Str → Bool) (gt : Str → Str → Bool) (vocab : List Str) (vec : List Tuple) (term : Str) : List Posting :=
  if term ∈ vocab then rangePostings short gt vocab vec (vocab.idxOf term) (vocab.idxOf term) else []

theorem postingsOf_ordered (h : Input short gt vocab kb lines cb name vec) (term : Str) :
    Ordered (postingsOf short gt vocab vec term) := by
  unfold postingsOf
  by_cases hm : term ∈ vocab
  · rw [if_pos hm]; exact h.rangeOrdered _ _
  · rw [if_neg hm]; exact List.Pairwise.nil

theorem postingsOf_length (term : Str) : (postingsOf short gt vocab vec term).length ≤ vec.length := by
  unfold postingsOf
  by_cases hm : term ∈ vocab
  · rw [if_pos hm]
    exact Nat.le_trans (List.length_filter_le _ _) (clOf_length _ _)
  · rw [if_neg hm]; exact Nat.zero_le _

theorem mem_postingsOf (h : Input short gt vocab kb lines cb name vec) (term : Str) (c s : Nat) :
    (∃ p ∈ postingsOf short gt vocab vec term, p.ctx = c ∧ p.score = s) ↔
      Occurs (wordText lines) term c ∧ s = total (wordText lines) term c % 2 ^ 16 := by
  rw [occurs_id h.words]
  unfold postingsOf
  by_cases hm : term ∈ vocab
  · rw [if_pos hm]
    have hmem := h.rangeMem (Nat.le_refl (vocab.idxOf term)) (List.idxOf_lt_length_iff.mpr hm) rfl
    constructor
    · rintro ⟨p, hp, rfl, rfl⟩
      obtain ⟨h1, h2, h3⟩ := (hmem p).mp hp
      have hw : p.word = vocab.idxOf term := by omega
      rw [hw] at h2 h3
      exact ⟨⟨hm, h2⟩, by rw [h3, total_id h.words hm]⟩
    · rintro ⟨⟨_, h2⟩, rfl⟩
      exact ⟨⟨c, vocab.idxOf term, score16 (wordIds vocab lines) (vocab.idxOf term) c⟩,
        (hmem _).mpr ⟨⟨Nat.le_refl _, Nat.le_refl _⟩, h2, rfl⟩, rfl, total_id h.words hm c⟩
  · rw [if_neg hm]
    simp [hm]

theorem postingsOf_word (h : Input short gt vocab kb lines cb name vec) (term : Str) :
    ∀ p ∈ postingsOf short gt vocab vec term, p.word = vocab.idxOf term := by
  intro p hp
  unfold postingsOf at hp
  by_cases hm : term ∈ vocab
  · rw [if_pos hm] at hp
    have := ((h.rangeMem (Nat.le_refl (vocab.idxOf term)) (List.idxOf_lt_length_iff.mpr hm) rfl p).mp hp).1
    omega
  · rw [if_neg hm] at hp; simp at hp

/-- Lists of postings for the intersection. -/
def asText (ps : List Posting) : List Spec.Text.Posting := ps.map toText

theorem asText_sorted {ps : List Posting} (h : Ordered ps) : Spec.Text.Sorted (asText ps) := by
  unfold Spec.Text.Sorted asText
  rw [List.pairwise_map]
  exact h.imp fun h => by simp only [toText]; omega

theorem occurs_asText (h : Input short gt vocab kb lines cb name vec) (term : Str) (c : Nat) :
    Spec.Text.Occurs (asText (postingsOf short gt vocab vec term)) c ↔ Occurs (wordText lines) term c := by
  unfold Spec.Text.Occurs asText
  constructor
  · intro hx
    obtain ⟨p, hp, hc⟩ : ∃ p ∈ postingsOf short gt vocab vec term, p.ctx = c := by
      simpa [toText] using hx
    exact ((mem_postingsOf h term c p.score).mp ⟨p, hp, hc, rfl⟩).1
  · intro ho
    obtain ⟨p, hp, hc, _⟩ := (mem_postingsOf h term c _).mpr ⟨ho, rfl⟩
    simpa [toText] using ⟨p, hp, hc⟩

/-- A record has one posting in the list of a word. -/
theorem score_single (h : Input short gt vocab kb lines cb name vec) (x : Str) {p : Posting} {c : Nat}
    (hp : p ∈ postingsOf short gt vocab vec x) (hc : p.ctx = c) :
    Spec.Text.scoreIn (asText (postingsOf short gt vocab vec x)) c = p.score := by
  have hq : ∀ q ∈ postingsOf short gt vocab vec x, q.ctx = c → q.score = p.score := by
    intro q hq hqc
    have h1 := ((mem_postingsOf h x c q.score).mp ⟨q, hq, hqc, rfl⟩).2
    have h2 := ((mem_postingsOf h x c p.score).mp ⟨p, hp, hc, rfl⟩).2
    rw [h1, h2]
  unfold Spec.Text.scoreIn asText
  cases hf : ((postingsOf short gt vocab vec x).map toText).find? (fun q => decide (q.cid = c)) with
  | none =>
    rw [List.find?_eq_none] at hf
    have := hf (toText p) (List.mem_map.mpr ⟨p, hp, rfl⟩)
    simp [toText, hc] at this
  | some q =>
    have h1 := List.mem_of_find?_eq_some hf
    have h2 := List.find?_some hf
    obtain ⟨q', hq', rfl⟩ := List.mem_map.mp h1
    exact hq q' hq' (of_decide_eq_true h2)

theorem wordLists_spec (hI : IndexOk short gt vocab kb lines vec file t Bf r es2)
    (h : Input short gt vocab kb lines cb name vec) (C : Collation.Comparator) {fuel : Nat} (hf : Enough vec fuel) :
    ∀ terms : List Str, (∀ x ∈ terms, Plain x) → wordLists fuel file t C vocab kb terms =
      .ok ((terms.map fun x => asText (postingsOf short gt vocab vec x)).map fun l => (l.map (·.cid), l.map (·.score)))
  | [], _ => rfl
  | x :: xs, hp => by
    unfold wordLists
    rw [resolve_plain C (hp x (by simp)), wordLists_spec hI h C hf xs fun y hy => hp y (by simp [hy])]
    simp only [Outcome.bind]
    have hx : wordPostings fuel file t (if x ∈ vocab then .words (vocab.idxOf x) (vocab.idxOf x) else .nothing) =
        .ok ((asText (postingsOf short gt vocab vec x)).map (·.cid), (asText (postingsOf short gt vocab vec x)).map (·.score)) := by
      unfold postingsOf asText
      rw [(map_toText _).1, (map_toText _).2.2]
      by_cases hm : x ∈ vocab
      · rw [if_pos hm, if_pos hm, hI.words h (Nat.le_refl _) (List.idxOf_lt_length_iff.mpr hm) hf, if_pos rfl]
      · rw [if_neg hm, if_neg hm]; rfl
    rw [hx]
    rfl

/-! ### Choosing the term -/

/-- Every weighed term is one of the query; an index that is returned at once is that of an unknown word. -/
theorem weighTerms_spec (hI : IndexOk short gt vocab kb lines vec file t Bf r es2)
    (h : Input short gt vocab kb lines cb name vec) (C : Collation.Comparator) :
    ∀ (terms : List Str) (i : Nat), (∀ x ∈ terms, Plain x) →
      ∃ res, weighTerms t C vocab kb i terms = .ok res ∧
        (∀ j, res = .inl j → ∃ k, j = i + k ∧ k < terms.length) ∧
        (∀ l, res = .inr l → l.map (·.1) = List.range' i terms.length)
  | [], i, _ => ⟨.inr [], rfl, by simp, by intro l hl; cases hl; rfl⟩
  | x :: xs, i, hp => by
    unfold weighTerms weighTerm
    rw [resolve_plain C (hp x (by simp))]
    simp only [Outcome.bind]
    by_cases hm : x ∈ vocab
    · rw [if_pos hm]
      simp only
      rw [hI.byRange h (Nat.le_refl _) (List.idxOf_lt_length_iff.mpr hm), if_pos rfl]
      simp only [Outcome.map]
      obtain ⟨res, h1, h2, h3⟩ := weighTerms_spec hI h C xs (i + 1) fun y hy => hp y (by simp [hy])
      rw [h1]
      simp only
      cases res with
      | inl j =>
        refine ⟨.inl j, rfl, ?_, by simp⟩
        intro j' hj'
        cases hj'
        obtain ⟨k, rfl, hk⟩ := h2 j rfl
        exact ⟨k + 1, by omega, by simp; omega⟩
      | inr l =>
        refine ⟨.inr _, rfl, by simp, ?_⟩
        intro l' hl'
        cases hl'
        rw [List.map_cons, h3 l rfl, List.length_cons, List.range'_succ]
    · rw [if_neg hm]
      simp only
      rw [if_neg (hp x (by simp)).2.1]
      refine ⟨.inl i, rfl, ?_, by simp⟩
      intro j hj
      cases hj
      exact ⟨0, rfl, by simp⟩

/-- Some element is not worse than any other. -/
theorem exists_best : ∀ l : List (Nat × Bool × Nat), l ≠ [] → ∃ x ∈ l, ∀ y ∈ l, better y x = false
  | [], h => absurd rfl h
  | [x], _ => ⟨x, by simp, by simp [better]⟩
  | x :: y :: ys, _ => by
    obtain ⟨z, hz, hbest⟩ := exists_best (y :: ys) (by simp)
    by_cases hx : better x z = true
    · refine ⟨x, by simp, fun w hw => ?_⟩
      rcases List.mem_cons.mp hw with rfl | hw
      · simp [better]
      · have h1 := hbest w hw
        obtain ⟨_, b1, n1⟩ := x
        obtain ⟨_, b2, n2⟩ := z
        obtain ⟨_, b3, n3⟩ := w
        unfold better at *
        cases b1 <;> cases b2 <;> cases b3 <;> simp at * <;> omega
    · refine ⟨z, by simp [hz], fun w hw => ?_⟩
      rcases List.mem_cons.mp hw with rfl | hw
      · simpa using hx
      · exact hbest w hw

theorem chosen_exists (hI : IndexOk short gt vocab kb lines vec file t Bf r es2)
    (h : Input short gt vocab kb lines cb name vec) (C : Collation.Comparator) {terms : List Str} (hp : ∀ x ∈ terms, Plain x)
    (hne : terms ≠ []) : ∃ res, weighTerms t C vocab kb 0 terms = .ok res ∧ (∃ i, Chosen res i) ∧ ∀ i, Chosen res i → i < terms.length := by
  obtain ⟨res, h1, h2, h3⟩ := weighTerms_spec hI h C terms 0 hp
  refine ⟨res, h1, ?_, ?_⟩
  · cases res with
    | inl j => exact ⟨j, rfl⟩
    | inr l =>
      have hl : l ≠ [] := by
        intro h0
        have := h3 l rfl
        rw [h0] at this
        have hlen := congrArg List.length this
        simp only [List.map_nil, List.length_nil, List.length_range'] at hlen
        exact hne (List.length_eq_zero_iff.mp hlen.symm)
      obtain ⟨⟨i, w⟩, hx, hb⟩ := exists_best l hl
      exact ⟨i, w, hx, hb⟩
  · intro i hi
    cases res with
    | inl j =>
      obtain ⟨k, rfl, hk⟩ := h2 j rfl
      have : i = 0 + k := hi
      omega
    | inr l =>
      obtain ⟨w, hw, _⟩ := hi
      have : i ∈ l.map (·.1) := List.mem_map.mpr ⟨_, hw, rfl⟩
      rw [h3 l rfl, List.mem_range'_1] at this
      omega

/-! ### Any number of words -/

/-- The score of an entity in a record for a query: its total score for one or two words; for more words the sum with the scores of
all words but number `i`; each in 16 bits. -/
def scoreWith (kb : Str → Option Nat) (lines : List Line) (terms : List Str) (i e c : Nat) : Nat :=
  if terms.length ≤ 2 then total (entityText kb lines) e c % 2 ^ 16
  else (((terms.eraseIdx i).map fun x => total (wordText lines) x c % 2 ^ 16).sum + total (entityText kb lines) e c % 2 ^ 16) % 2 ^ 16

/-- C73 for any number of words: whichever term is chosen, the entities found are exactly those of the records that contain
all words, each once for each record.  The scores are those of the entities; for three and
more words those of all words but one are added.  Provided each word that occurs in the text occurs with an entity. -/
theorem C73_several_partial (h : Index short gt vocab kb lines cb name vec file) (C : Collation.Comparator) {terms : List Str}
    (hp : ∀ x ∈ terms, Plain x) (hne : terms ≠ [])
    (hex : ∀ x ∈ terms, x ∈ vocab → ∃ e c, Occurs (entityText kb lines) e c ∧ Occurs (wordText lines) x c)
    {fuel : Nat} (hf : 2 * ((terms.length + 1) * vec.length) + 2 < fuel) :
    ∃ t, TextMeta.readFromFile file = .ok t ∧ (∃ out, Answer fuel file t C vocab kb terms out) ∧
      ∀ out, Answer fuel file t C vocab kb terms out → ∃ i l, i < terms.length ∧ out = .ok (tripleOf l) ∧
        Lists (fun e c s => Occurs (entityText kb lines) e c ∧ (∀ x ∈ terms, Occurs (wordText lines) x c) ∧
          s = scoreWith kb lines terms i e c) l := by
  obtain ⟨t, Bf, r, es2, ht, hI⟩ := h.read
  have hfe : Enough vec fuel := by
    unfold Enough
    have : 1 * vec.length ≤ (terms.length + 1) * vec.length := Nat.mul_le_mul_right _ (by omega)
    omega
  -- the result for a chosen term
  have key : ∀ i, i < terms.length → ∃ l, entitiesWith fuel file t C vocab kb terms i = .ok (tripleOf l) ∧
      Lists (fun e c s => Occurs (entityText kb lines) e c ∧ (∀ x ∈ terms, Occurs (wordText lines) x c) ∧
          s = scoreWith kb lines terms i e c) l := by
    intro i hi
    have hothers : ∀ x ∈ terms.eraseIdx i, Plain x := fun x hx => hp x (List.mem_of_mem_eraseIdx hx)
    -- the entity postings of the chosen term
    have hents : ∃ ps, Ordered ps ∧ ps.length ≤ vec.length ∧
        entityPostings fuel file t (if terms[i] ∈ vocab then .words (vocab.idxOf terms[i]) (vocab.idxOf terms[i]) else .nothing) =
          .ok ⟨ps.map Posting.ctx, ps.map Posting.word, ps.map Posting.score⟩ ∧
        ∀ e c s, (⟨c, e, s⟩ : Posting) ∈ ps ↔ Occurs (entityText kb lines) e c ∧ Occurs (wordText lines) terms[i] c ∧
          s = total (entityText kb lines) e c % 2 ^ 16 := by
      by_cases hm : terms[i] ∈ vocab
      · have hlt := List.idxOf_lt_length_iff.mpr hm
        obtain ⟨e0, c0, h1, h2⟩ := hex _ (List.getElem_mem hi) hm
        obtain ⟨_, h2'⟩ := (occurs_id h.input.words terms[i] c0).mp h2
        refine ⟨coPostings short gt vocab vec (vocab.idxOf terms[i]) (vocab.idxOf terms[i]), h.input.coOrdered _ _,
          Nat.le_trans (List.length_filter_le _ _) (elOf_length _ _), ?_, ?_⟩
        · rw [if_pos hm, hI.wordsEntities h.input (Nat.le_refl _) hlt hfe, if_pos rfl, if_neg]
          intro h0
          have := (h.input.wordEl (wordBlockId_lt (boundaries_bounds short gt vocab) hlt)
            ⟨c0, e0, score16 (entityIds kb lines) e0 c0⟩).mpr ⟨h1, rfl, _, h2', rfl⟩
          rw [h0] at this
          simp at this
        · intro e c s
          have hmem := h.input.coMem (Nat.le_refl (vocab.idxOf terms[i])) hlt rfl
          rw [occurs_id h.input.words]
          constructor
          · intro hs
            obtain ⟨h3, h7, w, h4, h5, h6⟩ := (hmem _).mp hs
            have : w = vocab.idxOf terms[i] := by omega
            exact ⟨h3, ⟨hm, this ▸ h6⟩, h7⟩
          · rintro ⟨h3, ⟨_, h4⟩, h7⟩
            exact (hmem _).mpr ⟨h3, h7, _, Nat.le_refl _, Nat.le_refl _, h4⟩
      · refine ⟨[], List.Pairwise.nil, Nat.zero_le _, by rw [if_neg hm]; rfl, fun e c s => ?_⟩
        rw [occurs_id h.input.words]
        simp [hm]
    obtain ⟨ps, hps, hpl, hpe, hpm⟩ := hents
    have hsum : (((terms.eraseIdx i).map fun x => asText (postingsOf short gt vocab vec x)).map List.length).sum ≤ (terms.eraseIdx i).length * vec.length := by
      clear hpe hpm hothers
      induction terms.eraseIdx i with
      | nil => simp
      | cons x xs ih =>
        simp only [List.map_cons, List.sum_cons, List.length_cons]
        have h1 : (asText (postingsOf short gt vocab vec x)).length ≤ vec.length := by
          unfold asText
          rw [List.length_map]
          exact postingsOf_length x
        rw [Nat.succ_mul]
        omega
    have hlen : (terms.eraseIdx i).length + 1 = terms.length := by rw [List.length_eraseIdx, if_pos hi]; omega
    have hsum2 : (((terms.eraseIdx i).map fun x => asText (postingsOf short gt vocab vec x)).map List.length).sum + ps.length ≤
        (terms.length + 1) * vec.length := by
      have : (terms.eraseIdx i).length * vec.length + vec.length ≤ (terms.length + 1) * vec.length := by
        rw [← Nat.succ_mul]
        exact Nat.mul_le_mul_right _ (by omega)
      omega
    have hvec := h.input.size
    have hq := FTS.C36_query_entities ((terms.eraseIdx i).map fun x => asText (postingsOf short gt vocab vec x)) (asText ps)
      (by
        intro l hl
        obtain ⟨x, _, rfl⟩ := List.mem_map.mp hl
        exact asText_sorted (postingsOf_ordered h.input x))
      (asText_sorted hps)
      (by
        intro l hl
        obtain ⟨x, _, rfl⟩ := List.mem_map.mp hl
        have := postingsOf_length (short := short) (gt := gt) (vocab := vocab) (vec := vec) x
        unfold asText
        rw [List.length_map]
        omega)
      (by unfold asText; rw [List.length_map]; omega) fuel
      (by unfold asText at hsum2 ⊢; rw [List.length_map]; omega)
    have hout : entitiesWith fuel file t C vocab kb terms i = FTS.contextEntityScoreLists fuel
        (((terms.eraseIdx i).map fun x => asText (postingsOf short gt vocab vec x)).map fun l => (l.map (·.cid), l.map (·.score)))
        ⟨(asText ps).map (·.cid), (asText ps).map (·.eid), (asText ps).map (·.score)⟩ := by
      unfold entitiesWith
      rw [wordLists_spec hI h.input C hfe _ hothers, Outcome.read_lt _ _ hi]
      simp only [Outcome.bind]
      rw [resolve_plain C (hp _ (List.getElem_mem hi))]
      simp only [Outcome.bind]
      rw [hpe]
      simp only [Outcome.bind]
      have : (⟨ps.map Posting.ctx, ps.map Posting.word, ps.map Posting.score⟩ : FTS.Triple) =
          ⟨(asText ps).map (·.cid), (asText ps).map (·.eid), (asText ps).map (·.score)⟩ := by
        unfold asText
        rw [(map_toText _).1, (map_toText _).2.1, (map_toText _).2.2]
      rw [this]
    rw [hq] at hout
    have hlen2 : ((terms.eraseIdx i).map fun x => asText (postingsOf short gt vocab vec x)).length ≤ 1 ↔ terms.length ≤ 2 := by
      rw [List.length_map]
      omega
    refine ⟨((asText ps).filter fun e => decide (∀ l ∈ (terms.eraseIdx i).map fun x => asText (postingsOf short gt vocab vec x),
      Spec.Text.Occurs l e.cid)).map fun p => (p.eid, p.cid, if ((terms.eraseIdx i).map fun x => asText (postingsOf short gt vocab vec x)).length ≤ 1
        then p.score else (Spec.Text.sumIn ((terms.eraseIdx i).map fun x => asText (postingsOf short gt vocab vec x)) p.cid + p.score) % 65536),
      ?_, ?_, ?_, ?_⟩
    · rw [hout]
      unfold tripleOf
      rw [List.map_map, List.map_map, List.map_map]
      rfl
    · have hnd : (asText ps).Pairwise fun a b => (a.eid, a.cid) ≠ (b.eid, b.cid) := by
        unfold asText
        rw [List.pairwise_map]
        refine hps.imp fun {a b} hab he => ?_
        simp only [toText, Prod.mk.injEq] at he
        omega
      unfold List.Nodup
      rw [List.pairwise_map]
      refine (hnd.filter _).imp fun {a b} hab he => hab ?_
      simp only [Prod.mk.injEq] at he ⊢
      exact ⟨he.1, he.2.1⟩
    · rw [List.pairwise_map]
      exact (asText_sorted hps).filter _
    · intro e c s
      rw [List.mem_map]
      have hall : (∀ x ∈ terms, Occurs (wordText lines) x c) ↔
          Occurs (wordText lines) terms[i] c ∧ ∀ x ∈ terms.eraseIdx i, Occurs (wordText lines) x c := by
        constructor
        · intro hx
          exact ⟨hx _ (List.getElem_mem hi), fun x hx' => hx x (List.mem_of_mem_eraseIdx hx')⟩
        · rintro ⟨h1, h2⟩ x hx
          by_cases hxi : x = terms[i]
          · rw [hxi]; exact h1
          · refine h2 x ?_
            obtain ⟨k, hk, rfl⟩ := List.mem_iff_getElem.mp hx
            rw [List.mem_eraseIdx_iff_getElem]
            refine ⟨k, hk, ?_, rfl⟩
            rintro rfl
            exact hxi rfl
      dsimp only
      rw [hall]
      have hscore : ∀ e c, (∀ x ∈ terms.eraseIdx i, Occurs (wordText lines) x c) →
          (if ((terms.eraseIdx i).map fun x => asText (postingsOf short gt vocab vec x)).length ≤ 1
            then total (entityText kb lines) e c % 2 ^ 16 else
            (Spec.Text.sumIn ((terms.eraseIdx i).map fun x => asText (postingsOf short gt vocab vec x)) c +
              total (entityText kb lines) e c % 2 ^ 16) % 65536) = scoreWith kb lines terms i e c := by
        intro e c hc
        unfold scoreWith
        by_cases h2 : terms.length ≤ 2
        · rw [if_pos h2, if_pos (hlen2.mpr h2)]
        · rw [if_neg h2, if_neg (fun h => h2 (hlen2.mp h))]
          have : Spec.Text.sumIn ((terms.eraseIdx i).map fun x => asText (postingsOf short gt vocab vec x)) c =
              ((terms.eraseIdx i).map fun x => total (wordText lines) x c % 2 ^ 16).sum := by
            unfold Spec.Text.sumIn
            rw [List.map_map]
            congr 1
            refine List.map_congr_left fun x hx => ?_
            obtain ⟨p, hp1, hp2, hp3⟩ := (mem_postingsOf h.input x c _).mpr ⟨hc x hx, rfl⟩
            show Spec.Text.scoreIn (asText (postingsOf short gt vocab vec x)) c = _
            rw [← hp3]
            exact score_single (h.input) x hp1 hp2
          rw [this]
      constructor
      · rintro ⟨p, hp', he⟩
        simp only [Prod.mk.injEq] at he
        obtain ⟨h1, h2⟩ := List.mem_filter.mp hp'
        unfold asText at h1
        obtain ⟨q, hq', rfl⟩ := List.mem_map.mp h1
        simp only [decide_eq_true_eq] at h2
        simp only [toText] at he h2
        obtain ⟨rfl, rfl, hs⟩ := he
        obtain ⟨h3, h4, h5⟩ := (hpm q.word q.ctx q.score).mp hq'
        have h6 : ∀ x ∈ terms.eraseIdx i, Occurs (wordText lines) x q.ctx := fun x hx =>
          (occurs_asText h.input x q.ctx).mp (h2 _ (List.mem_map.mpr ⟨x, hx, rfl⟩))
        refine ⟨h3, ⟨h4, h6⟩, ?_⟩
        rw [← hs, ← hscore _ _ h6, ← h5]
      · rintro ⟨h1, ⟨h2, h3⟩, rfl⟩
        have hs := (hpm e c _).mpr ⟨h1, h2, rfl⟩
        refine ⟨toText ⟨c, e, total (entityText kb lines) e c % 2 ^ 16⟩, List.mem_filter.mpr ⟨List.mem_map.mpr ⟨_, hs, rfl⟩, ?_⟩, ?_⟩
        · simp only [decide_eq_true_eq]
          intro l hl
          obtain ⟨x, hx, rfl⟩ := List.mem_map.mp hl
          exact (occurs_asText h.input x c).mpr (h3 x hx)
        · rw [← hscore _ _ h3]
          rfl
  refine ⟨t, ht, ?_, ?_⟩
  · unfold Answer
    have h0 : ¬ terms.length = 0 := by
      intro h0; exact hne (List.length_eq_zero_iff.mp h0)
    simp only [if_neg h0]
    by_cases h1 : terms.length > 1
    · simp only [if_pos h1]
      obtain ⟨res, hw, ⟨i, hi⟩, _⟩ := chosen_exists hI h.input C hp hne
      rw [hw]
      exact ⟨_, i, hi, rfl⟩
    · simp only [if_neg h1]
      exact ⟨_, rfl⟩
  · intro out hout
    unfold Answer at hout
    have h0 : ¬ terms.length = 0 := by
      intro h0; exact hne (List.length_eq_zero_iff.mp h0)
    rw [if_neg h0] at hout
    by_cases h1 : terms.length > 1
    · rw [if_pos h1] at hout
      obtain ⟨res, hw, _, hlt⟩ := chosen_exists hI h.input C hp hne
      rw [hw] at hout
      obtain ⟨i, hi, rfl⟩ := hout
      obtain ⟨l, h2, h3⟩ := key i (hlt i hi)
      exact ⟨i, l, hlt i hi, h2, h3⟩
    · rw [if_neg h1] at hout
      rw [hout]
      obtain ⟨l, h2, h3⟩ := key 0 (by omega)
      exact ⟨0, l, by omega, h2, h3⟩

/-- C73 for the records with several words: for three and more words exactly the records that contain all of them, in ascending order, with
the sum of the scores in 16 bits.  For two words see C35. -/
theorem C73_records_partial (h : Index short gt vocab kb lines cb name vec file) (C : Collation.Comparator) {terms : List Str}
    (hp : ∀ x ∈ terms, Plain x) (h3 : 3 ≤ terms.length) {fuel : Nat} (hf : 2 * ((terms.length + 1) * vec.length) + 2 < fuel) :
    ∃ t records scores, TextMeta.readFromFile file = .ok t ∧
      recordsWith fuel file t C vocab kb terms = .ok (records, scores) ∧ StrictlyAscending records ∧
      (∀ c, c ∈ records ↔ ∀ x ∈ terms, Occurs (wordText lines) x c) ∧
      scores = records.map fun c => (terms.map fun x => total (wordText lines) x c % 2 ^ 16).sum % 2 ^ 16 := by
  obtain ⟨t, Bf, r, es2, ht, hI⟩ := h.read
  have hfe : Enough vec fuel := by
    unfold Enough
    have : 1 * vec.length ≤ (terms.length + 1) * vec.length := Nat.mul_le_mul_right _ (by omega)
    omega
  have hsum : ((terms.map fun x => asText (postingsOf short gt vocab vec x)).map List.length).sum ≤ terms.length * vec.length := by
    clear hf h3 hp
    induction terms with
    | nil => simp
    | cons x xs ih =>
      simp only [List.map_cons, List.sum_cons, List.length_cons]
      have h1 : (asText (postingsOf short gt vocab vec x)).length ≤ vec.length := by
        unfold asText
        rw [List.length_map]
        exact postingsOf_length x
      rw [Nat.succ_mul]
      omega
  have hle : terms.length * vec.length ≤ (terms.length + 1) * vec.length := Nat.mul_le_mul_right _ (by omega)
  have hvec := h.input.size
  obtain ⟨rc, rs, h1, h2, h4, h5⟩ := FTS.C36_words (terms.map fun x => asText (postingsOf short gt vocab vec x))
    (by rw [List.length_map]; exact h3)
    (by
      intro l hl
      obtain ⟨x, _, rfl⟩ := List.mem_map.mp hl
      exact asText_sorted (postingsOf_ordered h.input x))
    (by
      intro l hl
      obtain ⟨x, _, rfl⟩ := List.mem_map.mp hl
      have := postingsOf_length (short := short) (gt := gt) (vocab := vocab) (vec := vec) x
      unfold asText
      rw [List.length_map]
      omega) fuel (by omega)
  have hmem : ∀ c, c ∈ rc ↔ ∀ x ∈ terms, Occurs (wordText lines) x c := by
    intro c
    rw [h4]
    constructor
    · intro hl x hx
      exact (occurs_asText h.input x c).mp (hl _ (List.mem_map.mpr ⟨x, hx, rfl⟩))
    · intro hx l hl
      obtain ⟨x, hx', rfl⟩ := List.mem_map.mp hl
      exact (occurs_asText h.input x c).mpr (hx x hx')
  refine ⟨t, rc, rs, ht, ?_, h2, hmem, ?_⟩
  · unfold recordsWith
    rw [wordLists_spec hI h.input C hfe _ hp]
    exact h1
  · rw [h5]
    refine List.map_congr_left fun c hc => ?_
    have h6 := (hmem c).mp hc
    show Spec.Text.sumIn _ c % 65536 = _
    unfold Spec.Text.sumIn
    rw [List.map_map]
    congr 2
    refine List.map_congr_left fun x hx => ?_
    obtain ⟨p, hp1, hp2, hp3⟩ := (mem_postingsOf h.input x c _).mpr ⟨h6 x hx, rfl⟩
    show Spec.Text.scoreIn (asText (postingsOf short gt vocab vec x)) c = _
    rw [← hp3]
    exact score_single (h.input) x hp1 hp2

end

/-! ### Examples and violations -/

example : Demo demoWords demoText ∧ (∀ x ∈ ["moo".toList, "starts".toList, "moo".toList], Plain x) ∧
    (∀ x ∈ ["moo".toList, "starts".toList, "moo".toList], x ∈ demoWords →
      ∃ e c, Occurs (entityText demoKb demoText) e c ∧ Occurs (wordText demoText) x c) ∧
    2 * ((3 + 1) * (demoVec demoWords demoText).length) + 2 < 100 ∧
    (TextMeta.readFromFile (demoFile demoWords demoText)).bind (fun t =>
      entitiesWith 100 (demoFile demoWords demoText) t demoC demoWords demoKb ["moo".toList, "starts".toList, "moo".toList] 0) =
        .ok ⟨[2], [5], [3]⟩ ∧
    (TextMeta.readFromFile (demoFile demoWords demoText)).bind (fun t =>
      recordsWith 100 (demoFile demoWords demoText) t demoC demoWords demoKb ["moo".toList, "starts".toList, "moo".toList]) =
        .ok ([2], [3]) := by
  refine ⟨demo (by decide +kernel), ?_, ?_, by decide +kernel, by decide +kernel, by decide +kernel⟩
  · intro x hx
    simp only [List.mem_cons, List.not_mem_nil, or_false] at hx
    rcases hx with rfl | rfl | rfl <;> (unfold Plain; decide)
  · intro x hx _
    simp only [List.mem_cons, List.not_mem_nil, or_false] at hx
    rcases hx with rfl | rfl | rfl <;> exact ⟨5, 2, ⟨1, by decide⟩, ⟨1, by decide⟩⟩

/-- Against the property: no word begins with `q`.  The query `q*` has an empty result, but `moo q*` fails. -/
theorem C73_prefix_unknown_violated : Demo demoWords demoText ∧
    queryEntities 100 demoC demoWords demoKb (demoFile demoWords demoText) "q*".toList = .ok ⟨[], [], []⟩ ∧
    ∃ t, TextMeta.readFromFile (demoFile demoWords demoText) = .ok t ∧
      ∀ out, Answer 100 (demoFile demoWords demoText) t demoC demoWords demoKb ["moo".toList, "q*".toList] out ↔ out = .throw := by
  have hd : Demo demoWords demoText := demo (by decide +kernel)
  obtain ⟨t, Bf, r, es2, ht, hI⟩ := hd.read
  refine ⟨hd, by decide +kernel, t, ht, ?_⟩
  have hw : (TextMeta.readFromFile (demoFile demoWords demoText)).bind (fun t =>
      weighTerms t demoC demoWords demoKb 0 ["moo".toList, "q*".toList]) = .throw := by decide +kernel
  rw [ht] at hw
  have hw' : weighTerms t demoC demoWords demoKb 0 ["moo".toList, "q*".toList] = .throw := hw
  intro out
  unfold Answer
  rw [hw']
  simp

/-- Against the property: for the records with the two words `star*` and `starts` the scores of the second list are read at
the positions of the first one, beyond its end. -/
theorem C73_records_two_violated : Demo demoWords demoText ∧
    (TextMeta.readFromFile (demoFile demoWords demoText)).bind (fun t =>
      recordsWith 100 (demoFile demoWords demoText) t demoC demoWords demoKb ["star*".toList, "starts".toList]) = .ub :=
  ⟨demo (by decide +kernel), by decide +kernel⟩

end Verif.TextIndex
