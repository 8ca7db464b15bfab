import Verif.Lemmas.TextIndexQuery
import Verif.Props.C49_PrefixRange
/-
C73: a text query for a word finds exactly the text records that contain it.
-/
namespace Verif.TextIndex
open Verif.PostingLists Verif.TextMetaData Verif.Spec.TextIndex

/-! ### The text -/

/-- The words of a text with their records and scores. -/
def wordText (lines : List Line) : Text Str := (lines.filter fun l => !l.isEntity).map fun l => (l.word, l.ctx, l.score)

/-- The entities of a text that the knowledge base knows. -/
def entityText (kb : Str → Option Nat) (lines : List Line) : Text Nat :=
  (lines.filter fun l => l.isEntity).filterMap fun l => (kb l.word).map fun e => (e, l.ctx, l.score)

/-- An entity occurs in the text. -/
def HasText (kb : Str → Option Nat) (lines : List Line) (e : Nat) : Prop := ∃ c, Occurs (entityText kb lines) e c

/-- An entity whose block is taken for one of words when the index is read: exactly the entities that are not smaller than the
number of words occur in the text, up to this one. -/
def Lost (kb : Str → Option Nat) (lines : List Line) (n e : Nat) : Prop := n ≤ e ∧ ∀ e', e' ≤ e → (HasText kb lines e' ↔ n ≤ e')

/-- A plain term: neither a prefix nor an entity. -/
def Plain (term : Str) : Prop := term ≠ [] ∧ term.getLast? ≠ some '*' ∧ ¬ (term.head? = some '<' ∧ term.getLast? = some '>')

/-- The name of an entity. -/
def IsEntity (term : Str) : Prop := term ≠ [] ∧ term.head? = some '<' ∧ term.getLast? = some '>'

/-- The index file of a text. -/
structure Index (short : Str → Bool) (gt : Str → Str → Bool) (vocab : List Str) (kb : Str → Option Nat) (lines : List Line)
    (cb : Codebooks) (name : List Nat) (vec : List Tuple) (file : List Nat) : Prop where
  input : Input short gt vocab kb lines cb name vec
  built : createTextIndex (boundaries short gt vocab) cb (pass (boundaries short gt vocab) vocab kb lines) name vec = .ok file
  size : file.length < 2 ^ 63

/-! ### Helpers -/

section
variable {short : Str → Bool} {gt : Str → Str → Bool} {vocab : List Str} {kb : Str → Option Nat} {lines : List Line}
    {cb : Codebooks} {name : List Nat} {vec : List Tuple} {file : List Nat}

theorem idxOf_inj {l : List Str} {a b : Str} (ha : a ∈ l) (h : l.idxOf a = l.idxOf b) : a = b := by
  have h1 := List.getElem_idxOf (List.idxOf_lt_length_iff.mpr ha)
  have hb : l.idxOf b < l.length := by rw [← h]; exact List.idxOf_lt_length_iff.mpr ha
  have h2 := List.getElem_idxOf hb
  rw [← h1, ← h2]
  simp only [h]

theorem occurs_id (hv : IsVocab lines vocab) (w : Str) (c : Nat) :
    Occurs (wordText lines) w c ↔ w ∈ vocab ∧ Occurs (wordIds vocab lines) (vocab.idxOf w) c := by
  rw [occurs_word]
  unfold Occurs wordText
  constructor
  · rintro ⟨s, hs⟩
    obtain ⟨l, hl, he⟩ := List.mem_map.mp hs
    obtain ⟨h1, h2⟩ := List.mem_filter.mp hl
    simp only [Prod.mk.injEq] at he
    obtain ⟨rfl, rfl, rfl⟩ := he
    have h2' : l.isEntity = false := by simpa using h2
    exact ⟨(hv.2 _).mpr ⟨l, h1, h2', rfl⟩, l, h1, h2', rfl, rfl⟩
  · rintro ⟨hw, l, h1, h2, h3, rfl⟩
    have := idxOf_inj ((hv.2 _).mpr ⟨l, h1, h2, rfl⟩) h3
    exact ⟨l.score, List.mem_map.mpr ⟨l, List.mem_filter.mpr ⟨h1, by simp [h2]⟩, by rw [this]⟩⟩

theorem total_id (hv : IsVocab lines vocab) {w : Str} (_ : w ∈ vocab) (c : Nat) :
    score16 (wordIds vocab lines) (vocab.idxOf w) c = total (wordText lines) w c % 2 ^ 16 := by
  have key : ∀ ls : List Line, (∀ l ∈ ls, l ∈ lines) →
      total (wordIds vocab ls) (vocab.idxOf w) c = total (wordText ls) w c := by
    intro ls hls
    unfold total wordIds wordText
    rw [List.filter_map, List.filter_map, List.map_map, List.map_map]
    congr 1
    show ((ls.filter fun l => !l.isEntity).filter _).map Line.score = ((ls.filter fun l => !l.isEntity).filter _).map Line.score
    congr 1
    apply List.filter_congr
    intro l hl
    obtain ⟨h1, h2⟩ := List.mem_filter.mp hl
    simp only [Function.comp_apply, decide_eq_decide]
    have hm : l.word ∈ vocab := (hv.2 _).mpr ⟨l, hls l h1, by simpa using h2, rfl⟩
    constructor
    · rintro ⟨h3, h4⟩; exact ⟨idxOf_inj hm h3, h4⟩
    · rintro ⟨h3, h4⟩; exact ⟨by rw [h3], h4⟩
  unfold score16
  rw [key lines fun _ h => h]

theorem Index.read (h : Index short gt vocab kb lines cb name vec file) :
    ∃ t Bf r es2, TextMeta.readFromFile file = .ok t ∧ IndexOk short gt vocab kb lines vec file t Bf r es2 := by
  obtain ⟨out, h1, h2⟩ := h.input.build
  rw [h.built] at h1
  cases h1
  exact h2 h.size

theorem hasText_iff (e : Nat) : HasText kb lines e ↔ e ∈ textEntities kb lines := (mem_textEntities kb lines e).symm

theorem lost_iff {vec : List Tuple} {t : TextMeta} {Bf : Nat → TBlock} {r : Nat} {es2 : List Nat}
    (hI : IndexOk short gt vocab kb lines vec file t Bf r es2) (e : Nat) :
    e ∈ es2 ↔ HasText kb lines e ∧ ¬ Lost kb lines vocab.length e := by
  have hasc := textEntities_asc kb lines
  rw [hI.split] at hasc
  obtain ⟨ha1, ha2, ha3⟩ := List.pairwise_append.mp hasc
  have hmem : ∀ e, HasText kb lines e ↔ (vocab.length ≤ e ∧ e < vocab.length + r) ∨ e ∈ es2 := by
    intro e
    rw [hasText_iff, hI.split, List.mem_append, List.mem_range'_1]
  -- the entities before the gap are the lost ones
  have hlost : Lost kb lines vocab.length e ↔ vocab.length ≤ e ∧ e < vocab.length + r := by
    constructor
    · rintro ⟨h1, h2⟩
      refine ⟨h1, Classical.byContradiction fun h3 => ?_⟩
      -- number `n + r` has text and is the first of the others
      have h4 := (hmem (vocab.length + r)).mp ((h2 (vocab.length + r) (by omega)).mpr (by omega))
      rcases h4 with h4 | h4
      · omega
      · cases hes : es2 with
        | nil => rw [hes] at h4; simp at h4
        | cons x xs =>
          have hgap := hI.gap
          rw [hes] at hgap h4 ha2
          simp only [List.head?_cons, ne_eq, Option.some.injEq] at hgap
          rcases List.mem_cons.mp h4 with h5 | h5
          · exact hgap h5.symm
          · have h6 := (List.pairwise_cons.mp ha2).1 _ h5
            have h7 := (h2 x (by omega)).mp ((hmem x).mpr (Or.inr (by rw [hes]; simp)))
            rcases Nat.eq_zero_or_pos r with h8 | h8
            · omega
            · have := ha3 (vocab.length + r - 1) (List.mem_range'_1.mpr ⟨by omega, by omega⟩) x (by rw [hes]; simp)
              omega
    · rintro ⟨h1, h2⟩
      refine ⟨h1, fun e' he' => ⟨fun h3 => ?_, fun h3 => (hmem e').mpr (Or.inl ⟨h3, by omega⟩)⟩⟩
      rcases (hmem e').mp h3 with h4 | h4
      · exact h4.1
      · have := ha3 vocab.length (List.mem_range'_1.mpr ⟨by omega, by omega⟩) e' h4
        omega
  rw [hlost, hmem]
  constructor
  · intro h1
    refine ⟨Or.inr h1, fun h2 => ?_⟩
    have := ha3 e (List.mem_range'_1.mpr h2) e h1
    omega
  · rintro ⟨h1 | h1, h2⟩
    · exact absurd h1 h2
    · exact h1

theorem resolve_plain (C : Collation.Comparator) {term : Str} (hp : Plain term) :
    resolve C vocab kb term =
      .ok (if term ∈ vocab then .words (vocab.idxOf term) (vocab.idxOf term) else .nothing) := by
  unfold resolve
  rw [if_neg hp.1, if_neg hp.2.1, if_neg hp.2.2]
  by_cases hm : term ∈ vocab
  · rw [if_pos hm, if_pos hm]
  · rw [if_neg hm, if_neg hm]

theorem resolve_entity (C : Collation.Comparator) {term : Str} (hp : IsEntity term) :
    resolve C vocab kb term = .ok (match kb term with | some e => .entity e | none => .nothing) := by
  unfold resolve
  rw [if_neg hp.1, if_neg (by rw [hp.2.2]; decide), if_pos hp.2]
  cases kb term <;> rfl

theorem zip_maps {α : Type} (ps : List α) (f g : α → Nat) (c s : Nat) :
    (c, s) ∈ (ps.map f).zip (ps.map g) ↔ ∃ p ∈ ps, f p = c ∧ g p = s := by
  induction ps with
  | nil => simp
  | cons p ps ih => simp [ih, eq_comm]

/-- The postings as things with records and scores. -/
def triples (ps : List Posting) : List (Nat × Nat × Nat) := ps.map fun p => (p.word, p.ctx, p.score)

theorem triples_lists {ps : List Posting} (ho : Ordered ps) (P : Nat → Nat → Nat → Prop)
    (h : ∀ p, p ∈ ps ↔ P p.word p.ctx p.score) : Lists P (triples ps) := by
  refine ⟨?_, ?_, ?_⟩
  · unfold triples List.Nodup
    rw [List.pairwise_map]
    refine ho.imp fun {a b} h he => ?_
    simp only [Prod.mk.injEq] at he
    omega
  · unfold triples
    rw [List.pairwise_map]
    exact ho.imp fun {a b} h => by simp only; omega
  · intro a c s
    unfold triples
    rw [List.mem_map]
    constructor
    · rintro ⟨p, hp, he⟩
      simp only [Prod.mk.injEq] at he
      obtain ⟨rfl, rfl, rfl⟩ := he
      exact (h p).mp hp
    · intro h'
      exact ⟨⟨c, a, s⟩, (h ⟨c, a, s⟩).mpr h', rfl⟩

theorem triples_maps (ps : List Posting) : (triples ps).map (·.2.1) = ps.map Posting.ctx ∧
    (triples ps).map (·.1) = ps.map Posting.word ∧ (triples ps).map (·.2.2) = ps.map Posting.score := by
  unfold triples
  simp only [List.map_map]
  exact ⟨rfl, rfl, rfl⟩

theorem strictly_of {ps : List Posting} (ho : Ordered ps) (w : Nat) (hw : ∀ p ∈ ps, p.word = w) :
    StrictlyAscending (ps.map Posting.ctx) := by
  unfold StrictlyAscending
  rw [List.pairwise_map]
  refine List.Pairwise.imp_of_mem ?_ ho
  intro a b ha hb h
  have := hw a ha
  have := hw b hb
  omega

/-! ### Words -/

/-- The index of every text with a word can be built. -/
theorem C73_built (h : Input short gt vocab kb lines cb name vec) :
    ∃ file, createTextIndex (boundaries short gt vocab) cb (pass (boundaries short gt vocab) vocab kb lines) name vec = .ok file := by
  obtain ⟨out, h1, _⟩ := h.build
  exact ⟨out, h1⟩

/-- C73: a word is found in exactly the records that contain it, in ascending order and each once, with its total score in 16
bits. -/
theorem C73_word (h : Index short gt vocab kb lines cb name vec file) (C : Collation.Comparator) {term : Str}
    (hp : Plain term) {fuel : Nat} (hf : Enough vec fuel) :
    ∃ records scores, queryWords fuel C vocab kb file term = .ok (records, scores) ∧ records.length = scores.length ∧
      StrictlyAscending records ∧
      ∀ c s, (c, s) ∈ records.zip scores ↔ Occurs (wordText lines) term c ∧ s = total (wordText lines) term c % 2 ^ 16 := by
  obtain ⟨t, Bf, r, es2, ht, hI⟩ := h.read
  unfold queryWords
  rw [ht, resolve_plain C hp]
  simp only [Outcome.bind]
  by_cases hm : term ∈ vocab
  · have hlt := List.idxOf_lt_length_iff.mpr hm
    rw [if_pos hm, hI.words h.input (Nat.le_refl _) hlt hf, if_pos rfl]
    have hmem := h.input.rangeMem (Nat.le_refl (vocab.idxOf term)) hlt rfl
    refine ⟨_, _, rfl, by simp, ?_, ?_⟩
    · refine strictly_of (h.input.rangeOrdered _ _) (vocab.idxOf term) fun p hp => ?_
      have := ((hmem p).mp hp).1
      omega
    · intro c s
      rw [zip_maps, occurs_id h.input.words]
      constructor
      · rintro ⟨p, hp, rfl, rfl⟩
        obtain ⟨h1, h2, h3⟩ := (hmem p).mp hp
        have hw : p.word = vocab.idxOf term := by omega
        rw [hw] at h2 h3
        exact ⟨⟨hm, h2⟩, by rw [h3, total_id h.input.words hm]⟩
      · rintro ⟨⟨_, h2⟩, rfl⟩
        refine ⟨⟨c, vocab.idxOf term, score16 (wordIds vocab lines) (vocab.idxOf term) c⟩,
          (hmem _).mpr ⟨⟨Nat.le_refl _, Nat.le_refl _⟩, h2, rfl⟩, rfl, total_id h.input.words hm c⟩
  · rw [if_neg hm]
    refine ⟨[], [], rfl, rfl, List.Pairwise.nil, fun c s => ?_⟩
    rw [occurs_id h.input.words]
    simp [hm]

/-! ### Prefixes -/

/-- The blocks of words follow the vocabulary: no word has a greater prefix than a later one. -/
def PrefixSorted (gt : Str → Str → Bool) (vocab : List Str) : Prop :=
  ∀ (i j : Nat) u v, i < j → vocab[i]? = some u → vocab[j]? = some v → gt u v = false

/-- C73 for a prefix: if at most one word begins with it (as far as the primary sort keys tell) or no such word is short,
exactly the records that contain a word that begins with the prefix are found, once for each word; otherwise there is an exception.
Partial: for the conditions on the last weight see C49; the full statement has no exception. -/
theorem C73_prefix_partial (h : Index short gt vocab kb lines cb name vec file) (hgt : PrefixSorted gt vocab)
    (c : Collation.Collator) (N : Str → Prop) (hc : c.Laws N) (set : List Str) (pre : Str) (last : Nat)
    (hvoc : Collation.CreatedFrom (Collation.simple c) set vocab) (hpre : pre ≠ [])
    (hlast : (c.key .primary pre).getLast? = some last) (h255 : last < 255) {fuel : Nat} (hf : Enough vec fuel) :
    ((∀ u v, u ∈ vocab → v ∈ vocab → c.key .primary pre <+: c.key .primary u → c.key .primary pre <+: c.key .primary v →
        u = v ∨ short u = false) →
      ∃ l, Lists (fun w record score => c.key .primary pre <+: c.key .primary w ∧ Occurs (wordText lines) w record ∧
          score = total (wordText lines) w record % 2 ^ 16) l ∧
        queryWords fuel (Collation.simple c) vocab kb file (pre ++ ['*']) = .ok (l.map (·.2.1), l.map (·.2.2))) ∧
    ((∃ u v, u ∈ vocab ∧ v ∈ vocab ∧ c.key .primary pre <+: c.key .primary u ∧ c.key .primary pre <+: c.key .primary v ∧
        u ≠ v ∧ short u = true) →
      queryWords fuel (Collation.simple c) vocab kb file (pre ++ ['*']) = .throw) := by
  obtain ⟨t, Bf, r, es2, ht, hI⟩ := h.read
  have hn : vocab.length < 2 ^ 64 := by
    have := vocab_length h.input.words
    have := h.input.count
    omega
  obtain ⟨ok, lo, hi, h1, h2, h3⟩ := C49.full_text_partial c N hc set vocab pre last hvoc hn hpre hlast h255
  have hq : queryWords fuel (Collation.simple c) vocab kb file (pre ++ ['*']) =
      wordPostings fuel file t (if ok then .words lo hi else .nothing) := by
    unfold queryWords resolve
    rw [ht, if_neg (by simp), if_pos (by simp), h1]
    rfl
  rw [hq]
  have hin : ∀ w, w ∈ vocab ↔ w ∈ set := fun w => hvoc.1.mem_iff
  cases ok with
  | false =>
    have hno : ∀ w ∈ vocab, ¬ c.key .primary pre <+: c.key .primary w := by
      intro w hw hw'
      exact absurd (h2.mpr ⟨w, (hin w).mp hw, hw'⟩) (by simp)
    constructor
    · intro _
      refine ⟨[], ⟨List.nodup_nil, List.Pairwise.nil, fun w record score => ?_⟩, rfl⟩
      simp only [List.not_mem_nil, false_iff]
      rintro ⟨h4, h5, _⟩
      exact hno w ((occurs_id h.input.words w record).mp h5).1 h4
    · rintro ⟨u, _, hu, _, hu', _⟩
      exact absurd hu' (hno u hu)
  | true =>
    have h3' := h3 rfl
    rw [if_pos rfl]
    have hget : ∀ w, w ∈ vocab → vocab[vocab.idxOf w]? = some w := by
      intro w hw
      have hlt := List.idxOf_lt_length_iff.mpr hw
      rw [List.getElem?_eq_getElem hlt, List.getElem_idxOf hlt]
    obtain ⟨w0, hw0, hw0'⟩ := h2.mp rfl
    have hw0v := (hin w0).mpr hw0
    have h4 := (h3' _ _ (hget w0 hw0v)).mpr hw0'
    have hle : lo ≤ hi := by omega
    have hhi : hi < vocab.length := by
      have := hI
      refine Classical.byContradiction fun hge => ?_
      -- the last position is part of the vocabulary since the range has been checked
      unfold Collation.fullTextPrefix at h1
      rw [List.getLast?_append, List.getLast?_singleton, Option.some_or] at h1
      simp only [ne_eq, not_true_eq_false, if_false] at h1
      cases hr : Collation.prefixRange (Collation.simple c) vocab (pre ++ ['*']).dropLast with
      | ok rr =>
        rw [hr] at h1
        simp only [Outcome.bind] at h1
        by_cases hcond : decide (rr.2 > rr.1) = true ∧ ¬ (rr.1 < vocab.length ∧ (rr.2 + 2 ^ 64 - 1) % 2 ^ 64 < vocab.length)
        · rw [if_pos hcond] at h1; cases h1
        · rw [if_neg hcond] at h1
          injection h1 with h1
          simp only [Prod.mk.injEq] at h1
          obtain ⟨e1, e2, e3⟩ := h1
          refine hcond ⟨e1, ?_⟩
          rintro ⟨_, h6⟩
          rw [e3] at h6
          exact hge h6
      | throw => rw [hr] at h1; cases h1
      | ub => rw [hr] at h1; cases h1
      | diverge => rw [hr] at h1; cases h1
    have hsame := sameBlock_iff (short := short) hle hhi hgt
    rw [hI.words h.input hle hhi hf]
    constructor
    · intro hcond
      have hs : wordBlockId (boundaries short gt vocab) lo = wordBlockId (boundaries short gt vocab) hi := by
        rw [hsame]
        refine Classical.byContradiction fun hno => ?_
        rw [not_or] at hno
        obtain ⟨hne, hno⟩ := hno
        refine hno fun i v hi1 hi2 hv => ?_
        have hvm := List.mem_of_getElem? hv
        have hvp := (h3' i v hv).mp ⟨hi1, hi2⟩
        -- another word of the range
        have hother : ∀ (j : Nat), lo ≤ j → j ≤ hi → j ≠ i → short v = false := by
          intro j hj1 hj2 hji
          have hj : vocab[j]? = some vocab[j] := List.getElem?_eq_getElem (by omega)
          rcases hcond v vocab[j] hvm (List.getElem_mem _) hvp ((h3' j _ hj).mp ⟨hj1, hj2⟩) with h6 | h6
          · refine absurd ?_ hji
            have hi' : vocab[i]'(by omega) = v := by
              have := List.getElem?_eq_getElem (l := vocab) (i := i) (by omega)
              rw [this] at hv; exact Option.some.inj hv
            have e1 := h.input.words.1.idxOf_getElem i (by omega)
            have e2 := h.input.words.1.idxOf_getElem j (by omega)
            rw [hi'] at e1
            rw [← h6] at e2
            omega
          · exact h6
        by_cases hil : i = lo
        · exact hother hi hle (Nat.le_refl _) (by omega)
        · exact hother lo (Nat.le_refl _) hle (fun h => hil h.symm)
      rw [if_pos hs]
      have hmem := h.input.rangeMem hle hhi hs
      have hword : ∀ p ∈ rangePostings short gt vocab vec lo hi, ∃ w, w ∈ vocab ∧ vocab[p.word]? = some w ∧ vocab.idxOf w = p.word := by
        intro p hp
        have := ((hmem p).mp hp).1
        have hlt : p.word < vocab.length := by omega
        exact ⟨vocab[p.word], List.getElem_mem hlt, List.getElem?_eq_getElem hlt, h.input.words.1.idxOf_getElem p.word hlt⟩
      refine ⟨(rangePostings short gt vocab vec lo hi).map fun p => ((vocab[p.word]?).getD [], p.ctx, p.score), ⟨?_, ?_, ?_⟩, ?_⟩
      · unfold List.Nodup
        rw [List.pairwise_map]
        refine List.Pairwise.imp_of_mem ?_ (h.input.rangeOrdered lo hi)
        intro a b ha hb hab he
        simp only [Prod.mk.injEq] at he
        obtain ⟨w1, _, q1, i1⟩ := hword a ha
        obtain ⟨w2, _, q2, i2⟩ := hword b hb
        rw [q1, q2] at he
        have e1 : w1 = w2 := he.1
        rw [e1] at i1
        omega
      · rw [List.pairwise_map]
        exact (h.input.rangeOrdered lo hi).imp fun {a b} h => by simp only; omega
      · intro w record score
        rw [List.mem_map]
        constructor
        · rintro ⟨p, hp, he⟩
          simp only [Prod.mk.injEq] at he
          obtain ⟨e1, rfl, rfl⟩ := he
          obtain ⟨w', hw', q, i⟩ := hword p hp
          rw [q] at e1
          have e1' : w' = w := e1
          subst e1'
          obtain ⟨h6, h7, h8⟩ := (hmem p).mp hp
          rw [← i] at h7 h8
          exact ⟨(h3' _ _ q).mp h6, (occurs_id h.input.words w' p.ctx).mpr ⟨hw', h7⟩, by rw [h8, total_id h.input.words hw']⟩
        · rintro ⟨h6, h7, rfl⟩
          obtain ⟨hw, h8⟩ := (occurs_id h.input.words w record).mp h7
          refine ⟨⟨record, vocab.idxOf w, score16 (wordIds vocab lines) (vocab.idxOf w) record⟩, (hmem _).mpr ⟨?_, h8, rfl⟩, ?_⟩
          · exact (h3' _ _ (hget w hw)).mpr h6
          · simp only [hget w hw, Option.getD_some, total_id h.input.words hw]
      · rw [List.map_map, List.map_map]
        rfl
    · rintro ⟨u, v, hu, hv, hu', hv', huv, hshort⟩
      rw [if_neg]
      rw [hsame]
      rintro (h6 | h6)
      · have e1 := (h3' _ _ (hget u hu)).mpr hu'
        have e2 := (h3' _ _ (hget v hv)).mpr hv'
        exact huv (idxOf_inj hu (by omega))
      · have e1 := (h3' _ _ (hget u hu)).mpr hu'
        have := h6 _ _ e1.1 e1.2 (hget u hu)
        rw [this] at hshort
        cases hshort

/-! ### Entities -/

/-- C73 for an entity: it is found in exactly the records that contain it.  Partial: not if the entity is lost, see
`C73_entity_lost_violated`. -/
theorem C73_entity_partial (h : Index short gt vocab kb lines cb name vec file) (C : Collation.Comparator) {term : Str}
    (hp : IsEntity term) {e : Nat} (he : kb term = some e) (ht : HasText kb lines e) (hl : ¬ Lost kb lines vocab.length e)
    {fuel : Nat} (hf : Enough vec fuel) :
    ∃ records scores, queryWords fuel C vocab kb file term = .ok (records, scores) ∧ records.length = scores.length ∧
      StrictlyAscending records ∧
      ∀ c s, (c, s) ∈ records.zip scores ↔ Occurs (entityText kb lines) e c ∧ s = total (entityText kb lines) e c % 2 ^ 16 := by
  obtain ⟨t, Bf, r, es2, hr, hI⟩ := h.read
  unfold queryWords
  rw [hr, resolve_entity C hp, he]
  simp only [Outcome.bind]
  rw [hI.entityWords h.input ((lost_iff hI e).mpr ⟨ht, hl⟩) hf]
  refine ⟨_, _, rfl, by simp, ?_, ?_⟩
  · exact strictly_of (h.input.orderedCl _) e fun p hp => ((h.input.entityCl e p).mp hp).1
  · intro c s
    rw [zip_maps]
    constructor
    · rintro ⟨p, hp, rfl, rfl⟩
      exact ((h.input.entityCl e p).mp hp).2
    · rintro ⟨h1, h2⟩
      exact ⟨⟨c, e, s⟩, (h.input.entityCl e _).mpr ⟨rfl, h1, h2⟩, rfl, rfl⟩

/-- What happens for all other entities, that is those without text and those that are lost: nothing is found if a greater entity
has text and is not lost; otherwise the code reads behind the end of a list. -/
theorem C73_entity_other (h : Index short gt vocab kb lines cb name vec file) (C : Collation.Comparator) {term : Str}
    (hp : IsEntity term) {e : Nat} (he : kb term = some e) (hl : HasText kb lines e → Lost kb lines vocab.length e) (fuel : Nat) :
    ((∃ e', e ≤ e' ∧ HasText kb lines e' ∧ ¬ Lost kb lines vocab.length e') →
      queryWords fuel C vocab kb file term = .ok ([], [])) ∧
    ((¬ ∃ e', e ≤ e' ∧ HasText kb lines e' ∧ ¬ Lost kb lines vocab.length e') →
      queryWords fuel C vocab kb file term = .ub) := by
  obtain ⟨t, Bf, r, es2, hr, hI⟩ := h.read
  have hq : queryWords fuel C vocab kb file term = wordPostings fuel file t (.entity e) := by
    unfold queryWords
    rw [hr, resolve_entity C hp, he]
    rfl
  rw [hq]
  obtain ⟨h1, h2, _⟩ := hI.entitySpec h.input e
  have hiff : (∃ e' ∈ es2, e ≤ e') ↔ ∃ e', e ≤ e' ∧ HasText kb lines e' ∧ ¬ Lost kb lines vocab.length e' := by
    constructor
    · rintro ⟨e', h3, h4⟩; exact ⟨e', h4, (lost_iff hI e').mp h3⟩
    · rintro ⟨e', h3, h4⟩; exact ⟨e', (lost_iff hI e').mpr h4, h3⟩
  have hno : e ∉ es2 := by
    rw [lost_iff hI]
    rintro ⟨h3, h4⟩
    exact h4 (hl h3)
  unfold wordPostings
  dsimp only
  rw [← hiff]
  constructor
  · intro h3
    rw [h1 h3]
    simp [Outcome.bind, hno]
  · intro h3
    rw [h2 h3]
    rfl

/-- A name that the knowledge base does not know is not found. -/
theorem C73_entity_unknown (h : Index short gt vocab kb lines cb name vec file) (C : Collation.Comparator) {term : Str}
    (hp : IsEntity term) (he : kb term = none) (fuel : Nat) :
    queryWords fuel C vocab kb file term = .ok ([], []) ∧ queryEntities fuel C vocab kb file term = .ok ⟨[], [], []⟩ := by
  obtain ⟨t, Bf, r, es2, hr, hI⟩ := h.read
  unfold queryWords queryEntities
  rw [hr, resolve_entity C hp, he]
  exact ⟨rfl, rfl⟩

/-! ### Entities that occur with a word -/

/-- What a query for entities returns. -/
def tripleOf (l : List (Nat × Nat × Nat)) : FTS.Triple := ⟨l.map (·.2.1), l.map (·.1), l.map (·.2.2)⟩

/-- An entity in a record with its score. -/
def EntityIn (kb : Str → Option Nat) (lines : List Line) (e record score : Nat) : Prop :=
  Occurs (entityText kb lines) e record ∧ score = total (entityText kb lines) e record % 2 ^ 16

/-- C73: the entities that are found with a word are exactly those of the records that contain the word, provided there is one. -/
theorem C73_entities_partial (h : Index short gt vocab kb lines cb name vec file) (C : Collation.Comparator) {term : Str}
    (hp : Plain term) (hex : ∃ e c, Occurs (entityText kb lines) e c ∧ Occurs (wordText lines) term c) {fuel : Nat}
    (hf : Enough vec fuel) :
    ∃ l, Lists (fun e c s => EntityIn kb lines e c s ∧ Occurs (wordText lines) term c) l ∧
      queryEntities fuel C vocab kb file term = .ok (tripleOf l) := by
  obtain ⟨t, Bf, r, es2, ht, hI⟩ := h.read
  obtain ⟨e0, c0, h1, h2⟩ := hex
  obtain ⟨hm, h2'⟩ := (occurs_id h.input.words term c0).mp h2
  have hlt := List.idxOf_lt_length_iff.mpr hm
  have hmem := h.input.coMem (Nat.le_refl (vocab.idxOf term)) hlt rfl
  refine ⟨triples (coPostings short gt vocab vec (vocab.idxOf term) (vocab.idxOf term)),
    triples_lists (h.input.coOrdered _ _) _ ?_, ?_⟩
  · intro p
    rw [hmem]
    unfold EntityIn
    rw [occurs_id h.input.words, and_assoc]
    refine and_congr_right fun _ => and_congr_right fun _ => ?_
    constructor
    · rintro ⟨w, hw1, hw2, hw3⟩
      have : w = vocab.idxOf term := by omega
      exact ⟨hm, this ▸ hw3⟩
    · rintro ⟨_, hw⟩
      exact ⟨_, Nat.le_refl _, Nat.le_refl _, hw⟩
  · unfold queryEntities
    rw [ht, resolve_plain C hp]
    simp only [Outcome.bind]
    rw [if_pos hm, hI.wordsEntities h.input (Nat.le_refl _) hlt hf, if_pos rfl, if_neg]
    · unfold tripleOf
      rw [(triples_maps _).1, (triples_maps _).2.1, (triples_maps _).2.2]
    · intro h0
      have := (h.input.wordEl (wordBlockId_lt (boundaries_bounds short gt vocab) hlt)
        ⟨c0, e0, score16 (entityIds kb lines) e0 c0⟩).mpr ⟨h1, rfl, _, h2', rfl⟩
      rw [h0] at this
      simp at this

/-- Two words are in the same block: they are the same, or no short word is between them. -/
def Together (short : Str → Bool) (vocab : List Str) (i j : Nat) : Prop :=
  i = j ∨ ∀ (k : Nat) v, min i j ≤ k → k ≤ max i j → vocab[k]? = some v → short v = false

/-- If no entity occurs with the word, the list of entities is empty if one occurs with another word of the block; otherwise there is
an exception. -/
theorem C73_entities_none (h : Index short gt vocab kb lines cb name vec file) (hgt : PrefixSorted gt vocab)
    (C : Collation.Comparator) {term : Str} (hp : Plain term) (hm : term ∈ vocab)
    (hno : ¬ ∃ e c, Occurs (entityText kb lines) e c ∧ Occurs (wordText lines) term c) {fuel : Nat} (hf : Enough vec fuel) :
    ((∃ w e c, w ∈ vocab ∧ Together short vocab (vocab.idxOf term) (vocab.idxOf w) ∧ Occurs (entityText kb lines) e c ∧
        Occurs (wordText lines) w c) → queryEntities fuel C vocab kb file term = .ok ⟨[], [], []⟩) ∧
    ((¬ ∃ w e c, w ∈ vocab ∧ Together short vocab (vocab.idxOf term) (vocab.idxOf w) ∧ Occurs (entityText kb lines) e c ∧
        Occurs (wordText lines) w c) → queryEntities fuel C vocab kb file term = .throw) := by
  obtain ⟨t, Bf, r, es2, ht, hI⟩ := h.read
  have hlt := List.idxOf_lt_length_iff.mpr hm
  have htog : ∀ j, j < vocab.length → (Together short vocab (vocab.idxOf term) j ↔
      wordBlockId (boundaries short gt vocab) j = wordBlockId (boundaries short gt vocab) (vocab.idxOf term)) := by
    intro j hj
    unfold Together
    rcases Nat.le_total (vocab.idxOf term) j with hle | hle
    · rw [Nat.min_eq_left hle, Nat.max_eq_right hle, eq_comm (a := wordBlockId _ j), sameBlock_iff hle hj hgt]
    · rw [Nat.min_eq_right hle, Nat.max_eq_left hle, sameBlock_iff hle hlt hgt, eq_comm (a := j)]
  have hel : elOf (group vec (wordBlockId (boundaries short gt vocab) (vocab.idxOf term))) ≠ [] ↔
      ∃ w e c, w ∈ vocab ∧ Together short vocab (vocab.idxOf term) (vocab.idxOf w) ∧ Occurs (entityText kb lines) e c ∧
        Occurs (wordText lines) w c := by
    constructor
    · intro hne
      obtain ⟨p, hp⟩ := List.exists_mem_of_ne_nil _ hne
      obtain ⟨h1, _, i, h2, h3⟩ := (h.input.wordEl (wordBlockId_lt (boundaries_bounds short gt vocab) hlt) p).mp hp
      obtain ⟨l, hl, hle, hli, hlc⟩ := (occurs_word i p.ctx).mp h2
      have hw : l.word ∈ vocab := (h.input.words.2 _).mpr ⟨l, hl, hle, rfl⟩
      refine ⟨l.word, p.word, p.ctx, hw, (htog _ (List.idxOf_lt_length_iff.mpr hw)).mpr (by rw [hli]; exact h3), h1, ?_⟩
      exact (occurs_id h.input.words _ _).mpr ⟨hw, by rw [hli]; exact h2⟩
    · rintro ⟨w, e, c, hw, h1, h2, h3⟩ h0
      have := (h.input.wordEl (wordBlockId_lt (boundaries_bounds short gt vocab) hlt)
        ⟨c, e, score16 (entityIds kb lines) e c⟩).mpr
        ⟨h2, rfl, _, ((occurs_id h.input.words w c).mp h3).2, (htog _ (List.idxOf_lt_length_iff.mpr hw)).mp h1⟩
      rw [h0] at this
      simp at this
  have hq : queryEntities fuel C vocab kb file term = entityPostings fuel file t (.words (vocab.idxOf term) (vocab.idxOf term)) := by
    unfold queryEntities
    rw [ht, resolve_plain C hp]
    simp only [Outcome.bind]
    rw [if_pos hm]
  rw [hq, hI.wordsEntities h.input (Nat.le_refl _) hlt hf, if_pos rfl, ← hel]
  constructor
  · intro hne
    have hnil : coPostings short gt vocab vec (vocab.idxOf term) (vocab.idxOf term) = [] := by
      rw [List.eq_nil_iff_forall_not_mem]
      intro p hp
      obtain ⟨h1, _, w, hw1, hw2, h3⟩ := (h.input.coMem (Nat.le_refl _) hlt rfl p).mp hp
      have : w = vocab.idxOf term := by omega
      exact hno ⟨p.word, p.ctx, h1, (occurs_id h.input.words _ _).mpr ⟨hm, this ▸ h3⟩⟩
    rw [if_neg hne, hnil]
    rfl
  · intro hne
    rw [if_pos (Classical.not_not.mp hne)]

/-- C73 for entities that occur with an entity: exactly those of the records that contain it.  Partial: for an entity with text
that is not lost. -/
theorem C73_entities_entity_partial (h : Index short gt vocab kb lines cb name vec file) (C : Collation.Comparator) {term : Str}
    (hp : IsEntity term) {e : Nat} (he : kb term = some e) (ht : HasText kb lines e) (hl : ¬ Lost kb lines vocab.length e)
    (fuel : Nat) :
    ∃ l, Lists (fun e' c s => EntityIn kb lines e' c s ∧ Occurs (entityText kb lines) e c) l ∧
      queryEntities fuel C vocab kb file term = .ok (tripleOf l) := by
  obtain ⟨t, Bf, r, es2, hr, hI⟩ := h.read
  refine ⟨triples (elOf (group vec (e + (boundaries short gt vocab).length))), triples_lists (h.input.orderedEl _) _ ?_, ?_⟩
  · intro p
    rw [h.input.entityEl]
    unfold EntityIn
    rw [and_assoc]
    rfl
  · unfold queryEntities
    rw [hr, resolve_entity C hp, he]
    simp only [Outcome.bind]
    rw [hI.entityEntities h.input ((lost_iff hI e).mpr ⟨ht, hl⟩) (Nat.le_refl _) (fun _ _ h => h)]
    unfold tripleOf
    rw [(triples_maps _).1, (triples_maps _).2.1, (triples_maps _).2.2]

/-- C73 fails for an entity without text (and for one that is lost): the entities of the records of the next entity are
returned, although the entity asked for is in none of these records. -/
theorem C73_entities_next (h : Index short gt vocab kb lines cb name vec file) (C : Collation.Comparator) {term : Str}
    (hp : IsEntity term) {e e' : Nat} (he : kb term = some e) (hle : e ≤ e') (ht : HasText kb lines e')
    (hl : ¬ Lost kb lines vocab.length e')
    (hmin : ∀ e'', e ≤ e'' → HasText kb lines e'' → ¬ Lost kb lines vocab.length e'' → e' ≤ e'') (fuel : Nat) :
    ∃ l, Lists (fun x c s => EntityIn kb lines x c s ∧ Occurs (entityText kb lines) e' c) l ∧
      queryEntities fuel C vocab kb file term = .ok (tripleOf l) ∧ l ≠ [] := by
  obtain ⟨t, Bf, r, es2, hr, hI⟩ := h.read
  refine ⟨triples (elOf (group vec (e' + (boundaries short gt vocab).length))), triples_lists (h.input.orderedEl _) _ ?_, ?_, ?_⟩
  · intro p
    rw [h.input.entityEl]
    unfold EntityIn
    rw [and_assoc]
    rfl
  · unfold queryEntities
    rw [hr, resolve_entity C hp, he]
    simp only [Outcome.bind]
    rw [hI.entityEntities h.input ((lost_iff hI e').mpr ⟨ht, hl⟩) hle
      (fun e'' h1 h2 => hmin e'' h2 ((lost_iff hI e'').mp h1).1 ((lost_iff hI e'').mp h1).2)]
    unfold tripleOf
    rw [(triples_maps _).1, (triples_maps _).2.1, (triples_maps _).2.2]
  · unfold triples
    intro h0
    exact elOf_entity_ne h.input ((hasText_iff e').mp ht) (List.map_eq_nil_iff.mp h0)

/-! ### Two words -/

/-- C73 for two words: the entities found are exactly those of the records that contain both words, provided an entity occurs
with the word whose entities are read. -/
theorem C73_two_partial (h : Index short gt vocab kb lines cb name vec file) (C : Collation.Comparator) {a b : Str}
    (ha : Plain a) (hb : Plain b) (hex : ∃ e c, Occurs (entityText kb lines) e c ∧ Occurs (wordText lines) b c) {fuel : Nat}
    (hf : Enough vec fuel) :
    ∃ l, Lists (fun e c s => EntityIn kb lines e c s ∧ Occurs (wordText lines) a c ∧ Occurs (wordText lines) b c) l ∧
      queryTwo fuel C vocab kb file a b = .ok (tripleOf l) := by
  obtain ⟨t, Bf, r, es2, ht, hI⟩ := h.read
  obtain ⟨e0, c0, h1, h2⟩ := hex
  obtain ⟨hm, h2'⟩ := (occurs_id h.input.words b c0).mp h2
  have hlt := List.idxOf_lt_length_iff.mpr hm
  have hne : elOf (group vec (wordBlockId (boundaries short gt vocab) (vocab.idxOf b))) ≠ [] := by
    intro h0
    have := (h.input.wordEl (wordBlockId_lt (boundaries_bounds short gt vocab) hlt)
      ⟨c0, e0, score16 (entityIds kb lines) e0 c0⟩).mpr ⟨h1, rfl, _, h2', rfl⟩
    rw [h0] at this
    simp at this
  have hmem := h.input.coMem (Nat.le_refl (vocab.idxOf b)) hlt rfl
  have hco : ∀ p, p ∈ coPostings short gt vocab vec (vocab.idxOf b) (vocab.idxOf b) ↔
      EntityIn kb lines p.word p.ctx p.score ∧ Occurs (wordText lines) b p.ctx := by
    intro p
    rw [hmem]
    unfold EntityIn
    rw [occurs_id h.input.words, and_assoc]
    refine and_congr_right fun _ => and_congr_right fun _ => ?_
    constructor
    · rintro ⟨w, hw1, hw2, hw3⟩
      have : w = vocab.idxOf b := by omega
      exact ⟨hm, this ▸ hw3⟩
    · rintro ⟨_, hw⟩
      exact ⟨_, Nat.le_refl _, Nat.le_refl _, hw⟩
  -- the records of the other word
  have hwords : ∃ rc rs, wordPostings fuel file t (if a ∈ vocab then .words (vocab.idxOf a) (vocab.idxOf a) else .nothing) = .ok (rc, rs) ∧
      rc.Pairwise (· ≤ ·) ∧ rc.length ≤ vec.length ∧ ∀ c, c ∈ rc ↔ Occurs (wordText lines) a c := by
    by_cases hma : a ∈ vocab
    · have hlta := List.idxOf_lt_length_iff.mpr hma
      rw [if_pos hma, hI.words h.input (Nat.le_refl _) hlta hf, if_pos rfl]
      refine ⟨_, _, rfl, (h.input.rangeOrdered _ _).ctx, ?_, ?_⟩
      · rw [List.length_map]
        exact Nat.le_trans (List.length_filter_le _ _) (clOf_length _ _)
      · intro c
        rw [List.mem_map, occurs_id h.input.words]
        constructor
        · rintro ⟨p, hp, rfl⟩
          obtain ⟨h3, h4, _⟩ := (h.input.rangeMem (Nat.le_refl _) hlta rfl p).mp hp
          have : p.word = vocab.idxOf a := by omega
          exact ⟨hma, this ▸ h4⟩
        · rintro ⟨_, h3⟩
          exact ⟨⟨c, vocab.idxOf a, score16 (wordIds vocab lines) (vocab.idxOf a) c⟩,
            (h.input.rangeMem (Nat.le_refl _) hlta rfl _).mpr ⟨⟨Nat.le_refl _, Nat.le_refl _⟩, h3, rfl⟩, rfl⟩
    · rw [if_neg hma]
      refine ⟨[], [], rfl, List.Pairwise.nil, Nat.zero_le _, fun c => ?_⟩
      rw [occurs_id h.input.words]
      simp [hma]
  obtain ⟨rc, rs, hw, hsorted, hlen, hrc⟩ := hwords
  refine ⟨triples ((coPostings short gt vocab vec (vocab.idxOf b) (vocab.idxOf b)).filter fun p => decide (p.ctx ∈ rc)),
    triples_lists (ordered_filter (h.input.coOrdered _ _) _) _ ?_, ?_⟩
  · intro p
    rw [List.mem_filter, hco, decide_eq_true_eq, hrc]
    constructor
    · rintro ⟨⟨h3, h4⟩, h5⟩; exact ⟨h3, h5, h4⟩
    · rintro ⟨h3, h5, h4⟩; exact ⟨⟨h3, h4⟩, h5⟩
  · unfold queryTwo entityPostingsTwo
    rw [ht, resolve_plain C ha, resolve_plain C hb]
    simp only [Outcome.bind]
    rw [hw]
    simp only
    rw [if_pos hm, hI.wordsEntities h.input (Nat.le_refl _) hlt hf, if_pos rfl, if_neg hne]
    simp only
    have hlen2 : (coPostings short gt vocab vec (vocab.idxOf b) (vocab.idxOf b)).length ≤ vec.length :=
      Nat.le_trans (List.length_filter_le _ _) (elOf_length _ _)
    unfold Enough at hf
    rw [intersect_postings (h.input.coOrdered _ _) hsorted (by omega)]
    unfold tripleOf
    rw [(triples_maps _).1, (triples_maps _).2.1, (triples_maps _).2.2]

/-! ### Statistics -/

/-- The number of different elements. -/
def distinct (l : List Nat) : Nat := l.eraseDups.length

theorem pass_contexts (B : List Nat) (kb : Str → Option Nat) : ∀ (ls : List Line) (st : Pass),
    (st.cur :: ls.map Line.ctx).Pairwise (· ≤ ·) →
    (ls.foldl (Pass.step B vocab kb) st).nofContexts + 1 = st.nofContexts + distinct (st.cur :: ls.map Line.ctx)
  | [], st, _ => by simp [distinct, List.eraseDups_cons]
  | l :: ls, st, hs => by
    have hadd : ∀ st : Pass, (st.add vocab kb l).nofContexts = st.nofContexts ∧ (st.add vocab kb l).cur = st.cur := by
      intro st
      unfold Pass.add
      by_cases he : l.isEntity
      · rw [if_pos he]
        cases kb l.word <;> exact ⟨rfl, rfl⟩
      · rw [if_neg he]; exact ⟨rfl, rfl⟩
    simp only [List.map_cons] at hs
    obtain ⟨h1, h2⟩ := List.pairwise_cons.mp hs
    rw [List.foldl_cons]
    have hcur : (st.step B vocab kb l).cur = l.ctx := by
      unfold Pass.step
      rw [(hadd _).2]
      unfold Pass.change
      by_cases hc : l.ctx ≠ st.cur
      · rw [if_pos hc]
      · rw [if_neg hc]; exact (Classical.not_not.mp hc).symm
    have ih := pass_contexts B kb ls (st.step B vocab kb l) (by rw [hcur]; exact h2)
    rw [ih, hcur]
    have hn : (st.step B vocab kb l).nofContexts = st.nofContexts + (if l.ctx ≠ st.cur then 1 else 0) := by
      unfold Pass.step
      rw [(hadd _).1]
      unfold Pass.change
      by_cases hc : l.ctx ≠ st.cur
      · rw [if_pos hc, if_pos hc]
      · rw [if_neg hc, if_neg hc]; rfl
    rw [hn]
    unfold distinct
    rw [List.map_cons]
    by_cases hc : l.ctx = st.cur
    · rw [if_neg (by simp [hc]), hc, List.eraseDups_cons (a := st.cur) (as := st.cur :: ls.map Line.ctx)]
      rw [List.eraseDups_cons (a := st.cur) (as := ls.map Line.ctx)]
      simp
    · rw [if_pos hc, List.eraseDups_cons (a := st.cur)]
      have hfil : (l.ctx :: ls.map Line.ctx).filter (fun b => !(b == st.cur)) = l.ctx :: ls.map Line.ctx := by
        rw [List.filter_eq_self]
        intro b hb
        have h3 := h1 l.ctx (by simp)
        have h4 : l.ctx ≤ b := by
          rcases List.mem_cons.mp hb with rfl | hb'
          · exact Nat.le_refl _
          · exact (List.pairwise_cons.mp h2).1 b hb'
        simp only [Bool.not_eq_eq_eq_not, Bool.not_true, beq_eq_false_iff_ne]
        omega
      rw [hfil, List.length_cons]
      omega

/-- The statistics of the index: the number of entities that occur in the text is right; the number of text records is that of the
different numbers, but a record 0 is counted even if there is none. -/
theorem C73_statistics_partial (h : Index short gt vocab kb lines cb name vec file) :
    ∃ t, TextMeta.readFromFile file = .ok t ∧
      (∃ es : List Nat, es.Nodup ∧ (∀ e, e ∈ es ↔ HasText kb lines e) ∧ t.nofEntities = es.length) ∧
      t.nofTextRecords = distinct (0 :: lines.map Line.ctx) := by
  obtain ⟨t, Bf, r, es2, ht, hI⟩ := h.read
  refine ⟨t, ht, ⟨textEntities kb lines, ?_, fun e => (hasText_iff e).symm, hI.nofEntities⟩, ?_⟩
  · exact (textEntities_asc kb lines).imp fun h => by omega
  · rw [hI.nofRecords]
    have := pass_contexts (vocab := vocab) (boundaries short gt vocab) kb lines Pass.start (by
      rw [List.pairwise_cons, List.pairwise_map]
      exact ⟨fun _ _ => Nat.zero_le _, h.input.sorted⟩)
    have h0 : Pass.start.nofContexts = 0 := rfl
    have hc : Pass.start.cur = 0 := rfl
    rw [h0, hc] at this
    show (List.foldl (Pass.step (boundaries short gt vocab) vocab kb) Pass.start lines).nofContexts + 1 = _
    omega

/-! ### No words -/

/-- For a text without words the index cannot be built, unless the entity with number 0 occurs in it. -/
theorem C73_no_words (hw : ∀ l ∈ lines, l.isEntity = true) (h0 : ¬ HasText kb lines 0)
    (hs : lines.Pairwise fun a b => a.ctx ≤ b.ctx) (he : ∀ w e, kb w = some e → e < 2 ^ 63)
    (hvec : IsSortedVec (pass [] [] kb lines).out vec) :
    createTextIndex (boundaries short gt []) cb (pass (boundaries short gt []) [] kb lines) name vec = .throw := by
  have hno : ∀ w c, ¬ Occurs (wordIds [] lines) w c := by
    intro w c ho
    obtain ⟨l, hl, h1, _⟩ := (occurs_word w c).mp ho
    rw [hw l hl] at h1
    cases h1
  have hpass := pass_spec (B := []) (vocab := []) (kb := kb) hs (fun w c e c' h _ => absurd h (hno w c))
  have hblock : ∀ x ∈ vec, x.block ≠ 0 := by
    intro x hx hx0
    have hent : ∀ e c, Occurs (entityIds kb lines) e c → entityBlockId [] e ≠ 0 := by
      intro e c ho h1
      obtain ⟨l, _, _, hk, _⟩ := (occurs_entity e c).mp ho
      have := he _ _ hk
      unfold entityBlockId at h1
      rw [List.length_nil, Nat.add_zero, Nat.mod_eq_of_lt (by omega)] at h1
      exact h0 ⟨c, h1 ▸ ho⟩
    rcases (hpass.2 x).mp (hvec.1.mem_iff.mp hx) with h1 | h1 | h1
    · exact hno _ _ h1.2.1
    · exact hent _ _ h1.2.1 (h1.2.2.2 ▸ hx0)
    · rcases h1.2.2.2 with ⟨w, h2, _⟩ | ⟨e, h2, h3⟩
      · exact hno _ _ h2
      · exact hent _ _ h2 (h3 ▸ hx0)
  have hB : boundaries short gt [] = [] := rfl
  rw [hB]
  unfold createTextIndex
  cases vec with
  | nil => rfl
  | cons x xs =>
    have hx := hblock x (by simp)
    unfold Create.loop Create.step
    rw [if_pos (show x.block ≠ Create.start.cur from hx)]
    rfl

end

/-! ### Examples and violations -/

/-- A word with fewer than four characters. -/
def demoShort (w : Str) : Bool := decide (w.length < 4)

/-- Comparing the first four characters. -/
def demoGt (u v : Str) : Bool := decide (Collation.ascii.compare (u.take 4) (v.take 4) .primary > 0)

def demoCb : Codebooks := ⟨fun _ xs => xs.eraseDups, fun _ xs => xs.eraseDups⟩

/-- A knowledge base with a few entities. -/
def demoKb (w : Str) : Option Nat :=
  if w = "<a>".toList then some 2 else if w = "<b>".toList then some 5 else if w = "<c>".toList then some 4
  else if w = "<d>".toList then some 3 else if w = "<e>".toList then some 9 else none

def demoPass (vocab : List Str) (lines : List Line) : Pass := pass (boundaries demoShort demoGt vocab) vocab demoKb lines

def demoInsert (x : Tuple) : List Tuple → List Tuple
  | [] => [x]
  | y :: ys => if sortText y x then y :: demoInsert x ys else x :: y :: ys

def demoSort : List Tuple → List Tuple
  | [] => []
  | x :: xs => demoInsert x (demoSort xs)

theorem demoInsert_perm (x : Tuple) : ∀ l, (demoInsert x l).Perm (x :: l)
  | [] => List.Perm.refl _
  | y :: ys => by
    unfold demoInsert
    by_cases h : sortText y x = true
    · rw [if_pos h]
      exact ((demoInsert_perm x ys).cons y).trans (List.Perm.swap x y ys)
    · rw [if_neg h]

theorem demoSort_perm : ∀ l, (demoSort l).Perm l
  | [] => List.Perm.refl _
  | x :: xs => (demoInsert_perm x _).trans ((demoSort_perm xs).cons x)

def demoVec (vocab : List Str) (lines : List Line) : List Tuple := demoSort (demoPass vocab lines).out

def demoBuild (vocab : List Str) (lines : List Line) : Outcome (List Nat) :=
  createTextIndex (boundaries demoShort demoGt vocab) demoCb (demoPass vocab lines) [] (demoVec vocab lines)

/-- The file of a text. -/
def demoFile (vocab : List Str) (lines : List Line) : List Nat := match demoBuild vocab lines with | .ok f => f | _ => []

/-- The conditions that can be computed. -/
def demoCheck (vocab : List Str) (lines : List Line) : Bool :=
  decide vocab.Nodup && vocab.all (fun w => lines.any fun l => !l.isEntity && decide (l.word = w)) &&
  lines.all (fun l => l.isEntity || decide (l.word ∈ vocab)) && decide (lines.Pairwise fun a b => a.ctx ≤ b.ctx) &&
  lines.any (fun l => !l.isEntity) && lines.all (fun l => decide (l.ctx < 2 ^ 60)) && decide (lines.length < 2 ^ 60) &&
  decide ((demoVec vocab lines).Pairwise fun a b => sortText b a = false) && decide ((demoVec vocab lines).length < 2 ^ 60) &&
  (match demoBuild vocab lines with | .ok f => decide (f.length < 2 ^ 63) | _ => false)

/-- The text has the index file. -/
abbrev Demo (vocab : List Str) (lines : List Line) : Prop :=
  Index demoShort demoGt vocab demoKb lines demoCb [] (demoVec vocab lines) (demoFile vocab lines)

theorem demo {vocab : List Str} {lines : List Line} (h : demoCheck vocab lines = true) : Demo vocab lines := by
  unfold demoCheck at h
  simp only [Bool.and_eq_true, decide_eq_true_eq, List.all_eq_true, List.any_eq_true, Bool.or_eq_true, Bool.not_eq_eq_eq_not,
    Bool.not_true] at h
  obtain ⟨⟨⟨⟨⟨⟨⟨⟨⟨h1, h2⟩, h3⟩, h4⟩, h5⟩, h6⟩, h7⟩, h8⟩, h9⟩, h10⟩ := h
  refine ⟨⟨⟨h1, fun w => ⟨fun hw => ?_, ?_⟩⟩, h4, h5, h6, ?_, h7, by simp, ?_, ⟨demoSort_perm _, h8⟩, h9⟩, ?_, ?_⟩
  · obtain ⟨l, hl, ha, hb⟩ := h2 w hw
    exact ⟨l, hl, ha, hb⟩
  · rintro ⟨l, hl, ha, rfl⟩
    rcases h3 l hl with hb | hb
    · rw [ha] at hb; cases hb
    · exact hb
  · intro w e he
    unfold demoKb at he
    repeat (first | (split at he; · injection he; omega) | cases he)
  · intro off xs
    exact ⟨⟨Permutation.nodup_eraseDups' xs, fun x => List.mem_eraseDups⟩, ⟨Permutation.nodup_eraseDups' xs, fun x => List.mem_eraseDups⟩⟩
  · show demoBuild vocab lines = .ok (demoFile vocab lines)
    unfold demoFile
    cases hb : demoBuild vocab lines with
    | ok f => rfl
    | throw => rw [hb] at h10; cases h10
    | ub => rw [hb] at h10; cases h10
    | diverge => rw [hb] at h10; cases h10
  · unfold demoFile
    cases hb : demoBuild vocab lines with
    | ok f => rw [hb] at h10; simpa using h10
    | throw => rw [hb] at h10; cases h10
    | ub => rw [hb] at h10; cases h10
    | diverge => rw [hb] at h10; cases h10

def demoWords : List Str := ["moo".toList, "star".toList, "starts".toList]

def demoText : List Line :=
  [⟨"star".toList, false, 1, 3⟩, ⟨"<a>".toList, true, 1, 7⟩, ⟨"star".toList, false, 1, 4⟩, ⟨"starts".toList, false, 2, 1⟩,
   ⟨"moo".toList, false, 2, 1⟩, ⟨"<b>".toList, true, 2, 1⟩, ⟨"star".toList, false, 3, 65535⟩, ⟨"star".toList, false, 3, 2⟩]

def demoC : Collation.Comparator := Collation.simple Collation.ascii

example : Demo demoWords demoText ∧ Plain "star".toList ∧ IsEntity "<a>".toList ∧ HasText demoKb demoText 2 ∧
    (¬ Lost demoKb demoText demoWords.length 2) ∧ Enough (demoVec demoWords demoText) 100 ∧
    queryWords 100 demoC demoWords demoKb (demoFile demoWords demoText) "star*".toList = .ok ([1, 2, 3], [7, 1, 1]) ∧
    queryWords 100 demoC demoWords demoKb (demoFile demoWords demoText) "<a>".toList = .ok ([1], [7]) ∧
    queryEntities 100 demoC demoWords demoKb (demoFile demoWords demoText) "star".toList = .ok ⟨[1], [2], [7]⟩ ∧
    queryTwo 100 demoC demoWords demoKb (demoFile demoWords demoText) "moo".toList "starts".toList = .ok ⟨[2], [5], [1]⟩ :=
  ⟨demo (by decide +kernel), by unfold Plain; decide, by unfold IsEntity; decide, ⟨1, 7, by decide⟩,
    fun h => absurd h.1 (by decide), by unfold Enough; decide +kernel, by decide +kernel, by decide +kernel, by decide +kernel,
    by decide +kernel⟩

example : PrefixSorted demoGt demoWords ∧ Collation.CreatedFrom demoC demoWords demoWords ∧
    (Collation.ascii.key .primary "star".toList).getLast? = some 117 := by
  refine ⟨?_, ⟨List.Perm.refl _, by decide +kernel⟩, by decide +kernel⟩
  have h : ∀ i ∈ List.range 3, ∀ j ∈ List.range 3, i < j → ∀ u ∈ demoWords[i]?, ∀ v ∈ demoWords[j]?, demoGt u v = false := by decide +kernel
  intro i j u v hij hu hv
  have hj : j < 3 := by
    have := (List.getElem?_eq_some_iff.mp hv).1
    exact this
  exact h i (List.mem_range.mpr (by omega)) j (List.mem_range.mpr hj) hij u hu v hv

/-- C73 fails for total scores of 65536 and more: only 16 bits are kept. -/
theorem C73_score_violated : Demo demoWords demoText ∧ total (wordText demoText) "star".toList 3 = 65537 ∧
    queryWords 100 demoC demoWords demoKb (demoFile demoWords demoText) "star".toList = .ok ([1, 3], [7, 1]) :=
  ⟨demo (by decide +kernel), by decide +kernel, by decide +kernel⟩

/-- C73 fails for prefixes of a word with fewer than four characters that other words begin with. -/
theorem C73_prefix_violated : ∃ vocab lines, Demo vocab lines ∧ Occurs (wordText lines) "star".toList 0 ∧
    queryWords 100 demoC vocab demoKb (demoFile vocab lines) "sta*".toList = .throw :=
  ⟨["sta".toList, "star".toList], [⟨"star".toList, false, 0, 1⟩, ⟨"sta".toList, false, 0, 1⟩], demo (by decide +kernel),
    ⟨1, by decide⟩, by decide +kernel⟩

/-- C73 fails for lost entities: an entity is not found in the record that contains it, or the code reads behind the end of a list. -/
theorem C73_entity_lost_violated : (∃ lines, Demo demoWords lines ∧ Occurs (entityText demoKb lines) 3 0 ∧
      queryWords 100 demoC demoWords demoKb (demoFile demoWords lines) "<d>".toList = .ok ([], [])) ∧
    (∃ lines, Demo demoWords lines ∧ Occurs (entityText demoKb lines) 3 0 ∧
      queryWords 100 demoC demoWords demoKb (demoFile demoWords lines) "<d>".toList = .ub) :=
  ⟨⟨[⟨"<d>".toList, true, 0, 1⟩, ⟨"star".toList, false, 0, 1⟩, ⟨"starts".toList, false, 0, 1⟩, ⟨"moo".toList, false, 0, 1⟩,
      ⟨"<b>".toList, true, 1, 1⟩], demo (by decide +kernel), ⟨1, by decide⟩, by decide +kernel⟩,
   ⟨[⟨"<d>".toList, true, 0, 1⟩, ⟨"star".toList, false, 0, 1⟩, ⟨"starts".toList, false, 0, 1⟩, ⟨"moo".toList, false, 0, 1⟩],
      demo (by decide +kernel), ⟨1, by decide⟩, by decide +kernel⟩⟩

/-- C73 fails for an entity that no record contains: the entities of the records of the next one are returned, or the code reads behind the
end of a list. -/
theorem C73_entity_absent_violated : Demo demoWords demoText ∧ (¬ HasText demoKb demoText 4) ∧
    queryEntities 100 demoC demoWords demoKb (demoFile demoWords demoText) "<c>".toList = .ok ⟨[2], [5], [1]⟩ ∧
    queryWords 100 demoC demoWords demoKb (demoFile demoWords demoText) "<e>".toList = .ub ∧
    queryEntities 100 demoC demoWords demoKb (demoFile demoWords demoText) "<e>".toList = .ub := by
  refine ⟨demo (by decide +kernel), ?_, by decide +kernel, by decide +kernel, by decide +kernel⟩
  rintro ⟨c, s, hs⟩
  have : ∀ x ∈ entityText demoKb demoText, x.1 ≠ 4 := by decide
  exact this _ hs rfl

/-- C73 fails for a word with which no entity occurs: instead of no entities there is an exception. -/
theorem C73_entities_violated : ∃ vocab lines, Demo vocab lines ∧ Occurs (wordText lines) "star".toList 0 ∧
    queryEntities 100 demoC vocab demoKb (demoFile vocab lines) "star".toList = .throw :=
  ⟨["star".toList], [⟨"star".toList, false, 0, 1⟩], demo (by decide +kernel), ⟨1, by decide⟩, by decide +kernel⟩

/-- The number of text records is one too great if there is no record 0. -/
theorem C73_statistics_violated : Demo demoWords demoText ∧ distinct (demoText.map Line.ctx) = 3 ∧
    (TextMeta.readFromFile (demoFile demoWords demoText)).map TextMeta.nofTextRecords = .ok 4 :=
  ⟨demo (by decide +kernel), by decide +kernel, by decide +kernel⟩

/-- No index is built for a text without words. -/
example : ¬ HasText demoKb [⟨"<a>".toList, true, 0, 1⟩] 0 ∧ demoBuild [] [⟨"<a>".toList, true, 0, 1⟩] = .throw := by
  refine ⟨?_, by decide +kernel⟩
  rintro ⟨c, s, hs⟩
  have : ∀ x ∈ entityText demoKb [⟨"<a>".toList, true, 0, 1⟩], x.1 ≠ 0 := by decide
  exact this _ hs rfl

end Verif.TextIndex
