import Verif.Model.TextIndex
import Verif.Spec.TextIndex
import Verif.Props.C02_PostingLists
import Verif.Props.C29_TextMetaData
import Verif.Props.C35_C36_TextIntersection
import Verif.Lemmas.PermutationRel
/-
Lemmas about building the text index.
-/
namespace Verif.TextIndex
open Verif.PostingLists Verif.TextMetaData Verif.Spec.TextIndex

/-! ### Block boundaries -/

/-- The boundaries of the blocks for `n` words: ascending, and the last one is the last word. -/
structure Bounds (B : List Nat) (n : Nat) : Prop where
  asc : B.Pairwise (· < ·)
  lt : ∀ b ∈ B, b < n
  last : 0 < n → n - 1 ∈ B

theorem boundariesLoop_spec (short : Str → Bool) (gt : Str → Str → Bool) (rest : List Str) : ∀ i cur,
    (boundariesLoop short gt i cur rest).Pairwise (· < ·) ∧
    (∀ b ∈ boundariesLoop short gt i cur rest, i ≤ b ∧ b ≤ i + rest.length) ∧
    i + rest.length ∈ boundariesLoop short gt i cur rest := by
  induction rest with
  | nil => intro i cur; simp [boundariesLoop]
  | cons next rest ih =>
    intro i cur
    unfold boundariesLoop
    by_cases h : (short cur || short next || gt cur next) = true
    · rw [if_pos h]
      obtain ⟨h1, h2, h3⟩ := ih (i + 1) next
      refine ⟨List.pairwise_cons.mpr ⟨fun b hb => by have := h2 b hb; omega, h1⟩, ?_, ?_⟩
      · intro b hb
        rcases List.mem_cons.mp hb with rfl | hb
        · simp
        · have := h2 b hb; simp only [List.length_cons]; omega
      · refine List.mem_cons_of_mem _ ?_
        rw [List.length_cons, show i + (rest.length + 1) = i + 1 + rest.length by omega]; exact h3
    · rw [if_neg h]
      obtain ⟨h1, h2, h3⟩ := ih (i + 1) cur
      refine ⟨h1, ?_, ?_⟩
      · intro b hb
        have := h2 b hb; simp only [List.length_cons]; omega
      · rw [List.length_cons, show i + (rest.length + 1) = i + 1 + rest.length by omega]; exact h3

theorem boundaries_bounds (short : Str → Bool) (gt : Str → Str → Bool) (vocab : List Str) :
    Bounds (boundaries short gt vocab) vocab.length := by
  cases vocab with
  | nil => exact ⟨by simp [boundaries], by simp [boundaries], by simp⟩
  | cons w ws =>
    obtain ⟨h1, h2, h3⟩ := boundariesLoop_spec short gt ws 0 w
    refine ⟨h1, fun b hb => ?_, fun _ => ?_⟩
    · have := h2 b hb; simp only [List.length_cons]; omega
    · simpa [boundaries] using h3

theorem wordBlockId_iff {B : List Nat} (h : B.Pairwise (· < ·)) (w i : Nat) (hi : i < B.length) :
    i < wordBlockId B w ↔ B[i] < w := by
  induction B generalizing i with
  | nil => simp at hi
  | cons b B ih =>
    obtain ⟨h1, h2⟩ := List.pairwise_cons.mp h
    unfold wordBlockId
    by_cases hb : b < w
    · rw [List.filter_cons_of_pos (by simpa using hb), List.length_cons]
      cases i with
      | zero => simp [hb]
      | succ i =>
        have := ih h2 i (by simpa using hi)
        unfold wordBlockId at this
        rw [List.getElem_cons_succ, ← this]; omega
    · rw [List.filter_cons_of_neg (by simpa using hb)]
      have hn : (B.filter fun b => decide (b < w)) = [] := by
        rw [List.filter_eq_nil_iff]
        intro x hx
        have := h1 x hx
        simp only [decide_eq_true_eq]; omega
      rw [hn]
      cases i with
      | zero => simp [hb]
      | succ i =>
        have := h1 (B[i]'(by simpa using hi)) (List.getElem_mem _)
        simp only [List.length_nil, List.getElem_cons_succ]; omega

theorem wordBlockId_le (B : List Nat) (w : Nat) : wordBlockId B w ≤ B.length := List.length_filter_le _ _

/-- `std::lower_bound` in the boundaries is what the model takes for it. -/
theorem wordBlockId_lowerBound {B : List Nat} (h : B.Pairwise (· < ·)) (w : Nat) :
    lowerBound B w = .ok (wordBlockId B w) := by
  obtain ⟨k, h1, h2, h3⟩ := lowerBound_spec (h.imp Nat.le_of_lt) w
  rw [h1]
  congr 1
  have h4 := fun i hi => (h3 i hi).trans (wordBlockId_iff h w i hi).symm
  have h5 := wordBlockId_le B w
  rcases Nat.lt_trichotomy k (wordBlockId B w) with hlt | heq | hlt
  · have := (h4 k (by omega)).mpr hlt; omega
  · exact heq
  · have := (h4 (wordBlockId B w) (by omega)).mp hlt; omega

theorem wordBlockId_mono {B : List Nat} {v w : Nat} (h : v ≤ w) : wordBlockId B v ≤ wordBlockId B w := by
  unfold wordBlockId
  induction B with
  | nil => simp
  | cons b B ih =>
    by_cases hb : b < v
    · rw [List.filter_cons_of_pos (by simpa using hb), List.filter_cons_of_pos (by simp; omega)]
      simpa using ih
    · rw [List.filter_cons_of_neg (by simpa using hb)]
      by_cases hw : b < w
      · rw [List.filter_cons_of_pos (by simpa using hw)]; simp; omega
      · rw [List.filter_cons_of_neg (by simpa using hw)]; exact ih

theorem wordBlockId_lt {B : List Nat} {n : Nat} (h : Bounds B n) {w : Nat} (hw : w < n) : wordBlockId B w < B.length := by
  obtain ⟨i, hi, hb⟩ := List.mem_iff_getElem.mp (h.last (by omega))
  have := wordBlockId_iff h.asc w i hi
  have : ¬ i < wordBlockId B w := by rw [this, hb]; omega
  omega

/-- The words of a block: those after the boundary before it up to its boundary. -/
theorem wordBlockId_eq {B : List Nat} (h : B.Pairwise (· < ·)) {k : Nat} (hk : k < B.length) (w : Nat) :
    wordBlockId B w = k ↔ w ≤ B[k] ∧ ∀ j (hj : j < B.length), j < k → B[j] < w := by
  constructor
  · intro e
    have := wordBlockId_iff h w k hk
    refine ⟨by omega, fun j hj hjk => (wordBlockId_iff h w j hj).mp (by omega)⟩
  · rintro ⟨h1, h2⟩
    have h3 := wordBlockId_iff h w k hk
    have h4 : ¬ k < wordBlockId B w := by rw [h3]; omega
    rcases Nat.lt_or_ge (wordBlockId B w) k with hlt | hge
    · have := (wordBlockId_iff h w _ (by omega)).mpr (h2 _ (by omega) hlt); omega
    · omega

theorem wordBlockId_self {B : List Nat} (h : B.Pairwise (· < ·)) {k : Nat} (hk : k < B.length) :
    wordBlockId B B[k] = k :=
  (wordBlockId_eq h hk _).mpr ⟨Nat.le_refl _, fun j hj hjk => List.pairwise_iff_getElem.mp h j k hj hk hjk⟩

/-- No boundary separates words that are long enough. -/
theorem boundariesLoop_long (short : Str → Bool) (gt : Str → Str → Bool) (rest : List Str) : ∀ i cur word (lo hi : Nat),
    (short cur = true → cur = word) →
    (∀ (j : Nat) v, rest[j]? = some v → gt cur v = false) →
    (∀ (j k : Nat) u v, j < k → (word :: rest)[j]? = some u → (word :: rest)[k]? = some v → gt u v = false) →
    (∀ j : Nat, lo ≤ i + j → i + j ≤ hi → ∀ v, (word :: rest)[j]? = some v → short v = false) →
    hi ≤ i + rest.length →
    ∀ b ∈ boundariesLoop short gt i cur rest, ¬ (lo ≤ b ∧ b < hi) := by
  induction rest with
  | nil => intro i cur word lo hi _ _ _ _ h5 b hb; simp [boundariesLoop] at hb; simp at h5; omega
  | cons next rest ih =>
    intro i cur word lo hi h1 h2 h3 h4 h5 b hb
    unfold boundariesLoop at hb
    have h3' : ∀ (j k : Nat) u v, j < k → (next :: rest)[j]? = some u → (next :: rest)[k]? = some v → gt u v = false :=
      fun j k u v hjk hu hv => h3 (j + 1) (k + 1) u v (by omega) (by simpa using hu) (by simpa using hv)
    have h4' : ∀ j : Nat, lo ≤ i + 1 + j → i + 1 + j ≤ hi → ∀ v, (next :: rest)[j]? = some v → short v = false :=
      fun j hj1 hj2 v hv => h4 (j + 1) (by omega) (by omega) v (by simpa using hv)
    simp only [List.length_cons] at h5
    by_cases h : (short cur || short next || gt cur next) = true
    · rw [if_pos h] at hb
      rcases List.mem_cons.mp hb with rfl | hb
      · rintro ⟨hlo, hhi⟩
        have hw := h4 0 (by omega) (by omega) word rfl
        have hn := h4 1 (by omega) (by omega) next rfl
        have hc : short cur = false := by
          cases hs : short cur with
          | false => rfl
          | true => rw [h1 hs, hw] at hs; exact absurd hs (by simp)
        have hg := h2 0 next rfl
        simp [hc, hn, hg] at h
      · refine ih (i + 1) next next lo hi (fun _ => rfl) ?_ h3' h4' (by omega) b hb
        intro j v hv
        exact h3' 0 (j + 1) next v (by omega) rfl (by simpa using hv)
    · rw [if_neg h] at hb
      simp only [Bool.or_eq_true, not_or, Bool.not_eq_true] at h
      refine ih (i + 1) cur next lo hi (fun hs => by rw [h.1.1] at hs; exact absurd hs (by simp)) ?_ h3' h4' (by omega) b hb
      intro j v hv
      exact h2 (j + 1) v (by simpa using hv)

/-- A short word is a block of its own. -/
theorem boundariesLoop_short (short : Str → Bool) (gt : Str → Str → Bool) (rest : List Str) : ∀ i cur word (j : Nat) v,
    (short word = true → cur = word) → (word :: rest)[j]? = some v → short v = true →
    i + j ∈ boundariesLoop short gt i cur rest ∧ (0 < j → i + j - 1 ∈ boundariesLoop short gt i cur rest) := by
  induction rest with
  | nil =>
    intro i cur word j v _ hv _
    cases j with
    | zero => simp [boundariesLoop]
    | succ j => simp at hv
  | cons next rest ih =>
    intro i cur word j v h1 hv hs
    unfold boundariesLoop
    cases j with
    | zero =>
      simp at hv
      subst hv
      rw [if_pos (by rw [h1 hs, hs]; simp)]
      simp
    | succ j =>
      have hv' : (next :: rest)[j]? = some v := by simpa using hv
      by_cases h : (short cur || short next || gt cur next) = true
      · rw [if_pos h]
        obtain ⟨h2, h3⟩ := ih (i + 1) next next j v (fun _ => rfl) hv' hs
        rw [show i + 1 + j = i + (j + 1) by omega] at h2 h3
        refine ⟨List.mem_cons_of_mem _ h2, fun _ => ?_⟩
        by_cases hj : j = 0
        · subst hj; simp
        · exact List.mem_cons_of_mem _ (h3 (by omega))
      · rw [if_neg h]
        have hn : short next ≠ true := by
          intro h'; simp [h'] at h
        obtain ⟨h2, h3⟩ := ih (i + 1) cur next j v (fun h' => absurd h' hn) hv' hs
        rw [show i + 1 + j = i + (j + 1) by omega] at h2 h3
        refine ⟨h2, fun _ => ?_⟩
        by_cases hj : j = 0
        · subst hj
          simp at hv'
          subst hv'
          exact absurd hs hn
        · exact h3 (by omega)

/-- Two words are in the same block if and only if no boundary is between them. -/
theorem wordBlockId_same {B : List Nat} (h : B.Pairwise (· < ·)) {lo hi : Nat} (hle : lo ≤ hi) :
    wordBlockId B lo = wordBlockId B hi ↔ ∀ b ∈ B, ¬ (lo ≤ b ∧ b < hi) := by
  have hm := wordBlockId_mono (B := B) hle
  constructor
  · rintro e b hb ⟨h1, h2⟩
    obtain ⟨i, hi', rfl⟩ := List.mem_iff_getElem.mp hb
    have h3 := wordBlockId_iff h lo i hi'
    have h4 := (wordBlockId_iff h hi i hi').mpr h2
    have : ¬ i < wordBlockId B lo := by rw [h3]; omega
    omega
  · intro hno
    rcases Nat.lt_or_ge (wordBlockId B lo) (wordBlockId B hi) with h1 | h1
    · have hl : wordBlockId B lo < B.length := Nat.lt_of_lt_of_le h1 (wordBlockId_le _ _)
      have h2 := (wordBlockId_iff h hi _ hl).mp h1
      have h3 : ¬ B[wordBlockId B lo] < lo := by rw [← wordBlockId_iff h lo _ hl]; omega
      exact absurd ⟨by omega, h2⟩ (hno _ (List.getElem_mem hl))
    · omega

/-- The words of a range are in one block if and only if they are one word or all of them are long. -/
theorem sameBlock_iff {short : Str → Bool} {gt : Str → Str → Bool} {vocab : List Str} {lo hi : Nat} (hle : lo ≤ hi)
    (hhi : hi < vocab.length)
    (hgt : ∀ (i j : Nat) u v, i < j → vocab[i]? = some u → vocab[j]? = some v → gt u v = false) :
    wordBlockId (boundaries short gt vocab) lo = wordBlockId (boundaries short gt vocab) hi ↔
      lo = hi ∨ ∀ (i : Nat) v, lo ≤ i → i ≤ hi → vocab[i]? = some v → short v = false := by
  rw [wordBlockId_same (boundaries_bounds short gt vocab).asc hle]
  cases vocab with
  | nil => simp at hhi
  | cons w ws =>
    show (∀ b ∈ boundariesLoop short gt 0 w ws, _) ↔ _
    constructor
    · intro h
      by_cases heq : lo = hi
      · exact Or.inl heq
      · refine Or.inr fun i v h1 h2 hv => ?_
        cases hs : short v with
        | false => rfl
        | true =>
          obtain ⟨h3, h4⟩ := boundariesLoop_short short gt ws 0 w w i v (fun _ => rfl) hv hs
          rw [Nat.zero_add] at h3 h4
          by_cases hi' : i < hi
          · exact absurd ⟨h1, hi'⟩ (h i h3)
          · exact absurd ⟨by omega, by omega⟩ (h (i - 1) (h4 (by omega)))
    · rintro (rfl | h) b hb
      · omega
      · refine boundariesLoop_long short gt ws 0 w w lo hi (fun _ => rfl) ?_ hgt ?_ ?_ b hb
        · intro j v hv
          exact hgt 0 (j + 1) w v (by omega) rfl (by simpa using hv)
        · intro j h1 h2 v hv
          exact h j v (by omega) (by omega) hv
        · simp only [List.length_cons] at hhi; omega

/-! ### The pass over the lines -/

/-- The map `m` holds the sums of the scores of the occurrences `o`. -/
def Rep (m : List (Nat × Nat)) (o : List (Nat × Nat)) : Prop :=
  (m.map Prod.fst).Nodup ∧ ∀ i s, (i, s) ∈ m ↔ (∃ s', (i, s') ∈ o) ∧
    s = ((o.filter fun p => decide (p.1 = i)).map Prod.snd).sum % 2 ^ 16

theorem rep_nil : Rep [] [] := ⟨by simp, by simp⟩

theorem addScore_keys (id sc : Nat) (m : List (Nat × Nat)) (i : Nat) :
    i ∈ (addScore id sc m).map Prod.fst ↔ i = id ∨ i ∈ m.map Prod.fst := by
  induction m with
  | nil => simp [addScore]
  | cons p m ih =>
    obtain ⟨j, s⟩ := p
    unfold addScore
    by_cases h : j = id
    · rw [if_pos h]; subst h; simp
    · rw [if_neg h]
      simp only [List.map_cons, List.mem_cons, ih]
      constructor <;> (intro h'; rcases h' with h' | h' | h' <;> simp [h'])

theorem addScore_nodup (id sc : Nat) (m : List (Nat × Nat)) (h : (m.map Prod.fst).Nodup) :
    ((addScore id sc m).map Prod.fst).Nodup := by
  induction m with
  | nil => simp [addScore]
  | cons p m ih =>
    obtain ⟨j, s⟩ := p
    simp only [List.map_cons, List.nodup_cons] at h
    unfold addScore
    by_cases h' : j = id
    · rw [if_pos h']; simpa using h
    · rw [if_neg h']
      simp only [List.map_cons, List.nodup_cons]
      exact ⟨by rw [addScore_keys]; simp [h', h.1], ih h.2⟩

theorem addScore_mem (id sc : Nat) (m : List (Nat × Nat)) (h : (m.map Prod.fst).Nodup) (i s : Nat) :
    (i, s) ∈ addScore id sc m ↔ (i ≠ id ∧ (i, s) ∈ m) ∨
      (i = id ∧ ((∃ s', (i, s') ∈ m ∧ s = (s' + sc) % 2 ^ 16) ∨ (i ∉ m.map Prod.fst ∧ s = sc % 2 ^ 16))) := by
  induction m with
  | nil => simp [addScore]
  | cons p m ih =>
    obtain ⟨j, t⟩ := p
    simp only [List.map_cons, List.nodup_cons] at h
    have ih := ih h.2
    unfold addScore
    by_cases h' : j = id
    · subst h'
      rw [if_pos rfl]
      have hm : ∀ x, (j, x) ∉ m := fun x hx => h.1 (List.mem_map.mpr ⟨_, hx, rfl⟩)
      by_cases hi : i = j
      · subst hi; simp [hm]
      · simp [hi]
    · rw [if_neg h']
      by_cases hi : i = id
      · subst hi
        simp only [List.mem_cons, Prod.mk.injEq, ih, List.map_cons]
        simp [Ne.symm h']
      · simp only [List.mem_cons, Prod.mk.injEq, ih]
        simp [hi]

theorem addScore_rep {m o : List (Nat × Nat)} (h : Rep m o) (id sc : Nat) : Rep (addScore id sc m) (o ++ [(id, sc)]) := by
  refine ⟨addScore_nodup id sc m h.1, fun i s => ?_⟩
  rw [addScore_mem id sc m h.1]
  by_cases hi : i = id
  · subst hi
    have hf : ((o ++ [(i, sc)]).filter fun p => decide (p.1 = i)) = (o.filter fun p => decide (p.1 = i)) ++ [(i, sc)] := by
      simp [List.filter_append]
    rw [hf, List.map_append, List.sum_append]
    simp only [ne_eq, not_true_eq_false, false_and, true_and, false_or, List.mem_append, List.mem_singleton]
    have hex : (∃ s', (i, s') ∈ o ∨ (i, s') = (i, sc)) := ⟨sc, Or.inr rfl⟩
    simp only [hex, true_and, List.map_cons, List.map_nil, List.sum_cons, List.sum_nil, Nat.add_zero]
    by_cases ho : ∃ s', (i, s') ∈ o
    · have hm := (h.2 i _).mpr ⟨ho, rfl⟩
      have huniq : ∀ s', (i, s') ∈ m → s' = ((o.filter fun p => decide (p.1 = i)).map Prod.snd).sum % 2 ^ 16 :=
        fun s' hs' => ((h.2 i s').mp hs').2
      constructor
      · rintro (⟨s', h1, h2⟩ | ⟨h1, _⟩)
        · rw [h2, huniq s' h1]; omega
        · exact absurd (List.mem_map.mpr ⟨_, hm, rfl⟩) h1
      · intro h2
        exact Or.inl ⟨_, hm, by rw [h2]; omega⟩
    · have hno : (o.filter fun p => decide (p.1 = i)) = [] := by
        rw [List.filter_eq_nil_iff]
        rintro ⟨a, b⟩ hab
        simp only [decide_eq_true_eq]
        rintro rfl
        exact ho ⟨b, hab⟩
      rw [hno]
      have hnm : ∀ s', (i, s') ∉ m := fun s' hs' => ho ((h.2 i s').mp hs').1
      constructor
      · rintro (⟨s', h1, _⟩ | ⟨_, h2⟩)
        · exact absurd h1 (hnm s')
        · simpa using h2
      · intro h2
        refine Or.inr ⟨?_, by simpa using h2⟩
        intro hmem
        obtain ⟨⟨a, b⟩, hab, rfl⟩ := List.mem_map.mp hmem
        exact hnm b hab
  · have hf : ((o ++ [(id, sc)]).filter fun p => decide (p.1 = i)) = o.filter fun p => decide (p.1 = i) := by
      simp [List.filter_append, Ne.symm hi]
    rw [hf]
    simp only [hi, ne_eq, not_false_eq_true, true_and, false_and, or_false, h.2 i s]
    simp [hi]

/-- The occurrences in one record. -/
def inRecord (t : Text Nat) (c : Nat) : List (Nat × Nat) := (t.filter fun x => decide (x.2.1 = c)).map fun x => (x.1, x.2.2)

/-- The 16-bit score of an id in a record. -/
def score16 (t : Text Nat) (i c : Nat) : Nat := total t i c % 2 ^ 16

theorem mem_inRecord (t : Text Nat) (c i : Nat) : (∃ s, (i, s) ∈ inRecord t c) ↔ Occurs t i c := by
  unfold inRecord Occurs
  constructor
  · rintro ⟨s, hs⟩
    obtain ⟨⟨a, b, d⟩, h1, h2⟩ := List.mem_map.mp hs
    obtain ⟨h3, h4⟩ := List.mem_filter.mp h1
    simp only [decide_eq_true_eq] at h4
    simp only [Prod.mk.injEq] at h2
    obtain ⟨rfl, rfl⟩ := h2
    subst h4
    exact ⟨_, h3⟩
  · rintro ⟨s, hs⟩
    exact ⟨s, List.mem_map.mpr ⟨_, List.mem_filter.mpr ⟨hs, by simp⟩, rfl⟩⟩

theorem sum_inRecord (t : Text Nat) (c i : Nat) :
    (((inRecord t c).filter fun p => decide (p.1 = i)).map Prod.snd).sum = total t i c := by
  unfold inRecord total
  rw [List.filter_map, List.map_map, List.filter_filter]
  congr 2
  refine List.filter_congr ?_
  intro x _
  simp [Bool.decide_and]

theorem rep_inRecord {m : List (Nat × Nat)} {t : Text Nat} {c : Nat} (h : Rep m (inRecord t c)) (i s : Nat) :
    (i, s) ∈ m ↔ Occurs t i c ∧ s = score16 t i c := by
  rw [h.2, mem_inRecord, sum_inRecord]; rfl

/-- What is written for a text: `W` are the occurrences of words, `E` of entities, both as ids. -/
def Written (B : List Nat) (W E : Text Nat) (x : Tuple) : Prop :=
  (x.ent = false ∧ Occurs W x.word x.ctx ∧ x.score = score16 W x.word x.ctx ∧ x.block = wordBlockId B x.word) ∨
  (x.ent = false ∧ Occurs E x.word x.ctx ∧ x.score = score16 E x.word x.ctx ∧ x.block = entityBlockId B x.word) ∨
  (x.ent = true ∧ Occurs E x.word x.ctx ∧ x.score = score16 E x.word x.ctx ∧
    ((∃ w, Occurs W w x.ctx ∧ x.block = wordBlockId B w) ∨ ∃ e, Occurs E e x.ctx ∧ x.block = entityBlockId B e))

/-- The blocks of words and entities are different. -/
def Apart (B : List Nat) (W E : Text Nat) : Prop :=
  ∀ w c e c', Occurs W w c → Occurs E e c' → wordBlockId B w ≠ entityBlockId B e

theorem mem_addContext {B : List Nat} {W E : Text Nat} {c : Nat} {words entities : List (Nat × Nat)}
    (hw : Rep words (inRecord W c)) (he : Rep entities (inRecord E c)) (x : Tuple) :
    x ∈ addContext B c words entities ↔ x.ctx = c ∧ Written B W E x := by
  obtain ⟨k, c', i, s, en⟩ := x
  unfold addContext
  simp only [List.mem_append, List.mem_map, List.mem_flatMap, List.mem_eraseDups, Prod.exists]
  constructor
  · rintro ((⟨a, b, h1, h2⟩ | ⟨a, b, h1, h2⟩) | ⟨k', h0, a, b, h1, h2⟩)
    · simp only [Tuple.mk.injEq] at h2
      obtain ⟨rfl, rfl, rfl, rfl, rfl⟩ := h2
      have := (rep_inRecord hw _ _).mp h1
      exact ⟨rfl, Or.inl ⟨rfl, this.1, this.2, rfl⟩⟩
    · simp only [Tuple.mk.injEq] at h2
      obtain ⟨rfl, rfl, rfl, rfl, rfl⟩ := h2
      have := (rep_inRecord he _ _).mp h1
      exact ⟨rfl, Or.inr (Or.inl ⟨rfl, this.1, this.2, rfl⟩)⟩
    · simp only [Tuple.mk.injEq] at h2
      obtain ⟨rfl, rfl, rfl, rfl, rfl⟩ := h2
      have := (rep_inRecord he _ _).mp h1
      refine ⟨rfl, Or.inr (Or.inr ⟨rfl, this.1, this.2, ?_⟩)⟩
      rcases h0 with ⟨d, f, h3, h4⟩ | ⟨d, f, h3, h4⟩
      · exact Or.inl ⟨d, ((rep_inRecord hw _ _).mp h3).1, h4.symm⟩
      · exact Or.inr ⟨d, ((rep_inRecord he _ _).mp h3).1, h4.symm⟩
  · rintro ⟨hc, h⟩
    replace hc : c' = c := hc
    subst hc
    rcases h with ⟨h1, h2, h3, h4⟩ | ⟨h1, h2, h3, h4⟩ | ⟨h1, h2, h3, h4⟩
    · simp only at h1 h2 h3 h4
      exact Or.inl (Or.inl ⟨i, s, (rep_inRecord hw _ _).mpr ⟨h2, h3⟩, by rw [h1, h4]⟩)
    · simp only at h1 h2 h3 h4
      exact Or.inl (Or.inr ⟨i, s, (rep_inRecord he _ _).mpr ⟨h2, h3⟩, by rw [h1, h4]⟩)
    · simp only at h1 h2 h3 h4
      refine Or.inr ⟨k, ?_, i, s, (rep_inRecord he _ _).mpr ⟨h2, h3⟩, by rw [h1]⟩
      rcases h4 with ⟨d, h5, h6⟩ | ⟨d, h5, h6⟩
      · exact Or.inl ⟨d, _, (rep_inRecord hw _ _).mpr ⟨h5, rfl⟩, h6.symm⟩
      · exact Or.inr ⟨d, _, (rep_inRecord he _ _).mpr ⟨h5, rfl⟩, h6.symm⟩

theorem nodup_addContext {B : List Nat} {W E : Text Nat} {c : Nat} {words entities : List (Nat × Nat)}
    (hw : Rep words (inRecord W c)) (he : Rep entities (inRecord E c)) (ha : Apart B W E) :
    (addContext B c words entities).Nodup := by
  have hnd : ∀ m : List (Nat × Nat), (m.map Prod.fst).Nodup → ∀ (f : Nat × Nat → Tuple), (∀ p, (f p).word = p.1) →
      (m.map f).Nodup := by
    intro m hm f hf
    unfold List.Nodup at hm ⊢
    rw [List.pairwise_map] at hm ⊢
    refine hm.imp ?_
    intro a b hab h
    have := congrArg Tuple.word h
    rw [hf, hf] at this
    exact hab this
  unfold addContext
  simp only
  rw [List.nodup_append, List.nodup_append]
  refine ⟨⟨hnd _ hw.1 _ (fun _ => rfl), hnd _ he.1 _ (fun _ => rfl), ?_⟩, ?_, ?_⟩
  · intro a ha' b hb' hab
    obtain ⟨p, hp, rfl⟩ := List.mem_map.mp ha'
    obtain ⟨q, hq, rfl⟩ := List.mem_map.mp hb'
    simp only [Tuple.mk.injEq] at hab
    exact ha _ c _ c ((rep_inRecord hw _ _).mp hp).1 ((rep_inRecord he _ _).mp hq).1 hab.1
  · unfold List.Nodup
    rw [List.pairwise_flatMap]
    refine ⟨fun k _ => hnd _ he.1 _ (fun _ => rfl), ?_⟩
    refine List.Pairwise.imp ?_ (Permutation.nodup_eraseDups' _)
    intro a b hab x hx y hy hxy
    subst hxy
    obtain ⟨p, hp, rfl⟩ := List.mem_map.mp hx
    obtain ⟨q, hq, hpq⟩ := List.mem_map.mp hy
    simp only [Tuple.mk.injEq] at hpq
    exact hab hpq.1.symm
  · intro a ha' b hb' hab
    obtain ⟨k, _, hk⟩ := List.mem_flatMap.mp hb'
    obtain ⟨q, hq, rfl⟩ := List.mem_map.mp hk
    subst hab
    rcases List.mem_append.mp ha' with h | h
    · obtain ⟨p, _, hp⟩ := List.mem_map.mp h; simp at hp
    · obtain ⟨p, _, hp⟩ := List.mem_map.mp h; simp at hp

/-- The occurrences of words, as ids. -/
def wordIds (vocab : List Str) (lines : List Line) : Text Nat :=
  (lines.filter fun l => !l.isEntity).map fun l => (vocab.idxOf l.word, l.ctx, l.score)

/-- The occurrences of entities of the knowledge base, as ids. -/
def entityIds (kb : Str → Option Nat) (lines : List Line) : Text Nat :=
  (lines.filter fun l => l.isEntity).filterMap fun l => (kb l.word).map fun e => (e, l.ctx, l.score)

/-- What holds after the lines `pre`. -/
structure Inv (B : List Nat) (W E : Text Nat) (st : Pass) : Prop where
  le : (∀ x ∈ W, x.2.1 ≤ st.cur) ∧ ∀ x ∈ E, x.2.1 ≤ st.cur
  words : Rep st.words (inRecord W st.cur)
  entities : Rep st.entities (inRecord E st.cur)
  nodup : st.out.Nodup
  mem : ∀ x, x ∈ st.out ↔ x.ctx < st.cur ∧ Written B W E x

theorem written_mono {B : List Nat} {W E W' E' : Text Nat} {x : Tuple}
    (hW : ∀ i, (Occurs W i x.ctx ↔ Occurs W' i x.ctx) ∧ score16 W i x.ctx = score16 W' i x.ctx)
    (hE : ∀ i, (Occurs E i x.ctx ↔ Occurs E' i x.ctx) ∧ score16 E i x.ctx = score16 E' i x.ctx) :
    Written B W E x ↔ Written B W' E' x := by
  unfold Written
  simp only [fun i => (hW i).1, fun i => (hW i).2, fun i => (hE i).1, fun i => (hE i).2]

theorem inRecord_nil {t : Text Nat} {c c' : Nat} (h : ∀ x ∈ t, x.2.1 ≤ c) (hc : c < c') : inRecord t c' = [] := by
  unfold inRecord
  rw [List.map_eq_nil_iff, List.filter_eq_nil_iff]
  intro x hx
  have := h x hx
  simp only [decide_eq_true_eq]; omega

theorem not_occurs {t : Text Nat} {c c' i : Nat} (h : ∀ x ∈ t, x.2.1 ≤ c) (hc : c < c') : ¬ Occurs t i c' := by
  rintro ⟨s, hs⟩
  have := h _ hs
  simp only at this; omega

theorem inv_change {B : List Nat} {W E : Text Nat} {st : Pass} (h : Inv B W E st) (ha : Apart B W E) {c : Nat}
    (hc : st.cur ≤ c) : Inv B W E (st.change B c) ∧ (st.change B c).cur = c := by
  unfold Pass.change
  by_cases hne : c ≠ st.cur
  · rw [if_pos hne]
    have hlt : st.cur < c := by omega
    refine ⟨⟨⟨fun x hx => ?_, fun x hx => ?_⟩, ?_, ?_, ?_, ?_⟩, rfl⟩
    · exact Nat.le_trans (h.le.1 x hx) hc
    · exact Nat.le_trans (h.le.2 x hx) hc
    · show Rep [] (inRecord W c); rw [inRecord_nil h.le.1 hlt]; exact rep_nil
    · show Rep [] (inRecord E c); rw [inRecord_nil h.le.2 hlt]; exact rep_nil
    · show (st.out ++ _).Nodup
      rw [List.nodup_append]
      refine ⟨h.nodup, nodup_addContext h.words h.entities ha, ?_⟩
      intro a ha' b hb' hab
      subst hab
      have h1 := ((h.mem a).mp ha').1
      have h2 := ((mem_addContext h.words h.entities a).mp hb').1
      omega
    · intro x
      show x ∈ st.out ++ _ ↔ _
      rw [List.mem_append, h.mem, mem_addContext h.words h.entities]
      constructor
      · rintro (⟨h1, h2⟩ | ⟨h1, h2⟩)
        · exact ⟨by show _ < c; omega, h2⟩
        · exact ⟨by show _ < c; omega, h2⟩
      · rintro ⟨_, h2⟩
        have hle : x.ctx ≤ st.cur := by
          rcases h2 with h' | h' | h' <;> obtain ⟨s, hs⟩ := h'.2.1
          · exact h.le.1 _ hs
          · exact h.le.2 _ hs
          · exact h.le.2 _ hs
        rcases Nat.lt_or_ge x.ctx st.cur with h' | h'
        · exact Or.inl ⟨h', h2⟩
        · exact Or.inr ⟨by omega, h2⟩
  · rw [if_neg hne]
    exact ⟨h, by omega⟩

theorem occurs_snoc {t : Text Nat} {i c s j d : Nat} (h : d ≠ c) : Occurs (t ++ [(i, c, s)]) j d ↔ Occurs t j d := by
  unfold Occurs
  simp [h]

theorem score_snoc {t : Text Nat} {i c s j d : Nat} (h : d ≠ c) : score16 (t ++ [(i, c, s)]) j d = score16 t j d := by
  unfold score16 total
  rw [List.filter_append]
  simp [Ne.symm h]

theorem inRecord_snoc (t : Text Nat) (i c s : Nat) : inRecord (t ++ [(i, c, s)]) c = inRecord t c ++ [(i, s)] := by
  simp [inRecord, List.filter_append]

theorem inv_add {B : List Nat} {vocab : List Str} {kb : Str → Option Nat} {pre : List Line} {st : Pass} {l : Line}
    (h : Inv B (wordIds vocab pre) (entityIds kb pre) st) (hc : st.cur = l.ctx) :
    Inv B (wordIds vocab (pre ++ [l])) (entityIds kb (pre ++ [l])) (st.add vocab kb l) ∧ (st.add vocab kb l).cur = l.ctx := by
  unfold Pass.add
  by_cases hl : l.isEntity = true
  · rw [if_pos hl]
    have hW : wordIds vocab (pre ++ [l]) = wordIds vocab pre := by simp [wordIds, List.filter_append, hl]
    cases hk : kb l.word with
    | none =>
      have hE : entityIds kb (pre ++ [l]) = entityIds kb pre := by simp [entityIds, List.filter_append, hl, hk]
      rw [hW, hE]
      exact ⟨⟨h.le, h.words, h.entities, h.nodup, h.mem⟩, hc⟩
    | some e =>
      have hE : entityIds kb (pre ++ [l]) = entityIds kb pre ++ [(e, l.ctx, l.score)] := by
        simp [entityIds, List.filter_append, hl, hk]
      rw [hW, hE]
      refine ⟨⟨⟨h.le.1, ?_⟩, h.words, ?_, h.nodup, ?_⟩, hc⟩
      · intro x hx
        rcases List.mem_append.mp hx with hx | hx
        · exact h.le.2 x hx
        · rw [List.mem_singleton.mp hx]; exact Nat.le_of_eq hc.symm
      · have := addScore_rep h.entities e l.score
        rw [hc] at this
        show Rep _ (inRecord _ st.cur)
        rw [hc, inRecord_snoc]; exact this
      · intro x
        show x ∈ st.out ↔ x.ctx < st.cur ∧ _
        rw [h.mem]
        refine and_congr_right fun hlt => ?_
        exact written_mono (fun i => ⟨Iff.rfl, rfl⟩)
          (fun i => ⟨(occurs_snoc (by omega)).symm, (score_snoc (by omega)).symm⟩)
  · rw [if_neg hl]
    have hE : entityIds kb (pre ++ [l]) = entityIds kb pre := by simp [entityIds, List.filter_append, hl]
    have hW : wordIds vocab (pre ++ [l]) = wordIds vocab pre ++ [(vocab.idxOf l.word, l.ctx, l.score)] := by
      simp [wordIds, List.filter_append, hl]
    rw [hW, hE]
    refine ⟨⟨⟨?_, h.le.2⟩, ?_, h.entities, h.nodup, ?_⟩, hc⟩
    · intro x hx
      rcases List.mem_append.mp hx with hx | hx
      · exact h.le.1 x hx
      · rw [List.mem_singleton.mp hx]; exact Nat.le_of_eq hc.symm
    · have := addScore_rep h.words (vocab.idxOf l.word) l.score
      rw [hc] at this
      show Rep _ (inRecord _ st.cur)
      rw [hc, inRecord_snoc]; exact this
    · intro x
      show x ∈ st.out ↔ x.ctx < st.cur ∧ _
      rw [h.mem]
      refine and_congr_right fun hlt => ?_
      exact written_mono (fun i => ⟨(occurs_snoc (by omega)).symm, (score_snoc (by omega)).symm⟩)
        (fun i => ⟨Iff.rfl, rfl⟩)

theorem apart_mono {B : List Nat} {vocab : List Str} {kb : Str → Option Nat} {pre post : List Line}
    (h : Apart B (wordIds vocab (pre ++ post)) (entityIds kb (pre ++ post))) :
    Apart B (wordIds vocab pre) (entityIds kb pre) := by
  rintro w c e c' ⟨s, hs⟩ ⟨s', hs'⟩
  refine h w c e c' ⟨s, ?_⟩ ⟨s', ?_⟩
  · simp only [wordIds, List.filter_append, List.map_append, List.mem_append]; exact Or.inl hs
  · simp only [entityIds, List.filter_append, List.filterMap_append, List.mem_append]; exact Or.inl hs'

theorem foldl_inv {B : List Nat} {vocab : List Str} {kb : Str → Option Nat} (post : List Line) :
    ∀ (pre : List Line) (st : Pass), Inv B (wordIds vocab pre) (entityIds kb pre) st →
    (∀ l ∈ post, st.cur ≤ l.ctx) → post.Pairwise (fun a b => a.ctx ≤ b.ctx) →
    Apart B (wordIds vocab (pre ++ post)) (entityIds kb (pre ++ post)) →
    Inv B (wordIds vocab (pre ++ post)) (entityIds kb (pre ++ post)) (post.foldl (Pass.step B vocab kb) st) := by
  induction post with
  | nil => intro pre st h _ _ _; simpa using h
  | cons l post ih =>
    intro pre st h hle hs ha
    obtain ⟨h1, h2⟩ := inv_change h (apart_mono ha) (hle l (by simp))
    obtain ⟨h3, h4⟩ := inv_add (l := l) h1 h2
    have := ih (pre ++ [l]) (st.step B vocab kb l) h3
      (fun l' hl' => by
        show ((st.change B l.ctx).add vocab kb l).cur ≤ _
        rw [h4]; exact (List.pairwise_cons.mp hs).1 l' hl')
      (List.pairwise_cons.mp hs).2 (by simpa using ha)
    simpa using this

/-- What the pass over sorted lines writes. -/
theorem pass_spec {B : List Nat} {vocab : List Str} {kb : Str → Option Nat} {lines : List Line}
    (hs : lines.Pairwise fun a b => a.ctx ≤ b.ctx) (ha : Apart B (wordIds vocab lines) (entityIds kb lines)) :
    (pass B vocab kb lines).out.Nodup ∧
    ∀ x, x ∈ (pass B vocab kb lines).out ↔ Written B (wordIds vocab lines) (entityIds kb lines) x := by
  have h0 : Inv B (wordIds vocab []) (entityIds kb []) Pass.start :=
    ⟨⟨by simp [wordIds], by simp [entityIds]⟩, rep_nil, rep_nil, by simp [Pass.start],
      fun x => by simp [Pass.start]⟩
  have h := foldl_inv lines [] Pass.start h0 (fun l _ => Nat.zero_le _) hs (by simpa using ha)
  simp only [List.nil_append] at h
  have h' := (inv_change (c := (lines.foldl (Pass.step B vocab kb) Pass.start).cur + 1) h ha (by omega)).1
  unfold Pass.change at h'
  rw [if_pos (by omega)] at h'
  refine ⟨h'.nodup, fun x => ?_⟩
  have := h'.mem x
  refine Iff.trans this ⟨fun h => h.2, fun h2 => ⟨?_, h2⟩⟩
  rcases h2 with h2 | h2 | h2 <;> obtain ⟨s, hs⟩ := h2.2.1
  · exact Nat.lt_succ_of_le (h.le.1 _ hs)
  · exact Nat.lt_succ_of_le (h.le.2 _ hs)
  · exact Nat.lt_succ_of_le (h.le.2 _ hs)

/-! ### Writing the blocks -/

theorem writePostings_pos {off : Nat} {ps : List Posting} {skip : Bool} {wcb scb b : List Nat} {m : Meta}
    (h : writePostings off ps skip wcb scb = .ok (b, m)) :
    m.startContextlist ≤ m.startWordlist ∧ m.startWordlist ≤ m.startScorelist ∧ m.startScorelist ≤ m.endByte ∧
      m.endByte = off + b.length ∧ m.nofElements = ps.length ∧ m.startContextlist = off ∧
      (skip = true → wcb.length ≤ 1 → m.startScorelist = m.startWordlist) := by
  unfold writePostings at h
  by_cases hp : ps = []
  · rw [if_pos hp] at h
    injection h with h
    injection h with h1 h2
    subst h1 h2
    simp [hp]
  · rw [if_neg hp] at h
    generalize hW : (if (!skip || decide (wcb.length > 1)) = true then
        (writeList (ps.map fun p => code wcb p.word)).map (writeCodebook 8 wcb ++ ·) else Outcome.ok []) = W at h
    cases h1 : writeList (contextList (ps.map Posting.ctx)) with
    | ok c =>
      rw [h1] at h
      cases W with
      | ok w =>
        cases h3 : writeList (ps.map fun p => code scb p.score % 2 ^ 16) with
        | ok s =>
          rw [h3] at h
          simp only [Outcome.bind, Outcome.map] at h
          injection h with h
          injection h with h4 h5
          subst h4 h5
          refine ⟨by simp, by simp, by simp, by simp; omega, by simp, by simp, fun h1 h2 => ?_⟩
          rw [if_neg (by simp [h1]; omega)] at hW
          injection hW with hW
          subst hW
          simp
        | throw => rw [h3] at h; simp [Outcome.bind, Outcome.map] at h
        | ub => rw [h3] at h; simp [Outcome.bind, Outcome.map] at h
        | diverge => rw [h3] at h; simp [Outcome.bind, Outcome.map] at h
      | throw => simp [Outcome.bind] at h
      | ub => simp [Outcome.bind] at h
      | diverge => simp [Outcome.bind] at h
    | throw => rw [h1] at h; simp [Outcome.bind] at h
    | ub => rw [h1] at h; simp [Outcome.bind] at h
    | diverge => rw [h1] at h; simp [Outcome.bind] at h

/-- The postings of a list can be written. -/
structure Writable (ps : List Posting) : Prop where
  sorted : (ps.map Posting.ctx).Pairwise (· ≤ ·)
  ctx : ∀ p ∈ ps, p.ctx < 2 ^ 60
  word : ∀ p ∈ ps, p.word < 2 ^ 64
  score : ∀ p ∈ ps, p.score < 2 ^ 16
  length : ps.length < 2 ^ 60

/-- What can be read from a file at the position `c` of a posting list. -/
structure ReadsAs (file : List Nat) (c : CtxList) (ps : List Posting) (skip : Bool) : Prop where
  cids : ∀ post, readCids (file ++ post) c = .ok (ps.map Posting.ctx)
  wids : multiple c = true → ∀ post, readWids (file ++ post) c = .ok (ps.map Posting.word)
  single : multiple c = false → ps ≠ [] → skip = true ∧ ∃ w, ∀ p ∈ ps, p.word = w
  noWids : multiple c = false → ∀ post, readWids (file ++ post) c = .throw
  empty : ps = [] → multiple c = false
  same : skip = true → (∃ w, ∀ p ∈ ps, p.word = w) → multiple c = false
  scores : ps ≠ [] → ∀ post, readScores (file ++ post) c = .ok (ps.map Posting.score)
  wf : c.WF

theorem ReadsAs.append {file : List Nat} {c : CtxList} {ps : List Posting} {skip : Bool} (h : ReadsAs file c ps skip)
    (more : List Nat) : ReadsAs (file ++ more) c ps skip :=
  ⟨fun post => by rw [List.append_assoc]; exact h.cids _, fun hm post => by rw [List.append_assoc]; exact h.wids hm _,
    h.single, fun hm post => by rw [List.append_assoc]; exact h.noWids hm _, h.empty, h.same,
    fun hne post => by rw [List.append_assoc]; exact h.scores hne _, h.wf⟩

theorem write_spec {cb : Codebooks} (hcb : cb.Right) (file : List Nat) {ps : List Posting} (hw : Writable ps)
    (skip : Bool) : ∃ b c, cb.write file ps skip = .ok (file ++ b, c) ∧ (ps ≠ [] → b ≠ []) ∧
      ((file ++ b).length < 2 ^ 63 → ReadsAs (file ++ b) c ps skip ∧
        ((file ++ b) ≠ [] → c.lastByte + 1 = (file ++ b).length)) := by
  by_cases hp : ps = []
  · subst hp
    refine ⟨[], ctxList ⟨0, file.length, file.length, file.length, file.length⟩, ?_, by simp, ?_⟩
    · simp [Codebooks.write, writePostings, Outcome.map]
    · intro hl
      simp only [List.append_nil] at hl ⊢
      refine ⟨⟨fun post => ?_, fun hm => ?_, fun _ h => absurd rfl h, fun _ post => ?_, fun _ => by simp [multiple, ctxList],
        fun _ _ => by simp [multiple, ctxList], fun h => absurd rfl h, ?_⟩, ?_⟩
      · simp [readCids, ctxList, readGap, Bytes.toArr, decodeInto, Simple8b.decodeLoop, sumUp]
      · simp [multiple, ctxList] at hm
      · simp [readWids, ctxList, readFreq]
      · refine ⟨by simp [ctxList], ?_, ?_, ?_, ?_⟩ <;> simp only [ctxList] <;> omega
      · intro hne
        have := List.length_pos_iff.mpr hne
        simp only [ctxList]; omega
  · have key := fun post => C02_roundtrip ps skip (cb.word file.length (ps.map Posting.word))
      (cb.score file.length (ps.map Posting.score)) file post hp hw.sorted hw.ctx hw.word hw.score hw.length
      (hcb _ _).1 (hcb _ _).2
    obtain ⟨b, m, h1, h2, h3, h4, h5, h6⟩ := key []
    have key' : ∀ post, 
      readGap (file ++ b ++ post) m.nofElements m.startContextlist (m.startWordlist - m.startContextlist) =
        .ok (ps.map Posting.ctx) ∧
      (if m.hasMultipleWords then
        readFreq 8 (file ++ b ++ post) m.nofElements m.startWordlist (m.startScorelist - m.startWordlist) =
          .ok (ps.map Posting.word)
       else skip = true ∧ ∃ w, ∀ p ∈ ps, p.word = w) ∧
      readFreq 2 (file ++ b ++ post) m.nofElements m.startScorelist (m.endByte - m.startScorelist) =
        .ok (ps.map Posting.score) := by
      intro post
      obtain ⟨b', m', e1, _, _, e4, e5, e6⟩ := key post
      rw [h1] at e1
      injection e1 with e1
      injection e1 with e1 e2
      subst e1 e2
      exact ⟨e4, e5, e6⟩
    obtain ⟨p1, p2, p3, p4, p5, p6, p7⟩ := writePostings_pos h1
    have hpos : m.startScorelist < m.endByte := by
      rcases Nat.lt_or_ge m.startScorelist m.endByte with h | h
      · exact h
      · rw [show m.endByte - m.startScorelist = 0 by omega] at h6
        simp [readFreq] at h6
    have hbne : b ≠ [] := by
      rintro rfl
      simp only [List.length_nil] at p4
      omega
    refine ⟨b, ctxList m, by simp [Codebooks.write, h1, Outcome.map], fun _ => hbne, fun hl => ?_⟩
    rw [List.length_append] at hl
    have hend : ((ctxList m).lastByte + 1) % 2 ^ 64 = m.endByte := by simp only [ctxList]; omega
    have hmul : multiple (ctxList m) = m.hasMultipleWords := rfl
    refine ⟨⟨fun post => (key' post).1, fun hm post => ?_, fun hm _ => ?_, fun hm post => ?_, fun h => absurd h hp,
      fun hsk ⟨w, hw'⟩ => ?_, fun _ post => ?_, ?_⟩, ?_⟩
    · have := (key' post).2.1
      rw [if_pos (by rw [← hmul]; exact hm)] at this
      exact this
    · have := (key' []).2.1
      rw [if_neg (by rw [← hmul, hm]; simp)] at this
      exact this
    · have : m.startScorelist - m.startWordlist = 0 := by
        have : ¬ m.startScorelist > m.startWordlist := by simpa [multiple, ctxList] using hm
        omega
      simp [readWids, ctxList, readFreq, this]
    · have hcw := (hcb file.length (ps.map Posting.word)).1
      have hle : (cb.word file.length (ps.map Posting.word)).length ≤ 1 := by
        have hall : ∀ x ∈ cb.word file.length (ps.map Posting.word), x = w := by
          intro x hx
          obtain ⟨p, hp', rfl⟩ := List.mem_map.mp ((hcw.2 x).mp hx)
          exact hw' p hp'
        have hnd := hcw.1
        generalize cb.word file.length (ps.map Posting.word) = l at hall hnd
        match l, hall, hnd with
        | [], _, _ => simp
        | [a], _, _ => simp
        | a :: b :: l, hall, hnd =>
          rw [hall a (by simp), hall b (by simp)] at hnd
          simp at hnd
      have := p7 hsk hle
      have hm : multiple (ctxList m) = decide (m.startScorelist > m.startWordlist) := rfl
      rw [hm, this]; simp
    · have := (key' post).2.2
      unfold readScores
      rw [hend]
      exact this
    · have := hw.length
      refine ⟨?_, ?_, ?_, ?_, ?_⟩ <;> simp only [ctxList] <;> omega
    · intro _
      rw [List.length_append]; simp only [ctxList]; omega

end Verif.TextIndex
