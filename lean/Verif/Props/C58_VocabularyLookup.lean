import Verif.Lemmas.CollationExample
import Verif.Props.C31_VocabularyMerger
/-
C58: every word of the vocabulary is found under its own id, and no other word is found.
-/
namespace Verif.C58
open Verif.Collation Verif.CollationSpec Verif.VocabularySpec
open Verif.ExternalVocabulary (Word Fits)
open Verif.VocabularyMerger (WordsOk isInternal Correct Result Item load wordsOf storedOf)

/-- The order of the vocabulary: `TripleComponentComparator` at the level TOTAL. -/
abbrev order (c : Collator) (a b : Word) : Int := tripleCompare c a b .total

/-- A term of the index: literals have a closing quote, the compared part is normalised. -/
def Term (N : Word → Prop) (w : Word) : Prop := w ≠ [] ∧ Closed w ∧ N (content w)

/-! ### The order -/

theorem order_eq (c : Collator) (a b : Word) : order c a b =
    thenCmp firstCmp (thenCmp lexCmp (thenCmp bytesCmp bytesCmp)) (kind a, c.key .identical (content a), tag a, content a)
      (kind b, c.key .identical (content b), tag b, content b) := by
  show splitCompare _ _ _ _ _ = _
  unfold splitCompare thenCmp
  rw [extract_eq, extract_eq]
  dsimp only [Collator.compare, Level.strength]
  by_cases h1 : firstCmp (kind a) (kind b) ≠ 0
  · rw [if_pos h1, if_pos h1]
  · rw [if_neg h1, if_neg h1]
    by_cases h2 : lexCmp (c.key .identical (content a)) (c.key .identical (content b)) ≠ 0
    · rw [if_pos (Or.inl h2), if_pos h2]
    · rw [if_neg (by simpa using h2), if_neg h2]

theorem order_laws : Cmp3 (thenCmp firstCmp (thenCmp lexCmp (thenCmp bytesCmp bytesCmp))) :=
  firstCmp_laws.thenCmp (lexCmp_laws.thenCmp (bytesCmp_laws.thenCmp bytesCmp_laws))

theorem order_self (c : Collator) (a : Word) : order c a a = 0 := by rw [order_eq]; exact order_laws.self _

theorem order_trans (c : Collator) {a b d : Word} (h1 : order c a b < 0) (h2 : order c b d < 0) : order c a d < 0 := by
  rw [order_eq] at *; exact order_laws.trans _ _ _ h1 h2

/-- C58: the comparison of the vocabulary is a total order of the terms; in particular different terms never compare equal. -/
theorem total_order (c : Collator) (N : Word → Prop) : OrderOn (Term N) (order c) := by
  refine ⟨fun a b ha hb => ?_, fun a b _ _ => ?_, fun a b d _ _ _ => order_trans c⟩
  · rw [order_eq, order_laws.eq]
    simp only [Prod.mk.injEq]
    constructor
    · rintro ⟨h1, _, h3, h4⟩
      exact split_inj ha.2.1 hb.2.1 ha.1 hb.1 h1 h4 h3
    · rintro rfl; exact ⟨rfl, rfl, rfl, rfl⟩
  · rw [order_eq, order_eq]; exact order_laws.flip _ _

-- Terms that differ in the case or in the language tag only.
example : Term (fun _ => True) ['"', 'a', '"', '@', 'e', 'n'] ∧ Term (fun _ => True) ['"', 'a', '"'] ∧
    order ascii ['"', 'a', '"'] ['"', 'a', '"', '@', 'e', 'n'] < 0 ∧ order ascii ['"', 'a', '"', '@', 'e', 'n'] ['"', 'A', '"'] < 0 := by
  refine ⟨⟨by decide, by decide, trivial⟩, ⟨by decide, by decide, trivial⟩, by decide +kernel, by decide +kernel⟩

/-- Words without closing quote are not terms: they compare equal to the literal. -/
theorem total_order_open : order ascii ['"', 'a'] ['"', 'a', '"'] = 0 := by decide +kernel

/-- C58: the comparison by which the partial vocabularies are sorted (split values with sort keys at the level IDENTICAL, compared at
TOTAL) agrees with the comparison by which they are merged and searched. -/
theorem item_order (c : Collator) (N : Word → Prop) (hc : c.Laws N) (a b : Word) (ha : N (content a)) (hb : N (content b)) :
    itemCompare c a b = order c a b := by
  have hk : ∀ s, c.sortKey s .identical = c.key .identical s := fun s => by simp [Collator.sortKey, Level.strength]
  rw [order_eq]
  unfold itemCompare keyCompare splitCompare thenCmp extractKey
  rw [extract_eq, extract_eq]
  dsimp only
  rw [hk, hk, strcmp_eq (fun x hx => ((hc.bytes _).2.2 x hx).1) (fun x hx => ((hc.bytes _).2.2 x hx).1)]
  by_cases h1 : firstCmp (kind a) (kind b) ≠ 0
  · rw [if_pos h1, if_pos h1]
  · rw [if_neg h1, if_neg h1]
    by_cases h2 : lexCmp (c.key .identical (content a)) (c.key .identical (content b)) ≠ 0
    · rw [if_pos (Or.inl h2), if_pos h2]
    · rw [if_neg (by simpa using h2), if_neg h2]
      by_cases h3 : bytesCmp (tag a) (tag b) ≠ 0
      · rw [if_pos h3, if_pos h3]
      · rw [if_neg h3, if_neg h3]
        have h4 : c.key .identical (content a) = c.key .identical (content b) := (lexCmp_eq _ _).mp (by simpa using h2)
        rw [h4, hc.normal _ _ ha hb h4, lexCmp_laws.self, bytesCmp_laws.self]

example : itemCompare ascii ['"', 'a', '"'] ['"', 'A', '"'] = order ascii ['"', 'a', '"'] ['"', 'A', '"'] ∧
    itemCompare ascii ['"', 'a', '"'] ['"', 'A', '"'] = -1 := by decide +kernel

/-- The words the index builder handles: terms whose first byte is at most 128. -/
def Stored (N : Word → Prop) (w : Word) : Prop := Term N w ∧ w.length < 2 ^ 64 ∧ kind w ≤ 128

/-- The comparison meets the requirements of C31. -/
theorem words_ok (c : Collator) (N : Word → Prop) : WordsOk (Stored N) (order c) := by
  refine ⟨?_, ?_, fun w h => h.1.1, ?_, fun w h => h.2.1⟩
  · have h := total_order c N
    exact ⟨fun a b ha hb => h.eq_zero a b ha.1 hb.1, fun a b ha hb => h.flip a b ha.1 hb.1,
      fun a b d ha hb hd => h.trans a b d ha.1 hb.1 hd.1⟩
  · intro x xs y ys _ _ h
    rw [order_eq]
    unfold thenCmp
    have : firstCmp (kind (x :: xs)) (kind (y :: ys)) < 0 := firstCmp_ne.2.mpr h
    dsimp only
    rw [if_pos (by omega)]
    exact this
  · intro x xs h; exact h.2.2

/-! ### Words in memory -/

/-- C58 for words in memory: a lookup answers whether the word is in the vocabulary, and gives its id, for every word. -/
theorem find_internal (c : Collator) (fuel : Nat) (v : Vocab) (w : Word) (hs : v.words.Pairwise fun a b => order c a b < 0)
    (hw : shouldBeExternalized v w = false) : ∃ r, getId (triple c) fuel v w = .ok r ∧ Finds v.words w r := by
  have hless : ∀ a, (triple c).less .total a w = true ↔ order c a w < 0 := by
    intro a
    unfold Comparator.less triple
    simp only [decide_eq_true_eq]
  obtain ⟨n, h1, h2, h3⟩ := partition_ok (p := fun a => (triple c).less .total a w) (l := v.words) (hs.imp (by
    intro a b h hb
    rw [hless] at *
    exact order_trans c h hb))
  have hmem : w ∈ v.words → v.words[n]? = some w := by
    intro hm
    obtain ⟨i, hi, rfl⟩ := List.mem_iff_getElem.mp hm
    have hge : ¬ i < n := by
      rw [h3 i _ (List.getElem?_eq_getElem hi), hless, order_self]; omega
    have hle : ¬ n < i := by
      intro hni
      have hn : n < v.words.length := by omega
      have h4 := (List.pairwise_iff_getElem.mp hs) n i hn hi hni
      have := (h3 n _ (List.getElem?_eq_getElem hn)).mpr ((hless _).mpr h4)
      omega
    have : n = i := by omega
    subst this
    exact List.getElem?_eq_getElem hi
  unfold getId Filter.lowerBound
  rw [hw, h1]
  simp only [Bool.not_false, if_true, Outcome.bind]
  by_cases hn : n < v.words.length
  · rw [if_pos hn, Outcome.read_lt _ _ hn]
    refine ⟨_, rfl, ?_⟩
    unfold Finds
    by_cases hm : w ∈ v.words
    · rw [if_pos hm]
      have := hmem hm
      rw [List.getElem?_eq_getElem hn] at this
      simp only [Option.some.injEq] at this
      exact ⟨by simp [this], by rw [List.getElem?_eq_getElem hn, this]⟩
    · rw [if_neg hm]
      have : v.words[n] ≠ w := fun h => hm (h ▸ List.getElem_mem hn)
      simp [this]
  · rw [if_neg hn]
    refine ⟨_, rfl, ?_⟩
    unfold Finds
    by_cases hm : w ∈ v.words
    · have := hmem hm
      rw [List.getElem?_eq_none (by omega)] at this
      cases this
    · rw [if_neg hm]

/-- The settings and words of the examples. -/
def exampleVocab (words : List Word) : Vocab := ⟨words, ⟨[], 0, 0⟩, [], [['e', 'n']]⟩

example : [['"', 'a', '"'], ['"', 'a', '"', '@', 'e', 'n'], ['"', 'A', '"'], ['<', 'x', '>']].Pairwise (fun a b => order ascii a b < 0) ∧
    getId (triple ascii) 9 (exampleVocab [['"', 'a', '"'], ['"', 'a', '"', '@', 'e', 'n'], ['"', 'A', '"'], ['<', 'x', '>']]) ['"', 'A', '"']
      = .ok (2, true) ∧
    getId (triple ascii) 9 (exampleVocab [['"', 'a', '"'], ['"', 'a', '"', '@', 'e', 'n'], ['"', 'A', '"'], ['<', 'x', '>']]) ['"', 'a']
      = .ok (0, false) := by decide +kernel

/-! ### Words on disk -/

/-- C58 for words on disk: a word that is there is found under its position behind the words in memory.  (For absent words see C30: the
binary search may leave the vocabulary.) -/
theorem find_external_partial (c : Collator) (N : Word → Prop) (v : Vocab) (ws : List Word) (w : Word)
    (hwords : ∀ x ∈ ws, Term N x) (hsorted : ws.Pairwise fun a b => order c a b < 0) (hfits : Fits ws)
    (hext : ExternalVocabulary.buildFromVector ws = .ok v.ext) (hsize : v.words.length + ws.length < 2 ^ 64) (fuel : Nat)
    (hf : ws.length + 1 < fuel) (hw : shouldBeExternalized v w = true) (i : Nat) (hi : ws[i]? = some w) :
    getId (triple c) fuel v w = .ok (v.words.length + i, true) := by
  have hm : w ∈ ws := List.mem_of_getElem? hi
  obtain ⟨ve, h1, h2⟩ := ExternalVocabulary.lookup_partial (Term N) (order c) ws w (total_order c N)
    (fun x hx => ⟨hwords x hx, (hwords x hx).1⟩) (hwords w hm) hsorted hfits ⟨w, hm, by rw [order_self]⟩
  rw [hext] at h1
  cases h1
  obtain ⟨r, h3, h4⟩ := h2 fuel hf
  unfold Finds at h4
  rw [if_pos hm] at h4
  have hri : r.1 = i := by
    obtain ⟨hl1, e1⟩ := List.getElem?_eq_some_iff.mp h4.2
    obtain ⟨hl2, e2⟩ := List.getElem?_eq_some_iff.mp hi
    rcases Nat.lt_trichotomy r.1 i with h | h | h
    · have := (List.pairwise_iff_getElem.mp hsorted) _ _ hl1 hl2 h
      rw [e1, e2, order_self] at this; omega
    · exact h
    · have := (List.pairwise_iff_getElem.mp hsorted) _ _ hl2 hl1 h
      rw [e1, e2, order_self] at this; omega
  unfold getId
  rw [hw]
  simp only [Bool.not_true, Bool.false_eq_true, if_false]
  have h5 : ExternalVocabulary.getId fuel (fun a b => (triple c).compare a b .total) v.ext w = .ok r := h3
  rw [h5]
  have hl := (List.getElem?_eq_some_iff.mp hi).1
  simp only [Outcome.map]
  rw [hri, h4.1, Nat.mod_eq_of_lt (by omega), Nat.add_comm]

/-- The literals `"a"@de` and `"b"@de` are on disk, with `<x>` in memory. -/
def diskVocab : Vocab :=
  ⟨[['<', 'x', '>']], ExternalVocabulary.vocabOf [['"', 'a', '"', '@', 'd', 'e'], ['"', 'b', '"', '@', 'd', 'e']], [], [['e', 'n']]⟩

example : (∀ x ∈ [['"', 'a', '"', '@', 'd', 'e'], ['"', 'b', '"', '@', 'd', 'e']], Term (fun _ => True) x) ∧
    [['"', 'a', '"', '@', 'd', 'e'], ['"', 'b', '"', '@', 'd', 'e']].Pairwise (fun a b => order ascii a b < 0) ∧
    Fits [['"', 'a', '"', '@', 'd', 'e'], ['"', 'b', '"', '@', 'd', 'e']] ∧
    ExternalVocabulary.buildFromVector [['"', 'a', '"', '@', 'd', 'e'], ['"', 'b', '"', '@', 'd', 'e']] = .ok diskVocab.ext ∧
    shouldBeExternalized diskVocab ['"', 'b', '"', '@', 'd', 'e'] = true ∧
    getId (triple ascii) 9 diskVocab ['"', 'b', '"', '@', 'd', 'e'] = .ok (2, true) := by
  refine ⟨?_, by decide +kernel, by decide, by decide +kernel, by decide, by decide +kernel⟩
  intro x hx
  simp only [List.mem_cons, List.not_mem_nil, or_false] at hx
  rcases hx with rfl | rfl
  · exact ⟨by decide, by decide, trivial⟩
  · exact ⟨by decide, by decide, trivial⟩

/-! ### From the input to the lookup -/

/-- The order of two words on disk is the order in which they were merged with their marks. -/
theorem shown_order (c : Collator) (N : Word → Prop) (hc : c.Laws N)
    (hmark : ∀ a b, c.key .identical (Char.ofNat 128 :: a) < c.key .identical (Char.ofNat 128 :: b) →
      c.key .identical ('<' :: a) < c.key .identical ('<' :: b))
    {a b : Word} (ha : Stored N a) (hb : Stored N b) (hae : isInternal a = false) (hbe : isInternal b = false) (h : order c a b < 0) :
    order c (shown a) (shown b) < 0 := by
  have cases : ∀ w, Stored N w → isInternal w = false → ∃ cs, w = Char.ofNat 127 :: cs ∨ w = Char.ofNat 128 :: cs := by
    intro w hw he
    cases w with
    | nil => exact absurd rfl hw.1.1
    | cons x xs =>
      simp only [isInternal, decide_eq_false_iff_not] at he
      have hk : x.toNat ≤ 128 := hw.2.2
      refine ⟨xs, ?_⟩
      have : x.toNat = 127 ∨ x.toNat = 128 := by omega
      rcases this with h | h
      · left; congr 1; rw [← Char.ofNat_toNat x, h]
      · right; congr 1; rw [← Char.ofNat_toNat x, h]
  have hlit : ∀ cs, content (Char.ofNat 127 :: cs) = content ('"' :: cs) ∧ tag (Char.ofNat 127 :: cs) = tag ('"' :: cs) := by
    intro cs
    unfold content tag
    have h1 : Quoted (Char.ofNat 127 :: cs) := Or.inr rfl
    have h2 : Quoted ('"' :: cs) := Or.inl rfl
    rw [if_pos h1, if_pos h2, if_pos h1, if_pos h2]
    exact ⟨rfl, rfl⟩
  have hent : ∀ x cs, x ≠ '"' → x ≠ Char.ofNat 127 → content (x :: cs) = x :: cs ∧ tag (x :: cs) = [] := by
    intro x cs h1 h2
    have : ¬ Quoted (x :: cs) := by
      rintro (h | h)
      · exact h1 (by simpa using h)
      · exact h2 (by simpa using h)
    unfold content tag
    rw [if_neg this, if_neg this]
    exact ⟨rfl, rfl⟩
  have hs127 : ∀ cs, shown (Char.ofNat 127 :: cs) = '"' :: cs := fun cs => rfl
  have hs128 : ∀ cs, shown (Char.ofNat 128 :: cs) = '<' :: cs := fun cs => rfl
  obtain ⟨as, ha'⟩ := cases a ha hae
  obtain ⟨bs, hb'⟩ := cases b hb hbe
  rw [order_eq] at h ⊢
  rcases ha' with rfl | rfl
  · rcases hb' with rfl | rfl
    · rw [hs127, hs127, ← (hlit as).1, ← (hlit as).2, ← (hlit bs).1, ← (hlit bs).2]
      unfold thenCmp at h ⊢
      exact h
    · rw [hs127, hs128]
      unfold thenCmp
      have : firstCmp (kind ('"' :: as)) (kind ('<' :: bs)) = -1 := rfl
      dsimp only
      rw [this, if_pos (by decide)]; decide
  · rcases hb' with rfl | rfl
    · unfold thenCmp at h
      have : firstCmp (kind (Char.ofNat 128 :: as)) (kind (Char.ofNat 127 :: bs)) = 1 := rfl
      dsimp only at h
      rw [this, if_pos (by decide)] at h
      exact absurd h (by decide)
    · rw [hs128, hs128]
      have e1 := hent (Char.ofNat 128) as (by decide) (by decide)
      have e2 := hent (Char.ofNat 128) bs (by decide) (by decide)
      have e3 := hent '<' as (by decide) (by decide)
      have e4 := hent '<' bs (by decide) (by decide)
      rw [e1.1, e1.2, e2.1, e2.2] at h
      rw [e3.1, e3.2, e4.1, e4.2]
      unfold thenCmp at h ⊢
      have f1 : firstCmp (kind (Char.ofNat 128 :: as)) (kind (Char.ofNat 128 :: bs)) = 0 := rfl
      have f2 : firstCmp (kind ('<' :: as)) (kind ('<' :: bs)) = 0 := rfl
      dsimp only at h ⊢
      rw [f1] at h
      rw [f2]
      simp only [ne_eq, not_true_eq_false, if_false] at h ⊢
      by_cases hk : lexCmp (c.key .identical (Char.ofNat 128 :: as)) (c.key .identical (Char.ofNat 128 :: bs)) = 0
      · have n1 := ha.1.2.2
        have n2 := hb.1.2.2
        rw [e1.1] at n1
        rw [e2.1] at n2
        have := hc.normal _ _ n1 n2 ((lexCmp_eq _ _).mp hk)
        rw [this] at h
        rw [lexCmp_laws.self] at h
        simp only [not_true_eq_false, if_false] at h
        rw [bytesCmp_laws.self, bytesCmp_laws.self] at h
        simp at h
      · rw [if_pos hk, lexCmp_lt] at h
        have := (lexCmp_lt _ _).mpr (hmark _ _ h)
        rw [if_pos (by omega)]
        exact this

/-- C58, from the input to the lookup: for an index built as in C31, a query that writes a word of the input as it is shown gets the id of
this word.  Hypotheses: the marks of words on disk agree with the test made by the lookup (see `mark_agrees`), and replacing the
mark byte 128 by `<` keeps the order of sort keys.  Partial: no word on disk occurs in two partial vocabularies (then it has two ids, see
C31). -/
theorem input_found_partial (c : Collator) (N : Word → Prop) (hc : c.Laws N) (parts : List (List (Fin 4 × Item))) (r : Result)
    (voc : List Word) (hcorrect : Correct (order c) parts r voc) (hfits : Fits (voc.map shown))
    (hvoc : ∀ w ∈ voc, Stored N w ∧ Closed (shown w) ∧ N (content (shown w)))
    (hmark : ∀ a b, c.key .identical (Char.ofNat 128 :: a) < c.key .identical (Char.ofNat 128 :: b) →
      c.key .identical ('<' :: a) < c.key .identical ('<' :: b))
    (hdup : ∀ w, External w → (parts.filter fun part => decide (w ∈ wordsOf (storedOf part))).length ≤ 1)
    (prefixes langs : List Word) :
    ∃ l, load r = .ok l ∧ (let v : Vocab := ⟨l.words, l.ext, prefixes, langs⟩
      (∀ w ∈ voc, shouldBeExternalized v (shown w) = !isInternal w) → ∀ fuel, voc.length + 1 < fuel → ∀ i w, voc[i]? = some w →
        getId (triple c) fuel v (shown w) = .ok (i, true)) := by
  obtain ⟨l, h1, h2, h3, _⟩ := hcorrect.loads hfits
  refine ⟨l, h1, ?_⟩
  intro v htest fuel hfuel i w hi
  have hlen : voc.length < 2 ^ 61 := by
    unfold Fits at hfits; simp only [List.length_map] at hfits; omega
  have hstrict : voc.Pairwise fun a b => order c a b < 0 := by
    rw [List.pairwise_iff_getElem]
    intro j k hj hk hjk
    have := (VocabularyMerger.ids_ordered_partial (Stored N) (order c) parts (words_ok c N) r voc hcorrect (fun w hw => (hvoc w hw).1)
      hdup j k _ _ (List.getElem?_eq_getElem hj) (List.getElem?_eq_getElem hk)).2
    exact this.mp hjk
  have hm : w ∈ voc := List.mem_of_getElem? hi
  have hlt := htest w hm
  have hsplit := hcorrect.split
  have hlenSplit : voc.length = (voc.filter isInternal).length + (voc.filter fun w => !isInternal w).length := by
    conv => lhs; rw [hsplit]
    rw [List.length_append]
  cases hin : isInternal w with
  | true =>
    rw [hin] at hlt
    have hsh : shown w = w := by
      cases w with
      | nil => rfl
      | cons x xs =>
        simp only [isInternal, decide_eq_true_eq] at hin
        rw [shown, if_neg (by omega), if_neg (by omega)]
    rw [hsh] at hlt ⊢
    have hws : v.words.Pairwise fun a b => order c a b < 0 := by
      show l.words.Pairwise _
      rw [h2]; exact hstrict.filter _
    obtain ⟨res, g1, g2⟩ := find_internal c fuel v w hws hlt
    have hmw : w ∈ v.words := by
      show w ∈ l.words
      rw [h2, List.mem_filter]; exact ⟨hm, hin⟩
    unfold Finds at g2
    rw [if_pos hmw] at g2
    rw [g1]
    have hres : res.1 = i := by
      have e1 : voc[res.1]? = some w := by
        rw [hsplit, List.getElem?_append_left]
        · rw [← h2]; exact g2.2
        · rw [← h2]; exact (List.getElem?_eq_some_iff.mp g2.2).1
      obtain ⟨hl1, e1⟩ := List.getElem?_eq_some_iff.mp e1
      obtain ⟨hl2, e2⟩ := List.getElem?_eq_some_iff.mp hi
      rcases Nat.lt_trichotomy res.1 i with h | h | h
      · have := (List.pairwise_iff_getElem.mp hstrict) _ _ hl1 hl2 h
        rw [e1, e2, order_self] at this; omega
      · exact h
      · have := (List.pairwise_iff_getElem.mp hstrict) _ _ hl2 hl1 h
        rw [e1, e2, order_self] at this; omega
    rw [← hres, ← g2.1]
  | false =>
    rw [hin] at hlt
    have hge : (voc.filter isInternal).length ≤ i := by
      by_contra hlt'
      have h5 : (voc.filter isInternal)[i]? = some w := by
        rw [hsplit, List.getElem?_append_left (by omega)] at hi; exact hi
      have := (List.mem_filter.mp (List.mem_of_getElem? h5)).2
      rw [hin] at this; cases this
    have hj : (voc.filter fun w => !isInternal w)[i - (voc.filter isInternal).length]? = some w := by
      rw [hsplit, List.getElem?_append_right hge] at hi; exact hi
    have hshowSorted : ((voc.filter fun w => !isInternal w).map shown).Pairwise fun a b => order c a b < 0 := by
      rw [List.pairwise_map]
      refine (hstrict.filter _).imp_of_mem fun {a b} ha hb h => ?_
      have ha' := List.mem_filter.mp ha
      have hb' := List.mem_filter.mp hb
      exact shown_order c N hc hmark (hvoc a ha'.1).1 (hvoc b hb'.1).1 (by simpa using ha'.2) (by simpa using hb'.2) h
    have hf2 : Fits ((voc.filter fun w => !isInternal w).map shown) := by
      have h0 := congrArg (fun l => (l.map shown).flatten.length) hsplit
      simp only [List.map_append, List.flatten_append, List.length_append] at h0
      unfold Fits at hfits ⊢
      simp only [List.length_map] at hfits ⊢
      omega
    have hwl : v.words.length = (voc.filter isInternal).length := by show l.words.length = _; rw [h2]
    have hlenE : ((voc.filter fun w => !isInternal w).map shown).length ≤ voc.length := by
      rw [List.length_map]; omega
    have := find_external_partial c N v ((voc.filter fun w => !isInternal w).map shown) (shown w)
      (by
        intro x hx
        obtain ⟨y, hy, rfl⟩ := List.mem_map.mp hx
        have hy' := hvoc y (List.mem_filter.mp hy).1
        refine ⟨?_, hy'.2.1, hy'.2.2⟩
        have := hy'.1.1.1
        cases y with
        | nil => exact absurd rfl this
        | cons x xs =>
          rw [shown]
          split
          · simp
          · split <;> simp)
      hshowSorted hf2 h3 (by rw [hwl, List.length_map]; omega) fuel (by omega) hlt
      (i - (voc.filter isInternal).length) (by rw [List.getElem?_map, hj]; rfl)
    rw [this, hwl, Nat.add_sub_cancel' hge]

/-- The triple `<a> <p> "x"@de`, with the mark of words on disk. -/
def examplePart : List (Fin 4 × Item) := [(0, ⟨[], ['<', 'a', '>'], ['<', 'p', '>'], [Char.ofNat 127, 'x', '"', '@', 'd', 'e']⟩)]

theorem example_words (w : Word) : (w = VocabularyMerger.languagePredicate ∨ w ∈ wordsOf (storedOf examplePart)) →
    w ∈ [VocabularyMerger.languagePredicate, ['<', 'a', '>'], ['<', 'p', '>'], [Char.ofNat 127, 'x', '"', '@', 'd', 'e']] := by
  have h0 : wordsOf (storedOf examplePart) = [['<', 'a', '>'], ['<', 'p', '>'], [Char.ofNat 127, 'x', '"', '@', 'd', 'e']] := by decide
  rw [h0]
  intro h
  exact List.mem_cons.mpr h

theorem example_ok (w : Word) (h : w = VocabularyMerger.languagePredicate ∨ w ∈ wordsOf (storedOf examplePart)) :
    (Stored (fun _ => True) w ∧ Closed (shown w)) ∧ w.length ≤ 100 ∧
      ∀ ws ext, shouldBeExternalized ⟨ws, ext, [], [['e', 'n']]⟩ (shown w) = !isInternal w := by
  have := example_words w h
  simp only [List.mem_cons, List.not_mem_nil, or_false] at this
  rcases this with rfl | rfl | rfl | rfl
  · exact ⟨⟨⟨⟨by decide, by decide, trivial⟩, by decide, by decide⟩, by decide⟩, by decide, fun _ _ => rfl⟩
  · exact ⟨⟨⟨⟨by decide, by decide, trivial⟩, by decide, by decide⟩, by decide⟩, by decide, fun _ _ => rfl⟩
  · exact ⟨⟨⟨⟨by decide, by decide, trivial⟩, by decide, by decide⟩, by decide⟩, by decide, fun _ _ => rfl⟩
  · exact ⟨⟨⟨⟨by decide, by decide, trivial⟩, by decide, by decide⟩, by decide⟩, by decide, fun _ _ => rfl⟩

-- The hypotheses of `input_found_partial` hold for the index of one triple; the words are found.
example : ∃ r voc, VocabularyMerger.Run (order ascii) 1000 [examplePart] (.ok r) ∧ Correct (order ascii) [examplePart] r voc ∧
    (∃ l, load r = .ok l ∧ ∀ fuel, voc.length + 1 < fuel → ∀ i w, voc[i]? = some w →
      getId (triple ascii) fuel ⟨l.words, l.ext, [], [['e', 'n']]⟩ (shown w) = .ok (i, true)) := by
  have hw : ∀ part ∈ [examplePart], ∀ w ∈ wordsOf (storedOf part), Stored (fun _ => True) w := by
    intro part hp w hw
    rw [List.mem_singleton] at hp
    subst hp
    exact (example_ok w (Or.inr hw)).1.1
  obtain ⟨o, ho⟩ := VocabularyMerger.merge_total (Stored fun _ => True) (order ascii) 1000 [examplePart] (words_ok _ _) (by decide)
    (by decide) (example_ok _ (Or.inl rfl)).1.1 hw
  obtain ⟨r, voc, rfl, hr⟩ := VocabularyMerger.merge_correct (Stored fun _ => True) (order ascii) 1000 [examplePart] (words_ok _ _) (by decide)
    (by decide) (example_ok _ (Or.inl rfl)).1.1 hw (by decide) o ho
  refine ⟨r, voc, ho, hr, ?_⟩
  have hv : ∀ w ∈ voc, w = VocabularyMerger.languagePredicate ∨ w ∈ wordsOf (storedOf examplePart) := by
    intro w hw
    rcases (hr.words w).mp hw with h | ⟨part, hp, h⟩
    · exact Or.inl h.1
    · rw [List.mem_singleton] at hp
      exact Or.inr (hp ▸ h)
  have hfits : Fits (voc.map shown) := by
    have hnd : voc.Nodup := by
      rw [List.Nodup, List.pairwise_iff_getElem]
      intro j k hj hk hjk he
      have := (VocabularyMerger.ids_ordered_partial (Stored fun _ => True) (order ascii) [examplePart] (words_ok _ _) r voc hr
        (fun w hw => (example_ok w (hv w hw)).1.1) (fun w _ => List.length_filter_le _ _) j k _ _ (List.getElem?_eq_getElem hj)
        (List.getElem?_eq_getElem hk)).2.mp hjk
      rw [he, order_self] at this
      omega
    have hlen := (hnd.subperm fun w hw => example_words w (hv w hw)).length_le
    have hflat : ∀ ws : List Word, (∀ w ∈ ws, w.length ≤ 100) → ws.flatten.length ≤ 100 * ws.length := by
      intro ws h
      induction ws with
      | nil => simp
      | cons w ws ih =>
        have h1 := h w (by simp)
        have h2 := ih fun x hx => h x (by simp [hx])
        simp only [List.flatten_cons, List.length_append, List.length_cons]
        omega
    have h3 := hflat (voc.map shown) (by
      intro w hw
      obtain ⟨x, hx, rfl⟩ := List.mem_map.mp hw
      have := (example_ok x (hv x hx)).2.1
      cases x with
      | nil => simp [shown]
      | cons y ys =>
        rw [shown]
        split
        · simpa using this
        · split <;> simpa using this)
    simp only [List.length_map, List.length_cons, List.length_nil] at h3 hlen
    unfold Fits
    simp only [List.length_map]
    omega
  obtain ⟨l, h1, h2⟩ := input_found_partial ascii (fun _ => True) (ascii_laws _) [examplePart] r voc hr hfits
    (fun w hw => ⟨(example_ok w (hv w hw)).1.1, (example_ok w (hv w hw)).1.2, trivial⟩)
    (fun a b h => (ascii_mark (by decide) (by decide) a b).mpr ((ascii_mark (by decide) (by decide) a b).mp h))
    (fun w _ => List.length_filter_le _ _) [] [['e', 'n']]
  exact ⟨l, h1, h2 fun w hw => (example_ok w (hv w hw)).2.2 _ _⟩

/-- The marks that `tripleToInternalRepresentation` sets agree with the test of the lookup, when words are kept on disk. -/
theorem mark_agrees (nfc : Word → Word) (v : Vocab) (w m : Word) (hfirst : ∀ ch cs, nfc w = ch :: cs → ch.toNat < 127)
    (h : internalWord nfc true v w = .ok m) : shown m = nfc w ∧ shouldBeExternalized v (shown m) = !isInternal m := by
  unfold internalWord at h
  cases hw : nfc w with
  | nil =>
    rw [hw] at h
    cases hs : shouldBeExternalized v [] with
    | true => simp [hs] at h
    | false =>
      simp [hs] at h
      subst h
      exact ⟨rfl, by rw [show shown [] = [] from rfl, hs]; rfl⟩
  | cons ch cs =>
    rw [hw] at h
    have hlt := hfirst ch cs hw
    cases hs : shouldBeExternalized v (ch :: cs) with
    | true =>
      simp only [hs, Bool.and_self, if_true] at h
      by_cases h1 : ch = '"'
      · rw [if_pos h1] at h
        cases h
        subst h1
        exact ⟨rfl, by rw [show shown (Char.ofNat 127 :: cs) = '"' :: cs from rfl, hs]; rfl⟩
      · rw [if_neg h1] at h
        by_cases h2 : ch = '<'
        · rw [if_pos h2] at h
          cases h
          subst h2
          exact ⟨rfl, by rw [show shown (Char.ofNat 128 :: cs) = '<' :: cs from rfl, hs]; rfl⟩
        · rw [if_neg h2] at h; cases h
    | false =>
      simp only [hs, Bool.and_false, Bool.false_eq_true, if_false] at h
      cases h
      have : shown (ch :: cs) = ch :: cs := by rw [shown, if_neg (by omega), if_neg (by omega)]
      exact ⟨this, by rw [this, hs]; simp [isInternal, hlt]⟩

example : internalWord id true (exampleVocab []) ['"', 'a', '"', '@', 'd', 'e'] = .ok [Char.ofNat 127, 'a', '"', '@', 'd', 'e'] ∧
    internalWord id true (exampleVocab []) ['"', 'a', '"', '@', 'e', 'n'] = .ok ['"', 'a', '"', '@', 'e', 'n'] := by decide +kernel

/-! ### Which words are kept on disk -/

theorem rfind_append (ch : Char) (a b : Word) (hb : ch ∉ b) : rfind ch (a ++ ch :: b) = some a.length := by
  unfold rfind
  rw [List.reverse_append, List.reverse_cons, List.append_assoc, List.findIdx?_append]
  have : b.reverse.findIdx? (· == ch) = none := by
    rw [List.findIdx?_eq_none_iff]
    intro x hx
    have : x ≠ ch := fun h => hb (h ▸ List.mem_reverse.mp hx)
    simpa using this
  rw [this]
  simp only [List.cons_append, List.nil_append, List.findIdx?_cons, beq_self_eq_true, if_true, Option.map_some, Option.none_or,
    List.length_append, List.length_cons, List.length_reverse]
  congr 1
  omega

theorem rfind_none (ch : Char) (a : Word) (ha : ch ∉ a) : rfind ch a = none := by
  unfold rfind
  have : a.reverse.findIdx? (· == ch) = none := by
    rw [List.findIdx?_eq_none_iff]
    intro x hx
    have : x ≠ ch := fun h => ha (h ▸ List.mem_reverse.mp hx)
    simpa using this
  rw [this]; rfl

theorem rfind_lt {ch : Char} {a : Word} {i : Nat} (h : rfind ch a = some i) : i < a.length := by
  unfold rfind at h
  obtain ⟨j, hj, rfl⟩ := Option.map_eq_some_iff.mp h
  have h1 := (List.findIdx?_eq_some_iff_findIdx_eq.mp hj).1
  rw [List.length_reverse] at h1
  omega

/-- The words on disk: a literal with a language tag is on disk if it is long or if its language is not one of the chosen ones. -/
theorem disk_tagged (v : Vocab) (s lang : Word) (hne : lang ≠ []) (h1 : '@' ∉ lang) (h2 : '"' ∉ lang) :
    shouldBeExternalized v ('"' :: s ++ '"' :: '@' :: lang) = true ↔ 1024 < ('"' :: s ++ '"' :: '@' :: lang).length ∨ lang ∉ v.internalLangs := by
  have hl : getLanguage ('"' :: s ++ '"' :: '@' :: lang) = lang := by
    unfold getLanguage
    have e1 : '"' :: s ++ '"' :: '@' :: lang = ('"' :: s ++ ['"']) ++ '@' :: lang := by simp
    rw [show rfind '"' ('"' :: s ++ '"' :: '@' :: lang) = some ('"' :: s).length from
      rfind_append '"' ('"' :: s) ('@' :: lang) (by simp [h2])]
    rw [e1, rfind_append '@' ('"' :: s ++ ['"']) lang h1]
    dsimp only
    rw [if_pos (by simp)]
    simp
  unfold shouldBeExternalized
  rw [if_pos (by rfl), hl, if_neg hne]
  by_cases h : ('"' :: s ++ '"' :: '@' :: lang).length > 1024
  · rw [if_pos h]; simp only [true_iff]; exact Or.inl h
  · rw [if_neg h]
    simp only [Bool.not_eq_true', List.contains_eq_mem, decide_eq_false_iff_not]
    constructor
    · exact Or.inr
    · rintro (h' | h')
      · omega
      · exact h'

/-- Other literals are on disk if they are long. -/
theorem disk_untagged (v : Vocab) (s : Word) : shouldBeExternalized v ('"' :: s ++ ['"']) = true ↔ 1024 < ('"' :: s ++ ['"']).length := by
  have hl : getLanguage ('"' :: s ++ ['"']) = [] := by
    unfold getLanguage
    rw [rfind_append '"' ('"' :: s) [] (by simp)]
    cases hr : rfind '@' ('"' :: s ++ ['"']) with
    | none => rfl
    | some i =>
      have := rfind_lt hr
      dsimp only
      rw [if_neg]
      simp at this ⊢
      omega
  unfold shouldBeExternalized
  rw [if_pos (by rfl), hl, if_pos rfl]
  by_cases h : ('"' :: s ++ ['"']).length > 1024
  · rw [if_pos h]; simpa using h
  · rw [if_neg h]; simpa using h

/-- Entities are on disk if they begin with one of the chosen prefixes. -/
theorem disk_entity (v : Vocab) (w : Word) (h : w.head? ≠ some '"') : shouldBeExternalized v w = true ↔ ∃ p ∈ v.extPrefixes, p <+: w := by
  unfold shouldBeExternalized
  rw [if_neg h]
  simp [List.any_eq_true]

example : shouldBeExternalized (exampleVocab []) ['"', 'a', '@', 'b', '"'] = false ∧
    shouldBeExternalized (exampleVocab []) ['"', 'a', '@', 'b', '"', '@', 'd', 'e'] = true := by decide

/-- A datatype with an `@` is taken for a language tag. -/
theorem disk_datatype_violated : getLanguage ['"', 'a', '"', '^', '^', '<', 'x', '@', 'y', '>'] = ['y', '>'] := by decide

/-! ### Words that are not found -/

/-- C58 fails for an index built without words on disk: literals with a language tag that is not among the internal ones (and long
literals) are in memory, but the lookup searches the empty vocabulary on disk. -/
theorem not_on_disk_violated (c : Collator) (fuel : Nat) (v : Vocab) (w : Word) (hext : v.ext.size = 0) (hf : 0 < fuel)
    (hw : shouldBeExternalized v w = true) : ∃ id, getId (triple c) fuel v w = .ok (id, false) := by
  have : ExternalVocabulary.getId fuel (order c) v.ext w = .ok (0, false) := by
    cases fuel with
    | zero => omega
    | succ n =>
      unfold ExternalVocabulary.getId ExternalVocabulary.binarySearch
      rw [hext]
      simp [loop, ExternalVocabulary.searchStep]
  unfold getId
  rw [hw]
  simp only [Bool.not_true, Bool.false_eq_true, if_false]
  have h5 : ExternalVocabulary.getId fuel (fun a b => (triple c).compare a b .total) v.ext w = .ok (0, false) := this
  rw [h5]
  exact ⟨_, rfl⟩

-- The word is in the vocabulary.
example : internalWord id false (exampleVocab []) ['"', 'a', '"', '@', 'd', 'e'] = .ok ['"', 'a', '"', '@', 'd', 'e'] ∧
    getId (triple ascii) 9 (exampleVocab [['"', 'a', '"', '@', 'd', 'e']]) ['"', 'a', '"', '@', 'd', 'e'] = .ok (1, false) := by
  decide +kernel

/-- C58 fails for words that are not normalised: the index builder stores the normalised word, the lookup takes the word as it is. -/
theorem unnormalised_violated (c : Collator) (nfc : Word → Word) (fuel : Nat) (v : Vocab) (w : Word) (hn : nfc w ≠ w)
    (hvoc : ∀ x ∈ v.words, nfc x = x) (hs : v.words.Pairwise fun a b => order c a b < 0) (hw : shouldBeExternalized v w = false) :
    internalWord nfc false v w = .ok (nfc w) ∧ ∃ id, getId (triple c) fuel v w = .ok (id, false) := by
  refine ⟨rfl, ?_⟩
  obtain ⟨r, h1, h2⟩ := find_internal c fuel v w hs hw
  unfold Finds at h2
  rw [if_neg (fun hm => hn (hvoc w hm))] at h2
  exact ⟨r.1, by rw [h1, ← h2]⟩

example : ∃ nfc : Word → Word, (∀ w, nfc (nfc w) = nfc w) ∧ nfc ['<', 'e', Char.ofNat 1, '>'] ≠ ['<', 'e', Char.ofNat 1, '>'] :=
  ⟨fun w => w.filter fun ch => ch.toNat ≠ 1, fun w => by simp, by decide⟩

/-! ### The text vocabulary -/

/-- C58 for the text vocabulary, partial: it is sorted at the level QUARTERNARY but searched at the level TOTAL; lookups are right if
different words differ at the level QUARTERNARY. -/
theorem text_found_partial (c : Collator) (N : Word → Prop) (hc : c.Laws N) (set : List Word) (fuel : Nat) (v : Vocab) (w : Word)
    (hset : set.Nodup) (hv : CreatedFrom (simple c) set v.words)
    (hdiff : ∀ a ∈ set, ∀ b ∈ set, c.key .quarternary a = c.key .quarternary b → a = b)
    (hw : shouldBeExternalized v w = false) : ∃ r, getId (simple c) fuel v w = .ok r ∧ Finds v.words w r := by
  have hless : ∀ a, (simple c).less .total a w = true ↔ c.key .identical a < c.key .identical w := by
    intro a
    unfold Comparator.less simple simpleCompare
    simp only [decide_eq_true_eq]
    rw [← lexCmp_lt]
    have he : c.compare a w .total = lexCmp (c.key .identical a) (c.key .identical w) := rfl
    rw [← he]
    by_cases h : c.compare a w .total ≠ 0
    · rw [if_pos (Or.inl h)]
    · rw [if_neg (by simpa using h)]
      have h0 : c.compare a w .total = 0 := by simpa using h
      rw [h0]
      split <;> omega
  have hstrict : v.words.Pairwise fun a b => c.key .identical a < c.key .identical b := by
    have hnd : v.words.Nodup := hv.1.symm.nodup hset
    refine (hv.2.and hnd).imp_of_mem fun {a b} ha hb h => ?_
    apply hc.refine5
    have h1 : ¬ c.key .quarternary b < c.key .quarternary a := by
      rw [← simple_less c .quarternary (by decide), h.1]; decide
    by_contra h2
    exact h.2 (hdiff a (hv.1.subset ha) b (hv.1.subset hb) (List.le_antisymm (List.not_lt.mp h1) (List.not_lt.mp h2)))
  obtain ⟨n, h1, h2, h3⟩ := partition_ok (p := fun a => (simple c).less .total a w) (l := v.words) (hstrict.imp (by
    intro a b h hb
    rw [hless] at *
    exact List.lt_trans h hb))
  have hmem : w ∈ v.words → v.words[n]? = some w := by
    intro hm
    obtain ⟨i, hi, rfl⟩ := List.mem_iff_getElem.mp hm
    have hge : ¬ i < n := by
      rw [h3 i _ (List.getElem?_eq_getElem hi), hless]; exact List.lt_irrefl _
    have hle : ¬ n < i := by
      intro hni
      have hn : n < v.words.length := by omega
      have h4 := (List.pairwise_iff_getElem.mp hstrict) n i hn hi hni
      have := (h3 n _ (List.getElem?_eq_getElem hn)).mpr ((hless _).mpr h4)
      omega
    have : n = i := by omega
    subst this
    exact List.getElem?_eq_getElem hi
  unfold getId Filter.lowerBound
  rw [hw, h1]
  simp only [Bool.not_false, if_true, Outcome.bind]
  by_cases hn : n < v.words.length
  · rw [if_pos hn, Outcome.read_lt _ _ hn]
    refine ⟨_, rfl, ?_⟩
    unfold Finds
    by_cases hm : w ∈ v.words
    · rw [if_pos hm]
      have := hmem hm
      rw [List.getElem?_eq_getElem hn] at this
      simp only [Option.some.injEq] at this
      exact ⟨by simp [this], by rw [List.getElem?_eq_getElem hn, this]⟩
    · rw [if_neg hm]
      have : v.words[n] ≠ w := fun h => hm (h ▸ List.getElem_mem hn)
      simp [this]
  · rw [if_neg hn]
    refine ⟨_, rfl, ?_⟩
    unfold Finds
    by_cases hm : w ∈ v.words
    · have := hmem hm
      rw [List.getElem?_eq_none (by omega)] at this
      cases this
    · rw [if_neg hm]

example : [['b'], ['a'], ['A']].Nodup ∧ CreatedFrom (simple ascii) [['b'], ['a'], ['A']] [['a'], ['A'], ['b']] ∧
    (∀ a ∈ [['b'], ['a'], ['A']], ∀ b ∈ [['b'], ['a'], ['A']], ascii.key .quarternary a = ascii.key .quarternary b → a = b) ∧
    getId (simple ascii) 9 (exampleVocab [['a'], ['A'], ['b']]) ['A'] = .ok (1, true) := by
  refine ⟨by decide, ⟨by decide, by decide +kernel⟩, by decide +kernel, by decide +kernel⟩

/-- C58 fails for the text vocabulary: the word "ab" and the word "ab" with a soft hyphen do not differ at the level QUARTERNARY, so the
sort may store them in either order.  In one order, the first is not found and the search for the second is made in a range that is not
ordered. -/
theorem text_violated : CreatedFrom (simple ascii) [['a', 'b'], ['a', Char.ofNat 173, 'b']] [['a', Char.ofNat 173, 'b'], ['a', 'b']] ∧
    getId (simple ascii) 9 (exampleVocab [['a', Char.ofNat 173, 'b'], ['a', 'b']]) ['a', 'b'] = .ok (0, false) ∧
    getId (simple ascii) 9 (exampleVocab [['a', Char.ofNat 173, 'b'], ['a', 'b']]) ['a', Char.ofNat 173, 'b'] = .ub := by
  refine ⟨⟨by decide, by decide +kernel⟩, by decide +kernel, by decide +kernel⟩

/-- C58 fails for two words of the text that do not differ at the level IDENTICAL (different forms of the same characters, the words
of the text are not normalised): the second is never found. -/
theorem text_equal_violated (c : Collator) (fuel : Nat) (a b : Word) (hne : a ≠ b) (hk : c.key .identical a = c.key .identical b)
    (hb : b.head? ≠ some '"') : getId (simple c) fuel (exampleVocab [a, b]) b = .ok (0, false) := by
  have hl : ∀ x, c.key .identical x = c.key .identical b → (simple c).less .total x b = false := by
    intro x hx
    unfold Comparator.less simple simpleCompare Collator.compare
    simp only [Level.strength, hx, lexCmp_laws.self]
    split <;> simp
    split <;> omega
  unfold getId
  have : shouldBeExternalized (exampleVocab [a, b]) b = false := by
    unfold shouldBeExternalized
    rw [if_neg hb]; rfl
  rw [this]
  have h1 : Filter.lowerBound ((simple c).less .total) (exampleVocab [a, b]).words b = .ok 0 := by
    unfold Filter.lowerBound Filter.partitionPoint
    rw [if_pos]
    · simp [exampleVocab, hl a hk]
    · simp [exampleVocab, hl b rfl]
  rw [h1]
  simp [exampleVocab, Outcome.bind, Outcome.read, hne]

end Verif.C58
