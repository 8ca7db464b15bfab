import Verif.Lemmas.CollationExample
/-
C49: the id range for a prefix contains exactly the ids of the words that begin with the prefix.
-/
namespace Verif.C49
open Verif.Collation Verif.CollationSpec
open Verif.StringSpec (scanEnd)
open Verif.ExternalVocabulary (Word)

/-! ### Helpers -/

theorem notAfter_of_total {c : Collator} {N : Word → Prop} (hc : c.Laws N) {a b : Word} (h : tripleCompare c a b .total < 0) :
    NotAfter (c.key .primary) a b := by
  unfold tripleCompare splitCompare at h
  rw [extract_eq, extract_eq] at h
  dsimp only at h
  by_cases h1 : firstCmp (kind a) (kind b) ≠ 0
  · rw [if_pos h1, firstCmp_ne.2] at h; exact Or.inl h
  · rw [if_neg h1] at h
    have hk : kind a = kind b := Classical.byContradiction fun h2 => h1 (firstCmp_ne.1.mpr h2)
    refine Or.inr ⟨hk, fun h3 => ?_⟩
    have h4 := hc.refine5 _ _ (hc.refine4 _ _ h3)
    have h5 : 0 < c.compare (content a) (content b) .total := by
      unfold Collator.compare
      rw [← lexCmp_laws.flip, lexCmp_lt]
      exact h4
    rw [if_pos (Or.inl (by omega))] at h
    omega

theorem sorted_of_total {c : Collator} {N : Word → Prop} (hc : c.Laws N) {words : List Word}
    (h : words.Pairwise fun a b => tripleCompare c a b .total < 0) : words.Pairwise (NotAfter (c.key .primary)) :=
  h.imp fun h => notAfter_of_total hc h

theorem sorted_of_quarternary {c : Collator} {N : Word → Prop} (hc : c.Laws N) {words : List Word}
    (h : words.Pairwise fun a b => (simple c).less .quarternary b a = false) : words.Pairwise fun a b => ¬ c.key .primary b < c.key .primary a := by
  refine h.imp fun {a b} h h2 => ?_
  have := (simple_less c .quarternary (by decide) b a).mpr (hc.refine4 _ _ h2)
  rw [h] at this; cases this

theorem scan_append {q : Char} : ∀ (n : Nat) (p r : Word) (i : Nat), p.length ≤ n → scanEnd q p = none → scanEnd q (p ++ r) = some i → p.length ≤ i
  | 0, p, r, i, hn, _, _ => by omega
  | n + 1, [], r, i, _, _, _ => by simp
  | n + 1, [c], r, i, _, h, h2 => by
    simp only [scanEnd] at h
    have hc : c ≠ q := by intro hc; rw [if_pos hc] at h; cases h
    cases r with
    | nil => simp only [List.append_nil, scanEnd, if_neg hc] at h2; cases h2
    | cons d cs =>
      simp only [List.cons_append, List.nil_append, scanEnd, if_neg hc] at h2
      split at h2 <;> (rw [Option.map_eq_some_iff] at h2; obtain ⟨j, _, rfl⟩ := h2; simp)
  | n + 1, c :: d :: cs, r, i, hn, h, h2 => by
    simp only [scanEnd] at h
    have hc : c ≠ q := by intro hc; rw [if_pos hc] at h; cases h
    simp only [List.cons_append, scanEnd, if_neg hc] at h2
    rw [if_neg hc] at h
    by_cases hb : c = '\\'
    · rw [if_pos hb, Option.map_eq_none_iff] at h
      rw [if_pos hb, Option.map_eq_some_iff] at h2
      obtain ⟨j, hj, rfl⟩ := h2
      have := scan_append n cs r j (by simp at hn; omega) h hj
      simp; omega
    · rw [if_neg hb, Option.map_eq_none_iff] at h
      rw [if_neg hb, Option.map_eq_some_iff] at h2
      obtain ⟨j, hj, rfl⟩ := h2
      have := scan_append n (d :: cs) r j (by simp at hn ⊢; omega) h hj
      simp at this ⊢; omega

/-! ### The RDF vocabulary -/

/-- C49 for terms: in a vocabulary in the order of the index builder, the range of a prefix contains exactly the words of the same
kind whose content begins with the content of the prefix, as far as the primary sort keys tell.  Partial: the sort key of the prefix
must not be empty and must not end with the byte 255; see below for what happens then. -/
theorem prefix_range_partial (c : Collator) (N : Word → Prop) (hc : c.Laws N) (words : List Word) (pre : Word) (last : Nat)
    (hsorted : words.Pairwise fun a b => tripleCompare c a b .total < 0) (hpre : pre ≠ [])
    (hlast : (c.key .primary (content pre)).getLast? = some last) (h255 : last < 255) :
    ∃ lb ub, prefixRange (triple c) words pre = .ok (lb, ub) ∧ ub ≤ words.length ∧
      ∀ i w, words[i]? = some w → (lb ≤ i ∧ i < ub ↔ Begins (c.key .primary) pre w) := by
  have hs := sorted_of_total hc hsorted
  obtain ⟨lb, h1, h2, h3⟩ := partition_ok (p := fun w => (triple c).less .primary w pre) (l := words) (hs.imp (by
    intro a b h hb
    rw [triple_less c .primary (by decide)] at *
    exact notAfter_before h hb))
  obtain ⟨ub, h4, h5, h6⟩ := partition_ok (p := fun w => tripleLessKey c w
      ⟨kind pre, (c.key .primary (content pre)).dropLast ++ [last + 1], tag pre⟩) (l := words) (hs.imp (by
    intro a b h hb
    exact notAfter_lessKey hc h _ hb))
  refine ⟨lb, ub, ?_, h5, ?_⟩
  · unfold prefixRange Filter.lowerBound
    rw [if_neg hpre, h1]
    have : (triple c).bigger pre = .ok ⟨kind pre, (c.key .primary (content pre)).dropLast ++ [last + 1], tag pre⟩ := by
      show tripleBigger c pre = _
      unfold tripleBigger extractKey
      rw [extract_eq]
      dsimp only
      rw [sortKey_primary, bump_lt hlast h255]
      rfl
    simp only [Outcome.bind]
    rw [this]
    dsimp only
    have h4' : Filter.partitionPoint (fun w => (triple c).lessKey w
      ⟨kind pre, (c.key .primary (content pre)).dropLast ++ [last + 1], tag pre⟩) words = .ok ub := h4
    rw [h4']
    rfl
  · intro i w hi
    have a1 := h3 i w hi
    have a2 := h6 i w hi
    rw [triple_less c .primary (by decide)] at a1
    rw [triple_lessKey c N hc, takeWhile_bump last (fun x hx => ((hc.bytes _).1 x hx).1)] at a2
    rw [← Nat.not_lt, a1, a2]
    unfold Begins Before
    rw [← prefix_between _ _ _ hlast]
    constructor
    · rintro ⟨b1, b2⟩
      have hk : kind w = kind pre := by
        rcases b2 with b2 | b2
        · exact absurd (Or.inl b2) b1
        · exact b2.1
      refine ⟨hk, fun h => b1 (Or.inr ⟨hk, h⟩), ?_⟩
      rcases b2 with b2 | b2
      · omega
      · exact b2.2
    · rintro ⟨hk, b1, b2⟩
      refine ⟨?_, Or.inr ⟨hk, b2⟩⟩
      rintro (h | h)
      · omega
      · exact b1 h.2

-- A vocabulary with two literals and two IRIs; the range of the prefix `"a` has both literals that begin with an a in either case.
example : [['"', 'a', 'b', '"'], ['"', 'A', 'c', '"', '@', 'e', 'n'], ['"', 'b', '"'], ['<', 'a', '>']].Pairwise
      (fun a b => tripleCompare ascii a b .total < 0) ∧ (ascii.key .primary (content ['"', 'a'])).getLast? = some 100 ∧
    prefixRange (triple ascii) [['"', 'a', 'b', '"'], ['"', 'A', 'c', '"', '@', 'e', 'n'], ['"', 'b', '"'], ['<', 'a', '>']] ['"', 'a']
      = .ok (0, 2) := by decide +kernel

/-- C49: the empty prefix gives all words. -/
theorem empty_prefix (C : Comparator) (words : List Word) : prefixRange C words [] = .ok (0, words.length) := rfl

/-- C49: if the sort key of a string begins with the sort keys of its beginnings (true for ICU where no characters are contracted), then
words that begin with the prefix byte by byte are in the range; the prefix of a literal must not contain its closing quote. -/
theorem textual_prefix (c : Collator) (hcat : ∀ a b, c.key .primary a <+: c.key .primary (a ++ b)) (pre rest : Word) (hpre : pre ≠ [])
    (hopen : Quoted pre → scanEnd '"' pre.tail = none) : Begins (c.key .primary) pre (pre ++ rest) := by
  cases pre with
  | nil => exact absurd rfl hpre
  | cons x xs =>
    refine ⟨rfl, ?_⟩
    by_cases hq : Quoted (x :: xs)
    · have hq' : Quoted (x :: xs ++ rest) := hq
      have h1 := hopen hq
      simp only [List.tail_cons] at h1
      have h2 : content (x :: xs) = xs := by unfold content; rw [if_pos hq]; simp only [List.tail_cons, h1]
      rw [h2]
      unfold content
      rw [if_pos hq']
      simp only [List.cons_append, List.tail_cons]
      cases hs : scanEnd '"' (xs ++ rest) with
      | none => exact hcat xs rest
      | some i =>
        have h3 := scan_append _ xs rest i (Nat.le_refl _) h1 hs
        dsimp only
        rw [List.take_append, List.take_of_length_le h3]
        exact hcat xs _
    · have hq' : ¬ Quoted (x :: xs ++ rest) := hq
      unfold content
      rw [if_neg hq, if_neg hq']
      exact hcat _ _

example : (∀ a b, ascii.key .primary a <+: ascii.key .primary (a ++ b)) ∧ (Quoted ['"', 'a'] → scanEnd '"' ['a'] = none) := by
  refine ⟨fun a b => ?_, by decide⟩
  show key1 a <+: key1 (a ++ b)
  unfold key1 heard
  rw [List.filter_append, List.map_append]
  exact List.prefix_append _ _

/-- C49 fails for prefixes whose sort key ends with the byte 255: the appended zero byte ends the string for `strcmp`, the range
is empty even if the prefix itself is a word. -/
theorem last_255_violated (c : Collator) (N : Word → Prop) (hc : c.Laws N) (words : List Word) (pre : Word)
    (hsorted : words.Pairwise fun a b => tripleCompare c a b .total < 0) (hpre : pre ≠ [])
    (hlast : (c.key .primary (content pre)).getLast? = some 255) : ∃ n, prefixRange (triple c) words pre = .ok (n, n) := by
  have hs := sorted_of_total hc hsorted
  have hp : (fun w => (triple c).lessKey w ⟨kind pre, c.key .primary (content pre) ++ [0], tag pre⟩) =
      fun w => (triple c).less .primary w pre := by
    funext w
    rw [Bool.eq_iff_iff, triple_less c .primary (by decide)]
    show tripleLessKey c w _ = true ↔ _
    rw [triple_lessKey c N hc, takeWhile_zero (fun x hx => ((hc.bytes _).1 x hx).1)]
    rfl
  obtain ⟨lb, h1, h2, h3⟩ := partition_ok (p := fun w => (triple c).less .primary w pre) (l := words) (hs.imp (by
    intro a b h hb
    rw [triple_less c .primary (by decide)] at *
    exact notAfter_before h hb))
  refine ⟨lb, ?_⟩
  unfold prefixRange Filter.lowerBound
  rw [if_neg hpre, h1]
  have : (triple c).bigger pre = .ok ⟨kind pre, c.key .primary (content pre) ++ [0], tag pre⟩ := by
    show tripleBigger c pre = _
    unfold tripleBigger extractKey
    rw [extract_eq]
    dsimp only
    rw [sortKey_primary, bump_ge hlast (by decide)]
    rfl
  simp only [Outcome.bind]
  rw [this]
  dsimp only
  rw [hp, h1]
  rfl

-- Byte 252 has the primary weight 255.
example : (ascii.key .primary (content ['<', Char.ofNat 252])).getLast? = some 255 ∧
    prefixRange (triple ascii) [['<', Char.ofNat 252]] ['<', Char.ofNat 252] = .ok (0, 0) := by decide +kernel

/-- C49 fails for prefixes with an empty sort key, for example a quote alone: the last byte of an empty string is accessed. -/
theorem empty_key_violated (c : Collator) (N : Word → Prop) (hc : c.Laws N) (words : List Word) (pre : Word)
    (hsorted : words.Pairwise fun a b => tripleCompare c a b .total < 0) (hpre : pre ≠ []) (hkey : c.key .primary (content pre) = []) :
    prefixRange (triple c) words pre = .ub := by
  obtain ⟨lb, h1, h2, h3⟩ := partition_ok (p := fun w => (triple c).less .primary w pre) (l := words) ((sorted_of_total hc hsorted).imp (by
    intro a b h hb
    rw [triple_less c .primary (by decide)] at *
    exact notAfter_before h hb))
  unfold prefixRange Filter.lowerBound
  rw [if_neg hpre, h1]
  have : (triple c).bigger pre = .ub := by
    show tripleBigger c pre = _
    unfold tripleBigger extractKey
    rw [extract_eq]
    dsimp only
    rw [sortKey_primary, hkey]
    rfl
  simp only [Outcome.bind]
  rw [this]

example : ['"'] ≠ ([] : Word) ∧ ascii.key .primary (content ['"']) = [] := by decide

/-- C49 fails for a prefix with a closing quote, which is ignored like everything after it: the range of `"ab"` has `"abc"`, the range of
`"ab"@en` has `"ab"@de`. -/
theorem closing_quote_violated :
    prefixRange (triple ascii) [['"', 'a', 'b', 'c', '"']] ['"', 'a', 'b', '"'] = .ok (0, 1) ∧
    prefixRange (triple ascii) [['"', 'a', 'b', '"', '@', 'd', 'e']] ['"', 'a', 'b', '"', '@', 'e', 'n'] = .ok (0, 1) := by decide +kernel

/-- C49 in the sense of bytes fails: case is ignored. -/
theorem case_violated : prefixRange (triple ascii) [['<', 'A', 'B', '>']] ['<', 'a'] = .ok (0, 1) ∧ ¬ ['<', 'a'] <+: ['<', 'A', 'B', '>'] := by
  decide +kernel

/-- C49 fails for words on disk: their ids are behind those of the words in memory, and no range has such an id. -/
theorem external_violated (c : Collator) (N : Word → Prop) (hc : c.Laws N) (words : List Word) (pre : Word)
    (hsorted : words.Pairwise fun a b => tripleCompare c a b .total < 0) (lb ub id : Nat)
    (h : prefixRange (triple c) words pre = .ok (lb, ub)) (hid : words.length ≤ id) : ¬ id < ub := by
  by_cases hpre : pre = []
  · subst hpre
    rw [empty_prefix] at h
    cases h; omega
  · cases hk : (c.key .primary (content pre)).getLast? with
    | none =>
      rw [empty_key_violated c N hc words pre hsorted hpre (List.getLast?_eq_none_iff.mp hk)] at h
      cases h
    | some last =>
      by_cases h255 : last < 255
      · obtain ⟨lb', ub', h1, h2, _⟩ := prefix_range_partial c N hc words pre last hsorted hpre hk h255
        rw [h1] at h
        cases h; omega
      · have hlt := ((hc.bytes (content pre)).1 last (List.mem_of_getLast? hk)).2
        have : last = 255 := by omega
        subst this
        unfold prefixRange at h
        rw [if_neg hpre] at h
        cases hl : Filter.lowerBound ((triple c).less .primary) words pre with
        | ok lb' =>
          rw [hl] at h
          simp only [Outcome.bind] at h
          cases hb : (triple c).bigger pre with
          | ok k =>
            rw [hb] at h
            dsimp only at h
            have : ∀ p : Word → Bool, ∀ n, Filter.partitionPoint p words = .ok n → n ≤ words.length := by
              intro p n hn
              unfold Filter.partitionPoint at hn
              split at hn
              · cases hn; exact (List.takeWhile_sublist p).length_le
              · cases hn
            cases hp : Filter.partitionPoint (fun w => (triple c).lessKey w k) words with
            | ok n =>
              rw [hp] at h
              have := this _ _ hp
              simp only [Outcome.map] at h
              cases h
              omega
            | throw => rw [hp] at h; cases h
            | ub => rw [hp] at h; cases h
            | diverge => rw [hp] at h; cases h
          | throw => rw [hb] at h; cases h
          | ub => rw [hb] at h; cases h
          | diverge => rw [hb] at h; cases h
        | throw => rw [hl] at h; cases h
        | ub => rw [hl] at h; cases h
        | diverge => rw [hl] at h; cases h

/-! ### The text vocabulary -/

/-- C49 for the words of the text index: the range, given with its last element, has exactly the words that begin with the prefix as
far as the primary sort keys tell; success is reported exactly if there is one.  Partial for the same reason as above. -/
theorem full_text_partial (c : Collator) (N : Word → Prop) (hc : c.Laws N) (set words : List Word) (pre : Word) (last : Nat)
    (hvoc : CreatedFrom (simple c) set words) (hlen : words.length < 2 ^ 64) (hpre : pre ≠ [])
    (hlast : (c.key .primary pre).getLast? = some last) (h255 : last < 255) :
    ∃ ok lo hi, fullTextPrefix (simple c) words (pre ++ ['*']) = .ok (ok, lo, hi) ∧
      (ok = true ↔ ∃ w ∈ set, c.key .primary pre <+: c.key .primary w) ∧
      (ok = true → ∀ i w, words[i]? = some w → (lo ≤ i ∧ i ≤ hi ↔ c.key .primary pre <+: c.key .primary w)) := by
  have hs := sorted_of_quarternary hc hvoc.2
  obtain ⟨lb, h1, h2, h3⟩ := partition_ok (p := fun w => (simple c).less .primary w pre) (l := words) (hs.imp (by
    intro a b h hb
    rw [simple_less c .primary (by decide)] at *
    exact lt_of_not_lt_of_lt h hb))
  obtain ⟨ub, h4, h5, h6⟩ := partition_ok (p := fun w => simpleLessKey c w ((c.key .primary pre).dropLast ++ [last + 1])) (l := words)
    (hs.imp (by
      intro a b h hb
      rw [simple_lessKey c N hc] at *
      exact lt_of_not_lt_of_lt h hb))
  have hr : prefixRange (simple c) words pre = .ok (lb, ub) := by
    unfold prefixRange Filter.lowerBound
    rw [if_neg hpre, h1]
    have : (simple c).bigger pre = .ok ((c.key .primary pre).dropLast ++ [last + 1]) := by
      show simpleBigger c pre = _
      unfold simpleBigger
      rw [sortKey_primary, bump_lt hlast h255]
      rfl
    simp only [Outcome.bind]
    rw [this]
    dsimp only
    have h4' : Filter.partitionPoint (fun w => (simple c).lessKey w ((c.key .primary pre).dropLast ++ [last + 1])) words = .ok ub := h4
    rw [h4']
    rfl
  have hex : ∀ i w, words[i]? = some w → (lb ≤ i ∧ i < ub ↔ c.key .primary pre <+: c.key .primary w) := by
    intro i w hi
    have a1 := h3 i w hi
    have a2 := h6 i w hi
    rw [simple_less c .primary (by decide)] at a1
    rw [simple_lessKey c N hc, takeWhile_bump last (fun x hx => ((hc.bytes _).1 x hx).1)] at a2
    rw [← Nat.not_lt, a1, a2]
    exact prefix_between _ _ _ hlast
  refine ⟨decide (ub > lb), lb, (ub + 2 ^ 64 - 1) % 2 ^ 64, ?_, ?_, ?_⟩
  · unfold fullTextPrefix
    rw [List.getLast?_append, List.getLast?_singleton, Option.some_or]
    simp only
    rw [if_neg (by simp), List.dropLast_concat, hr]
    simp only [Outcome.bind]
    rw [if_neg]
    rintro ⟨h, h'⟩
    simp only [decide_eq_true_eq] at h
    apply h'
    rw [show ub + 2 ^ 64 - 1 = ub - 1 + 2 ^ 64 by omega, Nat.add_mod_right, Nat.mod_eq_of_lt (by omega)]
    omega
  · simp only [decide_eq_true_eq]
    constructor
    · intro h
      have hlt : lb < words.length := by omega
      exact ⟨words[lb], hvoc.1.subset (List.getElem_mem hlt), (hex lb _ (List.getElem?_eq_getElem hlt)).mp ⟨Nat.le_refl _, h⟩⟩
    · rintro ⟨w, hw, hp⟩
      obtain ⟨i, hi⟩ := List.getElem?_of_mem (hvoc.1.symm.subset hw)
      have := (hex i w hi).mpr hp
      omega
  · intro hok i w hi
    simp only [decide_eq_true_eq] at hok
    rw [show ub + 2 ^ 64 - 1 = ub - 1 + 2 ^ 64 by omega, Nat.add_mod_right, Nat.mod_eq_of_lt (by omega), ← hex i w hi]
    omega

example : CreatedFrom (simple ascii) [['a', 'b'], ['B'], ['A']] [['A'], ['a', 'b'], ['B']] ∧
    (ascii.key .primary ['a']).getLast? = some 100 ∧
    fullTextPrefix (simple ascii) [['A'], ['a', 'b'], ['B']] ['a', '*'] = .ok (true, 0, 1) ∧
    fullTextPrefix (simple ascii) [['A'], ['a', 'b'], ['B']] ['c', '*'] = .ok (false, 3, 2) := by
  refine ⟨⟨by decide, by decide +kernel⟩, by decide, by decide +kernel, by decide +kernel⟩

/-- C49 for the text index fails for words without a letter that counts, here `*` after a soft hyphen, and for the empty word. -/
theorem full_text_violated : fullTextPrefix (simple ascii) [['a']] [Char.ofNat 173, '*'] = .ub ∧
    fullTextPrefix (simple ascii) [['a']] [] = .ub := by decide +kernel

end Verif.C49
