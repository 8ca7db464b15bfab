import Verif.Lemmas.AnswersDoc
import Verif.Props.C78_Answers
/-
C78: from the triples that the parser delivers to the terms of the answers.
-/
namespace Verif.Answers
open Verif.Collation Verif.VocabularyMerger VocabularySpec
open Verif.ExternalVocabulary (Word Fits)
open Verif.C58 (order Stored Term words_ok)
open Verif.CollationSpec (Closed content Quoted kind)
open PlannerSpec (Sol)
open TermSpec TriplePatternSpec
open Verif.TriplePlan (Pattern isVariable triplesNodes groupVars groupData hasPredicateIri leafPlans LeafData Columns)
open Planner (Var)
open MetaData (MAX_NOF_ELEMENTS)

/-- A term of the input. -/
def DocTerm (doc : List (Words × List Char)) (u : Word) : Prop := ∃ x ∈ doc, u = x.1.1 ∨ u = x.1.2.1 ∨ u = x.1.2.2

/-- What is required of the triples of an input (each with the language tag of its object), of the settings and of the locale: terms are
IRIs, literals and literals with a language tag, literals have a closing quote, everything is normalised and fits; a predicate of a
literal with a language tag is not kept on disk; the prefixes of IRIs kept on disk do not concern the internal IRIs; words are kept on
disk only if there is a single partial vocabulary. -/
structure DocOk (c : Collator) (N : Word → Prop) (nfc : Word → Word) (n : Nat) (prefixes langs : List Word)
    (doc : List (Words × List Char)) : Prop where
  laws : c.Laws N
  mark : ∀ a b, c.key .identical (Char.ofNat 128 :: a) < c.key .identical (Char.ofNat 128 :: b) →
    c.key .identical ('<' :: a) < c.key .identical ('<' :: b)
  batch : 0 < n
  ids : 400 * n < 2 ^ 64
  nonempty : doc ≠ []
  forms : ∀ x ∈ doc, TermForm x.1.1 [] ∧ TermForm x.1.2.1 [] ∧ TermForm x.1.2.2 x.2
  terms : ∀ u, DocTerm doc u → nfc u = u ∧ Closed u ∧ N (content u)
  marked : ∀ cs, N ('<' :: cs) → N (Char.ofNat 128 :: cs)
  internal : N languagePredicate
  tags : ∀ x ∈ doc, x.2 ≠ [] → N (taggedPredicate x.1.2.1 x.2) ∧ N (langtagEntity x.2) ∧
    shouldBeExternalized (settings prefixes langs) x.1.2.1 = false
  chosen : ∀ p ∈ prefixes, p.head? = some '<' ∧ ¬ p <+: internalStart ∧ ¬ internalStart <+: p
  number : (docStored doc).length ≤ MAX_NOF_ELEMENTS
  fits : Fits (languagePredicate :: wordsOf (docStored doc))
  once : doc.length < n ∨ ∀ u, DocTerm doc u → shouldBeExternalized (settings prefixes langs) u = false

/-- The items of the partial vocabularies: the triples of the batches, each handled by one of the four lambdas. -/
def Items (nfc : Word → Word) (v : Collation.Vocab) (bs : List (List (Words × List Char))) (parts : List (List (Fin 4 × Item))) : Prop :=
  List.Forall₂ (List.Forall₂ fun x y => toItem nfc true v x.1 = .ok y.2) bs parts

/-- The stored triples with the marks of words on disk. -/
def markedStored (v : Collation.Vocab) (x : Words × List Char) : List Words := stored x.2 (mark v x.1.1) (mark v x.1.2.1) (mark v x.1.2.2)

section
variable {c : Collator} {N : Word → Prop} {nfc : Word → Word} {n : Nat} {prefixes langs : List Word} {doc : List (Words × List Char)}
  (h : DocOk c N nfc n prefixes langs doc)
include h

theorem item_eq {x : Words × List Char} (hx : x ∈ doc) {it : Item} (hi : toItem nfc true (settings prefixes langs) x.1 = .ok it) :
    stored it.langtag it.s it.p it.o = markedStored (settings prefixes langs) x := by
  obtain ⟨f1, f2, f3⟩ := h.forms x hx
  rw [toItem_ok f1 f2 f3 (h.terms _ ⟨x, hx, .inl rfl⟩).1 (h.terms _ ⟨x, hx, .inr (.inl rfl)⟩).1 (h.terms _ ⟨x, hx, .inr (.inr rfl)⟩).1] at hi
  cases hi
  rfl

theorem stored_part {b : List (Words × List Char)} {part : List (Fin 4 × Item)}
    (hb : List.Forall₂ (fun x (y : Fin 4 × Item) => toItem nfc true (settings prefixes langs) x.1 = .ok y.2) b part) (hs : ∀ x ∈ b, x ∈ doc) :
    storedOf part = b.flatMap (markedStored (settings prefixes langs)) := by
  unfold storedOf
  induction hb with
  | nil => rfl
  | cons hxy _ ih =>
    rw [List.flatMap_cons, List.flatMap_cons, ih fun x hx => hs x (List.mem_cons_of_mem _ hx),
      item_eq h (hs _ List.mem_cons_self) hxy]

theorem stored_parts {bs : List (List (Words × List Char))} {parts : List (List (Fin 4 × Item))}
    (hb : Items nfc (settings prefixes langs) bs parts) (hs : ∀ b ∈ bs, ∀ x ∈ b, x ∈ doc) :
    parts.map storedOf = bs.map fun b => b.flatMap (markedStored (settings prefixes langs)) := by
  unfold Items at hb
  induction hb with
  | nil => rfl
  | cons hxy _ ih =>
    rw [List.map_cons, List.map_cons, ih fun b hb => hs b (List.mem_cons_of_mem _ hb), stored_part h hxy (hs _ List.mem_cons_self)]

theorem shown_stored {x : Words × List Char} (hx : x ∈ doc) :
    (markedStored (settings prefixes langs) x).map shownTriple = stored x.2 x.1.1 x.1.2.1 x.1.2.2 := by
  obtain ⟨f1, f2, f3⟩ := h.forms x hx
  unfold markedStored stored
  by_cases ht : x.2 = []
  · rw [if_pos ht, if_pos ht]
    simp only [List.map_cons, List.map_nil, shownTriple, (shown_mark f1).1, (shown_mark f2).1, (shown_mark f3).1]
  · have hp : mark (settings prefixes langs) x.1.2.1 = x.1.2.1 := by
      unfold Answers.mark
      rw [if_neg (by rw [(h.tags x hx ht).2.2]; simp)]
    have hsp := (shown_mark (v := settings prefixes langs) f2).1
    rw [hp] at hsp
    rw [if_neg ht, if_neg ht]
    simp only [List.map_cons, List.map_nil, shownTriple, (shown_mark f1).1, (shown_mark f3).1, hp, hsp]
    rfl

theorem stored_doc {bs : List (List (Words × List Char))} {parts : List (List (Fin 4 × Item))}
    (hb : Items nfc (settings prefixes langs) bs parts) (hs : bs.flatten = doc) :
    storedTriples parts = docStored doc := by
  have hsub : ∀ b ∈ bs, ∀ x ∈ b, x ∈ doc := fun b hb' x hx => hs ▸ List.mem_flatten.mpr ⟨b, hb', hx⟩
  unfold storedTriples docStored
  rw [stored_parts h hb hsub]
  have e : (bs.map fun b => b.flatMap (markedStored (settings prefixes langs))).flatten = doc.flatMap (markedStored (settings prefixes langs)) := by
    rw [← hs]
    clear hs hsub hb
    induction bs with
    | nil => rfl
    | cons b bs ih => rw [List.map_cons, List.flatten_cons, List.flatten_cons, List.flatMap_append, ih]
  rw [e, List.map_flatMap]
  exact List.flatMap_congr fun x hx => shown_stored h hx

/-! ### The words -/

theorem long {t : Words} {x : Words × List Char} (hx : x ∈ doc) (ht : t ∈ stored x.2 x.1.1 x.1.2.1 x.1.2.2) {u : Word}
    (hu : u = t.1 ∨ u = t.2.1 ∨ u = t.2.2) : u.length < 2 ^ 64 := by
  have hm : u ∈ languagePredicate :: wordsOf (docStored doc) :=
    List.mem_cons_of_mem _ (mem_wordsOf.mpr ⟨t, List.mem_flatMap.mpr ⟨x, hx, ht⟩, hu⟩)
  have hf := h.fits
  unfold Fits at hf
  have := (List.sublist_flatten_of_mem hm).length_le
  omega

theorem not_chosen {w : Word} (hw : w.head? ≠ some '"') (hs : w.head? ≠ some '<' ∨ internalStart <+: w) :
    shouldBeExternalized (settings prefixes langs) w = false := by
  unfold shouldBeExternalized
  rw [if_neg hw, List.any_eq_false]
  intro p hp hpre
  have hpre : p <+: w := List.isPrefixOf_iff_prefix.mp hpre
  obtain ⟨h1, h2, h3⟩ := h.chosen p hp
  rcases hs with hs | hs
  · obtain ⟨r, rfl⟩ := hpre
    cases p with
    | nil => cases h1
    | cons a p => exact hs h1
  · rcases List.prefix_or_prefix_of_prefix hpre hs with h4 | h4
    · exact h2 h4
    · exact h3 h4

/-- What is required of the words of the vocabulary. -/
def WordOk (N : Word → Prop) (v : Collation.Vocab) (w : Word) : Prop :=
  (Stored N w ∧ Closed (shown w) ∧ N (content (shown w))) ∧ shouldBeExternalized v (shown w) = !isInternal w

omit h in
theorem plain_word {w : Word} {v : Collation.Vocab} {ch : Char} (hw : w.head? = some ch) (hc : ch = '<' ∨ ch = '@') (hlen : w.length < 2 ^ 64)
    (hN : N w) (hs : shouldBeExternalized v w = false) : WordOk N v w := by
  cases w with
  | nil => cases hw
  | cons x xs =>
    injection hw with hw
    subst hw
    have hch : x.toNat < 127 ∧ x ≠ '"' ∧ x ≠ Char.ofNat 127 := by rcases hc with rfl | rfl <;> decide
    have hnq : ¬ Quoted (x :: xs) := by
      unfold Quoted
      simp [hch.2.1, hch.2.2]
    have hsh : shown (x :: xs) = x :: xs := by rw [shown, if_neg (by omega), if_neg (by omega)]
    have hct : content (x :: xs) = x :: xs := by unfold content; rw [if_neg hnq]
    refine ⟨⟨⟨⟨by simp, fun hq => absurd hq hnq, by rw [hct]; exact hN⟩, hlen, ?_⟩, ?_, ?_⟩, ?_⟩
    · show x.toNat ≤ 128
      omega
    · rw [hsh]; exact fun hq => absurd hq hnq
    · rw [hsh, hct]; exact hN
    · rw [hsh, hs]
      simp [isInternal, hch.1]

theorem marked_word {u lang : Word} (hf : TermForm u lang) (hd : DocTerm doc u) (hlen : u.length < 2 ^ 64) :
    WordOk N (settings prefixes langs) (Answers.mark (settings prefixes langs) u) := by
  obtain ⟨hn, hcl, hN⟩ := h.terms u hd
  obtain ⟨hs, ht⟩ := shown_mark (v := settings prefixes langs) hf
  refine ⟨⟨?_, by rw [hs]; exact hcl, by rw [hs]; exact hN⟩, ht⟩
  rcases mark_cases (settings prefixes langs) hf with e | ⟨cs, e1, e⟩ | ⟨cs, e1, e⟩
  · rw [e]
    refine ⟨⟨?_, hcl, hN⟩, hlen, ?_⟩
    · obtain ⟨cs, rfl | rfl⟩ := form_cases hf <;> simp
    · obtain ⟨cs, rfl | rfl⟩ := form_cases hf
      · show '<'.toNat ≤ 128
        decide
      · show '"'.toNat ≤ 128
        decide
  · rw [e]
    subst e1
    have hnq : ¬ Quoted ('<' :: cs) := by unfold Quoted; simp
    have hnq' : ¬ Quoted (Char.ofNat 128 :: cs) := by
      unfold Quoted
      simp only [List.head?_cons, Option.some.injEq]
      decide
    refine ⟨⟨by simp, fun hq => absurd hq hnq', ?_⟩, by simpa using hlen, by show (Char.ofNat 128).toNat ≤ 128; decide⟩
    unfold content at hN ⊢
    rw [if_neg hnq] at hN
    rw [if_neg hnq']
    exact h.marked cs hN
  · rw [e]
    subst e1
    have hq : Quoted ('"' :: cs) := .inl rfl
    have hq' : Quoted (Char.ofNat 127 :: cs) := .inr rfl
    refine ⟨⟨by simp, fun _ => hcl hq, ?_⟩, by simpa using hlen, by show (Char.ofNat 127).toNat ≤ 128; decide⟩
    unfold content at hN ⊢
    rw [if_pos hq] at hN
    rw [if_pos hq']
    exact hN

theorem language_word : WordOk N (settings prefixes langs) languagePredicate := by
  refine plain_word (ch := '<') rfl (.inl rfl) (by decide) h.internal (not_chosen h (by decide) (.inr ?_))
  exact List.isPrefixOf_iff_prefix.mp (by decide)

theorem word_ok {x : Words × List Char} (hx : x ∈ doc) {t : Words} (ht : t ∈ markedStored (settings prefixes langs) x) {w : Word}
    (hw : w = t.1 ∨ w = t.2.1 ∨ w = t.2.2) : WordOk N (settings prefixes langs) w := by
  obtain ⟨f1, f2, f3⟩ := h.forms x hx
  have hfirst : (x.1.1, x.1.2.1, x.1.2.2) ∈ stored x.2 x.1.1 x.1.2.1 x.1.2.2 := by
    unfold stored
    split <;> simp
  have m1 := marked_word h f1 ⟨x, hx, .inl rfl⟩ (long h hx hfirst (.inl rfl))
  have m2 := marked_word h f2 ⟨x, hx, .inr (.inl rfl)⟩ (long h hx hfirst (.inr (.inl rfl)))
  have m3 := marked_word h f3 ⟨x, hx, .inr (.inr rfl)⟩ (long h hx hfirst (.inr (.inr rfl)))
  unfold markedStored stored at ht
  by_cases htag : x.2 = []
  · rw [if_pos htag, List.mem_singleton] at ht
    subst ht
    rcases hw with rfl | rfl | rfl
    exacts [m1, m2, m3]
  · obtain ⟨t1, t2, t3⟩ := h.tags x hx htag
    have hp : Answers.mark (settings prefixes langs) x.1.2.1 = x.1.2.1 := by
      unfold Answers.mark
      rw [if_neg (by rw [t3]; simp)]
    have hst : stored x.2 x.1.1 x.1.2.1 x.1.2.2 = [(x.1.1, x.1.2.1, x.1.2.2), (x.1.1, taggedPredicate x.1.2.1 x.2, x.1.2.2),
        (x.1.2.2, languagePredicate, langtagEntity x.2)] := by
      unfold stored
      rw [if_neg htag]
      rfl
    have m4 : WordOk N (settings prefixes langs) (taggedPredicate x.1.2.1 x.2) :=
      plain_word (ch := '@') rfl (.inr rfl) (long h hx (t := (x.1.1, taggedPredicate x.1.2.1 x.2, x.1.2.2)) (by rw [hst]; simp) (.inr (.inl rfl)))
        t1 (not_chosen h (by simp [taggedPredicate]) (.inl (by simp [taggedPredicate])))
    have m5 : WordOk N (settings prefixes langs) (langtagEntity x.2) := by
      have e : langtagEntity x.2 = internalStart ++ ('@' :: x.2 ++ ['>']) := by
        unfold langtagEntity internalStart
        rw [List.append_assoc]
      have hh : (langtagEntity x.2).head? = some '<' := by rw [e]; rfl
      refine plain_word (ch := '<') hh (.inl rfl)
        (long h hx (t := (x.1.2.2, languagePredicate, langtagEntity x.2)) (by rw [hst]; simp) (.inr (.inr rfl))) t2
        (not_chosen h (by rw [hh]; decide) (.inr ?_))
      rw [e]
      exact List.prefix_append _ _
    rw [if_neg htag] at ht
    simp only [List.mem_cons, List.not_mem_nil, or_false] at ht
    rcases ht with rfl | rfl | rfl
    · rcases hw with rfl | rfl | rfl
      exacts [m1, m2, m3]
    · rcases hw with rfl | rfl | rfl
      · exact m1
      · show WordOk N _ ('@' :: x.2 ++ '@' :: Answers.mark (settings prefixes langs) x.1.2.1)
        rw [hp]
        exact m4
      · exact m3
    · rcases hw with rfl | rfl | rfl
      exacts [m3, language_word h, m5]

theorem input_word {bs : List (List (Words × List Char))} {parts : List (List (Fin 4 × Item))}
    (hb : Items nfc (settings prefixes langs) bs parts) (hs : bs.flatten = doc) {w : Word} (hw : InputWord parts w) :
    WordOk N (settings prefixes langs) w := by
  have hsub : ∀ b ∈ bs, ∀ x ∈ b, x ∈ doc := fun b hb' x hx => hs ▸ List.mem_flatten.mpr ⟨b, hb', hx⟩
  rcases hw with rfl | ⟨part, hp, hw⟩
  · exact language_word h
  · obtain ⟨t, ht, hw⟩ := mem_wordsOf.mp hw
    have hm : storedOf part ∈ parts.map storedOf := List.mem_map_of_mem hp
    rw [stored_parts h hb hsub] at hm
    obtain ⟨b, hb', he⟩ := List.mem_map.mp hm
    rw [← he] at ht
    obtain ⟨x, hx, ht⟩ := List.mem_flatMap.mp ht
    exact word_ok h (hsub b hb' x hx) ht hw

theorem none_external (hno : ∀ u, DocTerm doc u → shouldBeExternalized (settings prefixes langs) u = false) {x : Words × List Char}
    (hx : x ∈ doc) {t : Words} (ht : t ∈ markedStored (settings prefixes langs) x) {w : Word} (hw : w = t.1 ∨ w = t.2.1 ∨ w = t.2.2) :
    ¬ External w := by
  obtain ⟨f1, f2, f3⟩ := h.forms x hx
  have hm : ∀ u lang, TermForm u lang → DocTerm doc u → ¬ External (Answers.mark (settings prefixes langs) u) := by
    rintro u lang hf hd ⟨a, as, he, ha⟩
    unfold Answers.mark at he
    rw [if_neg (by rw [hno u hd]; simp)] at he
    obtain ⟨cs, rfl | rfl⟩ := form_cases hf
    all_goals
      cases he
      revert ha
      decide
  have m1 := hm _ _ f1 ⟨x, hx, .inl rfl⟩
  have m2 := hm _ _ f2 ⟨x, hx, .inr (.inl rfl)⟩
  have m3 := hm _ _ f3 ⟨x, hx, .inr (.inr rfl)⟩
  have hlit : ∀ (ch : Char) (cs : Word), ch.toNat < 127 → ¬ External (ch :: cs) := by
    rintro ch cs hlt ⟨a, as, he, ha⟩
    cases he
    omega
  unfold markedStored stored at ht
  by_cases htag : x.2 = []
  · rw [if_pos htag, List.mem_singleton] at ht
    subst ht
    rcases hw with rfl | rfl | rfl
    exacts [m1, m2, m3]
  · rw [if_neg htag] at ht
    simp only [List.mem_cons, List.not_mem_nil, or_false] at ht
    rcases ht with rfl | rfl | rfl
    · rcases hw with rfl | rfl | rfl
      exacts [m1, m2, m3]
    · rcases hw with rfl | rfl | rfl
      exacts [m1, hlit _ _ (by decide), m3]
    · rcases hw with rfl | rfl | rfl
      · exact m3
      · exact hlit '<' _ (by decide)
      · exact hlit '<' _ (by decide)

omit h in
theorem words_shown (ts : List Words) : (wordsOf ts).map shown = wordsOf (ts.map shownTriple) := by
  induction ts with
  | nil => rfl
  | cons t ts ih =>
    show shown t.1 :: shown t.2.1 :: shown t.2.2 :: (wordsOf ts).map shown = _
    rw [ih]
    rfl

omit h in
theorem doc_length (doc : List (Words × List Char)) : doc.length ≤ (docStored doc).length := by
  unfold docStored
  induction doc with
  | nil => simp
  | cons x doc ih =>
    rw [List.flatMap_cons, List.length_append, List.length_cons]
    have : 1 ≤ (stored x.2 x.1.1 x.1.2.1 x.1.2.2).length := by
      unfold stored
      split <;> simp
    omega

/-- The constants of queries, in terms of the input. -/
theorem constant_doc {bs : List (List (Words × List Char))} {parts : List (List (Fin 4 × Item))} {v : Collation.Vocab} {x : String}
    (hb : Items nfc (settings prefixes langs) bs parts) (hs : bs.flatten = doc)
    (hx : shouldBeExternalized v x.toList = false ∨ DocTerm doc x.toList) : ConstantOk parts v x := by
  intro _
  have hsub : ∀ b ∈ bs, ∀ x ∈ b, x ∈ doc := fun b hb' x hx => hs ▸ List.mem_flatten.mpr ⟨b, hb', hx⟩
  rcases hx with e | ⟨y, hy, e⟩
  · exact .inl e
  · refine .inr ⟨Answers.mark (settings prefixes langs) x.toList, .inr ?_, ?_⟩
    · obtain ⟨b, hb', hyb⟩ := List.mem_flatten.mp (hs ▸ hy : y ∈ bs.flatten)
      have hm : b.flatMap (markedStored (settings prefixes langs)) ∈ parts.map storedOf := by
        rw [stored_parts h hb hsub]
        exact List.mem_map_of_mem hb'
      obtain ⟨part, hpart, he⟩ := List.mem_map.mp hm
      refine ⟨part, hpart, ?_⟩
      rw [he]
      refine mem_wordsOf.mpr ⟨(Answers.mark (settings prefixes langs) y.1.1, Answers.mark (settings prefixes langs) y.1.2.1, Answers.mark (settings prefixes langs) y.1.2.2), List.mem_flatMap.mpr ⟨y, hyb, ?_⟩, ?_⟩
      · unfold markedStored stored
        split <;> simp
      · rcases e with e | e | e <;> rw [e] <;> simp
    · obtain ⟨f1, f2, f3⟩ := h.forms y hy
      rcases e with e | e | e <;> rw [e]
      exacts [(shown_mark f1).1, (shown_mark f2).1, (shown_mark f3).1]

/-- The items of the batches meet the requirements of `C78_answers_partial`. -/
theorem input_ok {bs : List (List (Words × List Char))} {last : List (Words × List Char)} {parts : List (List (Fin 4 × Item))}
    (hb : Items nfc (settings prefixes langs) (bs ++ [last]) parts) (hs : (bs ++ [last]).flatten = doc) (hfull : ∀ b ∈ bs, b.length = n)
    (hlast : last.length < n) (hnum : bs.length ≤ doc.length) : InputOk c N n parts := by
  have hsub : ∀ b ∈ bs ++ [last], ∀ x ∈ b, x ∈ doc := fun b hb' x hx => hs ▸ List.mem_flatten.mpr ⟨b, hb', hx⟩
  have hst := stored_doc h hb hs
  have hlen : (parts.map storedOf).flatten.length = (docStored doc).length := by
    rw [← hst, storedTriples, List.length_map]
  have hparts : parts.length = bs.length + 1 := by
    have := List.Forall₂.length_eq hb
    rw [List.length_append] at this
    exact this.symm
  have hdl := doc_length doc
  have hmax : (docStored doc).length < 2 ^ 61 := by
    have := h.number
    have e : MAX_NOF_ELEMENTS < 2 ^ 61 := by decide
    omega
  refine ⟨h.laws, h.mark, h.ids, fun part hp => ?_, fun w hw => (input_word h hb hs hw).1, by omega, fun h0 => ?_, by rw [hlen]; exact h.number,
    ?_, fun w hw => ?_⟩
  · obtain ⟨i, hi⟩ := List.mem_iff_getElem?.mp hp
    obtain ⟨hil, he⟩ := List.getElem?_eq_some_iff.mp hi
    have hl := List.Forall₂.length_eq hb
    have hf := (List.forall₂_iff_get.mp hb).2 i (by omega) hil
    have hle := List.Forall₂.length_eq hf
    simp only [List.get_eq_getElem, he] at hle
    have hmem : (bs ++ [last])[i]'(by omega) ∈ bs ++ [last] := List.getElem_mem _
    have hbn : ((bs ++ [last])[i]'(by omega)).length ≤ n := by
      rcases List.mem_append.mp hmem with hm | hm
      · rw [hfull _ hm]
      · rw [List.mem_singleton] at hm
        rw [hm]
        omega
    have := h.batch
    omega
  · rw [h0] at hlen
    have : doc.length = 0 := by simp at hlen; omega
    exact h.nonempty (List.length_eq_zero_iff.mp this)
  · have hf := h.fits
    unfold Fits at hf ⊢
    have e1 : (wordsOf (parts.map storedOf).flatten).map shown = wordsOf (docStored doc) := by
      rw [words_shown, ← hst]
      rfl
    have e2 := shown_length (wordsOf (parts.map storedOf).flatten)
    have e3 := congrArg List.length e1
    rw [e1] at e2
    rw [List.length_map] at e3
    simp only [List.flatten_cons, List.length_append, List.length_cons] at hf ⊢
    omega
  · rcases h.once with hone | hno
    · have hbs : bs = [] := by
        cases bs with
        | nil => rfl
        | cons b bs =>
          have h1 := hfull b List.mem_cons_self
          have h2 := congrArg List.length hs
          simp only [List.cons_append, List.flatten_cons, List.length_append] at h2
          omega
      rw [hbs] at hparts
      have := List.length_filter_le (fun part => decide (w ∈ wordsOf (storedOf part))) parts
      simp only [List.length_nil] at hparts
      omega
    · have : parts.filter (fun part => decide (w ∈ wordsOf (storedOf part))) = [] := by
        rw [List.filter_eq_nil_iff]
        intro part hp hmem
        obtain ⟨t, ht, hwt⟩ := mem_wordsOf.mp (of_decide_eq_true hmem)
        have hm : storedOf part ∈ parts.map storedOf := List.mem_map_of_mem hp
        rw [stored_parts h hb hsub] at hm
        obtain ⟨b, hb', he⟩ := List.mem_map.mp hm
        rw [← he] at ht
        obtain ⟨x, hx, ht⟩ := List.mem_flatMap.mp ht
        exact none_external h hno (hsub b hb' x hx) ht hwt hw
      rw [this]
      simp

end

/-- **C78** (batches).  The loop over the partial vocabularies ends; every triple that the parser delivers is in exactly one of them, in
order; all have `n` triples but the last, which has fewer (and none if `n` divides the number of triples). -/
theorem C78_batches {α : Type} (n fuel : Nat) (ts : List α) (hn : 0 < n) (hf : ts.length < fuel) :
    ∃ bs last, passBatches n fuel ts = .ok (bs ++ [last]) ∧ (bs ++ [last]).flatten = ts ∧ (∀ b ∈ bs, b.length = n) ∧ last.length < n := by
  obtain ⟨bs, last, h1, h2, h3, h4, _⟩ := passBatches_ok hn fuel ts hf
  exact ⟨bs, last, h1, h2, h3, h4⟩

example : passBatches 2 9 [1, 2, 3, 4] = .ok [[1, 2], [3, 4], []] ∧ passBatches 2 9 [1, 2, 3] = .ok [[1, 2], [3]] := by decide

/-- With `num-triples-per-partial-vocab` 0 in the settings the loop never ends, whatever the input is. -/
theorem C78_batches_violated {α : Type} (fuel : Nat) (ts : List α) : passBatches 0 fuel ts = .diverge := passBatches_zero fuel ts

/-- **C78** (from the parser to the answers).  Let the parser deliver the triples `doc`, which meet `DocOk`.  The first phase of the index
builder divides them into partial vocabularies, turns them into items and runs to its end, for every scheduling; then the
permutations are created.  For every query as in `C78_answers_partial`: if the execution of the plan returns a table, then its ids are
shown as terms, and the rows shown are exactly the solutions of the patterns in the triples `docStored doc` that satisfy the filters,
each once.
Missing: what is missing in `C78_answers_partial`; typed literals (C45, C60); words that are not normalised (C58); words on disk with
several partial vocabularies (C31). -/
theorem C78_documents_partial (c : Collator) (N : Word → Prop) (nfc : Word → Word) (n : Nat) (prefixes langs : List Word)
    (doc : List (Words × List Char)) (h : DocOk c N nfc n prefixes langs doc) (fuel : Nat) (hfuel : doc.length < fuel) :
    ∃ bs, passBatches n fuel doc = .ok bs ∧ (∃ parts, Items nfc (settings prefixes langs) bs parts) ∧
    ∀ parts, Items nfc (settings prefixes langs) bs parts → (∃ o, Run (order c) n parts o) ∧
    ∀ (o : Outcome Result) (_ : Run (order c) n parts o) (lg : Nat → Nat → Nat),
    ∃ r l idx, o = .ok r ∧ load r = .ok l ∧ Permutation.createIndex lg r.nofWords (triplesOf r) = .ok (some idx) ∧
      ∀ (steps : Nat), r.nofWords + 1 < steps →
      ∀ (ps : List Pattern) (fresh : Nat → Var), ps ≠ [] → Planner.TreeShaped (groupVars ps) ps.length →
      (∀ t ∈ ps, PatternOk (docStored doc) t) →
      (∀ t ∈ ps, ∀ x, x = t.s ∨ x = t.p ∨ x = t.o → isVariable x = false →
        shouldBeExternalized (settings prefixes langs) x.toList = false ∨ DocTerm doc x.toList) →
      ∃ seeded, triplesNodes true fresh ps 0 = .ok seeded ∧
      ∀ (P : Planner.Params) (filters : List (List Var)) (keep : Nat → Sol → Bool) (keepTerms : Nat → TermSol → Bool)
        (rows : List (List Planner.Plan)) (row : List Planner.Plan) (p : Planner.Plan) (x : Table),
        (∀ m, (P.shuffle m).Perm m) → (∀ g, (P.order g).Perm g) →
        (∀ i s t, (∀ v ∈ filters.getD i [], s v = t v) → keep i s = keep i t) →
        (∀ i s, (∀ v k, s v = some k → k < r.nofWords) → keep i s = keepTerms i (showSol l s)) →
        Planner.fillDpTab P (seeded.map (·.1)) filters [] = .ok rows → rows.getLast? = some row → p ∈ row →
        Planner.Eval P (groupData (lookup c steps (vocabOf l prefixes langs)) r.nofWords idx seeded) keep p.tree x →
        Columns P ps p.tree x ∧ idToOptionalString l ID_NO_VALUE = .ok none ∧
        (∀ s ∈ x.map (Planner.solution (p.tree.cols P)), ∀ v k, s v = some k → ∃ w, idToOptionalString l k = .ok (some w)) ∧
        ((x.map (Planner.solution (p.tree.cols P))).map (showSol l)).Nodup ∧
        ∀ sol, sol ∈ (x.map (Planner.solution (p.tree.cols P))).map (showSol l) ↔
          TermBgp isVariable (termsOf ps) (docStored doc) sol ∧
          ∀ i, i < filters.length → (∀ v ∈ filters.getD i [], ∃ t ∈ ps, v ∈ t.vars) → keepTerms i sol = true := by
  obtain ⟨bs, last, h1, h2, h3, h4, h5⟩ := passBatches_ok h.batch fuel doc hfuel
  have hsub : ∀ b ∈ bs ++ [last], ∀ x ∈ b, x ∈ doc := fun b hb' x hx => h2 ▸ List.mem_flatten.mpr ⟨b, hb', hx⟩
  refine ⟨bs ++ [last], h1, ?_, fun parts hp => ?_⟩
  · have hone : ∀ b, (∀ x ∈ b, x ∈ doc) →
        ∃ part : List (Fin 4 × Item), List.Forall₂ (fun x y => toItem nfc true (settings prefixes langs) x.1 = .ok y.2) b part := by
      intro b
      induction b with
      | nil => exact fun _ => ⟨[], .nil⟩
      | cons x b ih =>
        intro hb
        obtain ⟨part, hpart⟩ := ih fun y hy => hb y (List.mem_cons_of_mem _ hy)
        have hx := hb x List.mem_cons_self
        obtain ⟨f1, f2, f3⟩ := h.forms x hx
        exact ⟨(0, _) :: part, .cons (toItem_ok f1 f2 f3 (h.terms _ ⟨x, hx, .inl rfl⟩).1 (h.terms _ ⟨x, hx, .inr (.inl rfl)⟩).1
          (h.terms _ ⟨x, hx, .inr (.inr rfl)⟩).1) hpart⟩
    unfold Items
    clear h1 h2 h3 h5
    generalize bs ++ [last] = bs' at hsub
    induction bs' with
    | nil => exact ⟨[], .nil⟩
    | cons b bs' ih =>
      obtain ⟨part, hpart⟩ := hone b (hsub b List.mem_cons_self)
      obtain ⟨parts, hparts⟩ := ih fun b hb => hsub b (List.mem_cons_of_mem _ hb)
      exact ⟨part :: parts, .cons hpart hparts⟩
  · have hin := input_ok h hp h2 h3 h4 h5
    refine ⟨merge_total (Stored N) (order c) n parts (words_ok c N) hin.ids hin.sizes (hin.words _ (.inl rfl)).1
      (fun part hpart w hw => (hin.words w (.inr ⟨part, hpart, hw⟩)).1), fun o hrun lg => ?_⟩
    obtain ⟨r, l, idx, g1, g2, g3, g4⟩ := C78_answers_partial c N n parts hin o hrun lg
    have hst := stored_doc h hp h2
    refine ⟨r, l, idx, g1, g2, g3, fun steps hsteps ps fresh hne htree hps hcs => ?_⟩
    have := g4 prefixes langs steps hsteps (fun w hw => (input_word h hp h2 hw).2) ps fresh hne htree (by rw [hst]; exact hps) (by
      intro t ht x hx hv
      exact constant_doc (v := vocabOf l prefixes langs) h hp h2 (hcs t ht x hx hv) hv)
    rw [hst] at this
    exact this

/-! ### The order of the ids -/

/-- Every id below the number of words stands for a term. -/
theorem shown_ids {c : Collator} {N : Word → Prop} {nfc : Word → Word} {n : Nat} {prefixes langs : List Word}
    {doc : List (Words × List Char)} (h : DocOk c N nfc n prefixes langs doc) {fuel : Nat} (hfuel : doc.length < fuel)
    {bs : List (List (Words × List Char))} (hbs : passBatches n fuel doc = .ok bs) {parts : List (List (Fin 4 × Item))}
    (hp : Items nfc (settings prefixes langs) bs parts) {r : Result} (hrun : Run (order c) n parts (.ok r)) {l : Loaded} (hl : load r = .ok l) :
    r.nofWords < 2 ^ 61 ∧ ∀ k, k < r.nofWords → ∃ u, showId l k = some u := by
  obtain ⟨bs', last, h1, h2, h3, h4, h5⟩ := passBatches_ok h.batch fuel doc hfuel
  rw [hbs] at h1
  cases h1
  obtain ⟨r', voc, l', e1, e2, hr, hmem, hlen, hk⟩ := built (input_ok h hp h2 h3 h4 h5) hrun
  cases e1
  rw [hl] at e2
  cases e2
  have hknow := hk prefixes langs (voc.length + 2) (fun w hw' => (input_word h hp h2 hw').2) (by omega)
  refine ⟨by rw [hr.size]; exact hlen, fun k hk' => ?_⟩
  rw [hr.size] at hk'
  exact ⟨_, (showId_iff hknow k _).mpr ⟨_, List.getElem?_eq_getElem hk', rfl⟩⟩

/-- Ids that stand for a term are 64 bit numbers. -/
theorem shown_small {c : Collator} {N : Word → Prop} {nfc : Word → Word} {n : Nat} {prefixes langs : List Word}
    {doc : List (Words × List Char)} (h : DocOk c N nfc n prefixes langs doc) {fuel : Nat} (hfuel : doc.length < fuel)
    {bs : List (List (Words × List Char))} (hbs : passBatches n fuel doc = .ok bs) {parts : List (List (Fin 4 × Item))}
    (hp : Items nfc (settings prefixes langs) bs parts) {r : Result} (hrun : Run (order c) n parts (.ok r)) {l : Loaded} (hl : load r = .ok l)
    {i : Nat} {u : Word} (hi : showId l i = some u) : i < 2 ^ 64 := by
  obtain ⟨bs', last, h1, h2, h3, h4, h5⟩ := passBatches_ok h.batch fuel doc hfuel
  rw [hbs] at h1
  cases h1
  obtain ⟨r', voc, l', e1, e2, hr, hmem, hlen, hk⟩ := built (input_ok h hp h2 h3 h4 h5) hrun
  cases e1
  rw [hl] at e2
  cases e2
  have hknow := hk prefixes langs (voc.length + 2) (fun w hw' => (input_word h hp h2 hw').2) (by omega)
  obtain ⟨a, ha, _⟩ := (showId_iff hknow i u).mp hi
  have := (List.getElem?_eq_some_iff.mp ha).1
  exact Nat.lt_trans (Nat.lt_trans this hlen) (by decide)

/-- **C78** (order).  The ids of an index are in the order of the terms they stand for: first those kept in memory, then those on disk, both
in the order of `TripleComponentComparator`. -/
theorem C78_order {c : Collator} {N : Word → Prop} {nfc : Word → Word} {n : Nat} {prefixes langs : List Word}
    {doc : List (Words × List Char)} (h : DocOk c N nfc n prefixes langs doc) {fuel : Nat} (hfuel : doc.length < fuel)
    {bs : List (List (Words × List Char))} (hbs : passBatches n fuel doc = .ok bs) {parts : List (List (Fin 4 × Item))}
    (hp : Items nfc (settings prefixes langs) bs parts) {r : Result} (hrun : Run (order c) n parts (.ok r)) {l : Loaded} (hl : load r = .ok l)
    {i j : Nat} {u v : Word} (hi : showId l i = some u) (hj : showId l j = some v) :
    (u = v ↔ i = j) ∧ (TermLess (shouldBeExternalized (settings prefixes langs)) (order c) u v ↔ i < j) := by
  obtain ⟨bs', last, h1, h2, h3, h4, h5⟩ := passBatches_ok h.batch fuel doc hfuel
  rw [hbs] at h1
  cases h1
  have hin := input_ok h hp h2 h3 h4 h5
  obtain ⟨r', voc, l', e1, e2, hr, hmem, hlen, hk⟩ := built hin hrun
  cases e1
  rw [hl] at e2
  cases e2
  have hw : ∀ w ∈ voc, WordOk N (settings prefixes langs) w := fun w hw => input_word h hp h2 ((hmem w).mp hw)
  have hS : ∀ w ∈ voc, Stored N w := fun w hw => (hin.words w ((hmem w).mp hw)).1
  have hknow := hk prefixes langs (voc.length + 2) (fun w hw' => (hw w ((hmem w).mpr hw')).2) (by omega)
  obtain ⟨a, ha, rfl⟩ := (showId_iff hknow i u).mp hi
  obtain ⟨b, hb, rfl⟩ := (showId_iff hknow j v).mp hj
  have key : ∀ {i j : Nat} {a b : Word}, voc[i]? = some a → voc[j]? = some b → i < j →
      TermLess (shouldBeExternalized (settings prefixes langs)) (order c) (shown a) (shown b) := by
    intro i j a b ha hb hij
    have ham := List.mem_of_getElem? ha
    have hbm := List.mem_of_getElem? hb
    have hlt := (ids_ordered_partial (Stored N) (order c) parts (words_ok c N) r voc hr hS hin.once i j a b ha hb).2.mp hij
    unfold TermLess
    rw [(hw a ham).2, (hw b hbm).2]
    cases hia : isInternal a with
    | true =>
      cases hib : isInternal b with
      | true => rw [if_pos rfl, shown_internal hia, shown_internal hib]; exact hlt
      | false => rw [if_neg (by decide)]; rfl
    | false =>
      cases hib : isInternal b with
      | false =>
        rw [if_pos rfl]
        exact Verif.C58.shown_order c N hin.laws hin.mark (hS a ham) (hS b hbm) hia hib hlt
      | true =>
        exfalso
        have hs := hr.split
        have hge : (voc.filter isInternal).length ≤ i := by
          by_contra hlt'
          rw [hs, List.getElem?_append_left (by omega)] at ha
          have := (List.mem_filter.mp (List.mem_of_getElem? ha)).2
          rw [hia] at this
          cases this
        rw [hs, List.getElem?_append_right (by omega)] at hb
        have := (List.mem_filter.mp (List.mem_of_getElem? hb)).2
        rw [hib] at this
        cases this
  have hself : ∀ u, ¬ TermLess (shouldBeExternalized (settings prefixes langs)) (order c) u u := by
    intro u hu
    unfold TermLess at hu
    rw [if_pos rfl, Verif.C58.order_self] at hu
    omega
  have hasym : ∀ u v, TermLess (shouldBeExternalized (settings prefixes langs)) (order c) u v →
      ¬ TermLess (shouldBeExternalized (settings prefixes langs)) (order c) v u := by
    intro u v h1 h2
    unfold TermLess at h1 h2
    by_cases he : shouldBeExternalized (settings prefixes langs) u = shouldBeExternalized (settings prefixes langs) v
    · rw [if_pos he] at h1
      rw [if_pos he.symm] at h2
      have := Verif.C58.order_trans c h1 h2
      rw [Verif.C58.order_self] at this
      omega
    · rw [if_neg he] at h1
      rw [if_neg (Ne.symm he)] at h2
      exact he (h1.trans h2.symm)
  rcases Nat.lt_trichotomy i j with hij | hij | hij
  · have hk := key ha hb hij
    exact ⟨⟨fun he => absurd (he ▸ hk) (hself _), fun he => absurd he (by omega)⟩, ⟨fun _ => hij, fun _ => hk⟩⟩
  · subst hij
    rw [ha] at hb
    cases hb
    exact ⟨⟨fun _ => rfl, fun _ => rfl⟩, ⟨fun hc => absurd hc (hself _), fun hc => absurd hc (by omega)⟩⟩
  · have hk := key hb ha hij
    exact ⟨⟨fun he => absurd (he ▸ hk) (hself _), fun he => absurd he (by omega)⟩, ⟨fun hc => absurd hc (hasym _ _ hk), fun hc => absurd hc (by omega)⟩⟩

/-! ### Which triples a query sees -/

/-- **C78** (constant predicates).  A query whose predicates are constants, other than those used internally, sees exactly the triples of
the input. -/
theorem C78_input_triples (doc : List (Words × List Char)) (ps : List Pattern)
    (hps : ∀ t ∈ ps, isVariable t.p = false ∧ t.p.toList ≠ languagePredicate ∧ t.p.toList.head? ≠ some '@') (sol : TermSol) :
    TermBgp isVariable (termsOf ps) (docStored doc) sol ↔ TermBgp isVariable (termsOf ps) (doc.map (·.1)) sol := by
  unfold TermBgp
  refine and_congr_left fun _ => forall₂_congr fun q hq => ?_
  obtain ⟨t, ht, rfl⟩ := List.mem_map.mp hq
  obtain ⟨h1, h2, h3⟩ := hps t ht
  have hm : ∀ w, Means isVariable sol t.p w ↔ t.p.toList = w := by
    intro w
    unfold Means
    rw [if_neg (by rw [h1]; simp)]
  constructor
  · rintro ⟨d, hd, a1, a2, a3⟩
    obtain ⟨x, hx, hd⟩ := List.mem_flatMap.mp hd
    have a2' := (hm _).mp a2
    refine ⟨d, ?_, a1, a2, a3⟩
    have : d = x.1 := by
      unfold stored at hd
      split at hd
      · rw [List.mem_singleton] at hd
        rw [hd]
      · simp only [List.mem_cons, List.not_mem_nil, or_false] at hd
        rcases hd with rfl | rfl | rfl
        · rfl
        · exact absurd (by rw [a2']; rfl) h3
        · exact absurd a2' h2
    rw [this]
    exact List.mem_map_of_mem hx
  · rintro ⟨d, hd, a⟩
    obtain ⟨x, hx, rfl⟩ := List.mem_map.mp hd
    refine ⟨x.1, List.mem_flatMap.mpr ⟨x, hx, ?_⟩, a⟩
    unfold stored
    split <;> simp

namespace Sample

/-- `<a> <p> "x"@en .` and `<b> <p> <a> .` -/
def doc : List (Words × List Char) :=
  [((['<', 'a', '>'], ['<', 'p', '>'], ['"', 'x', '"', '@', 'e', 'n']), ['e', 'n']), ((['<', 'b', '>'], ['<', 'p', '>'], ['<', 'a', '>']), [])]

theorem doc_terms {u : Word} (h : DocTerm doc u) :
    u = ['<', 'a', '>'] ∨ u = ['<', 'b', '>'] ∨ u = ['<', 'p', '>'] ∨ u = ['"', 'x', '"', '@', 'e', 'n'] := by
  obtain ⟨x, hx, h⟩ := h
  simp only [doc, List.mem_cons, List.not_mem_nil, or_false] at hx
  rcases hx with rfl | rfl <;> rcases h with rfl | rfl | rfl <;> simp

/-- The hypotheses of `C78_documents_partial` hold for the document, with literals in English kept in memory. -/
theorem doc_ok : DocOk ascii (fun _ => True) id 2 [] [['e', 'n']] doc := by
  refine ⟨ascii_laws _, fun a b h => (ascii_mark (by decide) (by decide) a b).mpr ((ascii_mark (by decide) (by decide) a b).mp h), by decide,
    by decide, by decide, ?_, ?_, fun _ _ => trivial, trivial, fun x hx ht => ⟨trivial, trivial, ?_⟩, by simp, by decide, by decide +kernel, .inr ?_⟩
  · intro x hx
    simp only [doc, List.mem_cons, List.not_mem_nil, or_false] at hx
    rcases hx with rfl | rfl
    · exact ⟨.iri _, .iri _, .tagged ['x'] ['e', 'n'] (by decide) (by decide) (by decide) (by decide)⟩
    · exact ⟨.iri _, .iri _, .iri _⟩
  · intro u hu
    rcases doc_terms hu with rfl | rfl | rfl | rfl <;> exact ⟨rfl, by decide, trivial⟩
  · simp only [doc, List.mem_cons, List.not_mem_nil, or_false] at hx
    rcases hx with rfl | rfl <;> decide
  · intro u hu
    rcases doc_terms hu with rfl | rfl | rfl | rfl <;> decide

/-- `?x <p> ?y . ?y <p> ?z` -/
def ps : List Pattern := [⟨"?x", "<p>", "?y"⟩, ⟨"?y", "<p>", "?z"⟩]

theorem ps_ok : (∀ t ∈ ps, PatternOk (docStored doc) t) ∧ ps ≠ [] ∧
    (∀ t ∈ ps, ∀ x, x = t.s ∨ x = t.p ∨ x = t.o → isVariable x = false →
      shouldBeExternalized (settings [] [['e', 'n']]) x.toList = false ∨ DocTerm doc x.toList) ∧
    Planner.TreeShaped (groupVars ps) ps.length ∧
    (∀ t ∈ ps, isVariable t.p = false ∧ t.p.toList ≠ languagePredicate ∧ t.p.toList.head? ≠ some '@') := by
  refine ⟨?_, by decide, ?_, ?_, by decide⟩
  · intro t ht
    have hlen : (docStored doc).length ≤ 20000 := by decide
    simp only [ps, List.mem_cons, List.not_mem_nil, or_false] at ht
    rcases ht with rfl | rfl
    all_goals exact ⟨⟨by decide, by decide⟩, by decide, by decide, .inr hlen⟩
  · intro t ht x hx hv
    simp only [ps, List.mem_cons, List.not_mem_nil, or_false] at ht
    left
    rcases ht with rfl | rfl <;> rcases hx with rfl | rfl | rfl <;> decide
  · refine ⟨id, fun i j _ _ h => h, ?_⟩
    have key : ((List.range 2).all fun j => (groupVars ps j).all fun v => (groupVars ps j).all fun w =>
        ((List.range j).all fun i => !(groupVars ps i).contains v) || ((List.range j).all fun i => !(groupVars ps i).contains w) ||
        v == w) = true := by decide
    intro j hj v w hv hw ⟨i, _, hi, hvi⟩ ⟨i', _, hi', hwi⟩
    have := List.all_eq_true.mp (List.all_eq_true.mp (List.all_eq_true.mp key j (List.mem_range.mpr hj)) v hv) w hw
    rw [Bool.or_eq_true, Bool.or_eq_true] at this
    rcases this with (h | h) | h
    · have := List.all_eq_true.mp h i (List.mem_range.mpr hi)
      simp [hvi] at this
    · have := List.all_eq_true.mp h i' (List.mem_range.mpr hi')
      simp [hwi] at this
    · exact eq_of_beq h

/-- The pattern `<a> ?p ?o`. -/
def about : Pattern := ⟨"<a>", "?p", "?o"⟩

/-- A solution of `<a> ?p ?o` with a predicate that is not in the input. -/
def internalSol : TermSol := fun v => if v = "?p" then some "@en@<p>".toList else if v = "?o" then some "\"x\"@en".toList else none

end Sample

open Sample in
/-- **C78 violated** for variables as predicates: the index of `<a> <p> "x"@en . <b> <p> <a>` answers `<a> ?p ?o` also with the predicate
`@en@<p>`, which is not in the input. -/
theorem C78_internal_violated (lg : Nat → Nat → Nat) (parts : List (List (Fin 4 × Item))) (fuel : Nat)
    (hf : doc.length < fuel) (bs : List (List (Words × List Char))) (hbs : passBatches 2 fuel doc = .ok bs)
    (hparts : Items id (settings [] [['e', 'n']]) bs parts) (o : Outcome Result) (hrun : Run (order ascii) 2 parts o) :
    (∃ r l idx plans, o = .ok r ∧ load r = .ok l ∧ Permutation.createIndex lg r.nofWords (triplesOf r) = .ok (some idx) ∧
      leafPlans true "?f" about = .ok plans ∧ plans ≠ [] ∧ ∀ plan ∈ plans, ∃ x,
        LeafData (lookup ascii (r.nofWords + 2) (vocabOf l [] [['e', 'n']])) r.nofWords idx plan x ∧
        internalSol ∈ (x.map (Planner.solution plan.alt.cols)).map (showSol l)) ∧
    ¬ TermBgp isVariable [terms about] (doc.map (·.1)) internalSol := by
  constructor
  · obtain ⟨bs', last, h1, h2, h3, h4, h5⟩ := passBatches_ok doc_ok.batch fuel doc hf
    rw [hbs] at h1
    cases h1
    have hin := input_ok doc_ok hparts h2 h3 h4 h5
    obtain ⟨r, l, idx, g1, g2, g3, g4⟩ := C78_pattern_partial ascii _ 2 parts hin o hrun lg
    have hst := stored_doc doc_ok hparts h2
    obtain ⟨plans, p1, p2, p3⟩ := g4 [] [['e', 'n']] (r.nofWords + 2) (by omega) (fun w hw => (input_word doc_ok hparts h2 hw).2) about "?f"
      ⟨⟨by decide, by decide⟩, by decide, by decide, .inr (by rw [hst]; decide)⟩
      (by
        intro x hx hv
        left
        rcases hx with rfl | rfl | rfl
        · rfl
        · exact absurd hv (by decide)
        · exact absurd hv (by decide))
    refine ⟨r, l, idx, plans, g1, g2, g3, p1, p2, fun plan hp => ?_⟩
    obtain ⟨⟨x, hx⟩, hall⟩ := p3 plan hp
    refine ⟨x, hx, ((hall x hx).2 internalSol).mpr ?_⟩
    rw [hst]
    refine ⟨?_, fun v hv => ?_⟩
    · intro q hq
      rw [List.mem_singleton] at hq
      subst hq
      refine ⟨("<a>".toList, "@en@<p>".toList, "\"x\"@en".toList), by decide, ?_, ?_, ?_⟩
      · unfold Means; decide
      · unfold Means; decide
      · unfold Means; decide
    · unfold internalSol
      rw [if_neg, if_neg]
      · rintro rfl
        exact hv ⟨by decide, _, List.mem_cons_self, .inr (.inr rfl)⟩
      · rintro rfl
        exact hv ⟨by decide, _, List.mem_cons_self, .inr (.inl rfl)⟩
  · intro h
    obtain ⟨t, ht, _, h2, _⟩ := h.1 (terms about) List.mem_cons_self
    simp only [doc, List.map_cons, List.map_nil, List.mem_cons, List.not_mem_nil, or_false] at ht
    rcases ht with rfl | rfl
    · revert h2; unfold Means; decide
    · revert h2; unfold Means; decide

/-- **C78 violated** for predicates kept on disk: with the prefix `<p` among those kept on disk, the predicate for the English objects of
`<p>` is stored with the mark byte inside, so `@en@<p>`, which a query with a language filter looks for, is not a word of the index. -/
theorem C78_tagged_predicate_violated :
    ∃ it, toItem id true (settings [['<', 'p']] [['e', 'n']]) (['<', 'a', '>'], ['<', 'p', '>'], ['"', 'x', '"', '@', 'e', 'n']) = .ok it ∧
      taggedPredicate ['<', 'p', '>'] ['e', 'n'] ∉ (wordsOf (stored it.langtag it.s it.p it.o)).map shown :=
  ⟨⟨['e', 'n'], ['<', 'a', '>'], [Char.ofNat 128, 'p', '>'], ['"', 'x', '"', '@', 'e', 'n']⟩, by decide, by decide⟩

end Verif.Answers
