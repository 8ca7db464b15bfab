import Verif.Lemmas.VocabularyMerge
import Verif.Props.C30_ExternalVocabulary
/-
C31: the ids assigned while the partial vocabularies are built and merged.
-/
namespace Verif.VocabularyMerger
open Verif.VocabularySpec Verif.MetaData
open Verif.ExternalVocabulary (Word Fits charCmp charCmp_order)

/-- What the first phase of the index builder promises for the triples `parts` (divided into partial vocabularies) in terms of the
vocabulary `voc` that it defines. -/
structure Correct (cmp : Word → Word → Int) (parts : List (List (Fin 4 × Item))) (r : Result) (voc : List Word) : Prop where
  /-- The ids of every stored triple stand for its words; no triple is lost, added or moved. -/
  triples : List.Forall₂ (Denote voc) r.data (parts.map storedOf).flatten
  size : r.nofWords = voc.length
  /-- Exactly the words of the input and the language predicate occur. -/
  words : ∀ w, w ∈ voc ↔ (w = languagePredicate ∧ parts ≠ []) ∨ ∃ part ∈ parts, w ∈ wordsOf (storedOf part)
  /-- Ascending, and only external words can be repeated. -/
  sorted : voc.Pairwise fun a b => cmp a b < 0 ∨ (a = b ∧ External a)
  /-- An external word occurs once for each partial vocabulary with the word. -/
  copies : ∀ w, External w → voc.count w = (parts.filter fun part => decide (w ∈ wordsOf (storedOf part))).length
  /-- The ids between the two bounds are those of the language-tagged predicates. -/
  lang : ∀ (i : Nat) (w : Word), voc[i]? = some w → ((r.langLower ≤ i ∧ i < r.langUpper) ↔ w.head? = some '@')
  /-- The words in memory come first. -/
  split : voc = voc.filter isInternal ++ voc.filter fun w => !isInternal w
  /-- After loading the vocabulary, the words are in memory or on disk, each id is shown as its word, and other ids are not words. -/
  loads : Fits (voc.map shown) → ∃ l, load r = .ok l ∧ l.words = voc.filter isInternal ∧
    ExternalVocabulary.buildFromVector ((voc.filter fun w => !isInternal w).map shown) = .ok l.ext ∧ ∀ id,
    (∀ w, voc[id]? = some w → idToOptionalString l id = .ok (some (shown w))) ∧
    (voc.length ≤ id → idToOptionalString l id = if id = 2 ^ 64 - 3 then .ok none else .throw)

theorem external_iff (w : Word) : External w ↔ isInternal w = false := by
  cases w with
  | nil => simp [External, isInternal]
  | cons c cs =>
    simp only [isInternal, decide_eq_false_iff_not, External]
    constructor
    · rintro ⟨d, ds, h, h1⟩
      rw [List.cons.injEq] at h
      rw [h.1]; omega
    · intro h; exact ⟨c, cs, rfl, by omega⟩

theorem lang_spec {S : Word → Prop} {cmp : Word → Word → Int} (hS : WordsOk S cmp) {voc : List Word} {st : Merger}
    (hs : voc.Pairwise fun a b => cmp a b < 0 ∨ (a = b ∧ isInternal a = false)) (hv : ∀ w ∈ voc, S w) (h : LangInv voc st)
    (i : Nat) (w : Word) (hi : voc[i]? = some w) : ((st.langLower ≤ i ∧ i < st.langUpper) ↔ w.head? = some '@') := by
  rcases h with ⟨_, h2, h3, h4⟩ | ⟨_, ⟨x, hx, hx'⟩, ⟨y, hy0, hy, hy'⟩, h4⟩
  · rw [h2, h3]
    refine ⟨by omega, fun h5 => absurd h5 (h4 w (List.mem_of_getElem? hi))⟩
  · refine ⟨fun ⟨h5, h6⟩ => ?_, fun h5 => h4 i w hi h5⟩
    have hw := hv w (List.mem_of_getElem? hi)
    have sx := hv x (List.mem_of_getElem? hx)
    have sy := hv y (List.mem_of_getElem? hy)
    have hle : ∀ (a b : Nat) (u v : Word), a ≤ b → voc[a]? = some u → voc[b]? = some v → ¬ cmp v u < 0 := by
      intro a b u v hab hu hv'
      obtain ⟨ha, rfl⟩ := List.getElem?_eq_some_iff.mp hu
      obtain ⟨hb, rfl⟩ := List.getElem?_eq_some_iff.mp hv'
      have su := hv _ (List.getElem_mem ha)
      have sv := hv _ (List.getElem_mem hb)
      rcases Nat.lt_or_ge a b with h7 | h7
      · rcases List.pairwise_iff_getElem.mp hs a b ha hb h7 with h8 | ⟨h8, _⟩
        · exact hS.not_lt su sv h8
        · rw [h8, (hS.order.eq_zero _ _ sv sv).mpr rfl]; decide
      · have : a = b := by omega
        subst this
        rw [(hS.order.eq_zero _ _ sv sv).mpr rfl]; decide
    have h1 := hle _ _ _ _ h5 hx hi
    have h2 := hle i (st.langUpper - 1) _ _ (by omega) hi hy
    unfold isLang at hx' hy'
    cases w with
    | nil => exact absurd rfl (hS.nonempty _ hw)
    | cons c cs =>
      cases x with
      | nil => simp at hx'
      | cons d ds =>
        cases y with
        | nil => simp at hy'
        | cons e es =>
          simp only [List.head?_cons, Option.some.injEq] at hx' hy' ⊢
          subst hx' hy'
          have h7 : ¬ c.toNat < '@'.toNat := fun h => h1 (hS.first _ _ _ _ hw sx h)
          have h8 : ¬ '@'.toNat < c.toNat := fun h => h2 (hS.first _ _ _ _ sy hw h)
          exact Char.toNat_inj.mp (by omega)

theorem load_spec {voc : List Word} {r : Result} (hsplit : voc = voc.filter isInternal ++ voc.filter fun w => !isInternal w)
    (h1 : r.outfile = linesOf (voc.filter isInternal)) (h2 : r.outfileExternal = linesOf ((voc.filter fun w => !isInternal w).map shown))
    (hne : ∀ w ∈ voc, w ≠ []) (hf : Fits (voc.map shown)) :
    ∃ l, load r = .ok l ∧ l.words = voc.filter isInternal ∧
    ExternalVocabulary.buildFromVector ((voc.filter fun w => !isInternal w).map shown) = .ok l.ext ∧ ∀ id,
    (∀ w, voc[id]? = some w → idToOptionalString l id = .ok (some (shown w))) ∧
    (voc.length ≤ id → idToOptionalString l id = if id = 2 ^ 64 - 3 then .ok none else .throw) := by
  have hsub : ((voc.filter fun w => !isInternal w).map shown).Sublist (voc.map shown) := List.filter_sublist.map _
  have hlen := hsub.length_le
  have hflat : ((voc.filter fun w => !isInternal w).map shown).flatten.length ≤ (voc.map shown).flatten.length := by
    have h0 := congrArg (fun l => (l.map shown).flatten.length) hsplit
    simp only [List.map_append, List.flatten_append, List.length_append] at h0
    omega
  have hf' : Fits ((voc.filter fun w => !isInternal w).map shown) := by
    unfold Fits at hf ⊢; omega
  obtain ⟨v, b1, b2, b3, b4⟩ := ExternalVocabulary.buildFromText_get _ hf' (by
    intro w hw
    obtain ⟨x, hx, rfl⟩ := List.mem_map.mp hw
    have := hne x (List.mem_of_mem_filter hx)
    cases x with
    | nil => exact absurd rfl this
    | cons c cs => simp only [shown]; split <;> [skip; split] <;> simp)
  have hl : load r = .ok ⟨voc.filter isInternal, v⟩ := by
    unfold load
    rw [h1, h2]
    unfold linesOf
    rw [ExternalVocabulary.text_lines, b1]
    rfl
  have hvlen : voc.length = (voc.filter isInternal).length + v.size := by
    conv => lhs; rw [hsplit]
    rw [List.length_append, b2, List.length_map]
  have hbound : voc.length < 2 ^ 61 := by
    unfold Fits at hf; simp only [List.length_map] at hf; omega
  refine ⟨_, hl, rfl, b4, fun id => ⟨fun w hw => ?_, fun hid => ?_⟩⟩
  · unfold idToOptionalString
    simp only
    have hidl := (List.getElem?_eq_some_iff.mp hw).1
    rw [hsplit, List.getElem?_append] at hw
    split at hw
    · rename_i hlt
      rw [dif_pos hlt]
      obtain ⟨_, hw'⟩ := List.getElem?_eq_some_iff.mp hw
      rw [hw']
      have hin : isInternal w = true := (List.mem_filter.mp (List.mem_of_getElem? hw)).2
      have : shown w = w := by
        cases w with
        | nil => rfl
        | cons c cs =>
          simp only [isInternal, decide_eq_true_eq] at hin
          rw [shown, if_neg (by omega), if_neg (by omega)]
      rw [this]
    · rename_i hge
      rw [dif_neg hge, if_neg (by omega)]
      have hlt2 := (List.getElem?_eq_some_iff.mp hw).1
      rw [if_pos (by rw [b2, List.length_map]; exact hlt2)]
      rw [b3 _ (shown w) (by rw [List.getElem?_map, hw]; rfl)]
      rfl
  · unfold idToOptionalString
    simp only
    rw [dif_neg (by omega)]
    split
    · rfl
    · rw [if_neg (by omega)]

/-- C31: every execution of the first phase of the index builder ends normally, and its result is correct in the above sense.  The
hypotheses: the comparison is a total order in which the first byte decides first; words are not empty and start with a byte up to
128; a partial vocabulary has fewer items than ids were reserved for. -/
theorem merge_correct (S : Word → Prop) (cmp : Word → Word → Int) (maxT : Nat) (parts : List (List (Fin 4 × Item))) (hS : WordsOk S cmp)
    (hT : 400 * maxT < 2 ^ 64) (hp : ∀ part ∈ parts, 1 + 6 * part.length ≤ 100 * maxT) (hl : S languagePredicate)
    (hw : ∀ part ∈ parts, ∀ w ∈ wordsOf (storedOf part), S w)
    (hlen : 2 * parts.length + 3 * (parts.map storedOf).flatten.length < 2 ^ 64)
    (o : Outcome Result) (hrun : Run cmp maxT parts o) : ∃ r voc, o = .ok r ∧ Correct cmp parts r voc := by
  have hps : ∀ qs, List.Forall₂ (SortOf cmp maxT) parts qs →
      ∃ ps xs, partials qs = .ok ps ∧ List.Forall₂ (PartOk cmp) ps xs ∧ xs.map Prod.snd = parts.map storedOf :=
    fun qs h => partials_spec hS hT h hp hl hw
  cases hrun with
  | throw qs h1 h2 => obtain ⟨ps, xs, h3, _⟩ := hps qs h1; rw [h2] at h3; cases h3
  | ub qs h1 h2 => obtain ⟨ps, xs, h3, _⟩ := hps qs h1; rw [h2] at h3; cases h3
  | diverge qs h1 h2 => obtain ⟨ps, xs, h3, _⟩ := hps qs h1; rw [h2] at h3; cases h3
  | ok qs ps out h1 h2 hm =>
    obtain ⟨ps', xs, h3, h4, h5⟩ := hps qs h1
    rw [h2] at h3
    cases h3
    have hfs : (ps.map fun p => readVocab p.1.length p.1) = xs.map Prod.fst := by
      clear hm h2 hps h5 h1
      induction h4 with
      | nil => rfl
      | cons h _ ih => rw [List.map_cons, List.map_cons, ih, h.2]
    rw [hfs] at hm
    have hpo : ∀ x ∈ xs, ∃ ids, PartialOk cmp x.1 ids x.2 := by
      clear hm h2 hps h5 h1 hfs
      induction h4 with
      | nil => simp
      | cons h _ ih =>
        intro x hx
        rcases List.mem_cons.mp hx with rfl | hx
        · exact ⟨_, h.1⟩
        · exact ih x hx
    have hx2 : ∀ x ∈ xs, ∃ part ∈ parts, x.2 = storedOf part := by
      intro x hx
      have : x.2 ∈ parts.map storedOf := by rw [← h5]; exact List.mem_map_of_mem hx
      obtain ⟨part, h6, h7⟩ := List.mem_map.mp this
      exact ⟨part, h6, h7.symm⟩
    have hxS : ∀ x ∈ xs, ∀ e ∈ x.1, S e.1 := by
      intro x hx e he
      obtain ⟨ids, hpx⟩ := hpo x hx
      rcases (hpx.words e.1).mp (List.mem_map_of_mem he) with h6 | h6
      · rw [h6]; exact hl
      · obtain ⟨part, h7, h8⟩ := hx2 x hx
        exact hw part h7 _ (h8 ▸ h6)
    obtain ⟨m1, m2, m3⟩ := merged_spec hS hm
      (fun f hf => by obtain ⟨x, hx, rfl⟩ := List.mem_map.mp hf; obtain ⟨ids, hpx⟩ := hpo x hx; exact hpx.sorted)
      (fun f hf e he => by obtain ⟨x, hx, rfl⟩ := List.mem_map.mp hf; exact hxS x hx e he)
    have hperm := merged_perm hm
    have hmem : ∀ e, e ∈ out.map Prod.snd ↔ ∃ x ∈ xs, e ∈ x.1 := by
      intro e
      rw [hperm.mem_iff, List.mem_flatten]
      constructor
      · rintro ⟨f, hf, he⟩
        obtain ⟨x, hx, rfl⟩ := List.mem_map.mp hf
        exact ⟨x, hx, he⟩
      · rintro ⟨x, hx, he⟩
        exact ⟨x.1, List.mem_map_of_mem hx, he⟩
    have hxl : xs.length = ps.length := h4.length_eq.symm
    have hpl : ps.length = parts.length := by
      rw [← hxl]
      have := congrArg List.length h5
      simpa using this
    have houtlen : out.length < 2 ^ 64 := by
      have e1 : out.length = (xs.map Prod.fst).flatten.length := by rw [← hperm.length_eq, List.length_map]
      have e2 : (xs.map Prod.fst).flatten.length ≤ 2 * xs.length + 3 * (xs.map Prod.snd).flatten.length := by
        clear hm hfs m2 m3 hmem hperm e1 hx2 h5 hxl h4
        induction xs with
        | nil => simp
        | cons x xs ih =>
          obtain ⟨ids, hpx⟩ := hpo x (List.mem_cons_self ..)
          have := hpx.length_le hS (hxS x (List.mem_cons_self ..))
          have := ih (fun y hy => hpo y (List.mem_cons_of_mem _ hy)) (fun y hy => hxS y (List.mem_cons_of_mem _ hy))
          simp only [List.map_cons, List.flatten_cons, List.length_append, List.length_cons]
          omega
      rw [h5] at e2
      omega
    obtain ⟨st, voc, g1, g2⟩ := mergeAll_spec hS out [] [] (Merger.init ps.length) (mergeInv_init _)
      (fun q hq => by
        rw [List.nil_append] at hq
        refine ⟨by have := m3 q hq; rw [List.length_map] at this; omega, ?_⟩
        obtain ⟨x, hx, he⟩ := (hmem q.2).mp (List.mem_map_of_mem hq)
        exact hxS x hx _ he)
      (by simpa using m1) (by simpa using houtlen)
    rw [List.nil_append] at g2
    have hvecs : List.Forall₂ (fun (x : List Entry × List Words) v => VecOk voc x.1 v) xs st.idVecs := by
      rw [List.forall₂_iff_get]
      refine ⟨by rw [g2.vecs, hxl], fun i hi hi' => ?_⟩
      have h6 := g2.ids i _ (List.getElem?_eq_getElem hi')
      rw [m2 i (by simpa using hi), List.getElem?_eq_getElem (by simpa using hi)] at h6
      simpa [VecOk] using h6
    obtain ⟨data, c1, c2⟩ := convert_spec (ps := ps) (xs := xs) (h4.imp fun _ _ h => h.1) st.idVecs hvecs
    have hvS : ∀ w ∈ voc, S w := by
      intro w hw'
      obtain ⟨q, hq, rfl⟩ := List.mem_map.mp ((g2.mem w).mp hw')
      obtain ⟨x, hx, he⟩ := (hmem q.2).mp (List.mem_map_of_mem hq)
      exact hxS x hx _ he
    refine ⟨_, voc, by unfold finish; rw [g1]; simp only [Outcome.bind, c1, Outcome.map]; rfl, ?_⟩
    have hsplit : voc = voc.filter isInternal ++ voc.filter fun w => !isInternal w := by
      refine split_filter _ _ ?_
      refine g2.sorted.imp_of_mem fun {a b} ha hb h hbi => ?_
      by_contra hai
      have hai' : isInternal a = false := by simpa using hai
      rcases h with h | ⟨h, _⟩
      · exact hS.not_lt (hvS a ha) (hvS b hb) h (hS.int_lt_ext (hvS b hb) (hvS a ha) hbi hai')
      · rw [h, hbi] at hai'; exact absurd hai' (by decide)
    refine ⟨by rw [← h5]; exact c2, g2.total, ?_, ?_, ?_, fun i w hi => lang_spec hS g2.sorted hvS g2.lang i w hi, hsplit,
      load_spec hsplit g2.outInt g2.outExt (fun w hw' => hS.nonempty w (hvS w hw'))⟩
    · intro w
      have hw1 : w ∈ voc ↔ ∃ x ∈ xs, w ∈ x.1.map Prod.fst := by
        rw [g2.mem]
        constructor
        · intro h6
          obtain ⟨q, hq, rfl⟩ := List.mem_map.mp h6
          obtain ⟨x, hx, he⟩ := (hmem q.2).mp (List.mem_map_of_mem hq)
          exact ⟨x, hx, List.mem_map_of_mem he⟩
        · rintro ⟨x, hx, he⟩
          obtain ⟨e, he', rfl⟩ := List.mem_map.mp he
          obtain ⟨q, hq, rfl⟩ := List.mem_map.mp ((hmem e).mpr ⟨x, hx, he'⟩)
          exact List.mem_map.mpr ⟨q, hq, rfl⟩
      rw [hw1]
      constructor
      · rintro ⟨x, hx, he⟩
        obtain ⟨ids, hpx⟩ := hpo x hx
        obtain ⟨part, h7, h8⟩ := hx2 x hx
        rcases (hpx.words w).mp he with h6 | h6
        · exact .inl ⟨h6, fun h0 => by rw [h0] at h7; simp at h7⟩
        · exact .inr ⟨part, h7, h8 ▸ h6⟩
      · rintro (⟨h6, h7⟩ | ⟨part, h6, h7⟩)
        · cases hxs : xs with
          | nil => rw [hxs] at h5; simp at h5; exact absurd h5 h7
          | cons x xs' =>
            have hx : x ∈ xs := by rw [hxs]; exact List.mem_cons_self ..
            obtain ⟨ids, hpx⟩ := hpo x hx
            exact ⟨x, List.mem_cons_self .., (hpx.words w).mpr (.inl h6)⟩
        · have : storedOf part ∈ xs.map Prod.snd := by rw [h5]; exact List.mem_map_of_mem h6
          obtain ⟨x, hx, h8⟩ := List.mem_map.mp this
          obtain ⟨ids, hpx⟩ := hpo x hx
          exact ⟨x, hx, (hpx.words w).mpr (.inr (h8 ▸ h7))⟩
    · exact g2.sorted.imp fun h => h.imp id fun h => ⟨h.1, (external_iff _).mpr h.2⟩
    · intro w hwe
      have hwi := (external_iff w).mp hwe
      have e1 : voc.count w = (out.map fun q => q.2.1).count w := by
        rw [← List.count_filter (p := fun w => !isInternal w) (by simp [hwi]), g2.ext, List.count_filter (by simp [hwi])]
      have e2 : (out.map fun q => q.2.1) = (out.map Prod.snd).map Prod.fst := by simp
      rw [e1, e2, (hperm.map Prod.fst).count_eq]
      have e3 : ((xs.map Prod.fst).flatten.map Prod.fst).count w = ((xs.map Prod.snd).filter fun ts => decide (w ∈ wordsOf ts)).length := by
        clear hm hfs m2 m3 hmem hperm e1 hx2 h5 hxl h4 hvecs c1 c2
        induction xs with
        | nil => rfl
        | cons x xs ih =>
          obtain ⟨ids, hpx⟩ := hpo x (List.mem_cons_self ..)
          have h6 := hpx.ext_nodup hS (hxS x (List.mem_cons_self ..)) w hwi
          have h7 := ih (fun y hy => hpo y (List.mem_cons_of_mem _ hy)) (fun y hy => hxS y (List.mem_cons_of_mem _ hy))
          simp only [List.map_cons, List.flatten_cons, List.map_append, List.count_append, List.filter_cons, h6, h7]
          split
          · rename_i h8; rw [if_pos (by simpa using h8)]; simp; omega
          · rename_i h8; rw [if_neg (by simpa using h8)]; simp
      rw [e3, h5, List.filter_map, List.length_map]
      rfl

/-- C31: an execution exists. -/
theorem merge_total (S : Word → Prop) (cmp : Word → Word → Int) (maxT : Nat) (parts : List (List (Fin 4 × Item))) (hS : WordsOk S cmp)
    (hT : 400 * maxT < 2 ^ 64) (hp : ∀ part ∈ parts, 1 + 6 * part.length ≤ 100 * maxT) (hl : S languagePredicate)
    (hw : ∀ part ∈ parts, ∀ w ∈ wordsOf (storedOf part), S w) : ∃ o, Run cmp maxT parts o := by
  obtain ⟨qs, h1⟩ := sortOf_exists hS hT parts hp hl hw
  obtain ⟨ps, xs, h3, h4, h5⟩ := partials_spec hS hT h1 hp hl hw
  have hfs : (ps.map fun p => readVocab p.1.length p.1) = xs.map Prod.fst := by
    clear h3 h5 h1
    induction h4 with
    | nil => rfl
    | cons h _ ih => rw [List.map_cons, List.map_cons, ih, h.2]
  have hxS : ∀ x ∈ xs, ∀ e ∈ x.1, S e.1 := by
    intro x hx e he
    have hpo : ∃ ids, PartialOk cmp x.1 ids x.2 := by
      clear hfs h3 h5 h1
      induction h4 with
      | nil => simp at hx
      | cons h _ ih =>
        rcases List.mem_cons.mp hx with rfl | hx
        · exact ⟨_, h.1⟩
        · exact ih hx
    obtain ⟨ids, hpx⟩ := hpo
    rcases (hpx.words e.1).mp (List.mem_map_of_mem he) with h6 | h6
    · rw [h6]; exact hl
    · have : x.2 ∈ parts.map storedOf := by rw [← h5]; exact List.mem_map_of_mem hx
      obtain ⟨part, h7, h8⟩ := List.mem_map.mp this
      exact hw part h7 _ (h8 ▸ h6)
  obtain ⟨out, ho⟩ := merged_exists cmp hS _ (xs.map Prod.fst) rfl
    (fun f hf e he => by obtain ⟨x, hx, rfl⟩ := List.mem_map.mp hf; exact hxS x hx e he)
  exact ⟨_, .ok qs ps out h1 h3 (hfs ▸ ho)⟩

/-- C31, partial: if no external word is in two partial vocabularies, then ids and words correspond one to one and the order of the ids
is the order of the words.  Missing: external words in several partial vocabularies, see `unique_violated`. -/
theorem ids_ordered_partial (S : Word → Prop) (cmp : Word → Word → Int) (parts : List (List (Fin 4 × Item))) (hS : WordsOk S cmp)
    (r : Result) (voc : List Word) (h : Correct cmp parts r voc) (hv : ∀ w ∈ voc, S w)
    (hext : ∀ w, External w → (parts.filter fun part => decide (w ∈ wordsOf (storedOf part))).length ≤ 1)
    (i j : Nat) (a b : Word) (hi : voc[i]? = some a) (hj : voc[j]? = some b) :
    (i = j ↔ a = b) ∧ (i < j ↔ cmp a b < 0) := by
  have hstrict : voc.Pairwise fun a b => cmp a b < 0 := by
    have hnd : voc.Pairwise fun a b => External a → a ≠ b := by
      rw [List.pairwise_iff_forall_sublist]
      intro a b hab hae heq
      subst heq
      have h1 := hab.count_le a
      rw [h.copies a hae] at h1
      have := hext a hae
      simp at h1
      omega
    exact (h.sorted.and hnd).imp fun h => h.1.elim id fun h2 => absurd h2.1 (h.2 h2.2)
  obtain ⟨hil, rfl⟩ := List.getElem?_eq_some_iff.mp hi
  obtain ⟨hjl, rfl⟩ := List.getElem?_eq_some_iff.mp hj
  have si := hv _ (List.getElem_mem hil)
  have sj := hv _ (List.getElem_mem hjl)
  have h1 := List.pairwise_iff_getElem.mp hstrict
  rcases Nat.lt_trichotomy i j with h2 | h2 | h2
  · have h3 := h1 i j hil hjl h2
    exact ⟨⟨fun h => by omega, fun h => absurd h (hS.ne si sj h3)⟩, ⟨fun _ => h3, fun _ => h2⟩⟩
  · subst h2
    refine ⟨⟨fun _ => rfl, fun _ => rfl⟩, ⟨fun h => by omega, fun h => absurd rfl (hS.ne si sj h)⟩⟩
  · have h3 := h1 j i hjl hil h2
    exact ⟨⟨fun h => by omega, fun h => absurd h.symm (hS.ne sj si h3)⟩, ⟨fun h => by omega, fun h => absurd h3 (hS.not_lt si sj h)⟩⟩

/-! ### A concrete order and the examples -/

/-- Words that start with a byte up to 128. -/
def PlainWord (w : Word) : Prop := w.length < 2 ^ 64 ∧ ∃ c cs, w = c :: cs ∧ c.toNat ≤ 128

theorem charCmp_ok : WordsOk PlainWord charCmp := by
  refine ⟨charCmp_order _, ?_, ?_, ?_, fun w h => h.1⟩
  · intro c cs d ds _ _ h
    unfold charCmp
    have hlt : c :: cs < d :: ds := List.Lex.rel (r := (· < ·)) (show c < d from h)
    rw [if_pos hlt]
    decide
  · rintro w ⟨_, c, cs, rfl, _⟩; simp
  · rintro c cs ⟨_, d, ds, h, h1⟩
    rw [List.cons.injEq] at h
    rw [h.1]; exact h1

/-- One partial vocabulary with the triple `<a> <p> "x"`, whose object is externalised. -/
def dupPart (a : Char) : List (Fin 4 × Item) := [(0, ⟨[], ['<', a, '>'], ['<', 'p', '>'], [Char.ofNat 127, 'x', '"']⟩)]

theorem plain_dup (a : Char) (w : Word) (h : w ∈ wordsOf (storedOf (dupPart a))) : PlainWord w := by
  have : w = ['<', a, '>'] ∨ w = ['<', 'p', '>'] ∨ w = [Char.ofNat 127, 'x', '"'] := by
    have h0 : wordsOf (storedOf (dupPart a)) = [['<', a, '>'], ['<', 'p', '>'], [Char.ofNat 127, 'x', '"']] := rfl
    rw [h0] at h
    simpa only [List.mem_cons, List.not_mem_nil, or_false] using h
  rcases this with rfl | rfl | rfl
  · exact ⟨(by decide : 3 < 2 ^ 64), _, _, rfl, by decide⟩
  · exact ⟨(by decide : 3 < 2 ^ 64), _, _, rfl, by decide⟩
  · exact ⟨(by decide : 3 < 2 ^ 64), _, _, rfl, by decide⟩

-- The hypotheses of `merge_correct` and `merge_total` hold for two partial vocabularies with an external word in common.
example : WordsOk PlainWord charCmp ∧ 400 * 1000 < 2 ^ 64 ∧ (∀ part ∈ [dupPart 'a', dupPart 'b'], 1 + 6 * part.length ≤ 100 * 1000) ∧
    PlainWord languagePredicate ∧ (∀ part ∈ [dupPart 'a', dupPart 'b'], ∀ w ∈ wordsOf (storedOf part), PlainWord w) ∧
    2 * [dupPart 'a', dupPart 'b'].length + 3 * ([dupPart 'a', dupPart 'b'].map storedOf).flatten.length < 2 ^ 64 := by
  refine ⟨charCmp_ok, by decide, by decide, ⟨by decide, _, _, rfl, by decide⟩, ?_, by decide⟩
  intro part hp
  rcases List.mem_cons.mp hp with rfl | hp
  · exact plain_dup 'a'
  · rw [List.mem_singleton] at hp
    subst hp
    exact plain_dup 'b'

-- The hypothesis of `ids_ordered_partial` on external words holds for a single partial vocabulary.
example (w : Word) : ([dupPart 'a'].filter fun part => decide (w ∈ wordsOf (storedOf part))).length ≤ 1 :=
  List.length_filter_le _ _

/-! ### Violations -/

/-- The sorted words of `dupPart`. -/
def dupVec (a : Char) : List Entry :=
  [(languagePredicate, 0), (languagePredicate, 100000), (languagePredicate, 200000), (languagePredicate, 300000), (['<', a, '>'], 1),
    (['<', 'p', '>'], 2), ([Char.ofNat 127, 'x', '"'], 3)]

/-- The partial vocabulary of `dupPart`. -/
def dupFile (a : Char) : List Entry :=
  [(languagePredicate, 0), (languagePredicate, 1), (['<', a, '>'], 2), (['<', 'p', '>'], 3), ([Char.ofNat 127, 'x', '"'], 4)]

theorem Merged.pop' {cmp : Word → Word → Int} {fs : List (List Entry)} {out : List (Nat × Entry)} (i : Nat) (e : Entry) (r : List Entry)
    (h1 : fs[i]? = some (e :: r)) (h2 : ∀ f ∈ fs, f.head?.all (fun e' => decide (¬ cmp e'.1 e.1 < 0)) = true)
    (h3 : Merged cmp (fs.set i r) out) : Merged cmp fs ((i, e) :: out) := by
  refine .pop i e r h1 (fun f hf e' r' hfe => ?_) h3
  have := h2 f hf
  rw [hfe] at this
  simpa using this

/-- C31 fails: the externalised literal `"x"` is the object of two triples in different partial vocabularies.  It gets the ids 4 and 5,
because `writeQueueWordsToIdVec` compares the next word with the last word after its first character has been replaced. -/
theorem unique_violated : ∃ r, Run charCmp 1000 [dupPart 'a', dupPart 'b'] (.ok r) ∧
    r.data = [(1, 3, 4), (2, 3, 5)] ∧ (∃ l, load r = .ok l ∧ idToOptionalString l 4 = .ok (some ['"', 'x', '"']) ∧
      idToOptionalString l 5 = .ok (some ['"', 'x', '"'])) := by
  have hm : Merged charCmp [dupFile 'a', dupFile 'b'] [(0, (languagePredicate, 0)), (0, (languagePredicate, 1)),
      (1, (languagePredicate, 0)), (1, (languagePredicate, 1)), (0, (['<', 'a', '>'], 2)), (1, (['<', 'b', '>'], 2)),
      (0, (['<', 'p', '>'], 3)), (1, (['<', 'p', '>'], 3)), (0, ([Char.ofNat 127, 'x', '"'], 4)), (1, ([Char.ofNat 127, 'x', '"'], 4))] := by
    unfold dupFile
    refine .pop' 0 _ _ rfl (by decide) ?_
    refine .pop' 0 _ _ rfl (by decide) ?_
    refine .pop' 1 _ _ rfl (by decide) ?_
    refine .pop' 1 _ _ rfl (by decide) ?_
    refine .pop' 0 _ _ rfl (by decide) ?_
    refine .pop' 1 _ _ rfl (by decide) ?_
    refine .pop' 0 _ _ rfl (by decide) ?_
    refine .pop' 1 _ _ rfl (by decide) ?_
    refine .pop' 0 _ _ rfl (by decide) ?_
    refine .pop' 1 _ _ rfl (by decide) ?_
    exact .done (by decide)
  have hps : partials [(dupVec 'a', [(1, 2, 3)]), (dupVec 'b', [(1, 2, 3)])] =
      .ok [(encodeVocab (dupFile 'a'), [(2, 3, 4)]), (encodeVocab (dupFile 'b'), [(2, 3, 4)])] := by decide +kernel
  have hread : ([(encodeVocab (dupFile 'a'), [(2, 3, 4)]), (encodeVocab (dupFile 'b'), [(2, 3, 4)])] : List (List Nat × List Ids)).map
      (fun p => readVocab p.1.length p.1) = [dupFile 'a', dupFile 'b'] := by decide +kernel
  have hfin : ∀ x, finish [(encodeVocab (dupFile 'a'), [(2, 3, 4)]), (encodeVocab (dupFile 'b'), [(2, 3, 4)])] x = finish [([], [(2, 3, 4)]), ([], [(2, 3, 4)])] x :=
    fun _ => rfl
  have hrun := Run.ok (cmp := charCmp) (maxTriples := 1000) (parts := [dupPart 'a', dupPart 'b']) _ _ _
    (.cons ⟨by decide, by decide, by decide⟩ (.cons ⟨by decide, by decide, by decide⟩ .nil)) hps (hread ▸ hm)
  rw [hfin] at hrun
  have hres : finish [([], [(2, 3, 4)]), ([], [(2, 3, 4)])] [(0, (languagePredicate, 0)), (0, (languagePredicate, 1)),
      (1, (languagePredicate, 0)), (1, (languagePredicate, 1)), (0, (['<', 'a', '>'], 2)), (1, (['<', 'b', '>'], 2)),
      (0, (['<', 'p', '>'], 3)), (1, (['<', 'p', '>'], 3)), (0, ([Char.ofNat 127, 'x', '"'], 4)), (1, ([Char.ofNat 127, 'x', '"'], 4))] =
      .ok ⟨6, 0, 0, linesOf [languagePredicate, ['<', 'a', '>'], ['<', 'b', '>'], ['<', 'p', '>']],
        linesOf [['"', 'x', '"'], ['"', 'x', '"']], [(1, 3, 4), (2, 3, 5)]⟩ := by decide +kernel
  rw [hres] at hrun
  refine ⟨_, hrun, rfl, ?_⟩
  obtain ⟨l, h1, _, _, h2⟩ := load_spec (voc := [languagePredicate, ['<', 'a', '>'], ['<', 'b', '>'], ['<', 'p', '>'],
      [Char.ofNat 127, 'x', '"'], [Char.ofNat 127, 'x', '"']])
    (r := ⟨6, 0, 0, linesOf [languagePredicate, ['<', 'a', '>'], ['<', 'b', '>'], ['<', 'p', '>']],
        linesOf [['"', 'x', '"'], ['"', 'x', '"']], [(1, 3, 4), (2, 3, 5)]⟩) (by decide) rfl rfl (by decide) (by decide)
  exact ⟨l, h1, (h2 4).1 _ rfl, (h2 5).1 _ rfl⟩

/-- C31 fails for empty words: an empty word that is the first of the merge gets the id `2 ^ 64 - 1`. -/
theorem empty_violated : ∃ st, mergeAll (Merger.init 1) [(0, ([], 7))] = .ok st ∧ st.idVecs = [[(7, 2 ^ 64 - 1)]] ∧ st.total = 0 :=
  ⟨_, rfl, by decide, rfl⟩

end Verif.VocabularyMerger
