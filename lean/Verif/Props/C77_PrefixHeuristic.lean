import Verif.Lemmas.PrefixResult
import Verif.Props.C04_PrefixCompression
import Verif.Lemmas.CollationExample
/-
C77: the prefixes that are chosen for the compression of the vocabulary.
-/
namespace Verif.PrefixHeuristic
open RdfEscaping (escapeNB)
open PrefixCompression (vocabFile IsPrefixVec compress prefixFile readPrefixFile prefixCompressFile load)
open PrefixChoice

/-! ### The tree -/

/-- `a` is the value of a proper ancestor of a node with the value `b`. -/
inductive Ancestor : Forest → Word → Word → Prop
  | here {n : Node} {cs rest : Forest} {m : Node} : m ∈ cs.nodes → Ancestor (.cons n cs rest) n.value m.value
  | down {n : Node} {cs rest : Forest} {a b : Word} : Ancestor cs a b → Ancestor (.cons n cs rest) a b
  | next {n : Node} {cs rest : Forest} {a b : Word} : Ancestor rest a b → Ancestor (.cons n cs rest) a b

theorem ancestor_iff {f : Forest} (hwf : Wf f) {a b : Word} (ha : a ∈ vals f) (hb : b ∈ vals f) :
    Ancestor f a b ↔ a <+: b ∧ a ≠ b := by
  induction f with
  | nil => simp [vals, Forest.nodes] at ha
  | cons n cs rest ihc ihr =>
    rw [wf_cons] at hwf
    obtain ⟨w1, w2, w3, w4⟩ := hwf
    have sub : ∀ {f : Forest} {a b : Word}, Ancestor f a b → a ∈ vals f ∧ b ∈ vals f := by
      intro f a b h
      induction h with
      | @here n cs rest m hm => rw [vals_cons]; exact ⟨by simp, by simp [mem_vals.mpr ⟨m, hm, rfl⟩]⟩
      | down _ ih => rw [vals_cons]; exact ⟨by simp [ih.1], by simp [ih.2]⟩
      | next _ ih => rw [vals_cons]; exact ⟨by simp [ih.1], by simp [ih.2]⟩
    constructor
    · intro h
      cases h with
      | here hm => exact w1 _ (mem_vals.mpr ⟨_, hm, rfl⟩)
      | down h => exact (ihc w3 (sub h).1 (sub h).2).mp h
      | next h => exact (ihr w4 (sub h).1 (sub h).2).mp h
    · rintro ⟨hab, hne⟩
      rw [vals_cons] at ha hb
      rcases List.mem_cons.mp ha with rfl | ha
      · rcases List.mem_cons.mp hb with rfl | hb
        · exact absurd rfl hne
        · rcases List.mem_append.mp hb with hb | hb
          · obtain ⟨m, hm, rfl⟩ := mem_vals.mp hb
            exact .here hm
          · exact absurd hab (w2 n.value (by simp) b hb).1
      · rcases List.mem_append.mp ha with ha | ha
        · rcases List.mem_cons.mp hb with rfl | hb
          · exact absurd ((w1 a ha).1.eq_of_length_le hab.length_le) (w1 a ha).2
          · rcases List.mem_append.mp hb with hb | hb
            · exact .down ((ihc w3 ha hb).mpr ⟨hab, hne⟩)
            · exact absurd hab (w2 a (by simp [ha]) b hb).1
        · rcases List.mem_cons.mp hb with rfl | hb
          · exact absurd hab (w2 n.value (by simp) a ha).2
          · rcases List.mem_append.mp hb with hb | hb
            · exact absurd hab (w2 b (by simp [hb]) a ha).2
            · exact .next ((ihr w4 ha hb).mpr ⟨hab, hne⟩)

/-- Insertions of words, each with a null pointer or a node of a word that was inserted before as the start point. -/
inductive Inserts : List Word → Tree → Prop
  | init : Inserts [] Tree.init
  | step {ls : List Word} {t t' : Tree} {v : Word} {start : Option Word} :
    Inserts ls t → (∀ h, start = some h → h ∈ ls) → t.insert v start = .ok t' → Inserts (ls ++ [v]) t'

theorem Inserts.built {ls : List Word} {t : Tree} (h : Inserts ls t) : Built t ls := by
  induction h with
  | init => exact built_init
  | step _ hs hi ih => exact built_insert ih (fun h e => ih.mem h (hs h e)) hi

/-- C77 (the tree): after insertions in any order and from any start points, the nodes are the empty word and the words that were
inserted, each once; one is an ancestor of another exactly if it is a proper prefix; and a node counts how often its word was
inserted. -/
theorem C77_tree {ls : List Word} {t : Tree} (h : Inserts ls t) :
    (t.root.nodes.map (·.value)).Nodup ∧ (∀ v, v ∈ t.root.nodes.map (·.value) ↔ v = [] ∨ v ∈ ls) ∧
      (∀ a b : Word, (a = [] ∨ a ∈ ls) → (b = [] ∨ b ∈ ls) → (Ancestor t.root a b ↔ a <+: b ∧ a ≠ b)) ∧
      ∀ n ∈ t.root.nodes, n.value ≠ [] → n.own = ls.count n.value := by
  have hb := h.built
  have hm : ∀ v, v ∈ vals t.root ↔ v = [] ∨ v ∈ ls := by
    intro v
    refine ⟨hb.only v, ?_⟩
    rintro (rfl | hv)
    · exact hb.root
    · exact hb.mem v hv
  exact ⟨nodup_vals hb.wf, hm, fun a b ha hb' => ancestor_iff hb.wf ((hm a).mpr ha) ((hm b).mpr hb'), hb.own⟩

/-- C77 (the start point): where the search for the place of a word starts makes no difference, although the children that are moved
to a new node keep their old parent. -/
theorem C77_start {ls : List Word} {t : Tree} (h : Inserts ls t) (v s : Word) (hs : s ∈ ls) :
    t.insert v (some s) = t.insert v none := by
  rw [insert_eq h.built v (fun h' e => by cases e; exact h.built.mem s hs), insert_eq h.built v (by simp)]

/-- Insertions in an order in which children are moved. -/
example : ∃ t, Inserts ["abc".toList, "abd".toList, "ab".toList, "abd".toList] t ∧ t.root.nodes.length = 4 := by
  have h1 := Inserts.step (v := "abc".toList) (start := none) .init (by simp) rfl
  have h2 := Inserts.step (v := "abd".toList) (start := some "abc".toList) h1 (by simp) rfl
  have h3 := Inserts.step (v := "ab".toList) (start := some "abd".toList) h2 (by simp) rfl
  have h4 := Inserts.step (v := "abd".toList) (start := some "ab".toList) h3 (by simp) rfl
  exact ⟨_, h4, by decide⟩

/-! ### The prefixes -/

/-- C77 (defined): for the words of a vocabulary in the order of `std::less<>`, which the index builder uses, the computation ends
without undefined behaviour; the first word does not matter. -/
theorem C77_defined (ws : List Word) (hs : SortedTail ws) (num code : Nat) (always : Bool) :
    ∃ ps total, calculatePrefixes (vocabFile ws) num code always = .ok (ps, total) := by
  cases ws with
  | nil => exact ⟨[], 0, rfl⟩
  | cons w ws =>
    rw [calculate_vocabFile]
    obtain ⟨r, hr⟩ := prefixesOf_ok (w := w) hs num code always
    exact ⟨r.1, r.2, hr⟩

example : SortedTail ["<a>".toList, "<b/1>".toList, "<b/2>".toList] := by
  unfold SortedTail; decide

/-- C77 (candidates): whenever the computation ends, in whatever order the words are, the prefixes are different, at most as many as
wanted, long enough, and longest common prefixes of neighbours in the file (of which the first one is still escaped).
-/
theorem C77_candidates (w : Word) (ws cs : List Word) (hc : CommonPrefixes (escapeNB w :: ws) cs) (num code : Nat) (always : Bool)
    {ps : List Word} {total : Nat} (h : calculatePrefixes (vocabFile (w :: ws)) num code always = .ok (ps, total)) :
    ps.Nodup ∧ ps.length ≤ num ∧ ∀ p ∈ ps, p ∈ cs ∧ (if always then 0 else code) < p.length := by
  rw [calculate_vocabFile] at h
  obtain ⟨f, l, h1, h2, h3⟩ := prefixesOf_inv h
  obtain ⟨l', e, b1, b2, b3⟩ := choose_basic (if always then 0 else code) (k := num) h1
  rw [h2] at e
  simp only [Outcome.ok.injEq] at e
  subst e
  simp only [Prod.mk.injEq] at h3
  obtain ⟨rfl, _⟩ := h3
  rw [commonPrefixes_unique hc (candidates_spec _ _)]
  refine ⟨b2, by simpa using b1, ?_⟩
  intro p hp
  obtain ⟨x, hx, rfl⟩ := List.mem_map.mp hp
  have := (b3 x hx).2.2.1
  rw [List.mem_filter] at this
  refine ⟨this.1, ?_⟩
  have := this.2
  cases always
  · simp at this ⊢; omega
  · simp at this ⊢; omega

/-- C77 (gain): with the options of the index builder, the number that is reported is the number of characters that the prefixes cover in
the common prefixes of neighbours; every prefix is the best one to be added to those before; and if there are fewer than wanted, then
every common prefix is covered completely. -/
theorem C77_gain (w : Word) (ws cs : List Word) (hc : CommonPrefixes (escapeNB w :: ws) cs) (num code : Nat)
    {ps : List Word} {total : Nat} (h : calculatePrefixes (vocabFile (w :: ws)) num code true = .ok (ps, total)) :
    total = saved ps cs ∧ Greedy cs ps ∧ (ps.length < num → ∀ c ∈ cs, covered ps c = c.length) := by
  rw [calculate_vocabFile] at h
  obtain ⟨f, l, h1, h2, h3⟩ := prefixesOf_inv h
  simp only [if_true] at h1 h2
  simp only [Prod.mk.injEq] at h3
  obtain ⟨rfl, rfl⟩ := h3
  rw [commonPrefixes_unique hc (candidates_spec _ _)]
  generalize candidates (escapeNB w) ws = cs at *
  obtain ⟨g1, g2, g3⟩ := choose_greedy h1 h2
  have hz : ∀ ls : List Word, saved [] ls = 0 := fun ls => sum_map_zero fun _ _ => rfl
  have hperm : ∀ (q : List Word) (ls : List Word), saved (q.reverse ++ []) ls = saved q ls := fun q ls => by
    rw [List.append_nil]; exact saved_perm (List.reverse_perm q) ls
  have hperm1 : ∀ (c : Word) (q : List Word) (ls : List Word), saved (c :: (q.reverse ++ [])) ls = saved (q ++ [c]) ls := fun c q ls => by
    rw [List.append_nil]
    exact saved_perm (((List.reverse_perm q).cons c).trans (List.perm_append_comm (l₁ := [c]) (l₂ := q))) ls
  simp only [hperm, hperm1, saved_filter, hz, Nat.zero_add] at g1 g2 g3
  refine ⟨g1.symm, ?_, ?_⟩
  · intro i hi
    rw [List.length_map] at hi
    refine ⟨(g2 i hi).1, fun q hq => ?_⟩
    by_cases hl : 1 ≤ q.length
    · exact (g2 i hi).2 q (List.mem_filter.mpr ⟨hq, by simpa using hl⟩)
    · have hnil : q = [] := List.length_eq_zero_iff.mp (by omega)
      subst hnil
      have e : saved ((l.map (·.2)).take i ++ [[]]) cs = saved ((l.map (·.2)).take i) cs := by
        rw [saved_perm (List.perm_append_comm (l₁ := (l.map (·.2)).take i) (l₂ := [[]]))]
        unfold saved
        refine congrArg List.sum (List.map_congr_left fun c _ => ?_)
        rw [List.singleton_append, covered_cons_pos _ List.nil_prefix]
        exact Nat.zero_max _
      rw [e]
      exact Nat.le_of_lt (g2 i hi).1
  · intro hlt c hcm
    by_cases hl : 1 ≤ c.length
    · have := g3 (by simpa using hlt) c (List.mem_filter.mpr ⟨hcm, by simpa using hl⟩)
      rw [saved_perm (List.perm_append_comm (l₁ := l.map (·.2)) (l₂ := [c]))] at this
      exact covered_of_saved hcm this
    · have := covered_le (l.map (·.2)) c
      omega

/-- C77 (size): compressing the words after the first with the prefixes saves at least as many characters as reported, compared with
one code for every word. -/
theorem C77_size (w : Word) (ws : List Word) (num code : Nat) (hnum : num ≤ PrefixCompression.numPrefixes)
    {ps : List Word} {total : Nat} (h : calculatePrefixes (vocabFile (w :: ws)) num code true = .ok (ps, total))
    (pv : List (Char × Word)) (hpv : IsPrefixVec ps pv) :
    (ws.map fun x => (compress pv x).length).sum + total ≤ (ws.map fun x => x.length + 1).sum := by
  have hc := candidates_spec (escapeNB w) ws
  have hlen := (C77_candidates w ws _ hc num code true h).2.1
  rw [(C77_gain w ws _ hc num code h).1]
  refine Nat.le_trans (Nat.add_le_add_left (saved_words hc ps) _) ?_
  have key : ∀ x, (compress pv x).length + covered ps x ≤ x.length + 1 := by
    intro x
    rcases covered_attained ps x with h0 | ⟨p, hp, h1, h2⟩
    · rw [h0]
      have hgen : ∀ pv : List (Char × Word), (compress pv x).length ≤ x.length + 1 := by
        intro pv
        induction pv with
        | nil => simp [compress]
        | cons y pv ih =>
          rw [compress]
          split
          · simp
          · exact ih
      exact hgen pv
    · rw [← h2]
      refine PrefixCompression.C04_longest_prefix ps pv hpv x p ?_ h1
      rw [List.take_of_length_le (by omega)]
      exact hp
  clear h hlen hc
  induction ws with
  | nil => simp [saved]
  | cons x ws ih =>
    simp only [saved, List.map_cons, List.sum_cons] at ih ⊢
    have := key x
    omega

/-- Two prefixes are wanted and found: `<h/` covers the most, then `<g/`; nothing is left. -/
example : calculatePrefixes (vocabFile ["<g/1".toList, "<g/2".toList, "<h/1".toList, "<h/2".toList, "<h/3".toList]) 3 1 true =
    .ok (["<h/".toList, "<g/".toList, "<".toList], 10) := by
  rw [calculate_vocabFile]; decide +kernel

/-- C77 (lossless), partial: from the words to the files and back: with the prefixes that are computed for a vocabulary in the order of
`std::less<>`, the vocabulary can be written and loaded again, if no word contains a newline.  (Missing: words with
newlines, for which it is false, see `C77_newline_violated`.) -/
theorem C77_lossless_partial (ws words : List Word) (hs : SortedTail ws) (hnl : ∀ x ∈ ws.tail, '\n' ∉ x) (num code : Nat) (always : Bool) :
    ∃ ps total, calculatePrefixes (vocabFile ws) num code always = .ok (ps, total) ∧
      ∀ pv pv', IsPrefixVec ps pv → IsPrefixVec ps pv' →
        load (readPrefixFile (prefixFile ps)) pv' (prefixCompressFile pv (vocabFile words)) = .ok words := by
  obtain ⟨ps, total, h⟩ := C77_defined ws hs num code always
  refine ⟨ps, total, h, fun pv pv' h1 h2 => ?_⟩
  refine (PrefixCompression.C04_file_roundtrip_partial ps pv pv' h1 h2 ?_ words).2
  intro p hp hmem
  cases ws with
  | nil =>
    simp only [calculatePrefixes, vocabFile, PrefixCompression.writeLines, List.map_nil, List.flatten_nil,
      PrefixCompression.getlines, Outcome.ok.injEq, Prod.mk.injEq] at h
    rw [← h.1] at hp
    simp at hp
  | cons w ws =>
    have hc := candidates_spec (escapeNB w) ws
    obtain ⟨a, ha, hpa⟩ := mem_commonPrefixes hc p ((C77_candidates w ws _ hc num code always h).2.2 p hp).1
    exact hnl a ha (hpa.subset hmem)

example : ∀ x ∈ ["<a>".toList, "<b/1>".toList, "<b/2>".toList].tail, '\n' ∉ x := by decide

/-! ### Violations -/

/-- C77 fails in full: for a sorted vocabulary with newlines in literals the prefixes that are computed are such that the vocabulary that
is written with them is loaded as a different one. -/
theorem C77_newline_violated :
    ∃ ws : List Word, SortedTail ws ∧ ∃ ps total, calculatePrefixes (vocabFile ws) 126 1 true = .ok (ps, total) ∧
      ∃ pv, IsPrefixVec ps pv ∧ ∀ pv', IsPrefixVec (readPrefixFile (prefixFile ps)) pv' →
        load (readPrefixFile (prefixFile ps)) pv' (prefixCompressFile pv (vocabFile ws)) ≠ .ok ws := by
  refine ⟨["\"!x1".toList, "\"!x2".toList, "\"a\nb1".toList, "\"a\nb2".toList, "\"a\nb3".toList, "\"a\nb4".toList],
    by unfold SortedTail; decide, ["\"a\nb".toList, "\"!x".toList, "\"".toList], 16, ?_,
    [(Char.ofNat 129, "\"a\nb".toList), (Char.ofNat 130, "\"!x".toList), (Char.ofNat 131, "\"".toList)],
    ⟨List.Perm.refl _, by decide⟩, ?_⟩
  · rw [calculate_vocabFile]; decide +kernel
  · intro pv' hpv'
    have hr : readPrefixFile (prefixFile ["\"a\nb".toList, "\"!x".toList, "\"".toList]) =
        [['"', 'a'], ['b'], ['"', '!', 'x'], ['"']] := by decide +kernel
    rw [hr] at hpv' ⊢
    rw [load]
    have hf : ∃ ls, PrefixCompression.getlines (prefixCompressFile
        [(Char.ofNat 129, "\"a\nb".toList), (Char.ofNat 130, "\"!x".toList), (Char.ofNat 131, "\"".toList)]
        (vocabFile ["\"!x1".toList, "\"!x2".toList, "\"a\nb1".toList, "\"a\nb2".toList, "\"a\nb3".toList, "\"a\nb4".toList])) =
        [Char.ofNat 130, '1'] :: ls := by
      rw [← List.head?_eq_some_iff]
      decide +kernel
    obtain ⟨ls, hf⟩ := hf
    have he : PrefixCompression.expand [['"', 'a'], ['b'], ['"', '!', 'x'], ['"']] [Char.ofNat 130, '1'] = .ok ['b', '1'] := by decide
    have hu : RdfEscaping.unescapeNB ['b', '1'] = .ok ['b', '1'] := by simp [RdfEscaping.unescapeNB, RdfEscaping.unescapeGen]
    rw [hf]
    simp only [load.go, PrefixCompression.loadLine, he, Outcome.bind, hu, PrefixCompression.C04_expand_compress _ _ hpv']
    intro h
    cases hg : load.go [['"', 'a'], ['b'], ['"', '!', 'x'], ['"']] pv' ls with
    | throw => rw [hg] at h; simp at h
    | ub => rw [hg] at h; simp at h
    | diverge => rw [hg] at h; simp at h
    | ok r =>
      rw [hg] at h
      simp only [Outcome.map, Outcome.ok.injEq, List.cons.injEq] at h
      exact absurd h.1 (by decide)

/-- C77 fails for other orders: for words in the order of the vocabulary (`TripleComponentComparator`, here with a collator that ignores
case first) the children that begin with the new word need not be the last ones.  `std::remove_if` then deletes some of them and leaves
null pointers in the tree.  The converter of old indexes calls the function for such a file (/repo/src/index/MetaDataConverter.cpp:222-223).
-/
theorem C77_order_violated :
    ∃ ws : List Word, ws.Pairwise (fun a b => Collation.tripleCompare Collation.ascii a b .total < 0) ∧
      ∀ num > 0, calculatePrefixes (vocabFile ws) num 1 false = .ub := by
  refine ⟨["<abc1>".toList, "<abc2>".toList, "<ABC3>".toList, "<ABC4>".toList, "<abd>".toList, "<abe>".toList], ?_, fun num _ => ?_⟩
  · decide +kernel
  · rw [calculate_vocabFile, prefixesOf]
    have : buildWords (if false = true then 1 else 1 + 1) Tree.init none (escapeNB "<abc1>".toList)
        ["<abc2>".toList, "<ABC3>".toList, "<ABC4>".toList, "<abd>".toList, "<abe>".toList] = .ub := by decide +kernel
    rw [this]
    rfl

/-- C77 fails for the first word: it is not unescaped, so that what is chosen need not be a prefix of it, and the longest common prefix
of the two words of the vocabulary is not considered. -/
theorem C77_first_violated :
    ∃ w1 w2 p : Word, [w1, w2].Pairwise (· ≤ ·) ∧ calculatePrefixes (vocabFile [w1, w2]) 126 1 true = .ok ([p], 3) ∧
      ¬ p <+: w1 ∧ ¬ LongestCommon w1 w2 p := by
  refine ⟨"\"\n1".toList, "\"\\nX".toList, "\"\\n".toList, by decide, ?_, by decide, fun h => ?_⟩
  · rw [calculate_vocabFile]; decide +kernel
  · exact absurd h.1 (by decide)

end Verif.PrefixHeuristic
