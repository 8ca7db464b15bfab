import Verif.Lemmas.PrefixCompression
/-
C04: prefix compression of the vocabulary is lossless.
-/
namespace Verif.PrefixCompression
open Verif.RdfEscaping

/-- C04 (in memory).  Whatever the list of prefixes and whatever order the unstable sort produced, expanding a
compressed word returns the word. -/
theorem C04_expand_compress (ps : List (List Char)) (pv : List (Char × List Char)) (h : IsPrefixVec ps pv)
    (w : List Char) : expand ps (compress pv w) = .ok w :=
  expand_compress_aux ps pv (fun _ hx => h.1.mem_iff.mp hx) w

/-- Two prefixes of which one is a prefix of the other. -/
example : IsPrefixVec [['<', 'h'], ['<', 'h', 't', 't', 'p']]
    [(Char.ofNat 130, ['<', 'h', 't', 't', 'p']), (Char.ofNat 129, ['<', 'h'])] := by
  constructor
  · exact List.Perm.swap _ _ _
  · simp

/-- C04: compression always uses a longest matching prefix: no prefix of the list that the word starts with is longer
than the part that was removed. -/
theorem C04_longest_prefix (ps : List (List Char)) (pv : List (Char × List Char)) (h : IsPrefixVec ps pv)
    (w p : List Char) (hp : p ∈ ps.take numPrefixes) (hw : p <+: w) :
    (compress pv w).length + p.length ≤ w.length + 1 := by
  have hmem : ∃ c, (c, p) ∈ pv := by
    obtain ⟨i, hi, hpi⟩ := List.getElem_of_mem hp
    refine ⟨Char.ofNat (minPrefix + i), h.1.mem_iff.mpr ?_⟩
    simp only [prefixVecUnsorted, List.mem_map, Prod.exists]
    refine ⟨p, i, ?_, rfl⟩
    rw [List.mem_zipIdx_iff_getElem?]
    simp only
    rw [List.getElem?_eq_getElem hi, hpi]
  obtain ⟨c, hc⟩ := hmem
  have hs := h.2
  have hlen : p.length ≤ w.length := hw.length_le
  clear h
  induction pv with
  | nil => simp at hc
  | cons x pv ih =>
    obtain ⟨c', p'⟩ := x
    simp only [compress]
    simp only [List.pairwise_cons] at hs
    split
    · rename_i hp'
      have hlen' : p'.length ≤ w.length := ((startsWith_iff w p').mp hp').length_le
      have hle : p.length ≤ p'.length := by
        simp only [List.mem_cons, Prod.mk.injEq] at hc
        rcases hc with ⟨_, rfl⟩ | hc
        · exact Nat.le_refl _
        · exact hs.1 _ hc
      simp; omega
    · rename_i hp'
      simp only [List.mem_cons, Prod.mk.injEq] at hc
      rcases hc with ⟨_, rfl⟩ | hc
      · exact absurd ((startsWith_iff w p).mpr hw) hp'
      · exact ih hc hs.2

/-- C04 (on disk), partial: writing the vocabulary with a list of prefixes and loading it, with the prefixes re-read
from their file, yields the same list of words, if no prefix contains a newline character.  (Missing: prefixes that
contain a newline, for which the claim is false, see `C04_newline_in_prefix_corrupts`.)  `pv` and `pv'` are the sorted
prefix tables at build time and at load time. -/
theorem C04_file_roundtrip_partial (ps : List (List Char)) (pv pv' : List (Char × List Char)) (h : IsPrefixVec ps pv)
    (h' : IsPrefixVec ps pv') (hnl : ∀ p ∈ ps, '\n' ∉ p) (words : List (List Char)) :
    readPrefixFile (prefixFile ps) = ps ∧
    load (readPrefixFile (prefixFile ps)) pv' (prefixCompressFile pv (vocabFile words)) = .ok words := by
  have hps : readPrefixFile (prefixFile ps) = ps := getlines_writeLines ps hnl
  refine ⟨hps, ?_⟩
  rw [hps]
  have h1 : getlines (vocabFile words) = words.map escapeNB := by
    apply getlines_writeLines
    intro l hl
    simp only [List.mem_map] at hl
    obtain ⟨w, _, rfl⟩ := hl
    exact newline_not_mem w
  have h2 : getlines (prefixCompressFile pv (vocabFile words)) = words.map fun w => compress pv (escapeNB w) := by
    rw [prefixCompressFile, getlines_writeLines, h1, List.map_map]; rfl
    rw [h1]
    intro l hl
    simp only [List.mem_map] at hl
    obtain ⟨_, ⟨w, _, rfl⟩, rfl⟩ := hl
    obtain ⟨c, n, hc, hcn⟩ := compress_head ps pv (fun _ hx => h.1.mem_iff.mp hx) (escapeNB w)
    rw [hc]
    simp only [List.mem_cons, not_or]
    exact ⟨fun e => hcn e.symm, fun hm => newline_not_mem w (List.mem_of_mem_drop hm)⟩
  have h3 : ∀ ws, load.go ps pv' (ws.map fun w => compress pv (escapeNB w)) = .ok ws := by
    intro ws
    induction ws with
    | nil => simp [load.go]
    | cons w ws ih =>
      simp only [List.map_cons, load.go, loadLine, C04_expand_compress ps pv h, Outcome.bind,
        (unescapeNB_escapeNB w), C04_expand_compress ps pv' h', ih, Outcome.map]
  rw [load, h2, h3]

example : ∀ p ∈ [['<', 'h', 't', 't', 'p'], ['"']], '\n' ∉ p := by decide

/-- C04 fails in full: the prefixes are computed from the *unescaped* words (PrefixHeuristic.cpp:181-186) but stored
one per line, so a prefix containing a newline shifts the numbers of all later prefixes and words come back changed.
Here the second prefix is `<h`; the word `<hi` is loaded as `bi`. -/
theorem C04_newline_in_prefix_corrupts :
    ∃ (ps : List (List Char)) (pv : List (Char × List Char)) (words : List (List Char)),
      IsPrefixVec ps pv ∧
      ∀ pv', IsPrefixVec (readPrefixFile (prefixFile ps)) pv' →
        load (readPrefixFile (prefixFile ps)) pv' (prefixCompressFile pv (vocabFile words)) ≠ .ok words := by
  refine ⟨[['a', '\n', 'b'], ['<', 'h']],
    [(Char.ofNat 129, ['a', '\n', 'b']), (Char.ofNat 130, ['<', 'h'])], [['<', 'h', 'i']], ⟨?_, ?_⟩, ?_⟩
  · exact List.Perm.refl _
  · simp
  · intro pv' hpv'
    have hr : readPrefixFile (prefixFile [['a', '\n', 'b'], ['<', 'h']]) = [['a'], ['b'], ['<', 'h']] := by decide
    have hf : getlines (prefixCompressFile [(Char.ofNat 129, ['a', '\n', 'b']), (Char.ofNat 130, ['<', 'h'])]
        (vocabFile [['<', 'h', 'i']])) = [[Char.ofNat 130, 'i']] := by decide
    rw [hr] at hpv' ⊢
    have he : expand [['a'], ['b'], ['<', 'h']] [Char.ofNat 130, 'i'] = .ok ['b', 'i'] := by decide
    have hu : unescapeNB ['b', 'i'] = .ok ['b', 'i'] := by simp [unescapeNB, unescapeGen]
    simp only [load, hf, load.go, loadLine, he, Outcome.bind, hu, C04_expand_compress _ _ hpv', Outcome.map]
    decide

end Verif.PrefixCompression
