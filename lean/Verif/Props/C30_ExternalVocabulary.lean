import Verif.Lemmas.ExternalVocabulary
/-
C30: looking up words in the on-disk vocabulary.
-/
namespace Verif.ExternalVocabulary
open Verif.Bytes Verif.VocabularySpec

/-- Comparison of words by their characters, used for the examples. -/
def charCmp (a b : Word) : Int := if a < b then -1 else if a = b then 0 else 1

theorem charCmp_order (S : Word → Prop) : OrderOn S charCmp := by
  refine ⟨fun a b _ _ => ?_, fun a b _ _ => ?_, fun a b c _ _ _ h1 h2 => ?_⟩
  · unfold charCmp
    constructor
    · intro h; split at h
      · simp at h
      · split at h
        · assumption
        · simp at h
    · rintro rfl; simp
  · unfold charCmp
    constructor
    · intro h; split at h
      · rename_i hlt
        rw [if_neg (List.lt_asymm hlt), if_neg (fun e => List.lt_irrefl _ (e ▸ hlt))]; decide
      · split at h <;> simp at h
    · intro h; split at h
      · simp at h
      · split at h
        · simp at h
        · rename_i h3 h4
          rw [if_pos (Classical.byContradiction fun h5 => h4 (List.le_antisymm (List.not_lt.mp h5) (List.not_lt.mp h3)))]; decide
  · unfold charCmp at *
    split at h1
    · split at h2
      · rename_i h3 h4; rw [if_pos (List.lt_trans h3 h4)]; decide
      · split at h2 <;> simp at h2
    · split at h1 <;> simp at h1

/-- C30: the vocabulary is written and read back with every word under its position. -/
theorem build_get (ws : List Word) (hf : Fits ws) (hne : ∀ w ∈ ws, w ≠ []) :
    ∃ v, buildFromVector ws = .ok v ∧ v.size = ws.length ∧
      (∀ i w, ws[i]? = some w → get v i = .ok w) :=
  ⟨vocabOf ws, build_spec ws hf, rfl, fun i w hw => get_spec ws hf i w hw (hne w (List.mem_of_getElem? hw))⟩

/-- C30: the same when the vocabulary is built from the text file in which newlines and backslashes are escaped. -/
theorem buildFromText_get (ws : List Word) (hf : Fits ws) (hne : ∀ w ∈ ws, w ≠ []) :
    ∃ v, buildFromTextFile (ws.map fun w => RdfEscaping.escapeNB w ++ ['\n']).flatten = .ok v ∧ v.size = ws.length ∧
      (∀ i w, ws[i]? = some w → get v i = .ok w) ∧ buildFromVector ws = .ok v := by
  obtain ⟨v, h1, h2, h3⟩ := build_get ws hf hne
  refine ⟨v, ?_, h2, h3, h1⟩
  unfold buildFromTextFile
  rw [text_lines]
  exact h1

example : Fits [['<', 'a', '>'], ['<', 'b', '\n', '\\', '>']] ∧
    ∀ w ∈ [['<', 'a', '>'], ['<', 'b', '\n', '\\', '>']], w ≠ [] := by decide

/-- C30, exactly: a lookup answers correctly, except that it reads outside the vocabulary (or fails) when the word is smaller
than all words of a vocabulary whose size is one of 1, 4-5, 10-13, 22-29, ....
The last two hypotheses (characters are bytes, the last one is ASCII, as in all IRIs and literals) are needed only for that case. -/
theorem lookup_exact (S : Word → Prop) (cmp : Word → Word → Int) (ws : List Word) (w : Word) (horder : OrderOn S cmp)
    (hwords : ∀ x ∈ ws, S x ∧ x ≠ []) (hquery : S w) (hsorted : ws.Pairwise fun a b => cmp a b < 0) (hfits : Fits ws)
    (hbytes : ∀ c ∈ ws.flatten, c.toNat < 256) (hlast : ∀ c, ws.flatten.getLast? = some c → c.toNat < 128) :
    ∃ v, buildFromVector ws = .ok v ∧ ∀ fuel, ws.length + 1 < fuel →
      (((∃ x ∈ ws, cmp x w ≤ 0) ∨ ¬ BadSize ws.length) → ∃ r, getId fuel cmp v w = .ok r ∧ Finds ws w r) ∧
      ((∀ x ∈ ws, 0 < cmp x w) → BadSize ws.length → getId fuel cmp v w = .ub ∨ getId fuel cmp v w = .throw) := by
  have h : Setup S cmp ws w := ⟨horder, hwords, hquery, hsorted, hfits⟩
  refine ⟨vocabOf ws, build_spec ws hfits, fun fuel hf => ⟨fun hg => getId_ok h ?_ fuel hf, fun hall hb => ?_⟩⟩
  · rintro ⟨h1, h2⟩
    rcases hg with ⟨x, hx, hc⟩ | hn
    · have := h1 x hx; omega
    · exact hn h2
  · exact getId_bad h hall hb hbytes hlast fuel hf

/-- C30, partial: lookups answer correctly for every word that occurs and for every absent word that is greater than some word,
whatever the size.  Missing: absent words smaller than all words, see `lookup_violated`. -/
theorem lookup_partial (S : Word → Prop) (cmp : Word → Word → Int) (ws : List Word) (w : Word) (horder : OrderOn S cmp)
    (hwords : ∀ x ∈ ws, S x ∧ x ≠ []) (hquery : S w) (hsorted : ws.Pairwise fun a b => cmp a b < 0) (hfits : Fits ws)
    (hnot : ∃ x ∈ ws, cmp x w ≤ 0) :
    ∃ v, buildFromVector ws = .ok v ∧ ∀ fuel, ws.length + 1 < fuel → ∃ r, getId fuel cmp v w = .ok r ∧ Finds ws w r := by
  have h : Setup S cmp ws w := ⟨horder, hwords, hquery, hsorted, hfits⟩
  refine ⟨vocabOf ws, build_spec ws hfits, fun fuel hf => getId_ok h ?_ fuel hf⟩
  rintro ⟨h1, h2⟩
  obtain ⟨x, hx, hc⟩ := hnot
  have := h1 x hx; omega

-- A vocabulary of two words and an absent word between them.
example : OrderOn (fun _ => True) charCmp ∧ (∀ x ∈ [['a'], ['c', 'd']], True ∧ x ≠ []) ∧
    ([['a'], ['c', 'd']].Pairwise fun a b => charCmp a b < 0) ∧ Fits [['a'], ['c', 'd']] ∧
    ∃ x ∈ [['a'], ['c', 'd']], charCmp x ['b'] ≤ 0 :=
  ⟨charCmp_order _, by decide, by decide, by decide, ['a'], by decide, by decide⟩

/-- C30 fails: in a vocabulary with the only word "b" the lookup of "a" reads at a negative offset. -/
theorem lookup_violated : ∃ v, buildFromVector [['b']] = .ok v ∧ getId 10 charCmp v ['a'] = .ub :=
  ⟨vocabOf [['b']], by decide, by decide⟩

end Verif.ExternalVocabulary
