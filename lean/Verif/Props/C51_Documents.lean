import Verif.Lemmas.DocsDB
/-
C51: the text shown for a record is the text of the document it belongs to.
-/
namespace Verif.C51
open Verif.Bytes Verif.ExternalVocabulary Verif.DocsDB Verif.DocsDBSpec

/-- What is shown for a record: the documents file is read, the documents are written, opened again and read. -/
def shown (fuel : Nat) (text : List Char) (id : Nat) : Outcome Word :=
  ((buildDocsDB text).bind init).bind fun db => getTextExcerpt fuel db id

/-! ### Auxiliary -/

theorem id_bound (docs : List Doc) (h : Valid docs) (d : Doc) (hd : d ∈ docs) : d.id ≤ (docs.getLast?.map Doc.id).getD 0 := by
  have hp := h.increasing
  clear h
  induction docs generalizing d with
  | nil => cases hd
  | cons e es ih =>
    rw [List.pairwise_cons] at hp
    cases es with
    | nil =>
      rw [List.mem_singleton] at hd
      subst hd
      exact Nat.le_refl _
    | cons f fs =>
      rw [List.getLast?_cons_cons]
      rcases List.mem_cons.1 hd with rfl | hd
      · exact Nat.le_trans (Nat.le_of_lt (hp.1 f List.mem_cons_self)) (ih f List.mem_cons_self hp.2)
      · exact ih d hd hp.2

theorem fits (docs : List Doc) (h : Valid docs) : Fits (slots 0 docs) := by
  have hs := h.size
  unfold Fits
  rw [slots_flatten, slots_length docs 0 (fun _ _ => Nat.zero_le _) h.increasing]
  cases hl : docs.getLast? with
  | none => rw [hl] at hs; simp only [Option.map_none, Option.getD_none] at hs; simp only; omega
  | some d => rw [hl] at hs; simp only [Option.map_some, Option.getD_some] at hs; simp only; omega

theorem built (docs : List Doc) (h : Valid docs) : buildDocsDB (file docs) = .ok (fileOf (slots 0 docs)) := by
  have hn : ∀ d ∈ docs, d.id < 2 ^ 63 := by
    intro d hd
    have := id_bound docs h d hd
    have := h.size
    omega
  have hl := getLines_file docs h.digits h.text
  have hr : readLines (file docs) = .ok (docs.map Doc.line) := by
    rw [readLines, hl, if_pos]
    rw [List.all_eq_true]
    intro l hl
    obtain ⟨d, hd, rfl⟩ := List.mem_map.1 hl
    exact decide_eq_true (h.short d hd)
  obtain ⟨s, h1, h2, h3⟩ := addLines_docs docs h.digits hn ⟨[], [], 0, 0⟩
  rw [buildDocsDB, hr]
  simp only [Outcome.bind, h1, Outcome.map]
  rw [h3, h2, fileOf, slots_flatten]
  rfl

theorem shown_eq (docs : List Doc) (h : Valid docs) (fuel id : Nat) : shown fuel (file docs) id = getTextExcerpt fuel (dbOf (slots 0 docs)) id := by
  rw [shown, built docs h]
  simp only [Outcome.bind, init_fileOf _ (fits docs h)]

/-! ### What is shown -/

/-- What the code shows, for every record id: the text of the first document that is not empty and whose largest record id is not smaller. -/
theorem excerpt (docs : List Doc) (h : Valid docs) (id : Nat) (d : Doc)
    (hd : docs.find? (fun d => decide (id ≤ d.id) && decide (d.text ≠ [])) = some d) (fuel : Nat) (hf : d.id - id < fuel) :
    shown fuel (file docs) id = .ok d.text := by
  have hs := slots_find docs 0 id (fun _ _ => Nat.zero_le _) h.increasing (Nat.zero_le _)
  rw [hd] at hs
  obtain ⟨h1, h2, h3, h4⟩ := hs
  have hb := id_bound docs h d (List.mem_of_find?_eq_some hd)
  have hz := h.size
  rw [shown_eq docs h, getTextExcerpt, if_neg (by unfold idNoValue; omega)]
  exact excerpt_found _ (fits docs h) id d.id d.text h1 h3 h2 h4 fuel hf

/-- The text shown for a record is the text of the document it belongs to.  Partial: the text must not be empty, see `empty_violated`, and the record
must belong to a document, see `behind_violated`. -/
theorem excerpt_partial (docs : List Doc) (h : Valid docs) (id : Nat) (d : Doc) (hd : docOf docs id = some d) (ht : d.text ≠ []) (fuel : Nat)
    (hf : d.id - id < fuel) : shown fuel (file docs) id = .ok d.text := by
  refine excerpt docs h id d ?_ fuel hf
  rw [docOf, List.find?_eq_some_iff_append] at hd
  obtain ⟨h1, as, bs, h2, h3⟩ := hd
  rw [List.find?_eq_some_iff_append]
  refine ⟨by rw [h1, decide_eq_true ht]; rfl, as, bs, h2, fun a ha => ?_⟩
  have := h3 a ha
  simp only [Bool.not_eq_true'] at this
  rw [this]; rfl

/-- In particular the text given with an id is shown for this id, as long as it is not empty. -/
theorem same_id (docs : List Doc) (h : Valid docs) (d : Doc) (hd : d ∈ docs) (ht : d.text ≠ []) (fuel : Nat) (hf : 0 < fuel) :
    shown fuel (file docs) d.id = .ok d.text := by
  refine excerpt_partial docs h d.id d ?_ ht fuel (by omega)
  have hp := h.increasing
  clear h
  rw [docOf]
  induction docs with
  | nil => cases hd
  | cons e es ih =>
    rw [List.pairwise_cons] at hp
    rcases List.mem_cons.1 hd with rfl | hd
    · rw [List.find?_cons_of_pos (by simp)]
    · have := hp.1 d hd
      rw [List.find?_cons_of_neg (by simpa using this)]
      exact ih hd hp.2

/-- Nothing is shown for a row without record. -/
theorem no_value (docs : List Doc) (h : Valid docs) (fuel : Nat) : shown fuel (file docs) idNoValue = .ok [] := by
  rw [shown_eq docs h, getTextExcerpt, if_pos rfl]

/-- Three documents, the second one without text. -/
def sample : List Doc := [⟨[3], ['a', '\t', 'b']⟩, ⟨[0, 5], []⟩, ⟨[1, 2], ['c']⟩, ⟨[1, 3], []⟩]

theorem sample_valid : Valid sample := by decide

example : shown 5 (file sample) 3 = .ok ['a', '\t', 'b'] := same_id sample sample_valid ⟨[3], ['a', '\t', 'b']⟩ (by decide) (by decide) 5 (by decide)
example : shown 5 (file sample) 1 = .ok ['a', '\t', 'b'] := excerpt_partial sample sample_valid 1 ⟨[3], ['a', '\t', 'b']⟩ (by decide) (by decide) 5 (by decide)
example : shown 9 (file sample) 6 = .ok ['c'] := excerpt_partial sample sample_valid 6 ⟨[1, 2], ['c']⟩ (by decide) (by decide) 9 (by decide)

/-! ### Violations -/

/-- For a record of a document without text the code shows the text of another document. -/
theorem empty_violated : ∃ docs id d, Valid docs ∧ docOf docs id = some d ∧ d.text = [] ∧ ∀ fuel, 7 < fuel → shown fuel (file docs) id = .ok ['c'] :=
  ⟨sample, 5, ⟨[0, 5], []⟩, sample_valid, by decide, rfl, fun fuel hf => excerpt sample sample_valid 5 ⟨[1, 2], ['c']⟩ (by decide) fuel hf⟩

/-- For a record behind the last document that is not empty the loop over the offsets does not end: it reads behind the file. -/
theorem behind (docs : List Doc) (h : Valid docs) (id : Nat) (hid : id < 2 ^ 59)
    (hd : docs.find? (fun d => decide (id ≤ d.id) && decide (d.text ≠ [])) = none) (hz : (docs.flatMap Doc.text).length < 2 ^ 62) (fuel : Nat) :
    shown fuel (file docs) id = .diverge := by
  have hs := slots_find docs 0 id (fun _ _ => Nat.zero_le _) h.increasing (Nat.zero_le _)
  rw [hd] at hs
  rw [shown_eq docs h, getTextExcerpt, if_neg (by unfold idNoValue; omega)]
  exact excerpt_diverges _ (fits docs h) id (by rw [slots_flatten]; omega) (fun k w h1 h2 => hs k w h1 h2) fuel

/-- So a record without document and a record of a last document without text have no answer. -/
theorem behind_violated : ∃ docs, Valid docs ∧ docOf docs 14 = none ∧ (∃ d, docOf docs 13 = some d ∧ d.text = []) ∧
    ∀ fuel, shown fuel (file docs) 14 = .diverge ∧ shown fuel (file docs) 13 = .diverge :=
  ⟨sample, sample_valid, by decide, ⟨⟨[1, 3], []⟩, by decide, rfl⟩, fun fuel =>
    ⟨behind sample sample_valid 14 (by decide) (by decide) (by decide) fuel, behind sample sample_valid 13 (by decide) (by decide) (by decide) fuel⟩⟩

example : ∀ fuel, shown fuel (file []) 0 = .diverge := fun fuel => behind [] (by decide) 0 (by decide) rfl (by decide) fuel

/-- Ids that do not increase are not rejected when assertions are off: a document whose id comes again, or too late, is stored with the next free id. -/
theorem decreasing_violated : ∃ docs : List Doc, (∃ d ∈ docs, d.id = 2 ∧ d.text = ['z']) ∧ docOf docs 7 = none ∧
    shown 9 (file docs) 2 = .ok ['a'] ∧ shown 9 (file docs) 7 = .ok ['z'] :=
  ⟨[⟨[6], ['a']⟩, ⟨[2], ['z']⟩], ⟨⟨[2], ['z']⟩, by decide, rfl, rfl⟩, by decide, by decide, by decide⟩

/-- A line without tab is a document of its own: its id is the number at its beginning, and its text is the whole line. -/
theorem no_tab : shown 9 ['7', ' ', 'x', '\n'] 7 = .ok ['7', ' ', 'x'] ∧ shown 9 ['x', 'y', '\n'] 0 = .ok ['x', 'y'] := by decide

end Verif.C51
