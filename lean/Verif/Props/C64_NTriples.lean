import Verif.Lemmas.NTriples
/-
C64: which triples are read from N-Triples and tab-separated files.
-/
namespace Verif.NTriples
open Verif.NTriplesSpec

/-- C64, partial: a line that states a triple is read as this triple.  What is missing: lines without a blank between the object
and the dot, and literals with a blank after an escaped quotation mark.  The theorems below show what happens to these. -/
theorem C64_line_partial (line s p o gap : Str) (h : States line s p o gap) (hgap : gap ≠ []) (ht : Tame o) :
    parseLine line = .ok (s, p, o) := by
  obtain ⟨b0, b1, b2, rest, rfl, hs, hp, ho, h0, h1, h1', h2, h2', h3⟩ := h
  obtain ⟨b, gap', rfl⟩ : ∃ b g, gap = b :: g := by
    cases gap with
    | nil => exact absurd rfl hgap
    | cons b g => exact ⟨b, g, rfl⟩
  have hb : blank b := h3 b (by simp)
  rcases ho with ho | ho | ⟨t, x, rfl, h4, h5⟩
  · obtain ⟨u, hu, _⟩ := id ho
    exact parse_object h0 h1 h1' h2 h2' hs hp (by simp [blank]) hu hb (fun a => end_iri ho _)
  · obtain ⟨u, hu, _⟩ := id ho
    exact parse_object h0 h1 h1' h2 h2' hs hp (by simp [blank]) hu hb (fun a => end_label ho hb _)
  · refine parse_object h0 h1 h1' h2 h2' hs hp (c := '"') (by simp [blank]) rfl hb (fun a => ?_)
    rcases first_quote t with hq | ⟨u, v, rfl, hq⟩
    · exact end_literal hq h5 hb _
    · have hv := ht _ x u v rfl h4 rfl
      have := end_literal (a := a) (u := u) (v := v ++ '"' :: x) hq
        (by intro c hc
            simp only [List.mem_append, List.mem_cons] at hc
            rcases hc with hc | rfl | hc
            · exact hv c hc
            · simp [blank]
            · exact h5 c hc) hb (gap' ++ '.' :: rest)
      simpa [lit] using this

/-- C64, partial: the triples of a file are those of its lines, in order, whether or not the last line is ended. -/
theorem C64_file_partial (ls : List (Str × Triple)) (last : Option (Str × Triple))
    (h : ∀ l ∈ ls ++ last.toList, '\n' ∉ l.1 ∧ ∃ gap, States l.1 l.2.1 l.2.2.1 l.2.2.2 gap ∧ gap ≠ [] ∧ Tame l.2.2.2) :
    readNTriples (ls.flatMap (fun l => l.1 ++ ['\n']) ++ ((last.map (·.1)).getD [])) = .ok ((ls ++ last.toList).map (·.2)) := by
  have key : getLines [] (ls.flatMap (fun l => l.1 ++ ['\n']) ++ ((last.map (·.1)).getD [])) = (ls ++ last.toList).map (·.1) := by
    have hfm : ls.flatMap (fun l => l.1 ++ ['\n']) = (ls.map (·.1)).flatMap (· ++ ['\n']) := by rw [List.flatMap_map]
    have hall : ∀ l ∈ ls.map (·.1), '\n' ∉ l := by
      intro l hl
      obtain ⟨y, hy, rfl⟩ := List.mem_map.mp hl
      exact (h y (by simp [hy])).1
    rw [hfm]
    cases last with
    | none => simpa using getLines_all hall
    | some y =>
      obtain ⟨h1, gap, ⟨b0, b1, b2, rest, hy, _⟩, _⟩ := h y (by simp)
      have := getLines_all_last hall h1 (by rw [hy]; simp)
      simpa using this
  unfold readNTriples
  rw [key]
  refine readLines_ok ?_
  rw [List.map_map, List.map_map]
  refine List.map_congr_left ?_
  intro l hl
  obtain ⟨_, gap, h1, h2, h3⟩ := h l hl
  exact C64_line_partial l.1 _ _ _ gap h1 h2 h3

/-- C64 fails for literals with a blank after an escaped quotation mark: the first such blank ends the object. -/
theorem C64_escaped_quotes (b0 s b1 p b2 u v v' x gap rest : Str) (b : Char) (hs : Subject s) (hp : Iri p) (h0 : Blanks b0)
    (h1 : Blanks b1) (h1' : b1 ≠ []) (h2 : Blanks b2) (h2' : b2 ≠ []) (hu : '"' ∉ u) (hv : Solid v) (hb : blank b) :
    parseLine (b0 ++ (s ++ (b1 ++ (p ++ (b2 ++ (lit (u ++ '"' :: (v ++ b :: v')) x ++ (gap ++ '.' :: rest))))))) =
      .ok (s, p, '"' :: (u ++ '"' :: v)) := by
  have := parse_object (r := v' ++ '"' :: (x ++ (gap ++ '.' :: rest))) h0 h1 h1' h2 h2' hs hp (c := '"') (by simp [blank]) rfl hb
    (fun a => end_literal (a := a) hu hv hb _)
  simpa [lit] using this

/-- C64 fails for IRIs directly followed by the dot: they are refused. -/
theorem C64_no_gap (line s p o : Str) (h : States line s p o []) (ho : Iri o) : parseLine line = .throw := by
  obtain ⟨b0, b1, b2, rest, rfl, hs, hp, _, h0, h1, h1', h2, h2', _⟩ := h
  obtain ⟨u, rfl, hu⟩ := id ho
  refine parse_fail h0 h1 h1' h2 h2' hs hp (c := '<') (by simp [blank]) (fun a => ⟨_, end_iri ho ('.' :: rest), .inr ?_⟩)
  have := charAt_eq (a ++ '<' :: (u ++ ['>'])) '.' rest
  have h' : charAt (a ++ ('<' :: (u ++ ['>']) ++ '.' :: rest)) (a.length + ('<' :: (u ++ ['>'])).length) = '.' := by
    rw [← List.append_assoc, ← List.length_append]
    exact this
  exact (congrArg isBlank h').trans (by decide)

/-- C64: an object that is no IRI, blank node, or literal in quotation marks is not refused but taken together with the rest of
the line. -/
theorem C64_unquoted (s b1 p b2 r : Str) (c : Char) (hs : Subject s) (hp : Iri p) (h1 : Blanks b1)
    (h1' : b1 ≠ []) (h2 : Blanks b2) (h2' : b2 ≠ []) (hc : ¬ blank c) (hc1 : c ≠ '<') (hc2 : c ≠ '_') (hr : '"' ∉ r) :
    parseLine (s ++ (b1 ++ (p ++ (b2 ++ c :: r)))) = .ok (s, p, c :: r) := by
  have hstart := parse_start (b0 := []) (r := r) (by simp [Blanks]) h1 h1' h2 h2' hs hp hc
  have hnil : [] ++ s = s := List.nil_append s
  rw [List.nil_append, hnil] at hstart
  rw [hstart]
  have hlen : 0 < s.length := by
    rcases hs with ⟨u, rfl, _⟩ | ⟨u, rfl, _⟩ <;> simp
  have hb1 : 0 < b1.length := List.length_pos_iff.mpr h1'
  generalize ha : s ++ b1 ++ p ++ b2 = a
  have hw : wordEnd (a ++ c :: r) 0 = s.length := by
    have := wordEnd_eq (a := []) (w := s) (r := b1 ++ (p ++ (b2 ++ c :: r))) (subject_solid hs) (blanks_head h1 h1')
    rw [← ha]
    simpa using this
  have he : objectEnd (a ++ c :: r) a.length = .ok s.length := by
    rw [objectEnd, charAt_eq, if_neg hc1, if_neg (by simp [hc2])]
    have := find_none (a := a ++ [c]) (c := '"') hr
    simp only [List.append_assoc, List.singleton_append, List.length_append, List.length_cons, List.length_nil, Nat.zero_add] at this
    rw [this]
    simp only [hw]
  have hlt : s.length < a.length := by rw [← ha]; simp; omega
  have hch : isBlank (charAt (a ++ c :: r) s.length) = true := by
    cases b1 with
    | nil => exact absurd rfl h1'
    | cons y b1 =>
      have := charAt_eq s y (b1 ++ (p ++ (b2 ++ c :: r)))
      have h' : a ++ c :: r = s ++ y :: (b1 ++ (p ++ (b2 ++ c :: r))) := by rw [← ha]; simp
      rw [h', this]
      exact isBlank_iff.mpr (h1 y (by simp))
  rw [he]
  simp only
  rw [if_neg, substr, if_pos hlt, List.drop_left]
  rintro (h | h)
  · simp only [List.length_append] at h; omega
  · rw [hch] at h; cases h

/-- C64: empty lines and comments are refused, and with them the whole file. -/
theorem C64_refused (b r : Str) (c : Char) (hb : Blanks b) (hc : ¬ blank c) (hc1 : c ≠ '<') (hc2 : c ≠ '_') :
    parseLine b = .throw ∧ parseLine (b ++ c :: r) = .throw := by
  have e1 : skipBlanks b 0 = b.length := by
    have := skipBlanks_eq (a := []) (r := []) hb (by simp)
    simpa using this
  have e2 : skipBlanks (b ++ c :: r) 0 = b.length := by
    have := skipBlanks_eq (a := []) (r := c :: r) hb (by intro x hx; simp at hx; subst hx; exact hc)
    simpa using this
  constructor
  · unfold parseLine
    simp only [e1]
    rw [if_pos (Nat.le_refl _)]
  · unfold parseLine
    simp only [e2]
    rw [if_neg (by simp), if_pos]
    right
    rw [charAt_eq]
    simp [hc1, hc2]

/-- C64: the first line that is refused ends the reading with an exception. -/
theorem C64_refused_file (ls : List Str) (ts : List Triple) (line rest : Str) (hls : ∀ l ∈ ls, '\n' ∉ l) (hl : '\n' ∉ line)
    (hok : ls.map parseLine = ts.map Outcome.ok) (h : parseLine line = .throw) :
    readNTriples (ls.flatMap (· ++ ['\n']) ++ (line ++ '\n' :: rest)) = .throw := by
  have key : ∀ ls : List Str, (∀ l ∈ ls, '\n' ∉ l) →
      getLines [] (ls.flatMap (· ++ ['\n']) ++ (line ++ '\n' :: rest)) = ls ++ line :: getLines [] rest := by
    intro ls hls
    induction ls with
    | nil => exact getLines_append (cur := []) (r := rest) hl
    | cons l ls ih =>
      have := getLines_append (cur := []) (r := ls.flatMap (· ++ ['\n']) ++ (line ++ '\n' :: rest)) (hls l (by simp))
      simp only [List.flatMap_cons, List.append_assoc, List.cons_append, List.nil_append] at this ⊢
      rw [this, ih (fun x hx => hls x (by simp [hx]))]
      simp
  unfold readNTriples
  rw [key ls hls]
  exact readLines_throw hok h

/-- C64: a line with three fields, each ended by a tab, or the last one by the end of the line, is read as these fields. -/
theorem C64_tsv (a b c r : Str) (ha : '\t' ∉ a) (hb : '\t' ∉ b) (hc : '\t' ∉ c) (hr : r = [] ∨ ∃ r', r = '\t' :: r') :
    parseTsv (a ++ '\t' :: (b ++ '\t' :: (c ++ r))) = (a, b, c) := by
  generalize hl : a ++ '\t' :: (b ++ '\t' :: (c ++ r)) = line
  have e1 : find line '\t' 0 = some a.length := by
    have := find_eq (a := []) (r := b ++ '\t' :: (c ++ r)) ha
    rw [← hl]; simpa using this
  have e2 : find line '\t' (a.length + 1) = some (a.length + 1 + b.length) := by
    have := find_eq (a := a ++ ['\t']) (r := c ++ r) hb
    rw [← hl]; simpa using this
  have s1 : substr line 0 a.length = a := by
    have := substr_eq [] a ('\t' :: (b ++ '\t' :: (c ++ r)))
    rw [← hl]; simpa using this
  have s2 : substr line (a.length + 1) (a.length + 1 + b.length) = b := by
    have := substr_eq (a ++ ['\t']) b ('\t' :: (c ++ r))
    rw [← hl]; simpa using this
  have hdrop : line.drop (a.length + 1 + b.length + 1) = c ++ r := by
    have := List.drop_left (l₁ := a ++ '\t' :: b ++ ['\t']) (l₂ := c ++ r)
    rw [← hl]
    simp only [List.length_append, List.length_cons, List.length_nil, List.append_assoc, List.cons_append, List.nil_append] at this
    rw [show a.length + 1 + b.length + 1 = a.length + (b.length + 1 + (0 + 1)) by omega]
    exact this
  unfold parseTsv
  simp only [e1, e2, s1, s2]
  rcases hr with rfl | ⟨r', rfl⟩
  · have e3 : find line '\t' (a.length + 1 + b.length + 1) = none := by
      have := find_none (a := a ++ '\t' :: b ++ ['\t']) hc
      rw [← hl]
      simp only [List.length_append, List.length_cons, List.length_nil, List.append_assoc, List.cons_append, List.nil_append] at this
      rw [show a.length + 1 + b.length + 1 = a.length + (b.length + 1 + (0 + 1)) by omega, List.append_nil]
      exact this
    simp only [e3, hdrop, List.append_nil]
  · have e3 : find line '\t' (a.length + 1 + b.length + 1) = some (a.length + 1 + b.length + 1 + c.length) := by
      have := find_eq (a := a ++ '\t' :: b ++ ['\t']) (r := r') hc
      rw [← hl]
      simp only [List.length_append, List.length_cons, List.length_nil, List.append_assoc, List.cons_append, List.nil_append] at this
      rw [show a.length + 1 + b.length + 1 = a.length + (b.length + 1 + (0 + 1)) by omega]
      exact this
    simp only [e3]
    rw [substr, if_neg (by omega), hdrop, Nat.add_sub_cancel_left, List.take_left]

/-- C64: lines with fewer fields are not refused: a field is used a second time. -/
theorem C64_tsv_short (a b : Str) (ha : '\t' ∉ a) (hb : '\t' ∉ b) :
    parseTsv a = (a, a, a) ∧ parseTsv (a ++ '\t' :: b) = (a, b, a) := by
  constructor
  · have e1 : find a '\t' 0 = none := find_none (a := []) ha
    unfold parseTsv
    simp only [e1, List.drop_zero]
  · have e1 : find (a ++ '\t' :: b) '\t' 0 = some a.length := by
      simpa using find_eq (a := []) (r := b) ha
    have e2 : find (a ++ '\t' :: b) '\t' (a.length + 1) = none := by
      simpa using find_none (a := a ++ ['\t']) hb
    have s1 : substr (a ++ '\t' :: b) 0 a.length = a := by simpa using substr_eq [] a ('\t' :: b)
    have hd : (a ++ '\t' :: b).drop (a.length + 1) = b := by
      simp
    unfold parseTsv
    simp only [e1, e2, s1, hd]

/-- C64: a file of lines with at least three columns each gives the first three columns of every line, in order; the last line
needs no line break. -/
theorem C64_tsv_file (ls : List (Str × Triple)) (last : Option (Str × Triple))
    (h : ∀ l ∈ ls ++ last.toList, '\n' ∉ l.1 ∧ '\t' ∉ l.2.1 ∧ '\t' ∉ l.2.2.1 ∧ '\t' ∉ l.2.2.2 ∧
      ∃ r, l.1 = l.2.1 ++ '\t' :: (l.2.2.1 ++ '\t' :: (l.2.2.2 ++ r)) ∧ (r = [] ∨ ∃ r', r = '\t' :: r')) :
    readTsv (ls.flatMap (fun l => l.1 ++ ['\n']) ++ ((last.map (·.1)).getD [])) = .ok ((ls ++ last.toList).map (·.2)) := by
  have key : getLines [] (ls.flatMap (fun l => l.1 ++ ['\n']) ++ ((last.map (·.1)).getD [])) = (ls ++ last.toList).map (·.1) := by
    have hfm : ls.flatMap (fun l => l.1 ++ ['\n']) = (ls.map (·.1)).flatMap (· ++ ['\n']) := by rw [List.flatMap_map]
    have hall : ∀ l ∈ ls.map (·.1), '\n' ∉ l := by
      intro l hl
      obtain ⟨y, hy, rfl⟩ := List.mem_map.mp hl
      exact (h y (by simp [hy])).1
    rw [hfm]
    cases last with
    | none => simpa using getLines_all hall
    | some y =>
      obtain ⟨h1, _, _, _, r, hy, _⟩ := h y (by simp)
      have := getLines_all_last hall h1 (by rw [hy]; simp)
      simpa using this
  unfold readTsv
  rw [key]
  refine readLines_ok ?_
  rw [List.map_map, List.map_map]
  refine List.map_congr_left ?_
  intro l hl
  obtain ⟨_, h1, h2, h3, r, hy, hr⟩ := h l hl
  show Outcome.ok (parseTsv l.1) = .ok l.2
  rw [hy, C64_tsv _ _ _ _ h1 h2 h3 hr]

/-! ### Examples -/

example : readTsv ("a\tb\tc\td\nx\ty\tz".toList) =
    .ok [(['a'], ['b'], ['c']), (['x'], ['y'], ['z'])] := by decide

def s0 : Str := ['<', 's', '>']
def p0 : Str := ['<', 'p', '>']

/-- `<s> <p> "a\" b" .` -/
theorem quoted_states : States (s0 ++ [' '] ++ p0 ++ [' '] ++ lit ['a', '\\', '"', ' ', 'b'] [] ++ [' ', '.']) s0 p0
    (lit ['a', '\\', '"', ' ', 'b'] []) [' '] := by
  refine ⟨[], [' '], [' '], [], by simp [s0, p0, lit], .inl ⟨['s'], rfl, by simp [Solid, blank], by decide⟩,
    ⟨['p'], rfl, by simp [Solid, blank], by decide⟩, .inr (.inr ⟨_, [], rfl, ?_, by simp [Solid]⟩), by simp [Blanks],
    by simp [Blanks, blank], by simp, by simp [Blanks, blank], by simp, by simp [Blanks, blank]⟩
  exact .chr (by decide) (by decide) (.esc (.chr (by decide) (by decide) (.chr (by decide) (by decide) .nil)))

/-- The claim is false for this line. -/
example : parseLine (s0 ++ [' '] ++ p0 ++ [' '] ++ lit ['a', '\\', '"', ' ', 'b'] [] ++ [' ', '.']) =
    .ok (s0, p0, ['"', 'a', '\\', '"']) := by decide

/-- The hypotheses of `C64_line_partial` are met by `<s> <p> "a\"b c"@en .`, read as it should be if there is no blank:
`<s> <p> "a \"b"@en .` -/
example : States (s0 ++ [' '] ++ p0 ++ [' '] ++ lit ['a', ' ', '\\', '"', 'b'] ['@', 'e', 'n'] ++ [' ', '.']) s0 p0
    (lit ['a', ' ', '\\', '"', 'b'] ['@', 'e', 'n']) [' '] ∧ Tame (lit ['a', ' ', '\\', '"', 'b'] ['@', 'e', 'n']) := by
  constructor
  · refine ⟨[], [' '], [' '], [], by simp [s0, p0, lit], .inl ⟨['s'], rfl, by simp [Solid, blank], by decide⟩,
      ⟨['p'], rfl, by simp [Solid, blank], by decide⟩, .inr (.inr ⟨_, ['@', 'e', 'n'], rfl, ?_, by simp [Solid, blank]⟩),
      by simp [Blanks], by simp [Blanks, blank], by simp, by simp [Blanks, blank], by simp, by simp [Blanks, blank]⟩
    exact .chr (by decide) (by decide) (.chr (by decide) (by decide) (.esc (.chr (by decide) (by decide) .nil)))
  · intro t x u v h _ hu c hc
    have h' : ['"', 'a', ' ', '\\'] ++ '"' :: ['b', '"', '@', 'e', 'n'] = ('"' :: u) ++ '"' :: (v ++ '"' :: x) := by
      rw [hu] at h
      simpa [lit] using h
    rcases List.append_eq_append_iff.mp h' with ⟨w, h1, h2⟩ | ⟨w, h1, h2⟩
    · cases w with
      | nil =>
        simp at h2
        have : c ∈ ['b', '"', '@', 'e', 'n'] := by rw [h2]; simp [hc]
        simp only [List.mem_cons, List.not_mem_nil, or_false] at this
        rcases this with rfl | rfl | rfl | rfl | rfl <;> simp [blank]
      | cons y w =>
        simp at h2
        have : c ∈ ['b', '"', '@', 'e', 'n'] := by rw [h2.2]; simp [hc]
        simp only [List.mem_cons, List.not_mem_nil, or_false] at this
        rcases this with rfl | rfl | rfl | rfl | rfl <;> simp [blank]
    · cases w with
      | nil =>
        simp at h2
        have : c ∈ ['b', '"', '@', 'e', 'n'] := by rw [← h2]; simp [hc]
        simp only [List.mem_cons, List.not_mem_nil, or_false] at this
        rcases this with rfl | rfl | rfl | rfl | rfl <;> simp [blank]
      | cons y w =>
        cases u with
        | nil =>
          simp at h1 h2
          obtain ⟨h1, h3⟩ := h1
          exact absurd h2.1 (by rw [← h1]; decide)
        | cons a u =>
          exfalso
          simp at h1 h2
          obtain ⟨rfl, h1⟩ := h1
          have hy : y ∈ [' ', '\\'] := by rw [h1]; simp
          simp at hy
          rcases hy with rfl | rfl <;> exact absurd h2.1 (by decide)

/-- A number as object, and a dot directly after the object. -/
example : parseLine ['<', 's', '>', ' ', '<', 'p', '>', ' ', '5', ' ', '.'] = .ok (s0, p0, ['5', ' ', '.']) ∧
    parseLine ['<', 's', '>', ' ', '<', 'p', '>', ' ', '<', 'o', '>', '.'] = .throw := by decide

end Verif.NTriples
