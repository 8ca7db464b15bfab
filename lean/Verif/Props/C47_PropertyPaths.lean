import Verif.Lemmas.PropertyPathTree
/-
C47: property paths are parsed with the right structure.
-/
namespace Verif.C47
open Verif.PropertyPath Verif.PropertyPathSpec

/-! ### The tree -/

/-- The parser returns the tree of the path whose text it reads, apart from the flags.  Partial: `*n` is only used directly behind IRIs, see
`bound_violated`. -/
theorem parse_partial (s : Syn) (h : s.ok = true) (hb : s.plain = true) (fuel : Nat) (hf : 6 * s.text.length ≤ fuel) :
    ∃ p, parse fuel s.text = .ok p ∧ strip p = strip s.tree :=
  ⟨_, parse_text s h hb fuel hf, strip_compute _⟩

/-- The tree means what the path means. -/
theorem meaning (s : Syn) (N : Type) (G : N → Word → N → Prop) (u v : N) : pathRel G s.tree u v ↔ s.Rel G u v := (trees_spec G s).2.2.2.2.2.1 u v

/-- So the parser returns a tree that connects the same nodes as the path, in every graph. -/
theorem parse_meaning_partial (s : Syn) (h : s.ok = true) (hb : s.plain = true) (fuel : Nat) (hf : 6 * s.text.length ≤ fuel) :
    ∃ p, parse fuel s.text = .ok p ∧ ∀ (N : Type) (G : N → Word → N → Prop) u v, pathRel G p u v ↔ s.Rel G u v :=
  ⟨_, parse_text s h hb fuel hf, fun N G u v => by rw [pathRel_compute]; exact meaning s N G u v⟩

/-- A variable at the place of a path is kept. -/
theorem variable_kept (w : Word) (h : iriOk w = true) (fuel : Nat) (hf : 5 ≤ fuel) : parse fuel ('?' :: w) = .ok (.node .iri 0 ('?' :: w) [] false) := by
  have hw : wordOk false w = true := by rw [iriOk, Bool.and_eq_true] at h; exact h.1
  have ht : tokenize ('?' :: w) = .ok ['?' :: w] := by
    rw [tokenize, scan_silent (s' := .outer false false false ['?']) (by rfl)]
    have := scan_word false w hw false ['?'] []
    rw [List.append_nil] at this
    rw [this]
    rfl
  obtain ⟨f, rfl⟩ : ∃ f, fuel = f + 5 := ⟨fuel - 5, by omega⟩
  obtain ⟨c, w', rfl, _⟩ := iri_head h
  rw [parse, ht]
  simp [path, pathMore, pathSequence, sequenceMore, pathEltOrInverse, pathElt, pathPrimary, accept, modifier, computeCanBeNull, computeAll]

/-! ### The flag -/

/-- A flag is only set for trees that match the empty path, in the whole tree. -/
theorem null_sound (s : Syn) (h : s.ok = true) (hb : s.plain = true) (fuel : Nat) (hf : 6 * s.text.length ≤ fuel) (p q : Path)
    (hp : parse fuel s.text = .ok p) (hq : Sub q p) (hn : q.canBeNull = true) (N : Type) (G : N → Word → N → Prop) (u : N) : pathRel G q u u := by
  rw [parse_text s h hb fuel hf] at hp
  cases hp
  obtain ⟨r, hr, rfl⟩ := sub_compute s.tree (trees_spec noTriples s).1 q hq
  rw [pathRel_compute]
  exact flag_sound G r hr hn u

theorem even_flagged (s : Syn) (h : s.Even) : flagged s = nul s := by
  induction s with
  | iri w => rfl
  | paren s ih => exact ih h
  | mod s m ih =>
    cases m with
    | plus => exact ih h
    | _ => rfl
  | inv s ih => exact ih h
  | seq a b iha ihb => rw [flagged, nul, iha h.1, ihb h.2]
  | alt a b iha ihb =>
    have := h.2.2
    rw [empty_iff, empty_iff] at this
    rw [flagged, nul, iha h.1, ihb h.2.1]
    cases ha : nul a <;> cases hb : nul b <;> simp_all

/-- The flag is set exactly for paths that match the empty path.  Partial: the sides of alternatives must agree, see `null_violated`. -/
theorem null_partial (s : Syn) (h : s.ok = true) (hb : s.plain = true) (he : s.Even) (fuel : Nat) (hf : 6 * s.text.length ≤ fuel) :
    ∃ p, parse fuel s.text = .ok p ∧ (p.canBeNull = true ↔ s.Empty) :=
  ⟨_, parse_text s h hb fuel hf, by rw [empty_iff, ← even_flagged s he]; exact (flag_tree s).1⟩

/-! ### Examples -/

/-- `(<a>/x:b*)+|^<c>*12/(<d>?)` -/
def sample : Syn :=
  .alt (.mod (.paren (.seq (.iri ['<', 'a', '/', '>']) (.mod (.iri ['x', ':', 'b']) .star))) .plus)
    (.seq (.inv (.mod (.iri ['<', 'c', '>']) (.atMost [1, 2]))) (.paren (.mod (.iri ['<', 'd', '>']) .opt)))

example : sample.ok = true ∧ sample.plain = true := by decide
example : sample.text = "(<a/>/x:b*)+|^<c>*12/(<d>?)".toList := by decide
example : ∃ p, parse 1000 sample.text = .ok p ∧ strip p = strip sample.tree := parse_partial sample (by decide) (by decide) 1000 (by decide)
example : ∃ p, parse 1000 sample.text = .ok p ∧ ∀ (N : Type) (G : N → Word → N → Prop) u v, pathRel G p u v ↔ sample.Rel G u v :=
  parse_meaning_partial sample (by decide) (by decide) 1000 (by decide)
example : parse 9 "?p".toList = .ok (.node .iri 0 "?p".toList [] false) := variable_kept ['p'] (by decide) 9 (by decide)

/-- `<a>*/(<b>?|^<c>*)` -/
def sample2 : Syn := .seq (.mod (.iri ['<', 'a', '>']) .star)
  (.paren (.alt (.mod (.iri ['<', 'b', '>']) .opt) (.inv (.mod (.iri ['<', 'c', '>']) .star))))

example : ∃ p, parse 1000 sample2.text = .ok p ∧ (p.canBeNull = true ↔ sample2.Empty) :=
  null_partial sample2 (by decide) (by decide)
    ⟨trivial, trivial, trivial, by rw [empty_iff, empty_iff]; simp [nul]⟩ 1000 (by decide)

/-! ### Violations -/

/-- Behind parentheses the number of `*n` is a token of its own, and the path is rejected. -/
theorem bound_violated : ∃ s : Syn, s.ok = true ∧ s.text = "(<a>)*3".toList ∧ ∀ fuel, 10 ≤ fuel → parse fuel s.text = .throw := by
  refine ⟨.mod (.paren (.iri ['<', 'a', '>'])) (.atMost [3]), by decide, by decide, fun fuel hf => ?_⟩
  obtain ⟨f, rfl⟩ : ∃ f, fuel = f + 10 := ⟨fuel - 10, by omega⟩
  have ht : tokenize (Syn.mod (.paren (.iri ['<', 'a', '>'])) (.atMost [3])).text = .ok [['('], ['<', 'a', '>'], [')'], ['*'], ['3']] := by decide
  rw [parse, ht]
  simp [path, pathMore, pathSequence, sequenceMore, pathEltOrInverse, pathElt, pathPrimary, accept, modifier]

/-- A path that matches the empty path without flag: an alternative of which only one side matches the empty path. -/
theorem null_violated : ∃ s : Syn, s.ok = true ∧ s.plain = true ∧ s.text = "<a>*|<b>".toList ∧ s.Empty ∧
    ∃ p, parse 100 s.text = .ok p ∧ p.canBeNull = false := by
  refine ⟨.alt (.mod (.iri ['<', 'a', '>']) .star) (.iri ['<', 'b', '>']), by decide, by decide, by decide, ?_, _,
    parse_text _ (by decide) (by decide) 100 (by decide), ?_⟩
  · rw [empty_iff]; rfl
  · have := (flag_tree (.alt (.mod (.iri ['<', 'a', '>']) .star) (.iri ['<', 'b', '>']))).1
    rw [← Bool.not_eq_true]
    intro h
    exact absurd (this.1 h) (by decide)

/-- What is not a path is not always rejected: an operator can stand for an IRI. -/
theorem accepts_violated : (∃ p, parse 100 "<a>/*".toList = .ok p ∧ strip p = .node .sequence 0 [] [.node .iri 0 ['<', 'a', '>'] [] false, .node .iri 0 ['*'] [] false] false) ∧
    parse 100 "|".toList = .ok (.node .iri 0 ['|'] [] false) := by
  have h1 : tokenize "<a>/*".toList = .ok [['<', 'a', '>'], ['/'], ['*']] := by decide
  have h2 : tokenize "|".toList = .ok [['|']] := by decide
  rw [parse, parse, h1, h2]
  simp [path, pathMore, pathSequence, sequenceMore, pathEltOrInverse, pathElt, pathPrimary, accept, modifier, computeCanBeNull, computeAll, strip, stripAll]

/-- Some texts that are rejected: spaces, parentheses that are not closed, an operator at the end, `*n` with a number that does not fit into an `int`. -/
theorem rejected : parse 100 "<a> /<b>".toList = .throw ∧ parse 100 "(<a>/<b>".toList = .throw ∧ parse 100 "<a>/".toList = .throw ∧
    parse 100 "<a>*2147483648".toList = .throw := by
  have h1 : tokenize "<a> /<b>".toList = .throw := by decide
  have h2 : tokenize "(<a>/<b>".toList = .ok [['('], ['<', 'a', '>'], ['/'], ['<', 'b', '>']] := by decide
  have h3 : tokenize "<a>/".toList = .ok [['<', 'a', '>'], ['/']] := by decide
  have h4 : tokenize "<a>*2147483648".toList = .ok [['<', 'a', '>'], "*2147483648".toList] := by decide
  refine ⟨by rw [parse, h1]; rfl, ?_, ?_, ?_⟩
  · rw [parse, h2]
    simp [path, pathMore, pathSequence, sequenceMore, pathEltOrInverse, pathElt, pathPrimary, accept, modifier]
  · rw [parse, h3]
    simp [path, pathMore, pathSequence, sequenceMore, pathEltOrInverse, pathElt, pathPrimary, accept, modifier]
  · rw [parse, h4]
    simp [path, pathMore, pathSequence, sequenceMore, pathEltOrInverse, pathElt, pathPrimary, accept, modifier, stoi]

end Verif.C47
