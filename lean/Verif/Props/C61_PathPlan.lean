import Verif.Lemmas.PathPlanSequence
/-
C61: property paths are turned into graph patterns with the right solutions.
-/
namespace Verif.C61
open Verif.PropertyPath Verif.PropertyPathSpec Verif.PathPlan Verif.PathPlanSpec

/-- A triple with a path is turned into a graph pattern.  It has a solution, in every graph and for every assignment of nodes to the names of the query,
exactly if the path connects the nodes of its two sides.  Partial: only for `Supported` paths that do not match the empty path, see `refused` and the
violations below. -/
theorem plan_partial (p : Path) (hs : Supported p) (hn : ¬Null p) (left right : Term) (count : Nat) (hl : InUse count left) (hr : InUse count right) :
    ∃ pat count', seedTriple left (computeCanBeNull p) right count = .ok (pat, count') ∧ count ≤ count' ∧
      ∀ (N : Type) [Fintype N], Fintype.card N < 2 ^ 64 → ∀ (G : N → Word → N → Prop) (σ : Term → N),
        (∃ σ', (∀ t, InUse count t → σ' t = σ t) ∧ sat G pat σ') ↔ pathRel G p (σ left) (σ right) := by
  have hf : flag p = false := by rw [← Bool.not_eq_true, flag_null p hs]; exact hn
  obtain ⟨S, hg, _⟩ := planned (N := Unit) (by simp) noTriples p hs
  obtain ⟨pat, count', e, hm⟩ := hg left right count hl hr
  refine ⟨pat, count', by rw [seedTriple, if_neg (by rw [← flag, hf]; simp)]; exact e, hm.le, fun N _ hN G σ => ?_⟩
  obtain ⟨S, hg, hS⟩ := planned hN G p hs
  obtain ⟨pat2, count2, e2, hm⟩ := hg left right count hl hr
  rw [e] at e2
  cases e2
  rw [hS, hf]
  constructor
  · rintro ⟨σ', ha, h⟩
    have := hm.sound σ' h
    simp only [ha left hl, ha right hr] at this
    exact .inl this
  · rintro (h | ⟨h, _⟩)
    · exact hm.complete σ h
    · cases h

/-- The same for the text of a path. -/
theorem parse_plan_partial (s : Syn) (h : s.ok = true) (hb : s.plain = true) (hs : Supported s.tree) (hn : ¬s.Empty) (fuel : Nat)
    (hf : 6 * s.text.length ≤ fuel) (left right : Term) (count : Nat) (hl : InUse count left) (hr : InUse count right) :
    ∃ p pat count', parse fuel s.text = .ok p ∧ seedTriple left p right count = .ok (pat, count') ∧
      ∀ (N : Type) [Fintype N], Fintype.card N < 2 ^ 64 → ∀ (G : N → Word → N → Prop) (σ : Term → N),
        (∃ σ', (∀ t, InUse count t → σ' t = σ t) ∧ sat G pat σ') ↔ s.Rel G (σ left) (σ right) := by
  have hn' : ¬Null s.tree := fun h => hn fun N G u => ((trees_spec G s).2.2.2.2.2.1 u u).1 (h N G u)
  obtain ⟨pat, count', e, _, hm⟩ := plan_partial s.tree hs hn' left right count hl hr
  exact ⟨_, pat, count', parse_text s h hb fuel hf, e, fun N _ hN G σ => by rw [hm N hN G σ]; exact (trees_spec G s).2.2.2.2.2.1 _ _⟩

/-- Paths that match the empty path are refused. -/
theorem refused (p : Path) (hs : Supported p) (hn : Null p) (left right : Term) (count : Nat) : seedTriple left (computeCanBeNull p) right count = .throw := by
  rw [seedTriple, if_pos]
  exact (flag_null p hs).2 hn

/-! ### Examples -/

/-- An IRI of one letter. -/
def leaf (c : Char) : Path := .node .iri 0 ['<', c, '>'] [] false
/-- `c*` -/
def star (p : Path) : Path := .node .transitive 0 [] [p] false
/-- `p/q/…` -/
def seq (cs : List Path) : Path := .node .sequence 0 [] cs false
/-- `p|q|…` -/
def alt (cs : List Path) : Path := .node .alternative 0 [] cs false

theorem leaf_supported (c : Char) : Supported (leaf c) ∧ ¬Null (leaf c) :=
  ⟨.iri _ _ _, fun h => by have := h Unit noTriples (); simp only [leaf, pathRel] at this; exact this⟩
theorem star_supported (p : Path) (h : Supported p) : Supported (star p) ∧ Null (star p) :=
  ⟨.transitive _ _ _ _ h, fun N G u => by simp only [star, pathRel]; exact .refl _⟩

/-- `<a>/<b>*` is supported. -/
theorem sample_supported : Supported (seq [leaf 'a', star (leaf 'b')]) ∧ ¬Null (seq [leaf 'a', star (leaf 'b')]) := by
  have ha := leaf_supported 'a'
  have hb := star_supported _ (leaf_supported 'b').1
  refine ⟨.sequence _ _ _ _ (by decide) ?_ ?_ ?_, fun h => ?_⟩
  · intro c hc
    simp only [List.mem_cons, List.not_mem_nil, or_false] at hc
    rcases hc with rfl | rfl
    · exact ha.1
    · exact hb.1
  · intro pre c post e hc
    match pre, e with
    | [], _ => exact .inl fun d hd => by cases hd
    | [d], e =>
      simp only [List.cons_append, List.nil_append, List.cons.injEq] at e
      obtain ⟨_, rfl, _⟩ := e
      exact absurd hb.2 hc
    | _ :: _ :: pre, e => exact absurd (congrArg List.length e) (by simp)
  · intro l hl _
    have := hl.length_le
    simp only [List.length_cons, List.length_nil] at this
    omega
  · have := h Unit noTriples ()
    simp only [seq, pathRel, seqRel, leaf] at this
    obtain ⟨_, h, _⟩ := this
    exact h

/-- `?x <a>/<b>* ?y` -/
example : ∃ pat count', seedTriple (.name ['?', 'x']) (computeCanBeNull (seq [leaf 'a', star (leaf 'b')])) (.name ['?', 'y']) 0 = .ok (pat, count') ∧
    0 ≤ count' ∧ ∀ (N : Type) [Fintype N], Fintype.card N < 2 ^ 64 → ∀ (G : N → Word → N → Prop) (σ : Term → N),
      (∃ σ', (∀ t, InUse 0 t → σ' t = σ t) ∧ sat G pat σ') ↔ pathRel G (seq [leaf 'a', star (leaf 'b')]) (σ (.name ['?', 'x'])) (σ (.name ['?', 'y'])) :=
  plan_partial _ sample_supported.1 sample_supported.2 _ _ 0 trivial trivial

/-- The text `<a>/<b>*`. -/
example : ∃ p pat count', parse 100 "<a>/<b>*".toList = .ok p ∧ seedTriple (.name ['?', 'x']) p (.name ['?', 'y']) 3 = .ok (pat, count') ∧
    ∀ (N : Type) [Fintype N], Fintype.card N < 2 ^ 64 → ∀ (G : N → Word → N → Prop) (σ : Term → N),
      (∃ σ', (∀ t, InUse 3 t → σ' t = σ t) ∧ sat G pat σ') ↔
        (Syn.seq (.iri ['<', 'a', '>']) (.mod (.iri ['<', 'b', '>']) .star)).Rel G (σ (.name ['?', 'x'])) (σ (.name ['?', 'y'])) :=
  parse_plan_partial (.seq (.iri ['<', 'a', '>']) (.mod (.iri ['<', 'b', '>']) .star)) (by decide) (by decide) sample_supported.1
    (by rw [empty_iff]; decide) 100 (by decide) _ _ 3 trivial trivial

example : seedTriple (.name ['?', 'x']) (computeCanBeNull (star (leaf 'b'))) (.name ['?', 'y']) 0 = .throw :=
  refused _ (star_supported _ (leaf_supported 'b').1).1 (star_supported _ (leaf_supported 'b').1).2 _ _ _

/-! ### Violations -/

/-- `?x` -/
def x : Term := .name ['?', 'x']
/-- `?y` -/
def y : Term := .name ['?', 'y']

/-- A path that does not match the empty path behind one that does and one that does not, `<a>/<b>*/<c>`: the parts `<a>/<b>*` and `<c>` are both put between
the two sides of the triple, instead of one behind the other.  So connected nodes are no solution, and solutions are not connected. -/
theorem sequence_violated (count : Nat) :
    ∃ pat count', seedTriple x (computeCanBeNull (seq [leaf 'a', star (leaf 'b'), leaf 'c'])) y count = .ok (pat, count') ∧
      (∀ (N : Type) (G : N → Word → N → Prop) (σ : Term → N), sat G pat σ → G (σ x) ['<', 'c', '>'] (σ y)) ∧
      (∃ (G : Nat → Word → Nat → Prop) (σ : Term → Nat), pathRel G (seq [leaf 'a', star (leaf 'b'), leaf 'c']) (σ x) (σ y) ∧
        ¬∃ σ', (∀ t, InUse count t → σ' t = σ t) ∧ sat G pat σ') ∧
      ∃ (G : Nat → Word → Nat → Prop) (σ : Term → Nat), sat G pat σ ∧ ¬pathRel G (seq [leaf 'a', star (leaf 'b'), leaf 'c']) (σ x) (σ y) := by
  refine ⟨_, _, by
    simp [seedTriple, seq, leaf, star, computeCanBeNull, computeAll, Path.canBeNull, seed, seedAll, seedNode, sequence, chunks, chunkEnd, chunkPatterns,
      chunkPattern, nullIndices, joinPatterns, includedIds, merge, Outcome.read, iri, unite]
    rfl, fun N G σ h => ?_, ?_, ?_⟩
  · simp [sat, satOne] at h
    exact h.1
  · refine ⟨fun u w v => (u = 0 ∧ w = ['<', 'a', '>'] ∧ v = 1) ∨ (u = 1 ∧ w = ['<', 'c', '>'] ∧ v = 2), fun t => if t = x then 0 else 2, ?_, ?_⟩
    · simp only [seq, leaf, star, pathRel, seqRel, firstRel_one]
      exact ⟨1, .inl ⟨rfl, trivial, rfl⟩, 1, .refl _, 2, .inr ⟨rfl, trivial, rfl⟩, rfl⟩
    · rintro ⟨σ', ha, h⟩
      simp [sat, satOne] at h
      rw [ha x trivial, ha y trivial] at h
      exact absurd h.1 (by decide)
  · refine ⟨fun u w v => (u = 0 ∧ v = 1), fun t => if t = x then 0 else 1, ?_, ?_⟩
    · simp [sat, satOne, x, y]
    · simp only [seq, leaf, star, pathRel, seqRel, firstRel_one]
      rintro ⟨v, ⟨_, rfl⟩, v', h, w, ⟨h', _⟩, _⟩
      subst h'
      cases h with
      | step h _ => exact absurd h.1 (by decide)

/-- If there is a path that matches the empty path in the second part, memory is written behind the end of a vector: `<a>/<b>*/<c>/<d>*`. -/
theorem undefined_violated (left right : Term) (count : Nat) :
    seedTriple left (computeCanBeNull (seq [leaf 'a', star (leaf 'b'), leaf 'c', star (leaf 'd')])) right count = .ub := by
  simp [seedTriple, seq, leaf, star, computeCanBeNull, computeAll, Path.canBeNull, seed, seedAll, seedNode, sequence, chunks, chunkEnd, chunkPatterns,
    chunkPattern]
  rfl

/-- An alternative with one side that matches the empty path is not refused, and its solutions miss the empty path: `<a>*|<b>`. -/
theorem alternative_violated (count : Nat) :
    ∃ pat count', seedTriple x (computeCanBeNull (alt [star (leaf 'a'), leaf 'b'])) y count = .ok (pat, count') ∧
      ∃ (G : Unit → Word → Unit → Prop) (σ : Term → Unit), pathRel G (alt [star (leaf 'a'), leaf 'b']) (σ x) (σ y) ∧ ¬∃ σ', sat G pat σ' := by
  refine ⟨_, _, by
    simp [seedTriple, alt, leaf, star, computeCanBeNull, computeAll, Path.canBeNull, seed, seedAll, seedNode, alternative, summands, iri, transitive, unite]
    exact ⟨rfl, rfl⟩, noTriples, fun _ => (), ?_, ?_⟩
  · simp only [alt, leaf, star, pathRel, altRel]
    exact .inl (.refl _)
  · rintro ⟨σ', h⟩
    simp [sat, satOne, noTriples] at h
    obtain ⟨k, h1, _, h2⟩ := h
    cases h2 with
    | refl => omega
    | step h _ => exact h

/-- A sequence with more than ten factors that match the empty path is refused, though its path does not match the empty path. -/
theorem eleven_violated (left right : Term) (count : Nat) :
    seedTriple left (computeCanBeNull (seq (leaf 'a' :: List.replicate 11 (star (leaf 'b'))))) right count = .throw ∧
      ¬Null (seq (leaf 'a' :: List.replicate 11 (star (leaf 'b')))) := by
  refine ⟨?_, fun h => ?_⟩
  · simp [seedTriple, seq, leaf, star, List.replicate, computeCanBeNull, computeAll, Path.canBeNull, seed, seedAll, seedNode, sequence, chunks, chunkEnd,
      chunkPatterns, chunkPattern]
    rfl
  · have := h Unit noTriples ()
    simp only [seq, pathRel, seqRel, leaf] at this
    obtain ⟨_, h, _⟩ := this
    exact h

end Verif.C61
