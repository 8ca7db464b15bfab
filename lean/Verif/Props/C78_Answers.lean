import Verif.Lemmas.Answers
import Verif.Props.C76_TriplePlan
/-
C78: from the triples of the input to the terms of the answers.
-/
namespace Verif.Answers
open Verif.Collation Verif.VocabularyMerger VocabularySpec
open Verif.ExternalVocabulary (Word Fits)
open Verif.C58 (order Stored words_ok)
open Verif.CollationSpec (Closed content)
open PlannerSpec (Sol)
open TermSpec TriplePatternSpec PermutationSpec
open Verif.TriplePlan (Pattern isVariable triplesNodes groupVars groupData hasPredicateIri Safe LeafData leafPlans Columns)
open Planner (Var)
open MetaData (MAX_NOF_ELEMENTS)

/-! ### Small relations -/

theorem scan_length {n : Permutation.Name} {T : List Permutation.Triple} {key : Nat} {res : List (Nat × Nat)} (h : IsScan n T key res) :
    res.length ≤ T.length := by
  have hnd : (res.map fun p => (key, p.1, p.2)).Nodup := by
    refine List.Nodup.map (fun a b hab => ?_) (h.1.imp ?_)
    · simp only [Prod.mk.injEq, true_and] at hab
      exact Prod.ext hab.1 hab.2
    · rintro a b hb rfl
      rcases hb with hb | hb <;> omega
  have hsub : (res.map fun p => (key, p.1, p.2)) ⊆ T.map (comps n) := by
    intro x hx
    obtain ⟨p, hp, rfl⟩ := List.mem_map.mp hx
    obtain ⟨t, ht, he⟩ := (h.2 p).mp hp
    exact List.mem_map.mpr ⟨t, ht, he⟩
  have := (hnd.subperm hsub).length_le
  simpa using this

/-- A pattern of the query: it has a variable, no variable occurs twice, the predicate is not `ql:has-predicate`; some triple matches it
or there are at most 20000 triples (see C26). -/
def PatternOk (D : List Words) (t : Pattern) : Prop :=
  t.Linear ∧ t.vars ≠ [] ∧ t.p ≠ hasPredicateIri ∧ ((∃ sol, TermBgp isVariable [(t.s, t.p, t.o)] D sol) ∨ D.length ≤ 20000)

/-- The terms of a pattern. -/
def terms (t : Pattern) : String × String × String := (t.s, t.p, t.o)

/-- The stored triples of an input. -/
def storedTriples (parts : List (List (Fin 4 × Item))) : List Words := (parts.map storedOf).flatten.map shownTriple

/-- The words of the vocabulary of an input. -/
def InputWord (parts : List (List (Fin 4 × Item))) (w : Word) : Prop := w = languagePredicate ∨ ∃ part ∈ parts, w ∈ wordsOf (storedOf part)

/-- What is required of the input: it is not empty; its words are terms, also in the form in which they are shown; everything fits; and no
word kept on disk occurs in two partial vocabularies (C31). -/
structure InputOk (c : Collator) (N : Word → Prop) (maxT : Nat) (parts : List (List (Fin 4 × Item))) : Prop where
  laws : c.Laws N
  mark : ∀ a b, c.key .identical (Char.ofNat 128 :: a) < c.key .identical (Char.ofNat 128 :: b) →
    c.key .identical ('<' :: a) < c.key .identical ('<' :: b)
  ids : 400 * maxT < 2 ^ 64
  sizes : ∀ part ∈ parts, 1 + 6 * part.length ≤ 100 * maxT
  words : ∀ w, InputWord parts w → Stored N w ∧ Closed (shown w) ∧ N (content (shown w))
  room : 2 * parts.length + 3 * (parts.map storedOf).flatten.length < 2 ^ 64
  triples : (parts.map storedOf).flatten ≠ []
  number : (parts.map storedOf).flatten.length ≤ MAX_NOF_ELEMENTS
  fits : Fits (languagePredicate :: wordsOf (parts.map storedOf).flatten)
  once : ∀ w, External w → (parts.filter fun part => decide (w ∈ wordsOf (storedOf part))).length ≤ 1

/-- The constants of a query that can be looked up: those kept in memory and those that occur in the data (C30). -/
def ConstantOk (parts : List (List (Fin 4 × Item))) (v : Collation.Vocab) (x : String) : Prop :=
  isVariable x = false → shouldBeExternalized v x.toList = false ∨ ∃ w, InputWord parts w ∧ shown w = x.toList

theorem total_length {a b : List Word} (h : a.Subperm b) : a.flatten.length ≤ b.flatten.length := by
  obtain ⟨x, hp, hs⟩ := h
  rw [← hp.flatten.length_eq]
  exact hs.flatten.length_le

theorem shown_length (ws : List Word) : (ws.map shown).flatten.length = ws.flatten.length := by
  induction ws with
  | nil => rfl
  | cons w ws ih =>
    rw [List.map_cons, List.flatten_cons, List.flatten_cons, List.length_append, List.length_append, ih]
    congr 1
    cases w with
    | nil => rfl
    | cons x xs =>
      rw [shown]
      split
      · rfl
      · split <;> rfl

/-- The index of an input: what the builder writes. -/
theorem built {c : Collator} {N : Word → Prop} {maxT : Nat} {parts : List (List (Fin 4 × Item))} (h : InputOk c N maxT parts)
    {o : Outcome Result} (hrun : Run (order c) maxT parts o) :
    ∃ r voc l, o = .ok r ∧ load r = .ok l ∧ Correct (order c) parts r voc ∧ (∀ w, w ∈ voc ↔ InputWord parts w) ∧ voc.length < 2 ^ 61 ∧
      ∀ (prefixes langs : List Word) (fuel : Nat),
        (∀ w, InputWord parts w → shouldBeExternalized (vocabOf l prefixes langs) (shown w) = !isInternal w) → voc.length + 1 < fuel →
        Knows c fuel (vocabOf l prefixes langs) l voc := by
  have hl : Stored N languagePredicate := (h.words _ (.inl rfl)).1
  obtain ⟨r, voc, rfl, hr⟩ := merge_correct (Stored N) (order c) maxT parts (words_ok c N) h.ids h.sizes hl
    (fun part hp w hw => (h.words w (.inr ⟨part, hp, hw⟩)).1) h.room o hrun
  have hpne : parts ≠ [] := by
    rintro rfl
    exact h.triples rfl
  have hmem : ∀ w, w ∈ voc ↔ InputWord parts w := by
    intro w
    rw [hr.words w]
    unfold InputWord
    simp [hpne]
  have hvoc := fun w hw => h.words w ((hmem w).mp hw)
  have hnd : voc.Nodup := by
    rw [List.Nodup, List.pairwise_iff_getElem]
    intro j k hj hk hjk he
    have := (ids_ordered_partial (Stored N) (order c) parts (words_ok c N) r voc hr (fun w hw => (hvoc w hw).1) h.once j k _ _
      (List.getElem?_eq_getElem hj) (List.getElem?_eq_getElem hk)).2.mp hjk
    rw [he, Verif.C58.order_self] at this
    omega
  have hfits : Fits (voc.map shown) := by
    have hsub : voc ⊆ languagePredicate :: wordsOf (parts.map storedOf).flatten := by
      intro w hw
      rcases (hmem w).mp hw with h1 | ⟨part, h1, h2⟩
      · rw [h1]; exact List.mem_cons_self
      · obtain ⟨t, ht, hw⟩ := mem_wordsOf.mp h2
        exact List.mem_cons_of_mem _ (mem_wordsOf.mpr ⟨t, List.mem_flatten.mpr ⟨_, List.mem_map_of_mem h1, ht⟩, hw⟩)
    have h1 := total_length (hnd.subperm hsub)
    have h2 := (hnd.subperm hsub).length_le
    have h3 := h.fits
    unfold Fits at h3 ⊢
    rw [shown_length, List.length_map]
    omega
  obtain ⟨l, h1, h2⟩ := knows c N h.laws parts r voc hr hfits hvoc h.mark h.once
  refine ⟨r, voc, l, rfl, h1, hr, hmem, ?_, fun prefixes langs fuel ht hf => h2 prefixes langs fuel (fun w hw => ht w ((hmem w).mp hw)) hf⟩
  unfold Fits at hfits
  simp only [List.length_map] at hfits
  omega

theorem triples_spec {c : Collator} {parts : List (List (Fin 4 × Item))} {r : Result} {voc : List Word} (hr : Correct (order c) parts r voc) :
    (triplesOf r).length = (parts.map storedOf).flatten.length ∧
    ∀ t ∈ triplesOf r, t.s < voc.length ∧ t.p < voc.length ∧ t.o < voc.length := by
  refine ⟨by rw [triplesOf, List.length_map]; exact hr.triples.length_eq, fun t ht => ?_⟩
  obtain ⟨x, hx, rfl⟩ := List.mem_map.mp ht
  obtain ⟨k, hi⟩ := List.mem_iff_getElem?.mp hx
  have hl := hr.triples.length_eq
  have hil := (List.getElem?_eq_some_iff.mp hi).1
  have hd : Denote voc x ((parts.map storedOf).flatten[k]'(by omega)) := by
    have := (List.forall₂_iff_get.mp hr.triples).2 k hil (by omega)
    simpa [(List.getElem?_eq_some_iff.mp hi).2] using this
  exact ⟨(List.getElem?_eq_some_iff.mp hd.1).1, (List.getElem?_eq_some_iff.mp hd.2.1).1, (List.getElem?_eq_some_iff.mp hd.2.2).1⟩

theorem safe_of {c : Collator} {fuel : Nat} {v : Collation.Vocab} {l : Loaded} {voc : List Word} (hk : Knows c fuel v l voc)
    {parts : List (List (Fin 4 × Item))} {r : Result} (hr : Correct (order c) parts r voc) {t : Pattern}
    (ht : PatternOk (storedTriples parts) t) (hc : ConstantsOk isVariable v voc [terms t]) :
    t.Ok (lookup c fuel v) (triplesOf r) := by
  obtain ⟨h1, h2, h3, h4⟩ := ht
  refine ⟨h1, h2, h3, ?_⟩
  rcases h4 with ⟨tsol, h4⟩ | h4
  · left
    obtain ⟨sol, ⟨hb, hb'⟩, _⟩ := bgp_from hk hc hr.triples h4
    obtain ⟨x, hx, e1, e2, e3⟩ := hb (terms t) List.mem_cons_self
    refine ⟨x, hx, sol, e1, e2, e3, fun y hy => hb' y fun ⟨g1, q, hq, g2⟩ => hy ⟨g1, ?_⟩⟩
    rw [List.mem_singleton] at hq
    subst hq
    exact g2
  · right
    intro name key res hres
    have := scan_length hres
    rw [(triples_spec hr).1] at this
    rw [storedTriples, List.length_map] at h4
    exact .inl (by omega)

/-- The query writes a triple pattern as three terms. -/
abbrev termsOf (ps : List Pattern) : List (String × String × String) := ps.map terms

/-- **C78** (from the input to the answers).  Let an index be built from an input as in `InputOk`, by any execution of the first phase and
with any settings under which the vocabulary looks for a word where it is kept.  Let a query consist of triple patterns as in
`PatternOk`, in the shape of a tree, whose constants can be looked up, and of filters that depend on the terms only.  Whatever plan
is chosen: if its execution returns a table, then all its ids are shown as terms, and the rows shown are exactly the solutions of the
patterns in the stored triples that satisfy the filters, each once.
Missing: what is missing in `C76_group_partial`, in C31 for words kept on disk, and in C30 for constants kept on disk that do not occur;
prefix compression of the words (C04). -/
theorem C78_answers_partial (c : Collator) (N : Word → Prop) (maxT : Nat) (parts : List (List (Fin 4 × Item))) (h : InputOk c N maxT parts)
    (o : Outcome Result) (hrun : Run (order c) maxT parts o) (lg : Nat → Nat → Nat) :
    ∃ r l idx, o = .ok r ∧ load r = .ok l ∧ Permutation.createIndex lg r.nofWords (triplesOf r) = .ok (some idx) ∧
      ∀ (prefixes langs : List Word) (fuel : Nat), r.nofWords + 1 < fuel →
      (∀ w, InputWord parts w → shouldBeExternalized (vocabOf l prefixes langs) (shown w) = !isInternal w) →
      ∀ (ps : List Pattern) (fresh : Nat → Var), ps ≠ [] → Planner.TreeShaped (groupVars ps) ps.length →
      (∀ t ∈ ps, PatternOk (storedTriples parts) t) →
      (∀ t ∈ ps, ∀ x, x = t.s ∨ x = t.p ∨ x = t.o → ConstantOk parts (vocabOf l prefixes langs) x) →
      ∃ seeded, triplesNodes true fresh ps 0 = .ok seeded ∧
      ∀ (P : Planner.Params) (filters : List (List Var)) (keep : Nat → Sol → Bool) (keepTerms : Nat → TermSol → Bool)
        (rows : List (List Planner.Plan)) (row : List Planner.Plan) (p : Planner.Plan) (x : Table),
        (∀ m, (P.shuffle m).Perm m) → (∀ g, (P.order g).Perm g) →
        (∀ i s t, (∀ v ∈ filters.getD i [], s v = t v) → keep i s = keep i t) →
        (∀ i s, (∀ v k, s v = some k → k < r.nofWords) → keep i s = keepTerms i (showSol l s)) →
        Planner.fillDpTab P (seeded.map (·.1)) filters [] = .ok rows → rows.getLast? = some row → p ∈ row →
        Planner.Eval P (groupData (lookup c fuel (vocabOf l prefixes langs)) r.nofWords idx seeded) keep p.tree x →
        Columns P ps p.tree x ∧ idToOptionalString l ID_NO_VALUE = .ok none ∧
        (∀ s ∈ x.map (Planner.solution (p.tree.cols P)), ∀ v k, s v = some k → ∃ w, idToOptionalString l k = .ok (some w)) ∧
        ((x.map (Planner.solution (p.tree.cols P))).map (showSol l)).Nodup ∧
        ∀ sol, sol ∈ (x.map (Planner.solution (p.tree.cols P))).map (showSol l) ↔
          TermBgp isVariable (termsOf ps) (storedTriples parts) sol ∧
          ∀ i, i < filters.length → (∀ v ∈ filters.getD i [], ∃ t ∈ ps, v ∈ t.vars) → keepTerms i sol = true := by
  obtain ⟨r, voc, l, ho, hload, hr, hmem, hlen, hknows⟩ := built h hrun
  obtain ⟨ht1, ht2⟩ := triples_spec hr
  have hne : triplesOf r ≠ [] := by
    intro h0
    rw [h0] at ht1
    exact h.triples (List.length_eq_zero_iff.mp ht1.symm)
  have hT : (triplesOf r).length ≤ MAX_NOF_ELEMENTS := by rw [ht1]; exact h.number
  have hN : r.nofWords ≤ ID_NO_VALUE := by rw [hr.size]; unfold ID_NO_VALUE; omega
  have ht3 : ∀ t ∈ triplesOf r, t.s < r.nofWords ∧ t.p < r.nofWords ∧ t.o < r.nofWords := by rw [hr.size]; exact ht2
  obtain ⟨idx, hidx, _⟩ := TriplePlan.C76_group_partial lg r.nofWords (triplesOf r) hne hN ht3 hT (fun _ => none) (by simp)
  refine ⟨r, l, idx, ho, hload, hidx, fun prefixes langs fuel hfuel htest ps fresh hps0 htree hps hcs => ?_⟩
  have hk := hknows prefixes langs fuel htest (by rw [← hr.size]; exact hfuel)
  obtain ⟨idx', hidx', hmain⟩ := TriplePlan.C76_group_partial lg r.nofWords (triplesOf r) hne hN ht3 hT
    (lookup c fuel (vocabOf l prefixes langs)) (by
      intro w k hw
      rw [hr.size]
      unfold lookup at hw
      split at hw
      · rename_i i hi
        cases hw
        exact hk.bound _ _ hi
      · cases hw)
  rw [hidx] at hidx'
  cases hidx'
  have hconst : ConstantsOk isVariable (vocabOf l prefixes langs) voc (termsOf ps) := by
    intro q hq y hy hv
    obtain ⟨t, ht, rfl⟩ := List.mem_map.mp hq
    rcases hcs t ht y hy hv with h1 | ⟨w, h1, h2⟩
    · exact .inl h1
    · exact .inr ⟨w, (hmem w).mpr h1, h2⟩
  have hok : ∀ t ∈ ps, t.Ok (lookup c fuel (vocabOf l prefixes langs)) (triplesOf r) := fun t ht =>
    safe_of hk hr (hps t ht) fun q hq => by
      rw [List.mem_singleton] at hq
      subst hq
      exact hconst _ (List.mem_map_of_mem ht)
  obtain ⟨seeded, hseed, hall⟩ := hmain ps fresh hok hps0 htree
  refine ⟨seeded, hseed, fun P filters keep keepTerms rows row p x hs hord hkeep hkt hrows hlast hp he => ?_⟩
  obtain ⟨hcol, hnd, hiff⟩ := hall P filters keep rows row p x hs hord hkeep hrows hlast hp he
  have hb : ∀ s ∈ x.map (Planner.solution (p.tree.cols P)),
      Bgp (lookup c fuel (vocabOf l prefixes langs)) isVariable (termsOf ps) (triplesOf r) s := fun s hs => ((hiff s).mp hs).1
  have hvals : ∀ s, Bgp (lookup c fuel (vocabOf l prefixes langs)) isVariable (termsOf ps) (triplesOf r) s →
      ∀ v k, s v = some k → ∃ w, voc[k]? = some w := fun s hs v k hv => bgp_values hr.triples hs hv
  refine ⟨hcol, ?_, fun s hs v k hv => ?_, hnd.map_on fun s hs s' hs' e => bgp_injective hk hr.triples (hb s hs) (hb s' hs') e, fun sol => ?_⟩
  · rw [hk.beyond _ (by rw [← hr.size]; exact hN), if_pos (by rfl)]
  · obtain ⟨w, hw⟩ := hvals s (hb s hs) v k hv
    exact ⟨_, hk.shows k w hw⟩
  · have hkeepEq : ∀ s i, Bgp (lookup c fuel (vocabOf l prefixes langs)) isVariable (termsOf ps) (triplesOf r) s →
        keep i s = keepTerms i (showSol l s) := by
      intro s i hs
      refine hkt i s fun v k hv => ?_
      obtain ⟨w, hw⟩ := hvals s hs v k hv
      rw [hr.size]
      exact (List.getElem?_eq_some_iff.mp hw).1
    constructor
    · intro hm
      obtain ⟨s, hs, rfl⟩ := List.mem_map.mp hm
      obtain ⟨h1, h2⟩ := (hiff s).mp hs
      exact ⟨bgp_to hk hconst hr.triples h1, fun i hi hv => by rw [← hkeepEq s i h1]; exact h2 i hi hv⟩
    · rintro ⟨h1, h2⟩
      obtain ⟨s, hs, rfl⟩ := bgp_from hk hconst hr.triples h1
      refine List.mem_map_of_mem ((hiff s).mpr ⟨hs, fun i hi hv => ?_⟩)
      rw [hkeepEq s i hs]
      exact h2 i hi hv

/-- **C78** (queries are answered).  Let an index be built from an input as in `InputOk`, and let a query consist of fewer than 64
triple patterns as in `C78_answers_partial`, connected, with at most two variables each, and of at most 64 filters.  A plan is
found, and its execution returns a table (which `C78_answers_partial` describes), unless some of the patterns, but not all, have more
than 1000 solutions together in the stored triples.
Missing: see `C78_answers_partial`; other groups. -/
theorem C78_returns_partial (c : Collator) (N : Word → Prop) (maxT : Nat) (parts : List (List (Fin 4 × Item))) (h : InputOk c N maxT parts)
    (o : Outcome Result) (hrun : Run (order c) maxT parts o) (lg : Nat → Nat → Nat) :
    ∃ r l idx, o = .ok r ∧ load r = .ok l ∧ Permutation.createIndex lg r.nofWords (triplesOf r) = .ok (some idx) ∧
      ∀ (prefixes langs : List Word) (fuel : Nat), r.nofWords + 1 < fuel →
      (∀ w, InputWord parts w → shouldBeExternalized (vocabOf l prefixes langs) (shown w) = !isInternal w) →
      ∀ (ps : List Pattern) (fresh : Nat → Var), ps ≠ [] → (∀ t ∈ ps, t.vars.length ≤ 2) → Planner.TreeShaped (groupVars ps) ps.length →
      Planner.Conn (groupVars ps) (fun j => j < ps.length) → ps.length < 64 →
      (∀ t ∈ ps, PatternOk (storedTriples parts) t) →
      (∀ t ∈ ps, ∀ x, x = t.s ∨ x = t.p ∨ x = t.o → ConstantOk parts (vocabOf l prefixes langs) x) →
      ∀ (P : Planner.Params) (filters : List (List Var)) (keep : Nat → Sol → Bool),
        (∀ m, (P.shuffle m).Perm m) → (∀ g, (P.order g).Perm g) → filters.length ≤ 64 →
        (∀ i s t, (∀ v ∈ filters.getD i [], s v = t v) → keep i s = keep i t) →
        ∃ seeded rows row p, triplesNodes true fresh ps 0 = .ok seeded ∧ Planner.fillDpTab P (seeded.map (·.1)) filters [] = .ok rows ∧
          rows.getLast? = some row ∧ Planner.cheapest P row = some p ∧
          ((∃ x, Planner.Eval P (groupData (lookup c fuel (vocabOf l prefixes langs)) r.nofWords idx seeded) keep p.tree x) ∨
            ∃ (qs : List Pattern) (sols : List TermSol), qs.Sublist ps ∧ qs.length < ps.length ∧ sols.Nodup ∧
              (∀ sol ∈ sols, TermBgp isVariable (termsOf qs) (storedTriples parts) sol) ∧ 1000 < sols.length) := by
  obtain ⟨r, voc, l, ho, hload, hr, hmem, hlen, hknows⟩ := built h hrun
  obtain ⟨ht1, ht2⟩ := triples_spec hr
  have hne : triplesOf r ≠ [] := by
    intro h0
    rw [h0] at ht1
    exact h.triples (List.length_eq_zero_iff.mp ht1.symm)
  have hT : (triplesOf r).length ≤ MAX_NOF_ELEMENTS := by rw [ht1]; exact h.number
  have hN : r.nofWords ≤ ID_NO_VALUE := by rw [hr.size]; unfold ID_NO_VALUE; omega
  have ht3 : ∀ t ∈ triplesOf r, t.s < r.nofWords ∧ t.p < r.nofWords ∧ t.o < r.nofWords := by rw [hr.size]; exact ht2
  obtain ⟨idx, hidx, _⟩ := TriplePlan.C76_returns_partial lg r.nofWords (triplesOf r) hne hN ht3 hT (fun _ => none) (by simp)
  refine ⟨r, l, idx, ho, hload, hidx, fun prefixes langs fuel hfuel htest ps fresh hps0 hfull htree hconn h64 hps hcs P filters keep hs hord h64' hkeep => ?_⟩
  have hk := hknows prefixes langs fuel htest (by rw [← hr.size]; exact hfuel)
  obtain ⟨idx', hidx', hmain⟩ := TriplePlan.C76_returns_partial lg r.nofWords (triplesOf r) hne hN ht3 hT
    (lookup c fuel (vocabOf l prefixes langs)) (by
      intro w k hw
      rw [hr.size]
      unfold lookup at hw
      split at hw
      · rename_i i hi
        cases hw
        exact hk.bound _ _ hi
      · cases hw)
  rw [hidx] at hidx'
  cases hidx'
  have hconst : ConstantsOk isVariable (vocabOf l prefixes langs) voc (termsOf ps) := by
    intro q hq y hy hv
    obtain ⟨t, ht, rfl⟩ := List.mem_map.mp hq
    rcases hcs t ht y hy hv with h1 | ⟨w, h1, h2⟩
    · exact .inl h1
    · exact .inr ⟨w, (hmem w).mpr h1, h2⟩
  have hok : ∀ t ∈ ps, t.Ok (lookup c fuel (vocabOf l prefixes langs)) (triplesOf r) := fun t ht =>
    safe_of hk hr (hps t ht) fun q hq => by
      rw [List.mem_singleton] at hq
      subst hq
      exact hconst _ (List.mem_map_of_mem ht)
  obtain ⟨seeded, rows, row, p, e1, e2, e3, e4, e5⟩ := hmain ps fresh hok hps0 hfull htree hconn h64 P filters keep hs hord h64' hkeep
  refine ⟨seeded, rows, row, p, e1, e2, e3, e4, e5.imp id ?_⟩
  rintro ⟨qs, sols, q1, q2, q3, q4, q5⟩
  have hconst' : ConstantsOk isVariable (vocabOf l prefixes langs) voc (termsOf qs) := by
    intro q hq
    obtain ⟨t, ht, rfl⟩ := List.mem_map.mp hq
    exact hconst _ (List.mem_map_of_mem (q1.subset ht))
  refine ⟨qs, sols.map (showSol l), q1, q2, q3.map_on fun s hs s' hs' e => bgp_injective hk hr.triples (q4 s hs) (q4 s' hs') e, ?_, by simpa using q5⟩
  intro sol hsol
  obtain ⟨s, hs, rfl⟩ := List.mem_map.mp hsol
  exact bgp_to hk hconst' hr.triples (q4 s hs)

/-- **C78** (one pattern).  Let an index be built from an input as in `InputOk`.  For every triple pattern as in `PatternOk` whose constants
can be looked up, the plans return tables, and the rows shown are exactly the solutions of the pattern in the stored triples,
each once.
Missing: see `C78_answers_partial`. -/
theorem C78_pattern_partial (c : Collator) (N : Word → Prop) (maxT : Nat) (parts : List (List (Fin 4 × Item))) (h : InputOk c N maxT parts)
    (o : Outcome Result) (hrun : Run (order c) maxT parts o) (lg : Nat → Nat → Nat) :
    ∃ r l idx, o = .ok r ∧ load r = .ok l ∧ Permutation.createIndex lg r.nofWords (triplesOf r) = .ok (some idx) ∧
      ∀ (prefixes langs : List Word) (fuel : Nat), r.nofWords + 1 < fuel →
      (∀ w, InputWord parts w → shouldBeExternalized (vocabOf l prefixes langs) (shown w) = !isInternal w) →
      ∀ (t : Pattern) (fresh : Var), PatternOk (storedTriples parts) t →
      (∀ x, x = t.s ∨ x = t.p ∨ x = t.o → ConstantOk parts (vocabOf l prefixes langs) x) →
      ∃ plans, leafPlans true fresh t = .ok plans ∧ plans ≠ [] ∧ ∀ plan ∈ plans,
        (∃ x, LeafData (lookup c fuel (vocabOf l prefixes langs)) r.nofWords idx plan x) ∧
        ∀ x, LeafData (lookup c fuel (vocabOf l prefixes langs)) r.nofWords idx plan x →
          ((x.map (Planner.solution plan.alt.cols)).map (showSol l)).Nodup ∧
          ∀ sol, sol ∈ (x.map (Planner.solution plan.alt.cols)).map (showSol l) ↔
            TermBgp isVariable [terms t] (storedTriples parts) sol := by
  obtain ⟨r, voc, l, ho, hload, hr, hmem, hlen, hknows⟩ := built h hrun
  obtain ⟨ht1, ht2⟩ := triples_spec hr
  have hne : triplesOf r ≠ [] := by
    intro h0
    rw [h0] at ht1
    exact h.triples (List.length_eq_zero_iff.mp ht1.symm)
  have hT : (triplesOf r).length ≤ MAX_NOF_ELEMENTS := by rw [ht1]; exact h.number
  have hN : r.nofWords ≤ ID_NO_VALUE := by rw [hr.size]; unfold ID_NO_VALUE; omega
  have ht3 : ∀ t ∈ triplesOf r, t.s < r.nofWords ∧ t.p < r.nofWords ∧ t.o < r.nofWords := by rw [hr.size]; exact ht2
  obtain ⟨idx, hidx, _⟩ := TriplePlan.C76_plans_partial lg r.nofWords (triplesOf r) hne hN ht3 hT (fun _ => none) (by simp)
  refine ⟨r, l, idx, ho, hload, hidx, fun prefixes langs fuel hfuel htest t fresh hpat hcs => ?_⟩
  have hk := hknows prefixes langs fuel htest (by rw [← hr.size]; exact hfuel)
  obtain ⟨idx', hidx', hmain⟩ := TriplePlan.C76_plans_partial lg r.nofWords (triplesOf r) hne hN ht3 hT
    (lookup c fuel (vocabOf l prefixes langs)) (by
      intro w k hw
      rw [hr.size]
      unfold lookup at hw
      split at hw
      · rename_i i hi
        cases hw
        exact hk.bound _ _ hi
      · cases hw)
  rw [hidx] at hidx'
  cases hidx'
  have hconst : ConstantsOk isVariable (vocabOf l prefixes langs) voc [terms t] := by
    intro q hq y hy hv
    rw [List.mem_singleton] at hq
    subst hq
    rcases hcs y hy hv with h1 | ⟨w, h1, h2⟩
    · exact .inl h1
    · exact .inr ⟨w, (hmem w).mpr h1, h2⟩
  obtain ⟨o1, o2, o3, o4⟩ := safe_of hk hr hpat hconst
  obtain ⟨ls, e1, e2, e3⟩ := hmain fresh t o1 o2 o3 o4
  refine ⟨ls, e1, ?_, fun plan hplan => ⟨(e3 plan hplan).1.runs, fun x hx => ?_⟩⟩
  · obtain ⟨v, vs, hv⟩ := List.exists_cons_of_ne_nil o2
    obtain ⟨a, ha, _⟩ := e2 v (by rw [hv]; exact List.mem_cons_self)
    obtain ⟨l', hl', _⟩ := List.mem_map.mp ha
    exact List.ne_nil_of_mem hl'
  · obtain ⟨hnd, hsols⟩ := ((e3 plan hplan).1.table x hx).sols
    have hiff : ∀ s, s ∈ x.map (Planner.solution plan.alt.cols) ↔
        Bgp (lookup c fuel (vocabOf l prefixes langs)) isVariable [terms t] (triplesOf r) s := by
      intro s
      rw [hsols s]
      unfold Matches Bgp
      simp only [List.mem_singleton, forall_eq, exists_eq_left]
      constructor
      · rintro ⟨y, hy, a1, a2, a3, a4⟩
        exact ⟨⟨y, hy, a1, a2, a3⟩, a4⟩
      · rintro ⟨⟨y, hy, a1, a2, a3⟩, a4⟩
        exact ⟨y, hy, a1, a2, a3, a4⟩
    refine ⟨hnd.map_on fun s hs s' hs' e => bgp_injective hk hr.triples ((hiff s).mp hs) ((hiff s').mp hs') e, fun sol => ?_⟩
    constructor
    · intro hm
      obtain ⟨s, hs, rfl⟩ := List.mem_map.mp hm
      exact bgp_to hk hconst hr.triples ((hiff s).mp hs)
    · intro h1
      obtain ⟨s, hs, rfl⟩ := bgp_from hk hconst hr.triples h1
      exact List.mem_map_of_mem ((hiff s).mpr hs)

end Verif.Answers
