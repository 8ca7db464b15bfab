import Verif.Props.C32_Patterns
/-
C34: the scans for `ql:has-predicate`.  `Correct ix ts lo hi` (C32) says that the index describes the triples; C32 shows it for the
indexes that are built with enough patterns.
-/
namespace Verif.Patterns
open Verif.PatternsSpec

variable {ix : Index} {ts : List Triple} {lo hi : Nat}

theorem predicatesOf_beyond {id : Nat} (h : max ix.hasPattern.length ix.hasPredicate.size ≤ id) : predicatesOf ix id = .ok none := by
  unfold predicatesOf
  rw [if_neg (by omega), if_neg (by omega)]

theorem freeSLoop_spec {f : Nat → Option (List Nat)} (hf : ∀ id, predicatesOf ix id = .ok (f id)) (obj : Nat) (n : Nat) : ∀ id,
    freeSLoop ix obj n id = .ok ((List.range' id n).flatMap fun i => (((f i).getD []).filter (· = obj)).map fun _ => i) := by
  induction n with
  | zero => intro id; rfl
  | succ n ih =>
    intro id
    simp only [freeSLoop, hf, ih, Outcome.bind, Outcome.map, List.range'_succ, List.flatMap_cons]

theorem fullLoop_spec {f : Nat → Option (List Nat)} (hf : ∀ id, predicatesOf ix id = .ok (f id)) (n : Nat) : ∀ id,
    fullLoop ix n id = .ok ((List.range' id n).flatMap fun i => ((f i).getD []).map fun p => (i, p)) := by
  induction n with
  | zero => intro id; rfl
  | succ n ih =>
    intro id
    simp only [fullLoop, hf, ih, Outcome.bind, Outcome.map, List.range'_succ, List.flatMap_cons]

theorem correct_bound (h : Correct ix ts lo hi) {s p : Nat} (hp : HasPredicate ts lo hi s p) :
    s < max ix.hasPattern.length ix.hasPredicate.size := by
  by_contra h1
  obtain ⟨r, hr, hr2⟩ := h s
  rw [predicatesOf_beyond (by omega)] at hr
  cases hr
  have := (hr2.2 p).mpr hp
  simp at this

theorem correct_fun (h : Correct ix ts lo hi) : ∃ f : Nat → Option (List Nat), ∀ s, predicatesOf ix s = .ok (f s) ∧ PredicatesOf ts lo hi s ((f s).getD []) :=
  ⟨fun s => (h s).choose, fun s => (h s).choose_spec⟩

/-- C34, the subjects of a predicate: ascending, each once. -/
theorem C34_subjects (h : Correct ix ts lo hi) (obj : Nat) :
    ∃ L : List Nat, computeFreeS ix obj = .ok L ∧ L.Pairwise (· < ·) ∧ ∀ s, s ∈ L ↔ HasPredicate ts lo hi s obj := by
  obtain ⟨f, hf⟩ := correct_fun h
  have hfilter : ∀ s, (((f s).getD []).filter (· = obj)).map (fun _ => s) = if obj ∈ (f s).getD [] then [s] else [] := by
    intro s
    have hnd : ((f s).getD []).Nodup := (hf s).2.1.imp Nat.ne_of_lt
    split
    · rename_i hm
      have h1 : ((f s).getD []).filter (· = obj) = [obj] := by
        have h2 := hnd.filter (fun x => decide (x = obj))
        refine List.Perm.eq_singleton ((List.perm_ext_iff_of_nodup h2 (by simp)).mpr fun x => ?_)
        simp only [List.mem_filter, decide_eq_true_eq, List.mem_singleton]
        constructor
        · exact fun h => h.2
        · rintro rfl; exact ⟨hm, rfl⟩
      rw [h1]; rfl
    · rename_i hm
      rw [List.filter_eq_nil_iff.mpr fun x hx => by simp; exact fun h => hm (h ▸ hx)]
      rfl
  refine ⟨_, freeSLoop_spec (fun id => (hf id).1) obj _ 0, ?_, fun s => ?_⟩
  · simp only [hfilter]
    rw [List.pairwise_flatMap]
    refine ⟨fun s _ => by split <;> simp, ?_⟩
    refine List.Pairwise.imp ?_ (List.pairwise_lt_range' (s := 0) (step := 1))
    intro a b hab x hx y hy
    split at hx <;> simp at hx
    split at hy <;> simp at hy
    omega
  · simp only [hfilter, List.mem_flatMap]
    constructor
    · rintro ⟨x, _, hx⟩
      split at hx
      · rename_i hm
        simp at hx
        subst hx
        exact ((hf s).2.2 obj).mp hm
      · simp at hx
    · intro hs
      refine ⟨s, ?_, ?_⟩
      · rw [List.mem_range'_1]
        exact ⟨Nat.zero_le _, by simpa using correct_bound h hs⟩
      · rw [if_pos (((hf s).2.2 obj).mpr hs)]; simp

/-- C34, the predicates of a subject: ascending, each once. -/
theorem C34_predicates (h : Correct ix ts lo hi) (s : Nat) : ∃ L, computeFreeO ix s = .ok L ∧ PredicatesOf ts lo hi s L := by
  obtain ⟨r, hr, hr2⟩ := h s
  refine ⟨r.getD [], ?_, hr2⟩
  simp only [computeFreeO, hr, Outcome.map]

/-- C34, all pairs: ordered by subject, then by predicate, each once. -/
theorem C34_full (h : Correct ix ts lo hi) :
    ∃ L : List (Nat × Nat), computeFullScan ix = .ok L ∧ L.Pairwise (fun a b => a.1 < b.1 ∨ (a.1 = b.1 ∧ a.2 < b.2)) ∧
      ∀ e, e ∈ L ↔ HasPredicate ts lo hi e.1 e.2 := by
  obtain ⟨f, hf⟩ := correct_fun h
  refine ⟨_, fullLoop_spec (fun id => (hf id).1) _ 0, ?_, fun e => ?_⟩
  · rw [List.pairwise_flatMap]
    refine ⟨fun s _ => ?_, ?_⟩
    · rw [List.pairwise_map]
      exact (hf s).2.1.imp fun h => .inr ⟨rfl, h⟩
    · refine List.Pairwise.imp ?_ (List.pairwise_lt_range' (s := 0) (step := 1))
      intro a b hab x hx y hy
      obtain ⟨_, _, rfl⟩ := List.mem_map.mp hx
      obtain ⟨_, _, rfl⟩ := List.mem_map.mp hy
      exact .inl hab
  · rw [List.mem_flatMap]
    constructor
    · rintro ⟨s, _, hs⟩
      obtain ⟨p, hp, rfl⟩ := List.mem_map.mp hs
      exact ((hf s).2.2 p).mp hp
    · intro he
      refine ⟨e.1, ?_, List.mem_map.mpr ⟨e.2, ((hf e.1).2.2 e.2).mpr he, rfl⟩⟩
      rw [List.mem_range'_1]
      exact ⟨Nat.zero_le _, by simpa using correct_bound h he⟩

/-- C34, the predicates of the subjects of a subquery: if the subject column only holds ids that are subjects, every row is combined
with every predicate of its subject.  Missing: other ids, see `C34_subquery_stops`. -/
theorem C34_subquery_partial (h : Correct ix ts lo hi) (ha : Assigned ix ts) (col : Nat) (f : Nat → List Nat)
    (hf : ∀ s, PredicatesOf ts lo hi s (f s)) (rows : List (List Nat)) (hcol : ∀ row ∈ rows, ∃ s, row[col]? = some s ∧ Subject ts s) :
    computeSubqueryS ix col rows = .ok (rows.flatMap fun row => (f ((row[col]?).getD 0)).map fun p => row ++ [p]) := by
  induction rows with
  | nil => rfl
  | cons row rows ih =>
    obtain ⟨s, h1, h2⟩ := hcol row (List.mem_cons_self ..)
    obtain ⟨l, hl⟩ := (ha s).mpr h2
    obtain ⟨r, hr, hr2⟩ := h s
    rw [hl] at hr
    cases hr
    have hfl : f s = l := predicatesOf_unique (hf s) hr2
    simp only [computeSubqueryS, Outcome.read, h1, Outcome.bind, hl]
    rw [ih fun x hx => hcol x (List.mem_cons_of_mem _ hx)]
    simp only [Outcome.map, List.flatMap_cons, h1, Option.getD_some, hfl]

/-- C34 is violated: the first row whose id is not a subject (for example a literal, or an entity that only occurs as object) ends the
scan, and all later rows are lost. -/
theorem C34_subquery_stops (h : Correct ix ts lo hi) (ha : Assigned ix ts) (col : Nat) (rows rows' : List (List Nat)) (row : List Nat) (s : Nat)
    (hcol : ∀ row ∈ rows, ∃ s, row[col]? = some s ∧ Subject ts s) (hrow : row[col]? = some s) (hs : ¬ Subject ts s) :
    computeSubqueryS ix col (rows ++ row :: rows') = computeSubqueryS ix col rows := by
  induction rows with
  | nil =>
    obtain ⟨r, hr, _⟩ := h s
    cases r with
    | some l => exact absurd ((ha s).mp ⟨l, hr⟩) hs
    | none => simp only [List.nil_append, computeSubqueryS, Outcome.read, hrow, Outcome.bind, hr]
  | cons x rows ih =>
    obtain ⟨s', h1, h2⟩ := hcol x (List.mem_cons_self ..)
    obtain ⟨l, hl⟩ := (ha s').mpr h2
    simp only [List.cons_append, computeSubqueryS, Outcome.read, h1, Outcome.bind, hl]
    rw [ih fun y hy => hcol y (List.mem_cons_of_mem _ hy)]

/-! ### Examples -/

/-- An index for `sample` with enough patterns. -/
theorem sample_index : ∃ ix, Correct ix sample 9 10 ∧ Assigned ix sample := by
  obtain ⟨g1, g2, g3⟩ := groups_init 9 10 (0, 5, 1) _ sample_sorted
  obtain ⟨o, ho⟩ : ∃ o, Create 9 10 3 (fun n => List.replicate n 0) (fun _ => List.replicate 16 0) sample o := C32_total (by decide)
  obtain ⟨ix, _, _, _, h1, h2, _⟩ := C32_patterns_partial (P := ((groups 9 10 0 [] sample).map Prod.snd).dedup) (by decide) (by simp) (by simp)
    (by decide) sample_sorted sample_bounded (by
      rintro l ⟨s, h1, h2⟩
      obtain ⟨g, hg, rfl⟩ := List.mem_map.mp ((g3 s).mpr (subject_iff.mp h1))
      rw [predicatesOf_unique h2 (g2 g hg), List.mem_dedup]
      exact List.mem_map_of_mem hg) (by decide) ho
  exact ⟨ix, h1, h2⟩

example : ∀ row ∈ [[0, 7], [4, 7], [0, 8]], ∃ s, row[0]? = some s ∧ Subject sample s := by
  intro row hrow
  have : ∀ row ∈ [[0, 7], [4, 7], [0, 8]], row[0]? = some (row[0]?.getD 0) ∧ ∃ x ∈ sample, x.1 = row[0]?.getD 0 := by decide
  exact ⟨_, (this row hrow).1, subject_iff.mpr (this row hrow).2⟩

/-- C34 is violated for the data of `sample`: 2 is not a subject, so the row with the subject 3 and its predicate 6 is lost, although the
rows are sorted. -/
theorem C34_subquery_violated : ∃ ix, Correct ix sample 9 10 ∧ computeSubqueryS ix 0 [[2], [3]] = .ok [] ∧ HasPredicate sample 9 10 3 6 := by
  obtain ⟨ix, h1, h2⟩ := sample_index
  refine ⟨ix, h1, ?_, ⟨4, by decide⟩, by decide⟩
  refine (C34_subquery_stops h1 h2 0 [] [[3]] [2] 2 (by simp) rfl ?_).trans rfl
  rw [subject_iff]
  decide

end Verif.Patterns
