import Verif.Model.TextOperation
import Verif.Spec.TextQuery
import Verif.Props.C73_Several
import Verif.Props.C57_TextVariables
import Verif.Props.C48_Strings
import Mathlib.Data.List.Nodup
/-
C75: a text operation returns for every tuple of entities the best text records that contain the words and the entities.
-/
namespace Verif.TextIndex
open Verif.TextMetaData Verif.Spec.TextIndex Verif.Spec.TextQuery

/-- How a triple is written: its object. -/
def objectOf : TextTriple → Str
  | .words ws => StringUtils.join [' '] ws
  | .entity v => v

/-- Triples about a text record `x` that are covered here: at least one word, plain words, variables for entities. -/
structure Covered (x : Str) (ts : List TextTriple) : Prop where
  word : ∀ w ∈ terms ts, Plain w ∧ ' ' ∉ w ∧ isVariable w = false
  some : ∀ ws, .words ws ∈ ts → ws ≠ []
  words : terms ts ≠ []
  entity : ∀ v ∈ entities ts, isVariable v = true ∧ v ≠ x

/-- The source of a text operation is the index of a text. -/
structure Serves (vocab : List Str) (kb : Str → Option Nat) (file : List Nat) (S : Source) : Prop where
  read : TextMeta.readFromFile file = .ok S.meta_
  data : S.file = file ∧ S.vocab = vocab ∧ S.kb = kb
  one : FTS.AnyOrder S.one
  several : FTS.AnyOrder S.several

/-! ### Helpers -/

theorem intercalate_append (sep : Str) {a b : List Str} (ha : a ≠ []) (hb : b ≠ []) :
    List.intercalate sep (a ++ b) = List.intercalate sep a ++ sep ++ List.intercalate sep b := by
  induction a with
  | nil => exact absurd rfl ha
  | cons x xs ih =>
    cases xs with
    | nil =>
      cases b with
      | nil => exact absurd rfl hb
      | cons y ys => simp [List.intercalate]
    | cons z zs =>
      have := ih (by simp)
      simp only [List.intercalate, List.cons_append, List.intersperse_cons_cons, List.flatten_cons] at this ⊢
      rw [this]
      simp

theorem intercalate_ne_nil {sep : Str} {ws : List Str} (h : ws ≠ []) (hw : ∀ w ∈ ws, w ≠ []) : List.intercalate sep ws ≠ [] := by
  cases ws with
  | nil => exact absurd rfl h
  | cons x xs =>
    have hx := hw x (by simp)
    cases xs with
    | nil => simpa [List.intercalate] using hx
    | cons y ys => simp [List.intercalate, hx]

theorem isVariable_intercalate {sep : Str} {ws : List Str} (h : ws ≠ []) (hw : ∀ w ∈ ws, w ≠ [] ∧ isVariable w = false) :
    isVariable (List.intercalate sep ws) = false := by
  cases ws with
  | nil => exact absurd rfl h
  | cons x xs =>
    obtain ⟨hx, hv⟩ := hw x (by simp)
    cases x with
    | nil => exact absurd rfl hx
    | cons c cs =>
      unfold isVariable at hv ⊢
      cases xs with
      | nil => simpa [List.intercalate] using hv
      | cons y ys => simpa [List.intercalate] using hv

/-- The words of the operation are those of the triples. -/
theorem wordPart_spec {ts : List TextTriple} (hw : ∀ w ∈ terms ts, w ≠ [] ∧ isVariable w = false)
    (hs : ∀ ws, .words ws ∈ ts → ws ≠ []) (hv : ∀ v ∈ entities ts, isVariable v = true) :
    wordPart (ts.map objectOf) = List.intercalate [' '] (terms ts) := by
  unfold wordPart
  suffices ∀ (acc : List Str), (∀ w ∈ acc, w ≠ []) → (ts.map objectOf).foldl (fun part o => if isVariable o then part else
      (if part.length > 0 then part ++ [' '] else part) ++ o) (List.intercalate [' '] acc) =
      List.intercalate [' '] (acc ++ terms ts) by
    simpa [List.intercalate] using this [] (by simp)
  induction ts with
  | nil => intro acc _; simp [terms]
  | cons t ts ih =>
    intro acc hacc
    have ih := ih (fun w hw' => hw w (by unfold terms at hw' ⊢; rw [List.flatMap_cons]; exact List.mem_append_right _ hw'))
      (fun ws h => hs ws (List.mem_cons_of_mem _ h))
      (fun v hv' => hv v (by unfold entities at hv' ⊢; rw [List.flatMap_cons]; exact List.mem_append_right _ hv'))
    rw [List.map_cons, List.foldl_cons]
    cases t with
    | entity v =>
      have hv' := hv v (by simp [entities])
      rw [show objectOf (.entity v) = v from rfl, if_pos hv', ih acc hacc]
      rfl
    | words ws =>
      have hne := hs ws (by simp)
      have hws : ∀ w ∈ ws, w ≠ [] ∧ isVariable w = false := fun w h => hw w (by simp [terms, h])
      have hterms : terms (TextTriple.words ws :: ts) = ws ++ terms ts := rfl
      rw [show objectOf (.words ws) = List.intercalate [' '] ws from StringUtils.C48_join _ _,
        isVariable_intercalate hne hws, if_neg (by simp), hterms, ← List.append_assoc]
      rw [← ih (acc ++ ws) (fun w h => (List.mem_append.mp h).elim (hacc w) fun h => (hws w h).1)]
      congr 1
      cases acc with
      | nil => simp [List.intercalate]
      | cons a as =>
        have : (List.intercalate [' '] (a :: as)).length > 0 := List.length_pos_iff.mpr (intercalate_ne_nil (by simp) hacc)
        rw [if_pos this, intercalate_append _ (by simp) hne]

theorem lookup_zipIdx (names : List Str) (row : List Nat) (v : Str) : ∀ (pre : List Nat), row.length = names.length →
    ((names.zipIdx pre.length).lookup v).bind (fun c => (pre ++ row)[c]?) = (names.zip row).lookup v := by
  induction names generalizing row with
  | nil => intro pre _; simp
  | cons n ns ih =>
    intro pre hl
    cases row with
    | nil => simp at hl
    | cons y ys =>
      rw [List.zipIdx_cons, List.zip_cons_cons, List.lookup_cons, List.lookup_cons]
      by_cases h : v = n
      · subst h
        simp
      · rw [beq_false_of_ne h]
        have := ih ys (pre ++ [y]) (by simpa using hl)
        rw [List.append_assoc] at this
        simpa using this

/-- The columns of an operation without filter. -/
theorem cols_spec (op : TextOp) (c n : Nat) (key : List Nat) (h : key.length = (op.vars.filter (· ≠ op.cvar)).length) :
    inRow op.cols (c :: n :: key) = binding (op.cvar :: scoreVariable op.cvar :: op.vars.filter (· ≠ op.cvar)) (c :: n :: key) := by
  funext v
  have := lookup_zipIdx (op.cvar :: scoreVariable op.cvar :: op.vars.filter (· ≠ op.cvar)) (c :: n :: key) v [] (by simp [h])
  unfold inRow binding
  rw [← this]
  rfl

/-- The variables for entities. -/
theorem names_spec {x : Str} {ts : List TextTriple} {op : TextOp} (hc : Covered x ts) (hp : IsPlan x (ts.map objectOf) op) :
    (op.vars.filter (· ≠ op.cvar)).Nodup ∧ (∀ v, v ∈ op.vars.filter (· ≠ op.cvar) ↔ v ∈ entities ts) ∧
      (op.vars.filter (· ≠ op.cvar)).length = op.nofVars := by
  have hmem : ∀ v, v ∈ op.vars.filter (· ≠ op.cvar) ↔ v ∈ entities ts := by
    intro v
    rw [List.mem_filter, hp.vars, hp.cvar, decide_eq_true_eq]
    constructor
    · rintro ⟨h | ⟨h1, h2⟩, hne⟩
      · exact absurd h hne
      · obtain ⟨t, ht, rfl⟩ := List.mem_map.mp h1
        cases t with
        | entity v => exact List.mem_flatMap.mpr ⟨_, ht, by simp [objectOf]⟩
        | words ws =>
          exfalso
          rw [show objectOf (.words ws) = List.intercalate [' '] ws from StringUtils.C48_join _ _,
            isVariable_intercalate (hc.some ws ht) fun w hw =>
              have := hc.word w (List.mem_flatMap.mpr ⟨_, ht, hw⟩)
              ⟨this.1.1, this.2.2⟩] at h2
          cases h2
    · intro h
      obtain ⟨h1, h2⟩ := hc.entity v h
      refine ⟨Or.inr ⟨?_, h1⟩, h2⟩
      obtain ⟨t, ht, hv⟩ := List.mem_flatMap.mp h
      cases t with
      | words ws => simp at hv
      | entity u =>
        simp only [List.mem_singleton] at hv
        subst hv
        exact List.mem_map.mpr ⟨_, ht, rfl⟩
  have hlen : (op.vars.filter (· ≠ op.cvar)).length = op.nofVars := by
    have h1 : op.cvar ∈ op.vars := (hp.vars _).mpr (Or.inl hp.cvar)
    have h2 := (List.perm_cons_erase h1).length_eq
    rw [hp.distinct.erase_eq_filter, List.length_cons] at h2
    unfold TextOp.nofVars
    have h3 : (op.vars.filter (· != op.cvar)) = op.vars.filter (· ≠ op.cvar) := by
      refine List.filter_congr fun v _ => ?_
      by_cases hv : v = op.cvar <;> simp [hv]
    rw [h3] at h2
    omega
  exact ⟨hp.distinct.filter _, hmem, hlen⟩

theorem split_spec {x : Str} {ts : List TextTriple} {op : TextOp} (hc : Covered x ts) (hp : IsPlan x (ts.map objectOf) op)
    {fuel : Nat} (hf : op.words.length + 1 < fuel) : StringUtils.split fuel op.words ' ' = .ok (terms ts) := by
  have hw : op.words = StringUtils.join [' '] (terms ts) := by
    rw [StringUtils.C48_join, hp.words]
    exact wordPart_spec (fun w h => ⟨(hc.word w h).1.1, (hc.word w h).2.2⟩) hc.some fun v h => (hc.entity v h).1
  rw [hw] at hf ⊢
  refine StringUtils.C48_split_join _ _ (fun w h => (hc.word w h).2.1) ?_ _ hf
  intro h
  have := (hc.word [] (by rw [h]; simp)).1.1
  exact this rfl

theorem isTopK_map {κ ρ σ : Type} {k : Nat} {occ : κ → List (Nat × Nat)} {rows : Nat → Nat → κ → List ρ} {out : List ρ}
    (h : Spec.Text.IsTopK k occ rows out) (f : ρ → σ) :
    Spec.Text.IsTopK k occ (fun c n key => (rows c n key).map f) (out.map f) := by
  obtain ⟨keys, h1, h2, best, h3, rfl⟩ := h
  refine ⟨keys, h1, h2, best, h3, ?_⟩
  simp only [List.map_flatMap]

theorem isTopK_congr {κ ρ : Type} {k : Nat} {occ : κ → List (Nat × Nat)} {rows rows' : Nat → Nat → κ → List ρ} {out : List ρ}
    (h : Spec.Text.IsTopK k occ rows out) (he : ∀ c n key, occ key ≠ [] → rows c n key = rows' c n key) :
    Spec.Text.IsTopK k occ rows' out := by
  obtain ⟨keys, h1, h2, best, h3, rfl⟩ := h
  refine ⟨keys, h1, h2, best, h3, ?_⟩
  refine List.flatMap_congr fun key hk => List.flatMap_congr fun c _ => ?_
  exact he _ _ _ ((h2 key).mp hk)

/-- Entities as tuples of one entity. -/
def single (occ : Nat → List (Nat × Nat)) : List Nat → List (Nat × Nat)
  | [e] => occ e
  | _ => []

theorem isTopK_one {ρ : Type} {k : Nat} {occ : Nat → List (Nat × Nat)} {rows : Nat → Nat → Nat → List ρ} {out : List ρ}
    (h : Spec.Text.IsTopK k occ rows out) :
    Spec.Text.IsTopK k (single occ) (fun c n key => rows c n (key.headD 0)) out := by
  obtain ⟨keys, h1, h2, best, h3, rfl⟩ := h
  refine ⟨keys.map fun e => [e], ?_, ?_, single best, ?_, ?_⟩
  · exact List.Nodup.map (fun a b h => by simpa using h) h1
  · intro key
    rw [List.mem_map]
    constructor
    · rintro ⟨e, he, rfl⟩
      exact (h2 e).mp he
    · intro hk
      match key, hk with
      | [e], hk => exact ⟨e, (h2 e).mpr hk, rfl⟩
      | [], hk => exact absurd rfl hk
      | _ :: _ :: _, hk => exact absurd rfl hk
  · intro key
    match key with
    | [e] => exact h3 e
    | [] => exact ⟨[], by simp [single], by simp [single], by simp [single], by simp [single]⟩
    | _ :: _ :: _ => exact ⟨[], by simp [single], by simp [single], by simp [single], by simp [single]⟩
  · rw [List.flatMap_map]
    rfl

section
variable {short : Str → Bool} {gt : Str → Str → Bool} {vocab : List Str} {kb : Str → Option Nat} {lines : List Line}
    {cb : Codebooks} {name : List Nat} {vec : List Tuple} {file : List Nat}

/-- The postings of an answer. -/
theorem answer_spec {ts : List Str} {i : Nat} {l : List (Nat × Nat × Nat)}
    (hl : Lists (fun e c s => Occurs (entityText kb lines) e c ∧ (∀ x ∈ ts, Occurs (wordText lines) x c) ∧
          s = scoreWith kb lines ts i e c) l) :
    ∃ ps : List Spec.Text.Posting, tripleOf l = ⟨ps.map (·.cid), ps.map (·.eid), ps.map (·.score)⟩ ∧ Spec.Text.Sorted ps ∧
      Spec.Text.Distinct ps ∧ ∀ c e s, ⟨c, e, s⟩ ∈ ps ↔ Occurs (entityText kb lines) e c ∧ (∀ x ∈ ts, Occurs (wordText lines) x c) ∧
          s = scoreWith kb lines ts i e c := by
  obtain ⟨h1, h2, h3⟩ := hl
  have hmem : ∀ c e s, (⟨c, e, s⟩ : Spec.Text.Posting) ∈ l.map (fun p => (⟨p.2.1, p.1, p.2.2⟩ : Spec.Text.Posting)) ↔ (e, c, s) ∈ l := by
    intro c e s
    rw [List.mem_map]
    constructor
    · rintro ⟨⟨a, b, d⟩, hp, he⟩
      simp only [Spec.Text.Posting.mk.injEq] at he
      obtain ⟨rfl, rfl, rfl⟩ := he
      exact hp
    · intro hp
      exact ⟨_, hp, rfl⟩
  refine ⟨l.map fun p => ⟨p.2.1, p.1, p.2.2⟩, ?_, ?_, ?_, fun c e s => (hmem c e s).trans (h3 e c s)⟩
  · unfold tripleOf
    rw [List.map_map, List.map_map, List.map_map]
    rfl
  · unfold Spec.Text.Sorted
    rw [List.pairwise_map]
    exact h2
  · unfold Spec.Text.Distinct
    rw [List.map_map]
    refine List.Nodup.map_on ?_ h1
    rintro ⟨a1, b1, d1⟩ ha ⟨a2, b2, d2⟩ hb he
    simp only [Function.comp_apply, Prod.mk.injEq] at he
    obtain ⟨rfl, rfl⟩ := he
    have e1 := ((h3 _ _ _).mp ha).2.2
    have e2 := ((h3 _ _ _).mp hb).2.2
    rw [e1, e2]

/-- The scores: for one entity its own, for several that of some entity of the record. -/
def Scores (kb : Str → Option Nat) (lines : List Line) (ts : List Str) (i : Nat) (occ : List Nat → List (Nat × Nat)) : Prop :=
  ∀ key c s, (c, s) ∈ occ key → (∀ e, key = [e] → s = scoreWith kb lines ts i e c) ∧
    ∃ e, Occurs (entityText kb lines) e c ∧ s = scoreWith kb lines ts i e c

/-- The records of single entities. -/
theorem records_one {ts : List Str} {i : Nat} {ps : List Spec.Text.Posting} (hd : Spec.Text.Distinct ps)
    (hm : ∀ c e s, ⟨c, e, s⟩ ∈ ps ↔ Occurs (entityText kb lines) e c ∧ (∀ x ∈ ts, Occurs (wordText lines) x c) ∧
          s = scoreWith kb lines ts i e c) :
    RecordsOf (fun c => ∀ w ∈ ts, Occurs (wordText lines) w c) (Occurs (entityText kb lines)) 1
      (single (Spec.Text.contextsOf ps)) ∧
    Scores kb lines ts i (single (Spec.Text.contextsOf ps)) := by
  have hmem : ∀ e c s, (c, s) ∈ Spec.Text.contextsOf ps e ↔ ⟨c, e, s⟩ ∈ ps := by
    intro e c s
    unfold Spec.Text.contextsOf
    simp only [List.mem_map, List.mem_filter, decide_eq_true_eq, Prod.mk.injEq]
    constructor
    · rintro ⟨⟨a, b, d⟩, ⟨h1, rfl⟩, rfl, rfl⟩
      exact h1
    · intro h
      exact ⟨_, ⟨h, rfl⟩, rfl, rfl⟩
  constructor
  · intro key
    match key with
    | [e] =>
      refine ⟨fun h => absurd rfl h, fun _ => ⟨?_, fun c => ?_⟩⟩
      · exact FTS.distinct_contexts hd e
      · dsimp only
        constructor
        · rintro ⟨s, hs⟩
          obtain ⟨h1, h2, _⟩ := (hm _ _ _).mp ((hmem _ _ _).mp hs)
          exact ⟨h2, fun e' he' => by rw [List.mem_singleton.mp he']; exact h1⟩
        · rintro ⟨h1, h2⟩
          exact ⟨_, (hmem _ _ _).mpr ((hm _ _ _).mpr ⟨h2 e (by simp), h1, rfl⟩)⟩
    | [] => exact ⟨fun _ => rfl, fun h => by simp at h⟩
    | _ :: _ :: _ => exact ⟨fun _ => rfl, fun h => by simp at h⟩
  · intro key c s hs
    match key with
    | [e] =>
      obtain ⟨h1, h2, h3⟩ := (hm _ _ _).mp ((hmem _ _ _).mp hs)
      refine ⟨fun e' he' => ?_, e, h1, h3⟩
      rw [List.cons.injEq] at he'
      rw [← he'.1]
      exact h3
    | [] => simp [single] at hs
    | _ :: _ :: _ => simp [single] at hs

theorem scoreIn_mem {ps : List Spec.Text.Posting} {c : Nat} (h : ∃ p ∈ ps, p.cid = c) :
    ∃ p ∈ ps, p.cid = c ∧ Spec.Text.scoreIn ps c = p.score := by
  unfold Spec.Text.scoreIn
  cases hf : ps.find? (·.cid = c) with
  | none =>
    obtain ⟨p, hp, hc⟩ := h
    rw [List.find?_eq_none] at hf
    exact absurd (by simpa using hc) (hf p hp)
  | some p =>
    have h1 := List.mem_of_find?_eq_some hf
    have h2 := List.find?_some hf
    exact ⟨p, h1, by simpa using h2, rfl⟩

/-- The records of tuples. -/
theorem records_several {ts : List Str} {i v : Nat} (hv : 2 ≤ v) {ps : List Spec.Text.Posting}
    (hm : ∀ c e s, ⟨c, e, s⟩ ∈ ps ↔ Occurs (entityText kb lines) e c ∧ (∀ x ∈ ts, Occurs (wordText lines) x c) ∧
          s = scoreWith kb lines ts i e c) :
    RecordsOf (fun c => ∀ w ∈ ts, Occurs (wordText lines) w c) (Occurs (entityText kb lines)) v (Spec.Text.contextsOfTuple ps v) ∧
    Scores kb lines ts i (Spec.Text.contextsOfTuple ps v) := by
  have hent : ∀ e c, e ∈ Spec.Text.entitiesIn ps c ↔ Occurs (entityText kb lines) e c ∧ ∀ x ∈ ts, Occurs (wordText lines) x c := by
    intro e c
    unfold Spec.Text.entitiesIn
    simp only [List.mem_map, List.mem_filter, decide_eq_true_eq]
    constructor
    · rintro ⟨⟨a, b, d⟩, ⟨h1, rfl⟩, rfl⟩
      obtain ⟨h2, h3, _⟩ := (hm _ _ _).mp h1
      exact ⟨h2, h3⟩
    · rintro ⟨h1, h2⟩
      exact ⟨_, ⟨(hm c e _).mpr ⟨h1, h2, rfl⟩, rfl⟩, rfl⟩
  have hctx : ∀ c, c ∈ Spec.Text.contexts ps ↔ ∃ p ∈ ps, p.cid = c := by
    intro c
    unfold Spec.Text.contexts
    rw [List.mem_eraseDups, List.mem_map]
  constructor
  · intro key
    unfold Spec.Text.contextsOfTuple
    refine ⟨fun h => by rw [if_neg h], fun h => ?_⟩
    rw [if_pos h]
    constructor
    · rw [List.map_map]
      have : (((fun x => x.1) : Nat × Nat → Nat) ∘ fun c => (c, Spec.Text.scoreIn ps c)) = id := rfl
      rw [this, List.map_id]
      exact (Permutation.nodup_eraseDups' _).filter _
    · intro c
      simp only [List.mem_map, List.mem_filter, decide_eq_true_eq, Prod.mk.injEq]
      constructor
      · rintro ⟨s, c', ⟨_, h2⟩, rfl, rfl⟩
        obtain ⟨e, he⟩ := List.exists_mem_of_length_pos (show 0 < key.length by omega)
        exact ⟨((hent _ _).mp (h2 e he)).2, fun e he => ((hent _ _).mp (h2 e he)).1⟩
      · rintro ⟨h1, h2⟩
        refine ⟨_, c, ⟨?_, fun e he => (hent _ _).mpr ⟨h2 e he, h1⟩⟩, rfl, rfl⟩
        obtain ⟨e, he⟩ := List.exists_mem_of_length_pos (show 0 < key.length by omega)
        exact (hctx c).mpr ⟨⟨c, e, _⟩, (hm _ _ _).mpr ⟨h2 e he, h1, rfl⟩, rfl⟩
  · intro key c s hs
    unfold Spec.Text.contextsOfTuple at hs
    by_cases h : key.length = v
    · rw [if_pos h] at hs
      simp only [List.mem_map, List.mem_filter, Prod.mk.injEq] at hs
      obtain ⟨c', ⟨h1, _⟩, rfl, rfl⟩ := hs
      refine ⟨fun e he => ?_, ?_⟩
      · rw [he] at h
        simp at h
        omega
      · obtain ⟨p, h2, rfl, h4⟩ := scoreIn_mem ((hctx c').mp h1)
        obtain ⟨h5, _, h6⟩ := (hm p.cid p.eid p.score).mp h2
        exact ⟨p.eid, h5, by rw [h4]; exact h6⟩
    · rw [if_neg h] at hs
      simp at hs

/-- The answers to the words of an operation. -/
theorem lists_spec (h : Index short gt vocab kb lines cb name vec file) {x : Str} {ts : List TextTriple} {S : Source}
    (hc : Covered x ts) (hS : Serves vocab kb file S)
    (hex : ∀ w ∈ terms ts, w ∈ vocab → ∃ e c, Occurs (entityText kb lines) e c ∧ Occurs (wordText lines) w c)
    (hf : 2 * (((terms ts).length + 1) * vec.length) + 2 < S.fuel) {α : Type} (f : FTS.Triple → Outcome (List α)) :
    (∃ out, S.withLists (terms ts) f out) ∧ ∀ out, S.withLists (terms ts) f out →
      ∃ i ps, i < (terms ts).length ∧ out = f ⟨ps.map (·.cid), ps.map (·.eid), ps.map (·.score)⟩ ∧ Spec.Text.Sorted ps ∧
        Spec.Text.Distinct ps ∧ ∀ c e s, (⟨c, e, s⟩ : Spec.Text.Posting) ∈ ps ↔ Occurs (entityText kb lines) e c ∧
          (∀ x ∈ terms ts, Occurs (wordText lines) x c) ∧ s = scoreWith kb lines (terms ts) i e c := by
  obtain ⟨hfile, hvocab, hkb⟩ := hS.data
  obtain ⟨t, ht, ⟨a, ha⟩, hall⟩ := C73_several_partial h S.C (terms := terms ts) (fun w hw => (hc.word w hw).1) hc.words hex hf
  rw [hS.read] at ht
  injection ht with ht
  subst ht
  unfold Source.withLists
  rw [hfile, hvocab, hkb]
  refine ⟨⟨_, a, ha, rfl⟩, ?_⟩
  rintro out ⟨a, ha, rfl⟩
  obtain ⟨i, l, hi, rfl, hl⟩ := hall a ha
  obtain ⟨ps, h1, h2, h3, h4⟩ := answer_spec hl
  exact ⟨i, ps, hi, by rw [h1]; rfl, h2, h3, h4⟩

/-- C75 without a filter: for text triples with at least one word and one variable for an entity, whatever term is chosen and however hash
maps are iterated, the operation succeeds.  Its rows, read with its columns, are for each tuple of entities the `limit` best of the
records that contain all words and all entities of the tuple.  Provided each word that occurs in the text occurs with an
entity.  Missing: prefixes and entities as words, a limit of 0 (C37). -/
theorem C75_without_filter_partial (h : Index short gt vocab kb lines cb name vec file) {x : Str} {ts : List TextTriple}
    {op : TextOp} {S : Source} (hc : Covered x ts) (he : entities ts ≠ []) (hp : IsPlan x (ts.map objectOf) op)
    (hS : Serves vocab kb file S)
    (hex : ∀ w ∈ terms ts, w ∈ vocab → ∃ e c, Occurs (entityText kb lines) e c ∧ Occurs (wordText lines) w c)
    (hk : 1 ≤ op.limit) (hf : 2 * (((terms ts).length + 1) * vec.length) + 2 < S.fuel) (hf' : op.words.length + 1 < S.fuel) :
    (∃ out, op.Result S out) ∧ ∀ out, op.Result S out →
      ∃ (names : List Str) (i : Nat) (occ : List Nat → List (Nat × Nat)) (rows : List (List Nat)),
        names.Nodup ∧ (∀ v, v ∈ names ↔ v ∈ entities ts) ∧ i < (terms ts).length ∧
        RecordsOf (fun c => ∀ w ∈ terms ts, Occurs (wordText lines) w c) (Occurs (entityText kb lines)) names.length occ ∧
        Scores kb lines (terms ts) i occ ∧ out = .ok rows ∧ (∀ r ∈ rows, r.length = op.width) ∧
        Spec.Text.IsTopK op.limit occ (fun c n key => [binding (x :: scoreVariable x :: names) (c :: n :: key)])
          (rows.map (inRow op.cols)) := by
  obtain ⟨hn1, hn2, hn3⟩ := names_spec hc hp
  have hn4 : 1 ≤ op.nofVars := by
    rw [← hn3]
    obtain ⟨v, hv⟩ := List.exists_mem_of_ne_nil _ he
    exact List.length_pos_of_mem ((hn2 v).mpr hv)
  have hsplit := split_spec hc hp hf'
  have hwidth : op.width = 2 + op.nofVars := rfl
  -- from tuples of entities to rows
  have finish : ∀ (occ : List Nat → List (Nat × Nat)) (rows : List (List Nat)),
      RecordsOf (fun c => ∀ w ∈ terms ts, Occurs (wordText lines) w c) (Occurs (entityText kb lines)) op.nofVars occ →
      Spec.Text.IsTopK op.limit occ (fun c n key => [c :: n :: key]) rows →
      (∀ r ∈ rows, r.length = op.width) ∧ Spec.Text.IsTopK op.limit occ (fun c n key => [binding (x :: scoreVariable x ::
        op.vars.filter (· ≠ op.cvar)) (c :: n :: key)]) (rows.map (inRow op.cols)) := by
    intro occ rows hocc htop
    have hlen : ∀ key, occ key ≠ [] → key.length = op.nofVars := fun key hk' => by
      by_contra hne
      exact hk' ((hocc key).1 hne)
    constructor
    · obtain ⟨keys, _, h2, best, _, rfl⟩ := htop
      intro r hr
      obtain ⟨key, hkey, hr⟩ := List.mem_flatMap.mp hr
      obtain ⟨c, _, hr⟩ := List.mem_flatMap.mp hr
      rw [List.mem_singleton] at hr
      rw [hr, hwidth, List.length_cons, List.length_cons, hlen key ((h2 key).mp hkey)]
      omega
    · refine isTopK_congr (isTopK_map htop (inRow op.cols)) fun c n key hk' => ?_
      rw [List.map_singleton, cols_spec op c n key (by rw [hn3]; exact hlen key hk'), hp.cvar]
  unfold TextOp.Result Source.split
  rw [hsplit]
  have h0 : ¬ op.nofVars = 0 := by omega
  simp only [if_neg h0]
  by_cases h1 : op.nofVars = 1
  · simp only [if_pos h1]
    obtain ⟨hex', hall⟩ := lists_spec h hc hS hex hf fun l => FTS.aggScores S.one l.cids l.eids l.scores op.limit
    refine ⟨hex', fun out hout => ?_⟩
    obtain ⟨i, ps, hi, rfl, _, hd, hm⟩ := hall out hout
    obtain ⟨rows, hr, htop⟩ := FTS.C37_partial S.one hS.one ps hd op.limit hk
    obtain ⟨hrec, hsc⟩ := records_one hd hm
    rw [← h1] at hrec
    have htop' : Spec.Text.IsTopK op.limit (single (Spec.Text.contextsOf ps))
        (fun c n key => [c :: n :: key]) rows := by
      refine isTopK_congr (isTopK_one htop) fun c n key hk' => ?_
      match key, hk' with
      | [e], _ => rfl
      | [], hk' => exact absurd rfl hk'
      | _ :: _ :: _, hk' => exact absurd rfl hk'
    obtain ⟨h2, h3⟩ := finish _ rows hrec htop'
    exact ⟨_, i, _, rows, hn1, hn2, hi, by rw [hn3]; exact hrec, hsc, hr, h2, h3⟩
  · simp only [if_neg h1]
    obtain ⟨hex', hall⟩ := lists_spec h hc hS hex hf fun l => FTS.multVarsAgg S.several l.cids l.eids l.scores op.nofVars op.limit
    refine ⟨hex', fun out hout => ?_⟩
    obtain ⟨i, ps, hi, rfl, hs, hd, hm⟩ := hall out hout
    obtain ⟨rows, hr, htop⟩ := FTS.C57_variables S.several hS.several ps hs hd op.nofVars op.limit hk
    obtain ⟨hrec, hsc⟩ := records_several (v := op.nofVars) (by omega) hm
    obtain ⟨h2, h3⟩ := finish _ rows hrec htop
    exact ⟨_, i, _, rows, hn1, hn2, hi, by rw [hn3]; exact hrec, hsc, hr, h2, h3⟩

/-- C75 without variables for entities: the records that contain all words are returned, with the sums of the scores.  Missing: two
words, see `C73_records_two_violated`. -/
theorem C75_records_partial (h : Index short gt vocab kb lines cb name vec file) {x : Str} {ts : List TextTriple}
    {op : TextOp} {S : Source} (hc : Covered x ts) (he : entities ts = []) (hp : IsPlan x (ts.map objectOf) op)
    (hS : Serves vocab kb file S) (h2 : (terms ts).length ≠ 2)
    (hf : 2 * (((terms ts).length + 1) * vec.length) + 2 < S.fuel) (hf' : op.words.length + 1 < S.fuel) :
    ∃ records : List Nat, StrictlyAscending records ∧ (∀ c, c ∈ records ↔ ∀ w ∈ terms ts, Occurs (wordText lines) w c) ∧
      ∃ rows : List (List Nat), (∀ out, op.Result S out ↔ out = .ok rows) ∧ (∀ r ∈ rows, r.length = op.width) ∧
        rows.map (inRow op.cols) = records.map fun c => binding [x, scoreVariable x]
          [c, (((terms ts).map fun w => total (wordText lines) w c % 2 ^ 16).sum) % 2 ^ 16] := by
  obtain ⟨hn1, hn2, hn3⟩ := names_spec hc hp
  have hnil : op.vars.filter (· ≠ op.cvar) = [] := by
    rw [List.eq_nil_iff_forall_not_mem]
    intro v hv
    have := (hn2 v).mp hv
    rw [he] at this
    cases this
  have h0 : op.nofVars = 0 := by rw [← hn3, hnil]; rfl
  have hsplit := split_spec hc hp hf'
  obtain ⟨hfile, hvocab, hkb⟩ := hS.data
  have key : ∃ records scores, recordsWith S.fuel S.file S.meta_ S.C S.vocab S.kb (terms ts) = .ok (records, scores) ∧
      StrictlyAscending records ∧ (∀ c, c ∈ records ↔ ∀ w ∈ terms ts, Occurs (wordText lines) w c) ∧
      scores = records.map fun c => ((terms ts).map fun w => total (wordText lines) w c % 2 ^ 16).sum % 2 ^ 16 := by
    rw [hfile, hvocab, hkb]
    have hlen := List.length_pos_iff.mpr hc.words
    by_cases h1 : (terms ts).length = 1
    · obtain ⟨w, hw⟩ := List.length_eq_one_iff.mp h1
      rw [hw]
      have hpl := (hc.word w (by rw [hw]; simp)).1
      obtain ⟨records, scores, hq, hl, hs, hm⟩ := C73_word h S.C hpl (fuel := S.fuel) (by unfold Enough; rw [h1] at hf; omega)
      refine ⟨records, scores, ?_, hs, ?_, ?_⟩
      · unfold queryWords at hq
        rw [hS.read] at hq
        unfold recordsWith wordLists wordLists
        simp only [Outcome.bind] at hq
        cases hr : resolve S.C vocab kb w with
        | ok f =>
          rw [hr] at hq
          simp only [Outcome.bind] at hq
          simp only [Outcome.bind, hq, Outcome.map]
          rfl
        | throw => rw [hr] at hq; cases hq
        | ub => rw [hr] at hq; cases hq
        | diverge => rw [hr] at hq; cases hq
      · intro c
        simp only [List.mem_singleton, forall_eq]
        constructor
        · intro hcm
          obtain ⟨i, hi, rfl⟩ := List.mem_iff_getElem.mp hcm
          have : (records[i], scores[i]'(by omega)) ∈ records.zip scores := by
            rw [List.mem_iff_getElem]
            exact ⟨i, by simp; omega, by simp⟩
          exact ((hm _ _).mp this).1
        · intro hoc
          exact (List.of_mem_zip ((hm c _).mpr ⟨hoc, rfl⟩)).1
      · refine List.ext_getElem (by simp [hl]) fun i hi hi' => ?_
        have : (records[i]'(by omega), scores[i]) ∈ records.zip scores := by
          rw [List.mem_iff_getElem]
          exact ⟨i, by simp; omega, by simp⟩
        rw [((hm _ _).mp this).2]
        simp
    · obtain ⟨t, records, scores, ht, hr, hs, hm, hsc⟩ := C73_records_partial h S.C (terms := terms ts)
        (fun w hw => (hc.word w hw).1) (by omega) hf
      rw [hS.read] at ht
      injection ht with ht
      subst ht
      exact ⟨records, scores, hr, hs, hm, hsc⟩
  obtain ⟨records, scores, hr, hs, hm, rfl⟩ := key
  refine ⟨records, hs, hm, records.map fun c => [c, ((terms ts).map fun w => total (wordText lines) w c % 2 ^ 16).sum % 2 ^ 16], ?_, ?_, ?_⟩
  · intro out
    unfold TextOp.Result Source.split
    rw [hsplit]
    simp only [if_pos h0, hr, Outcome.map]
    rw [List.zipWith_map_right, List.zipWith_self]
  · intro r hr'
    obtain ⟨c, _, rfl⟩ := List.mem_map.mp hr'
    unfold TextOp.width
    rw [h0]
    rfl
  · rw [List.map_map]
    refine List.map_congr_left fun c _ => ?_
    have := cols_spec op c (((terms ts).map fun w => total (wordText lines) w c % 2 ^ 16).sum % 2 ^ 16) []
    rw [hnil] at this
    rw [← hp.cvar]
    exact this rfl

/-- The operation `F` can filter the variable `u` of the triples: it has that column and no other variable of the triples. -/
structure Filters (x : Str) (ts : List TextTriple) (u : Str) (F : Sub) : Prop where
  rows : ∀ r ∈ F.table, r.length = F.width
  bound : ∀ v c, F.cols.lookup v = some c → c < F.width
  entity : u ∈ entities ts
  column : F.cols.lookup u = some F.column
  others : ∀ v ∈ entities ts, v ≠ u → F.cols.lookup v = none
  record : F.cols.lookup x = none
  score : F.cols.lookup (scoreVariable x) = none

/-- The values of two rows together. -/
def both (f g : Str → Option Nat) : Str → Option Nat := fun v => (f v).or (g v)

theorem lookup_shift (k : Nat) (v : Str) (l : Columns) :
    (l.map fun p => (p.1, k + p.2)).lookup v = (l.lookup v).map (k + ·) := by
  induction l with
  | nil => rfl
  | cons p l ih =>
    rw [List.map_cons, List.lookup_cons, List.lookup_cons, ih]
    cases v == p.1 <;> rfl

/-- The variables that only the text operation has. -/
theorem own_spec {x : Str} {ts : List TextTriple} {op : TextOp} {u : Str} {F : Sub} (hc : Covered x ts)
    (hp : IsPlan x (ts.map objectOf) op) (hF : Filters x ts u F) :
    (op.own F).Nodup ∧ (∀ v, v ∈ op.own F ↔ v ∈ entities ts ∧ v ≠ u) ∧ (op.own F).length + 1 = op.nofVars := by
  obtain ⟨hn1, hn2, hn3⟩ := names_spec hc hp
  have hmem : ∀ v, v ∈ op.own F ↔ v ∈ entities ts ∧ v ≠ u := by
    intro v
    unfold TextOp.own
    rw [List.mem_filter, hn2]
    refine and_congr_right fun hv => ?_
    constructor
    · rintro h rfl
      rw [hF.column] at h
      cases h
    · intro hne
      rw [hF.others v hv hne]
      rfl
  refine ⟨hn1.filter _, hmem, ?_⟩
  have hu : u ∈ op.vars.filter (· ≠ op.cvar) := (hn2 u).mpr hF.entity
  have h2 := (List.perm_cons_erase hu).length_eq
  rw [hn1.erase_eq_filter, List.length_cons, hn3] at h2
  rw [h2]
  congr 2
  unfold TextOp.own
  refine List.filter_congr fun v hv => ?_
  by_cases hvu : v = u
  · subst hvu
    rw [hF.column]
    simp
  · rw [hF.others v ((hn2 v).mp hv) hvu]
    simp [hvu]

/-- The columns of an operation with filter. -/
theorem filteredCols_spec (op : TextOp) (F : Sub) (c n : Nat) (key r : List Nat) (h : key.length = (op.own F).length)
    (hb : ∀ v c, F.cols.lookup v = some c → c < r.length) :
    inRow (op.filteredCols F) (c :: n :: key ++ r) =
      both (inRow F.cols r) (binding (op.cvar :: scoreVariable op.cvar :: op.own F) (c :: n :: key)) := by
  funext v
  have hcols : (op.filteredCols F).lookup v = ((F.cols.lookup v).map (2 + (op.own F).length + ·)).or
      ((List.zipIdx (op.cvar :: scoreVariable op.cvar :: op.own F) 0).lookup v) := by
    unfold TextOp.filteredCols
    rw [List.lookup_append, lookup_shift]
    rfl
  show ((op.filteredCols F).lookup v).bind _ = Option.or ((F.cols.lookup v).bind _) _
  rw [hcols]
  cases hl : F.cols.lookup v with
  | some d =>
    have hd := hb v d hl
    simp only [Option.map_some, Option.some_or, Option.bind_some]
    rw [List.getElem?_eq_getElem hd, Option.some_or]
    have : 2 + (op.own F).length + d = (c :: n :: key).length + d := by simp [h]; omega
    rw [this, List.getElem?_append_right (by omega), Nat.add_sub_cancel_left, List.getElem?_eq_getElem hd]
  | none =>
    simp only [Option.map_none, Option.none_or, Option.bind_none]
    have := lookup_zipIdx (op.cvar :: scoreVariable op.cvar :: op.own F) (c :: n :: key) v [] (by simp [h])
    unfold binding
    rw [← this]
    have hlt : ∀ d, (List.zipIdx (op.cvar :: scoreVariable op.cvar :: op.own F) 0).lookup v = some d → d < (c :: n :: key).length := by
      intro d hd
      have hm : (v, d) ∈ List.zipIdx (op.cvar :: scoreVariable op.cvar :: op.own F) 0 := by
        obtain ⟨l₁, l₂, hsp, _⟩ := List.lookup_eq_some_iff.mp hd
        rw [hsp]
        simp
      have := List.snd_lt_of_mem_zipIdx hm
      simp only [List.length_cons, Nat.zero_add] at this
      simp only [List.length_cons]
      omega
    show (List.lookup v (List.zipIdx (op.cvar :: scoreVariable op.cvar :: op.own F) 0)).bind _ =
      (List.lookup v (List.zipIdx (op.cvar :: scoreVariable op.cvar :: op.own F) 0)).bind _
    cases hd : List.lookup v (List.zipIdx (op.cvar :: scoreVariable op.cvar :: op.own F) 0) with
    | none => rfl
    | some d =>
      have hlt' := hlt d hd
      simp only [Option.bind_some, List.nil_append]
      rw [List.getElem?_append_left hlt']

theorem withEntity_single {table : List (List Nat)} (hr : ∀ r ∈ table, r.length = 1) (hn : table.Nodup) (e : Nat) :
    FTS.withEntity table 0 e = if e ∈ table.map (·.headD 0) then [[e]] else [] := by
  have hmem : ∀ r ∈ table, (r[0]? = some e ↔ r = [e]) := by
    intro r hr'
    have := hr r hr'
    match r, this with
    | [a], _ => simp
  have hf : FTS.withEntity table 0 e = table.filter (· = [e]) := by
    unfold FTS.withEntity
    refine List.filter_congr fun r hr' => ?_
    rw [decide_eq_decide]
    exact hmem r hr'
  have hin : e ∈ table.map (·.headD 0) ↔ [e] ∈ table := by
    rw [List.mem_map]
    constructor
    · rintro ⟨r, hr', rfl⟩
      have := hr r hr'
      match r, this, hr' with
      | [a], _, hr' => exact hr'
    · intro h
      exact ⟨_, h, rfl⟩
  rw [hf]
  by_cases h : [e] ∈ table
  · rw [if_pos (hin.mpr h)]
    clear hf hin hmem hr
    induction table with
    | nil => cases h
    | cons y ys ih =>
      obtain ⟨hny, hn'⟩ := List.nodup_cons.mp hn
      by_cases hy : y = [e]
      · subst hy
        rw [List.filter_cons_of_pos (by simp)]
        congr 1
        rw [List.filter_eq_nil_iff]
        intro z hz hze
        simp only [decide_eq_true_eq] at hze
        exact hny (hze ▸ hz)
      · rw [List.filter_cons_of_neg (by simpa using hy)]
        exact ih hn' ((List.mem_cons.mp h).resolve_left (fun h => hy h.symm))
  · rw [if_neg (fun h' => h (hin.mp h')), List.filter_eq_nil_iff]
    intro z hz hze
    simp only [decide_eq_true_eq] at hze
    exact h (hze ▸ hz)

/-- C75 with a filter: an operation for one of the variables is joined with the text records.  Each row of it is combined with the records of its
entity, for every choice of the other entities.  Missing, besides what is missing without a filter: a filter with one column and several variables, or with
repeated rows, see below. -/
theorem C75_with_filter_partial (h : Index short gt vocab kb lines cb name vec file) {x : Str} {ts : List TextTriple}
    {op : TextOp} {S : Source} {u : Str} {F : Sub} (hc : Covered x ts) (hp : IsPlan x (ts.map objectOf) op)
    (hS : Serves vocab kb file S) (hF : Filters x ts u F) (hone : F.width = 1 → op.nofVars = 1 ∧ F.table.Nodup)
    (hex : ∀ w ∈ terms ts, w ∈ vocab → ∃ e c, Occurs (entityText kb lines) e c ∧ Occurs (wordText lines) w c)
    (hk : 1 ≤ op.limit) (hf : 2 * (((terms ts).length + 1) * vec.length) + 2 < S.fuel) (hf' : op.words.length + 1 < S.fuel) :
    (∃ out, op.FilteredResult F S out) ∧ ∀ out, op.FilteredResult F S out →
      ∃ (names : List Str) (i : Nat) (occ : List Nat → List (Nat × Nat)) (rows : List (List Nat)),
        names.Nodup ∧ (∀ v, v ∈ names ↔ v ∈ entities ts ∧ v ≠ u) ∧ i < (terms ts).length ∧
        RecordsOf (fun c => ∀ w ∈ terms ts, Occurs (wordText lines) w c) (Occurs (entityText kb lines)) (names.length + 1) occ ∧
        Scores kb lines (terms ts) i occ ∧ out = .ok (rows.map (·.map some)) ∧ (∀ r ∈ rows, r.length = op.filteredWidth F) ∧
        Spec.Text.IsTopK op.limit (fun key => if FTS.withEntity F.table F.column (key.headD 0) ≠ [] then occ key else [])
          (fun c n key => (FTS.withEntity F.table F.column (key.headD 0)).map fun r =>
            both (inRow F.cols r) (binding (x :: scoreVariable x :: names) (c :: n :: key.tail)))
          (rows.map (inRow (op.filteredCols F))) := by
  obtain ⟨hn1, hn2, hn3⟩ := own_spec hc hp hF
  have hn4 : 1 ≤ op.nofVars := by omega
  have hsplit := split_spec hc hp hf'
  have hcol : ∀ r ∈ F.table, F.column < r.length := fun r hr => by rw [hF.rows r hr]; exact hF.bound _ _ hF.column
  have hwidth : op.filteredWidth F = 1 + op.nofVars + F.width := rfl
  have hmemw : ∀ e r, r ∈ FTS.withEntity F.table F.column e → r.length = F.width := fun e r hr =>
    hF.rows r (List.mem_filter.mp hr).1
  -- from tuples of entities to rows
  have finish : ∀ (occ : List Nat → List (Nat × Nat)) (rows : List (List Nat)),
      RecordsOf (fun c => ∀ w ∈ terms ts, Occurs (wordText lines) w c) (Occurs (entityText kb lines)) op.nofVars occ →
      Spec.Text.IsTopK op.limit (fun key => if FTS.withEntity F.table F.column (key.headD 0) ≠ [] then occ key else [])
        (fun c n key => (FTS.withEntity F.table F.column (key.headD 0)).map fun r => c :: n :: key.tail ++ r) rows →
      (∀ r ∈ rows, r.length = op.filteredWidth F) ∧
      Spec.Text.IsTopK op.limit (fun key => if FTS.withEntity F.table F.column (key.headD 0) ≠ [] then occ key else [])
          (fun c n key => (FTS.withEntity F.table F.column (key.headD 0)).map fun r =>
            both (inRow F.cols r) (binding (x :: scoreVariable x :: op.own F) (c :: n :: key.tail)))
          (rows.map (inRow (op.filteredCols F))) := by
    intro occ rows hocc htop
    have hlen : ∀ key, (if FTS.withEntity F.table F.column (key.headD 0) ≠ [] then occ key else []) ≠ [] →
        key.tail.length = (op.own F).length := fun key hk' => by
      have : key.length = op.nofVars := by
        by_contra hne
        apply hk'
        rw [(hocc key).1 hne]
        split <;> rfl
      rw [List.length_tail]
      omega
    constructor
    · obtain ⟨keys, _, h2, best, _, rfl⟩ := htop
      intro r hr
      obtain ⟨key, hkey, hr⟩ := List.mem_flatMap.mp hr
      obtain ⟨c, _, hr⟩ := List.mem_flatMap.mp hr
      obtain ⟨r', hr', rfl⟩ := List.mem_map.mp hr
      have := hlen key ((h2 key).mp hkey)
      rw [hwidth, List.length_append, List.length_cons, List.length_cons, this, hmemw _ r' hr']
      omega
    · refine isTopK_congr (isTopK_map htop (inRow (op.filteredCols F))) fun c n key hk' => ?_
      rw [List.map_map]
      refine List.map_congr_left fun r hr => ?_
      rw [← hp.cvar]
      exact filteredCols_spec op F c n key.tail r (hlen key hk') fun v d hd => by rw [hmemw _ r hr]; exact hF.bound v d hd
  have hlt : ¬ op.nofVars < 1 := by omega
  unfold TextOp.FilteredResult Source.split
  rw [hsplit]
  simp only [if_neg hlt]
  by_cases hw : F.width = 1
  · obtain ⟨h1, hnd⟩ := hone hw
    have hcol0 : F.column = 0 := by
      have := hF.bound _ _ hF.column
      omega
    simp only [if_pos hw, if_pos h1]
    obtain ⟨hex', hall⟩ := lists_spec h hc hS hex hf fun l =>
      (FTS.oneVarFilterSet S.one l.cids l.eids l.scores (F.table.map (·.headD 0)) op.limit).map fun rows => rows.map (·.map some)
    refine ⟨hex', fun out hout => ?_⟩
    obtain ⟨i, ps, hi, rfl, _, hd, hm⟩ := hall out hout
    obtain ⟨rows, hr, htop⟩ := FTS.C57_filter_set S.one hS.one ps hd (F.table.map (·.headD 0)) op.limit hk
    obtain ⟨hrec, hsc⟩ := records_one hd hm
    rw [← h1] at hrec
    have hsingle := withEntity_single (fun r hr => (hF.rows r hr).trans hw) hnd
    have htop' : Spec.Text.IsTopK op.limit (fun key => if FTS.withEntity F.table F.column (key.headD 0) ≠ [] then
          single (Spec.Text.contextsOf ps) key else [])
        (fun c n key => (FTS.withEntity F.table F.column (key.headD 0)).map fun r => c :: n :: key.tail ++ r) rows := by
      have hocc : (fun key : List Nat => if FTS.withEntity F.table F.column (key.headD 0) ≠ [] then
          single (Spec.Text.contextsOf ps) key else []) =
          single fun e => if e ∈ F.table.map (·.headD 0) then Spec.Text.contextsOf ps e else [] := by
        funext key
        match key with
        | [e] =>
          show (if FTS.withEntity F.table F.column e ≠ [] then Spec.Text.contextsOf ps e else []) =
            if e ∈ F.table.map (·.headD 0) then Spec.Text.contextsOf ps e else []
          rw [hcol0, hsingle e]
          by_cases he : e ∈ F.table.map (·.headD 0)
          · rw [if_pos he, if_pos he, if_pos (by simp)]
          · rw [if_neg he, if_neg he, if_neg (by simp)]
        | [] => exact ite_self _
        | _ :: _ :: _ => exact ite_self _
      rw [hocc]
      refine isTopK_congr (isTopK_one htop) fun c n key hk' => ?_
      match key, hk' with
      | [e], hk' =>
        have he : e ∈ F.table.map (·.headD 0) := by
          by_contra he
          exact hk' (if_neg he)
        show _ = (FTS.withEntity F.table F.column e).map _
        rw [hcol0, hsingle e, if_pos he]
        rfl
      | [], hk' => exact absurd rfl hk'
      | _ :: _ :: _, hk' => exact absurd rfl hk'
    obtain ⟨h2, h3⟩ := finish _ rows hrec htop'
    refine ⟨_, i, _, rows, hn1, hn2, hi, by rw [hn3]; exact hrec, hsc, ?_, h2, h3⟩
    rw [hr]
    rfl
  · simp only [if_neg hw]
    by_cases ht : F.table = []
    · simp only [if_pos ht]
      refine ⟨⟨_, rfl⟩, ?_⟩
      rintro out rfl
      obtain ⟨⟨out, hout⟩, hall⟩ := lists_spec h hc hS hex hf fun l => FTS.aggScores S.one l.cids l.eids l.scores op.limit
      obtain ⟨i, ps, hi, _, _, hd, hm⟩ := hall out hout
      have hrec : ∃ occ, RecordsOf (fun c => ∀ w ∈ terms ts, Occurs (wordText lines) w c) (Occurs (entityText kb lines)) op.nofVars occ ∧
          Scores kb lines (terms ts) i occ := by
        by_cases h1 : op.nofVars = 1
        · rw [h1]; exact ⟨_, records_one hd hm⟩
        · exact ⟨_, records_several (by omega) hm⟩
      obtain ⟨occ, hrec, hsc⟩ := hrec
      refine ⟨_, i, occ, [], hn1, hn2, hi, by rw [hn3]; exact hrec, hsc, rfl, by simp, ?_⟩
      refine FTS.isTopK_nil _ _ _ fun key => ?_
      rw [if_neg (by rw [ht]; simp [FTS.withEntity])]
    · simp only [if_neg ht]
      by_cases h1 : op.nofVars = 1
      · simp only [if_pos h1]
        obtain ⟨hex', hall⟩ := lists_spec h hc hS hex hf fun l =>
          (FTS.oneVarFilterMap S.one l.cids l.eids l.scores F.table F.column op.limit).map fun rows => rows.map (·.map some)
        refine ⟨hex', fun out hout => ?_⟩
        obtain ⟨i, ps, hi, rfl, _, hd, hm⟩ := hall out hout
        obtain ⟨rows, hr, htop⟩ := FTS.C57_filter_map S.one hS.one ps hd F.table F.column hcol op.limit hk
        obtain ⟨hrec, hsc⟩ := records_one hd hm
        rw [← h1] at hrec
        have htop' : Spec.Text.IsTopK op.limit (fun key => if FTS.withEntity F.table F.column (key.headD 0) ≠ [] then
              single (Spec.Text.contextsOf ps) key else [])
            (fun c n key => (FTS.withEntity F.table F.column (key.headD 0)).map fun r => c :: n :: key.tail ++ r) rows := by
          have hocc : (fun key : List Nat => if FTS.withEntity F.table F.column (key.headD 0) ≠ [] then
              single (Spec.Text.contextsOf ps) key else []) =
              single fun e => if FTS.withEntity F.table F.column e ≠ [] then Spec.Text.contextsOf ps e else [] := by
            funext key
            match key with
            | [e] => rfl
            | [] => exact ite_self _
            | _ :: _ :: _ => exact ite_self _
          rw [hocc]
          refine isTopK_congr (isTopK_one htop) fun c n key hk' => ?_
          match key, hk' with
          | [e], _ => rfl
          | [], hk' => exact absurd rfl hk'
          | _ :: _ :: _, hk' => exact absurd rfl hk'
        obtain ⟨h2, h3⟩ := finish _ rows hrec htop'
        refine ⟨_, i, _, rows, hn1, hn2, hi, by rw [hn3]; exact hrec, hsc, ?_, h2, h3⟩
        rw [hr]
        rfl
      · simp only [if_neg h1]
        obtain ⟨hex', hall⟩ := lists_spec h hc hS hex hf fun l =>
          (FTS.multVarsFilterMap S.several l.cids l.eids l.scores F.table F.column op.nofVars op.limit).map
            fun rows => rows.map (·.map some)
        refine ⟨hex', fun out hout => ?_⟩
        obtain ⟨i, ps, hi, rfl, hs, hd, hm⟩ := hall out hout
        obtain ⟨rows, hr, htop⟩ := FTS.C57_variables_filter_map S.several hS.several ps hs hd F.table F.column hcol op.nofVars op.limit
          hn4 hk
        obtain ⟨hrec, hsc⟩ := records_several (v := op.nofVars) (by omega) hm
        obtain ⟨h2, h3⟩ := finish _ rows hrec htop
        refine ⟨_, i, _, rows, hn1, hn2, hi, by rw [hn3]; exact hrec, hsc, ?_, h2, h3⟩
        rw [hr]
        rfl

end

/-! ### Examples and violations -/

def demoText2 : List Line :=
  [⟨"star".toList, false, 1, 3⟩, ⟨"<a>".toList, true, 1, 7⟩, ⟨"star".toList, false, 2, 4⟩, ⟨"starts".toList, false, 2, 1⟩,
   ⟨"moo".toList, false, 2, 1⟩, ⟨"<a>".toList, true, 2, 2⟩, ⟨"<b>".toList, true, 2, 1⟩]

/-- The words `moo starts` and `star`, and two entities. -/
def demoTriples : List TextTriple :=
  [.entity "?e".toList, .words ["moo".toList, "starts".toList], .entity "?f".toList, .words ["star".toList]]

def demoOp : TextOp := ⟨"moo starts star".toList, ["?e".toList, "?f".toList, "?x".toList], "?x".toList, 1⟩

def demoSource (lines : List Line) (t : TextMeta) : Source :=
  ⟨200, demoFile demoWords lines, t, demoC, demoWords, demoKb, ⟨id, id⟩, ⟨id, id⟩⟩

/-- A filter for the entity `?e`. -/
def demoFilter : Sub := ⟨[[20, 2], [21, 3], [22, 2]], 2, [("?y".toList, 0), ("?e".toList, 1)], 1⟩

theorem demoSource_serves {lines : List Line} {t : TextMeta} (h : TextMeta.readFromFile (demoFile demoWords lines) = .ok t) :
    Serves demoWords demoKb (demoFile demoWords lines) (demoSource lines t) :=
  ⟨h, ⟨rfl, rfl, rfl⟩, ⟨fun l => List.Perm.refl _, fun l => List.Perm.refl _⟩, ⟨fun l => List.Perm.refl _, fun l => List.Perm.refl _⟩⟩

/-- The hypotheses are met by a query with three words, two entities and a filter for one of them. -/
example : Demo demoWords demoText2 ∧ Covered "?x".toList demoTriples ∧ entities demoTriples ≠ [] ∧
    IsPlan "?x".toList (demoTriples.map objectOf) demoOp ∧ Filters "?x".toList demoTriples "?e".toList demoFilter ∧
    (∀ w ∈ terms demoTriples, w ∈ demoWords →
      ∃ e c, Occurs (entityText demoKb demoText2) e c ∧ Occurs (wordText demoText2) w c) ∧
    (demoFilter.width = 1 → demoOp.nofVars = 1 ∧ demoFilter.table.Nodup) ∧
    2 * (((terms demoTriples).length + 1) * (demoVec demoWords demoText2).length) + 2 < 200 ∧ demoOp.words.length + 1 < 200 := by
  refine ⟨demo (by decide +kernel), ⟨?_, ?_, by decide, ?_⟩, by decide, ⟨rfl, by decide, by decide, ?_⟩,
    ⟨by decide, ?_, by decide, by decide, by decide, by decide, by decide⟩, ?_, by decide, by decide +kernel, by decide⟩
  · intro w hw
    have : w = "moo".toList ∨ w = "starts".toList ∨ w = "star".toList := by
      have := hw
      simp [terms, demoTriples] at this
      simpa using this
    rcases this with rfl | rfl | rfl <;> (unfold Plain; decide)
  · intro ws hws
    simp only [demoTriples, List.mem_cons, TextTriple.words.injEq, reduceCtorEq, false_or, List.not_mem_nil, or_false] at hws
    rcases hws with rfl | rfl <;> simp
  · decide
  · intro v
    constructor
    · intro hv
      have h : ∀ v ∈ demoOp.vars, v = "?x".toList ∨ v ∈ demoTriples.map objectOf ∧ isVariable v = true := by decide
      exact h v hv
    · rintro (rfl | ⟨h1, h2⟩)
      · decide
      · have h : ∀ v ∈ demoTriples.map objectOf, isVariable v = true → v ∈ demoOp.vars := by decide
        exact h v h1 h2
  · intro v c h
    obtain ⟨l₁, l₂, hsp, _⟩ := List.lookup_eq_some_iff.mp h
    have hm : (v, c) ∈ demoFilter.cols := by rw [hsp]; simp
    have hall : ∀ p ∈ demoFilter.cols, p.2 < demoFilter.width := by decide
    exact hall _ hm
  · intro w hw _
    have hall : ∀ w ∈ terms demoTriples, ∃ p ∈ wordText demoText2, p.1 = w ∧ p.2.1 = 2 := by decide
    obtain ⟨p, hp, rfl, hp2⟩ := hall w hw
    exact ⟨2, 2, ⟨2, by decide⟩, p.2.2, by rw [← hp2]; exact hp⟩

/-- What is returned for a word and a source: only one outcome. -/
theorem result_one {lines : List Line} {t : TextMeta} {w : Str} {α : Type} {f : FTS.Triple → Outcome (List α)} {r : Outcome (List α)}
    (h : (entitiesWith 200 (demoFile demoWords lines) t demoC demoWords demoKb [w] 0).bind f = r) (out : Outcome (List α)) :
    (demoSource lines t).withLists [w] f out ↔ out = r := by
  have h0 : ¬ [w].length = 0 := by simp
  have h1 : ¬ [w].length > 1 := by simp
  unfold Source.withLists Answer demoSource
  simp only [if_neg h0, if_neg h1]
  constructor
  · rintro ⟨l, rfl, rfl⟩
    exact h
  · rintro rfl
    exact ⟨_, rfl, h.symm⟩

/-- Against C75: the rows of a filter with one column are treated as a set.  A filter with the entity twice gives one row, though every row of
the filter joins with the record. -/
theorem C75_filter_duplicates_violated : Demo demoWords demoText2 ∧
    ∃ t, TextMeta.readFromFile (demoFile demoWords demoText2) = .ok t ∧
      ∀ out, TextOp.FilteredResult ⟨"moo".toList, ["?e".toList, "?x".toList], "?x".toList, 1⟩
          ⟨[[5], [5]], 1, [("?e".toList, 0)], 0⟩ (demoSource demoText2 t) out ↔
        out = .ok [[some 2, some 1, some 5]] := by
  have hd : Demo demoWords demoText2 := demo (by decide +kernel)
  obtain ⟨t, Bf, r, es2, ht, hI⟩ := hd.read
  refine ⟨hd, t, ht, fun out => ?_⟩
  have hw : (TextMeta.readFromFile (demoFile demoWords demoText2)).bind (fun t =>
      (entitiesWith 200 (demoFile demoWords demoText2) t demoC demoWords demoKb ["moo".toList] 0).bind fun l =>
        (FTS.oneVarFilterSet ⟨id, id⟩ l.cids l.eids l.scores [5, 5] 1).map fun rows => rows.map (·.map some)) =
      .ok [[some 2, some 1, some 5]] := by decide +kernel
  rw [ht] at hw
  exact result_one hw out

/-- Against C75: a filter with one column for a query with two entities.  One cell is never written (C57). -/
theorem C75_filter_unwritten_violated : Demo demoWords demoText2 ∧
    ∃ t, TextMeta.readFromFile (demoFile demoWords demoText2) = .ok t ∧
      ∀ out, TextOp.FilteredResult ⟨"moo".toList, ["?e".toList, "?f".toList, "?x".toList], "?x".toList, 1⟩
          ⟨[[5]], 1, [("?e".toList, 0)], 0⟩ (demoSource demoText2 t) out ↔
        out = .ok [[some 2, some 1, none, some 5], [some 2, some 1, none, some 5]] := by
  have hd : Demo demoWords demoText2 := demo (by decide +kernel)
  obtain ⟨t, Bf, r, es2, ht, hI⟩ := hd.read
  refine ⟨hd, t, ht, fun out => ?_⟩
  have hw : (TextMeta.readFromFile (demoFile demoWords demoText2)).bind (fun t =>
      (entitiesWith 200 (demoFile demoWords demoText2) t demoC demoWords demoKb ["moo".toList] 0).bind fun l =>
        FTS.multVarsFilterSet ⟨id, id⟩ l.cids l.eids l.scores [5] 2 1) =
      .ok [[some 2, some 1, none, some 5], [some 2, some 1, none, some 5]] := by decide +kernel
  rw [ht] at hw
  exact result_one hw out

/-- Against C75: two spaces between words.  The empty word between them is looked at as if it had a first character. -/
theorem C75_spaces_violated : Demo demoWords demoText2 ∧
    ∃ t, TextMeta.readFromFile (demoFile demoWords demoText2) = .ok t ∧
      ∀ out, TextOp.Result ⟨"moo  star".toList, ["?e".toList, "?x".toList], "?x".toList, 1⟩ (demoSource demoText2 t) out ↔ out = .ub := by
  have hd : Demo demoWords demoText2 := demo (by decide +kernel)
  obtain ⟨t, Bf, r, es2, ht, hI⟩ := hd.read
  refine ⟨hd, t, ht, fun out => ?_⟩
  have hw : (TextMeta.readFromFile (demoFile demoWords demoText2)).bind (fun t =>
      weighTerms t demoC demoWords demoKb 0 ["moo".toList, [], "star".toList]) = .ub := by decide +kernel
  rw [ht] at hw
  have hw' : weighTerms t demoC demoWords demoKb 0 ["moo".toList, [], "star".toList] = .ub := hw
  have hsp : StringUtils.split 200 "moo  star".toList ' ' = .ok ["moo".toList, [], "star".toList] := by decide +kernel
  unfold TextOp.Result Source.split
  rw [show (demoSource demoText2 t).fuel = 200 from rfl, hsp]
  show (demoSource demoText2 t).withLists ["moo".toList, [], "star".toList] _ out ↔ _
  unfold Source.withLists Answer
  rw [show (demoSource demoText2 t).meta_ = t from rfl, show (demoSource demoText2 t).C = demoC from rfl,
    show (demoSource demoText2 t).vocab = demoWords from rfl, show (demoSource demoText2 t).kb = demoKb from rfl, hw']
  have h0 : ¬ ["moo".toList, [], "star".toList].length = 0 := by simp
  have h1 : ["moo".toList, [], "star".toList].length > 1 := by simp
  simp only [if_neg h0, if_pos h1]
  constructor
  · rintro ⟨l, rfl, rfl⟩
    rfl
  · rintro rfl
    exact ⟨_, rfl, rfl⟩

/-- A word that begins with a question mark is taken for a variable, and the operation has no words. -/
theorem C75_question_mark_violated : (∀ op, IsPlan "?x".toList ["?".toList] op → op.words = [] ∧ "?".toList ∈ op.vars) ∧
    isVariable "?".toList = true := by
  refine ⟨fun op hp => ⟨?_, ?_⟩, rfl⟩
  · rw [hp.words]
    decide
  · exact (hp.vars _).mpr (Or.inr ⟨by simp, rfl⟩)

end Verif.TextIndex
