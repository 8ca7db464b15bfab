import Verif.Lemmas.PatternTrick
import Verif.Props.C33_CountAvailablePredicates
import Verif.Props.C69_Prefixes
import Mathlib.Data.List.Dedup
/-
C70: queries that are answered with the counts of the available predicates.
-/
namespace Verif.PatternTrick
open Verif.SparqlParser (Str FilterType Filter BindExpr Info Op Pattern Query Alias)
open Verif.TrickSpec
open Verif.Patterns (Index Trick TrickAll ID_NO_VALUE Correct C33_counts C33_counts_all grouped_of_sorted)
open Verif.PatternsSpec (HasPredicate Subject)
open Classical

abbrev QTriple := Verif.SparqlParser.Triple

/-- The solution of a triple `?s ql:has-predicate ?o`. -/
def pair (s o : Str) (a p : Nat) : Sol := fun v => if v = s then some a else if v = o then some p else none

/-- The triple `t` asks for the predicates of all subjects. -/
structure Asks (W : World) (ts : List (Nat × Nat × Nat)) (lo hi : Nat) (t : QTriple) : Prop where
  isVar : t.s.head? = some '?'
  ne : t.s ≠ t.o
  mem : ∀ τ, τ ∈ W.triple t ↔ ∃ a p, HasPredicate ts lo hi a p ∧ τ = pair t.s t.o a p
  nodup : (W.triple t).Nodup

/-- The query is one for which the trick is right: `VALUES` and `MINUS` of the query itself do not mention the object, `BIND` does not
assign to the subject, filters have one left side, and the subject occurs in another triple of the query, in front of which no `OPTIONAL`,
`MINUS` or `BIND` that comes later than `t` mentions it. -/
structure Suited (fs : List Filter) (cs : List Op) (t : QTriple) : Prop where
  unchecked : ∀ c ∈ cs, Unchecked c → ¬ Occurs t.o c
  keeps : ∀ c ∈ cs, Keeps t.s c
  filters : ∀ f ∈ fs, f.additionalLhs = []
  order : ∀ before a b after, cs = before ++ .basic (a ++ t :: b) :: after →
    (∃ x ∈ basicTriples before ++ a ++ b, t.s ∈ [x.s, x.p.iri, x.o]) ∨ ∀ c ∈ after, Joins c ∨ ¬ Occurs t.s c

/-- There is another triple with the subject. -/
def Anchored (cs' : List Op) (t : QTriple) : Prop := ∃ x ∈ basicTriples cs', t.s ∈ [x.s, x.p.iri, x.o]

variable {W : World} {ts : List (Nat × Nat × Nat)} {lo hi : Nat} {low : Char → Char} {info : Info} {fs : List Filter} {cs : List Op}
  {t : QTriple} {info' : Info} {fs' : List Filter} {cs' : List Op} {ix : Index} {vocab : Str → Option Nat} {rest : Pattern → Rest}
  {holds : Filter → Nat × Nat → Bool} {o : Outcome (List (Nat × Nat))}

theorem pair_s (s o : Str) (a p : Nat) : pair s o a p s = some a := by simp [pair]

theorem pair_o {s o : Str} (h : s ≠ o) (a p : Nat) : pair s o a p o = some p := by simp [pair, Ne.symm h]

/-- The solutions of the query are those of the rest, joined with the triple, for which the moved filters hold. -/
theorem eval_check (hW : W.Lawful) (hc : checkUse low (.mk info (.mk fs cs)) = some (t, .mk info' (.mk fs' cs')))
    (hT : ∀ τ ∈ W.triple t, ∀ v, τ v ≠ none → v = t.s ∨ v = t.o) (hv : t.s.head? = some '?')
    (hS : Suited fs cs t) :
    (evalGroup W (.mk fs cs)).Perm ((join (evalGroup W (.mk fs' cs')) (W.triple t)).filter fun μ => (fs.filter (movable t)).all (W.filter · μ)) ∧
    Free t.o (evalGroup W (.mk fs' cs')) ∧ (∀ c ∈ cs', Keeps t.s c) ∧ info' = { info with having := info.having ++ fs.filter (movable t) } := by
  obtain ⟨before, a, b, after, rfl, h2, h3⟩ := check_spec hc
  cases h3
  obtain ⟨u1, u2⟩ := usable_spec h2 fun c hc => hS.unchecked c (by
    rcases List.mem_append.1 hc with hc | hc
    · exact List.mem_append_left _ hc
    · exact List.mem_append_right _ (List.mem_cons_of_mem _ hc))
  have kb : ∀ c ∈ before, Keeps t.s c := fun c hc => hS.keeps c (List.mem_append_left _ hc)
  have ka : ∀ c ∈ after, Keeps t.s c := fun c hc => hS.keeps c (List.mem_append_right _ (List.mem_cons_of_mem _ hc))
  refine ⟨?_, group_free hW _ (by rw [OccursIn]; exact occursAny_of u1), ?_, rfl⟩
  · rw [evalGroup, evalGroup]
    have hp := ops_last (o := t.o) hW hv hT (fun c hc => u1 c (List.mem_append_right _ (List.mem_cons_of_mem _ hc))) kb ka
      (hS.order before a b after rfl) [fun _ => none]
    refine (hp.filter _).trans (List.Perm.of_eq ?_)
    rw [← filter_join]
    · rw [List.filter_filter]
      refine List.filter_congr fun μ _ => ?_
      rw [Bool.eq_iff_iff]
      simp only [List.all_eq_true, Bool.and_eq_true, List.mem_filter, Bool.not_eq_true']
      constructor
      · exact fun h => ⟨fun f hf => h f hf.1, fun f hf => h f hf.1⟩
      · rintro ⟨h1, h2⟩ f hf
        cases hm : movable t f with
        | true => exact h1 f ⟨hf, hm⟩
        | false => exact h2 f ⟨hf, hm⟩
    · intro μ _ τ hτ _
      rw [Bool.eq_iff_iff]
      simp only [List.all_eq_true, List.mem_filter, Bool.not_eq_true']
      refine forall_congr' fun f => forall_congr' fun hf => ?_
      rw [hW.filter f (merge μ τ) μ]
      intro v hvf
      have hf2 := u2 f hf.1 hf.2
      rw [filterVars, hS.filters f hf.1] at hvf
      have hn : τ v = none := by
        cases hx : τ v with
        | none => rfl
        | some x =>
          have h3 := hT τ hτ v (by rw [hx]; simp)
          simp only [List.mem_cons, List.not_mem_nil, or_false] at hvf
          rcases hvf with rfl | rfl
          · rcases h3 with h3 | h3
            · exact absurd h3 hf2.1
            · exact absurd h3 hf2.2.1
          · rcases h3 with h3 | h3
            · exact absurd h3 hf2.2.2.2
            · exact absurd h3 hf2.2.2.1
      simp [merge, hn]
  · intro c hc
    rcases List.mem_append.1 hc with hc | hc
    · exact kb c hc
    · rcases List.mem_cons.1 hc with rfl | hc
      · trivial
      · exact ka c hc

theorem asks_vars (hA : Asks W ts lo hi t) : ∀ τ ∈ W.triple t, ∀ v, τ v ≠ none → v = t.s ∨ v = t.o := by
  intro τ hτ v hv
  obtain ⟨a, p, _, rfl⟩ := (hA.mem τ).1 hτ
  unfold pair at hv
  by_cases h1 : v = t.s
  · exact .inl h1
  · by_cases h2 : v = t.o
    · exact .inr h2
    · simp [h1, h2] at hv

theorem anchored_bound (hW : W.Lawful) (hv : t.s.head? = some '?') (hk : ∀ c ∈ cs', Keeps t.s c) (h : Anchored cs' t) :
    Bound t.s (evalGroup W (.mk fs' cs')) := by
  obtain ⟨x, hx, hm⟩ := h
  intro μ hμ
  rw [evalGroup] at hμ
  exact ops_binds hW hv hk hx hm μ (List.mem_filter.1 hμ).1

/-- The subjects of the solutions with the predicate `p`. -/
theorem subjects_of (hA : Asks W ts lo hi t) {R : List Sol} (ho : Free t.o R) (hs : Bound t.s R ∨ R = [fun _ => none]) (P : Sol → Bool) (a p : Nat) :
    (∃ μ ∈ (join R (W.triple t)).filter P, μ t.o = some p ∧ μ t.s = some a) ↔
      HasPredicate ts lo hi a p ∧ ∃ ρ ∈ R, (ρ t.s = some a ∨ R = [fun _ => none]) ∧ P (merge ρ (pair t.s t.o a p)) = true := by
  constructor
  · rintro ⟨μ, hμ, h1, h2⟩
    obtain ⟨hμ, hP⟩ := List.mem_filter.1 hμ
    obtain ⟨ρ, hρ, τ, hτ, hc, rfl⟩ := mem_join.1 hμ
    obtain ⟨a', p', hp, rfl⟩ := (hA.mem τ).1 hτ
    have e1 : p' = p := by simpa [merge, ho ρ hρ, pair_o hA.ne] using h1
    subst e1
    have e2 : a' = a ∧ (ρ t.s = some a ∨ R = [fun _ => none]) := by
      cases hr : ρ t.s with
      | none =>
        refine ⟨by simpa [merge, hr, pair_s] using h2, .inr ?_⟩
        rcases hs with hs | hs
        · exact absurd hr (hs ρ hρ)
        · exact hs
      | some x =>
        have hx : x = a := by simpa [merge, hr] using h2
        subst hx
        refine ⟨?_, .inl rfl⟩
        have := hc t.s
        rw [hr, pair_s] at this
        simpa [eq_comm] using this
    obtain ⟨rfl, e2⟩ := e2
    exact ⟨hp, ρ, hρ, e2, hP⟩
  · rintro ⟨hp, ρ, hρ, hr, hP⟩
    have hrs : ρ t.s = some a ∨ ρ t.s = none := by
      rcases hr with hr | hr
      · exact .inl hr
      · rw [hr, List.mem_singleton] at hρ
        exact .inr (by rw [hρ])
    have hcomp : Compat ρ (pair t.s t.o a p) := by
      intro v
      by_cases h1 : v = t.s
      · subst h1
        rw [pair_s]
        rcases hrs with h | h
        · exact .inr (.inr h)
        · exact .inl h
      · by_cases h2 : v = t.o
        · subst h2; exact .inl (ho ρ hρ)
        · exact .inr (.inl (by simp [pair, h1, h2]))
    refine ⟨_, List.mem_filter.2 ⟨mem_join.2 ⟨ρ, hρ, _, (hA.mem _).2 ⟨a, p, hp, rfl⟩, hcomp, rfl⟩, hP⟩, ?_, ?_⟩
    · simp [merge, ho ρ hρ, pair_o hA.ne]
    · rcases hrs with h | h <;> simp [merge, h, pair_s]

/-- What the filters of the result say about a row: the filters that compare the predicate with a constant mean what they meant. -/
def Means (W : World) (fs : List Filter) (t : QTriple) (holds : Filter → Nat × Nat → Bool) : Prop :=
  ∀ f ∈ fs, f.lhs = t.o → f.rhs.head? ≠ some '?' → ∀ μ p n, μ t.o = some p → holds f (p, n) = W.filter f μ

/-- The plan for the rest gives its solutions: the column of the subject has its values. -/
def Gives (W : World) (s : Str) (g : Pattern) (r : Rest) : Prop :=
  ∃ c, r.column s = some c ∧ (r.rows.map (·.getD c 0)).Perm ((evalGroup W g).map fun μ => (μ s).getD ID_NO_VALUE)

/-- The rows of `CountAvailablePredicates`. -/
theorem row_spec (hix : Correct ix ts lo hi) (hno : ¬ Subject ts ID_NO_VALUE) (hW : W.Lawful) (hv : t.s.head? = some '?')
    {aliases : List Alias} (hal : aliases ≠ []) (hk : ∀ c ∈ cs', Keeps t.s c)
    (hr : (noPlan cs' = true ∧ fs' = []) ∨ (noPlan cs' = false ∧ Anchored cs' t ∧ Gives W t.s (.mk fs' cs') (rest (.mk fs' cs'))))
    (h : Row ix vocab aliases t (if noPlan cs' then none else some (rest (.mk fs' cs'))) o) :
    (Bound t.s (evalGroup W (.mk fs' cs')) ∨ evalGroup W (.mk fs' cs') = [fun _ => none]) ∧
    ∃ rows, o = .ok rows ∧ (rows.map Prod.fst).Nodup ∧
      ∀ p (D : List Nat), D.Nodup → (∀ a, a ∈ D ↔ HasPredicate ts lo hi a p ∧ ∃ ρ ∈ evalGroup W (.mk fs' cs'), ρ t.s = some a ∨ evalGroup W (.mk fs' cs') = [fun _ => none]) →
        ∀ n, (p, n) ∈ rows ↔ n = D.length ∧ 0 < n := by
  rcases hr with ⟨hn, rfl⟩ | ⟨hn, han, c, hcol, hperm⟩
  · have he : evalGroup W (.mk [] cs') = [fun _ => none] := by
      rw [evalGroup, noPlan_eval hn]
      simp
    refine ⟨.inr he, ?_⟩
    rw [hn, if_pos rfl] at h
    unfold Row at h
    simp only [hv, ne_eq, not_true_eq_false, if_false] at h
    obtain ⟨rows, h1, h2, h3⟩ := (C33_counts_all hix).2 o h
    refine ⟨rows, h1, h2, fun p D hD hD2 n => h3 p D hD (fun a => ?_) n⟩
    rw [hD2, he]
    simp
  · have hb := anchored_bound (fs' := fs') hW hv hk han
    refine ⟨.inl hb, ?_⟩
    rw [hn, if_neg (by simp)] at h
    unfold Row at h
    simp only [hcol, if_neg hal] at h
    obtain ⟨rows', hp, hsort, htr⟩ := h
    obtain ⟨rows, h1, h2, h3⟩ := (C33_counts hix hno _ (grouped_of_sorted hsort)).2 o htr
    refine ⟨rows, h1, h2, fun p D hD hD2 n => h3 p D hD (fun a => ?_) n⟩
    rw [hD2, ((hp.map _).trans hperm).mem_iff, List.mem_map, and_comm]
    refine and_congr_left fun _ => exists_congr fun ρ => and_congr_right fun hρ => ?_
    have := hb ρ hρ
    cases hx : ρ t.s with
    | none => exact absurd hx this
    | some x =>
      simp only [Option.some.injEq, Option.getD_some]
      refine ⟨?_, .inl⟩
      rintro (h | h)
      · exact h
      · rw [h, List.mem_singleton] at hρ
        rw [hρ] at hx
        cases hx

/-- C70.  If a query is answered with the counts of the available predicates, and is suited for it, the rows are the predicates with the
number of different subjects that the query has for them. -/
theorem C70_trick_partial (hix : Correct ix ts lo hi) (hno : ¬ Subject ts ID_NO_VALUE) (hW : W.Lawful)
    (hc : checkUse low (.mk info (.mk fs cs)) = some (t, .mk info' (.mk fs' cs'))) (hA : Asks W ts lo hi t) (hS : Suited fs cs t)
    (hM : Means W fs t holds) (hal : info.aliases ≠ [])
    (hr : (noPlan cs' = true ∧ fs' = []) ∨ (noPlan cs' = false ∧ Anchored cs' t ∧ Gives W t.s (.mk fs' cs') (rest (.mk fs' cs'))))
    (h : Answer low ix vocab rest holds (.mk info (.mk fs cs)) o) :
    ∃ rows, o = .ok rows ∧ (rows.map Prod.fst).Nodup ∧
      ∀ p n, (p, n) ∈ rows ↔ CountsDistinct (evalGroup W (.mk fs cs)) t.o t.s p n ∧ 0 < n ∧ info.having.all (holds · (p, n)) = true := by
  obtain ⟨hp, hfree, hk, rfl⟩ := eval_check hW hc (asks_vars hA) hA.isVar hS
  obtain ⟨t2, info2, fs2, cs2, o', hc2, hrow, rfl⟩ := h
  rw [hc] at hc2
  cases hc2
  obtain ⟨hb, rows, rfl, hnd, hrows⟩ := row_spec hix hno hW hA.isVar hal hk hr hrow
  generalize evalGroup W (.mk fs' cs') = R at *
  refine ⟨_, rfl, (List.Sublist.map _ List.filter_sublist).nodup hnd, fun p n => ?_⟩
  have moved : ∀ μ : Sol, μ t.o = some p → ((fs.filter (movable t)).all (W.filter · μ) = (fs.filter (movable t)).all (holds · (p, n))) := by
    intro μ hμ
    rw [Bool.eq_iff_iff]
    simp only [List.all_eq_true, List.mem_filter]
    exact forall_congr' fun f => forall_congr' fun hf => by
      have hm := hf.2
      simp only [movable, Bool.and_eq_true, beq_iff_eq, bne_iff_ne] at hm
      rw [hM f hf.1 hm.1 hm.2 μ p n hμ]
  have hmem : ∀ a, (∃ μ ∈ evalGroup W (.mk fs cs), μ t.o = some p ∧ μ t.s = some a) ↔
      HasPredicate ts lo hi a p ∧ (∃ ρ ∈ R, ρ t.s = some a ∨ R = [fun _ => none]) ∧ (fs.filter (movable t)).all (holds · (p, n)) = true := by
    intro a
    have : (∃ μ ∈ evalGroup W (.mk fs cs), μ t.o = some p ∧ μ t.s = some a) ↔
        ∃ μ ∈ (join R (W.triple t)).filter fun μ => (fs.filter (movable t)).all (W.filter · μ), μ t.o = some p ∧ μ t.s = some a :=
      exists_congr fun μ => by rw [hp.mem_iff]
    rw [this, subjects_of hA hfree hb]
    refine and_congr_right fun _ => ?_
    constructor
    · rintro ⟨ρ, hρ, h1, h2⟩
      exact ⟨⟨ρ, hρ, h1⟩, (moved _ (by simp [merge, hfree ρ hρ, pair_o hA.ne])).symm.trans h2⟩
    · rintro ⟨⟨ρ, hρ, h1⟩, h2⟩
      exact ⟨ρ, hρ, h1, (moved _ (by simp [merge, hfree ρ hρ, pair_o hA.ne])).trans h2⟩
  rw [List.mem_filter]
  simp only [List.all_append, Bool.and_eq_true]
  constructor
  · rintro ⟨h1, h2, h3⟩
    -- the subjects that were counted
    have hfin : ∃ D : List Nat, D.Nodup ∧ ∀ a, a ∈ D ↔ HasPredicate ts lo hi a p ∧ ∃ ρ ∈ R, ρ t.s = some a ∨ R = [fun _ => none] := by
      refine ⟨(((W.triple t).filterMap (· t.s)).filter fun a => decide (HasPredicate ts lo hi a p ∧ ∃ ρ ∈ R, ρ t.s = some a ∨ R = [fun _ => none])).dedup,
        List.nodup_dedup _, fun a => ?_⟩
      rw [List.mem_dedup, List.mem_filter, decide_eq_true_eq, List.mem_filterMap, and_iff_right_iff_imp]
      exact fun hh => ⟨_, (hA.mem _).2 ⟨a, p, hh.1, rfl⟩, pair_s _ _ _ _⟩
    obtain ⟨D, hD, hD2⟩ := hfin
    obtain ⟨e, pos⟩ := (hrows p D hD hD2 n).1 h1
    refine ⟨⟨D, hD, e.symm, fun a => ?_⟩, pos, h2⟩
    rw [hmem, hD2]
    constructor
    · exact fun hh => ⟨hh.1, hh.2, h3⟩
    · exact fun hh => ⟨hh.1, hh.2.1⟩
  · rintro ⟨⟨D, hD, e, hD2⟩, pos, h2⟩
    have h3 : (fs.filter (movable t)).all (holds · (p, n)) = true := by
      cases D with
      | nil => simp at e; omega
      | cons a D => exact ((hmem a).1 ((hD2 a).1 (by simp))).2.2
    refine ⟨(hrows p D hD (fun a => ?_) n).2 ⟨e.symm, pos⟩, h2, h3⟩
    rw [hD2, hmem]
    constructor
    · exact fun hh => ⟨hh.1, hh.2.1⟩
    · exact fun hh => ⟨hh.1, hh.2, h3⟩

/-- There is an answer. -/
theorem C70_answered (hix : Correct ix ts lo hi) (hno : ¬ Subject ts ID_NO_VALUE)
    (hc : checkUse low (.mk info (.mk fs cs)) = some (t, .mk info' (.mk fs' cs'))) (hv : t.s.head? = some '?') (hal : info.aliases ≠ [])
    (hr : noPlan cs' = false → ∃ c, (rest (.mk fs' cs')).column t.s = some c) : ∃ o, Answer low ix vocab rest holds (.mk info (.mk fs cs)) o := by
  obtain ⟨_, _, _, _, _, _, h3⟩ := check_spec hc
  have hal' : info'.aliases ≠ [] := by cases h3; exact hal
  cases hn : noPlan cs' with
  | true =>
    obtain ⟨o, ho⟩ := (C33_counts_all hix).1
    refine ⟨_, t, info', fs', cs', o, hc, ?_, rfl⟩
    rw [hn, if_pos rfl]
    unfold Row
    simp only [hv, ne_eq, not_true_eq_false, if_false]
    exact ho
  | false =>
    obtain ⟨c, hcol⟩ := hr hn
    have hs : (((rest (.mk fs' cs')).rows.mergeSort fun a b => decide (a.getD c 0 ≤ b.getD c 0)).map (·.getD c 0)).Pairwise (· ≤ ·) := by
      rw [List.pairwise_map]
      refine (List.pairwise_mergeSort ?_ ?_ _).imp fun h => of_decide_eq_true h
      · intro a b c h1 h2
        simp only [decide_eq_true_eq] at *
        omega
      · intro a b
        simp only [Bool.or_eq_true, decide_eq_true_eq]
        omega
    obtain ⟨o, ho⟩ := (C33_counts hix hno _ (grouped_of_sorted hs)).1
    refine ⟨_, t, info', fs', cs', o, hc, ?_, rfl⟩
    rw [hn, if_neg (by simp)]
    unfold Row
    simp only [hcol, if_neg hal']
    exact ⟨_, List.mergeSort_perm _ _, hs, ho⟩

/-! ### The number of solutions -/

theorem all_equal {α : Type} {l : List α} {c : α} (hn : l.Nodup) (h : ∀ x ∈ l, x = c) : l = [] ∨ l = [c] := by
  cases l with
  | nil => exact .inl rfl
  | cons x l =>
    have hx := h x (by simp)
    subst hx
    cases l with
    | nil => exact .inr rfl
    | cons y l =>
      have := h y (by simp)
      subst this
      simp at hn

/-- A solution of the rest continues in at most one way, for a predicate. -/
theorem one_each (hA : Asks W ts lo hi t) {ρ : Sol} {a : Nat} (hs : ρ t.s = some a) (ho : ρ t.o = none) (p : Nat) :
    (matching ρ (W.triple t)).filter (fun μ => μ t.o == some p) =
      if HasPredicate ts lo hi a p then [merge ρ (pair t.s t.o a p)] else [] := by
  unfold matching
  rw [List.filter_map]
  have hl : ∀ τ, τ ∈ ((W.triple t).filter fun ν => decide (Compat ρ ν)).filter ((fun μ => μ t.o == some p) ∘ merge ρ) ↔
      HasPredicate ts lo hi a p ∧ τ = pair t.s t.o a p := by
    intro τ
    simp only [List.mem_filter, hA.mem, decide_eq_true_eq, Function.comp, beq_iff_eq]
    constructor
    · rintro ⟨⟨⟨a', p', hp, rfl⟩, hc⟩, hm⟩
      have e1 : p' = p := by simpa [merge, ho, pair_o hA.ne] using hm
      have e2 : a' = a := by
        have := hc t.s
        rw [hs, pair_s] at this
        simpa [eq_comm] using this
      subst e1 e2
      exact ⟨hp, rfl⟩
    · rintro ⟨hp, rfl⟩
      refine ⟨⟨⟨a, p, hp, rfl⟩, ?_⟩, by simp [merge, ho, pair_o hA.ne]⟩
      intro v
      by_cases h1 : v = t.s
      · subst h1; rw [pair_s, hs]; exact .inr (.inr rfl)
      · by_cases h2 : v = t.o
        · subst h2; exact .inl ho
        · exact .inr (.inl (by simp [pair, h1, h2]))
  have hn := (hA.nodup.filter fun ν => decide (Compat ρ ν)).filter ((fun μ => μ t.o == some p) ∘ merge ρ)
  generalize ((W.triple t).filter fun ν => decide (Compat ρ ν)).filter ((fun μ => μ t.o == some p) ∘ merge ρ) = L at *
  by_cases hp : HasPredicate ts lo hi a p
  · rw [if_pos hp]
    rcases all_equal (c := pair t.s t.o a p) hn fun τ hτ => ((hl τ).1 hτ).2 with rfl | rfl
    · exact absurd ((hl _).2 ⟨hp, rfl⟩) (by simp)
    · rfl
  · rw [if_neg hp]
    rw [List.eq_nil_iff_forall_not_mem.2 fun τ hτ => hp ((hl τ).1 hτ).1]
    rfl

/-- The number of solutions with the predicate `p`: the solutions of the rest with a subject that has it. -/
theorem counted_join (hA : Asks W ts lo hi t) {R : List Sol} (ho : Free t.o R) (hs : Bound t.s R) (p : Nat) :
    counted (join R (W.triple t)) t.o p = (R.filter fun ρ => decide (∃ a, ρ t.s = some a ∧ HasPredicate ts lo hi a p)).length := by
  unfold counted join
  induction R with
  | nil => rfl
  | cons ρ R ih =>
    have ih := ih (fun μ hμ => ho μ (List.mem_cons_of_mem _ hμ)) fun μ hμ => hs μ (List.mem_cons_of_mem _ hμ)
    rw [List.flatMap_cons, List.filter_append, List.length_append, ih]
    cases hr : ρ t.s with
    | none => exact absurd hr (hs ρ (by simp))
    | some a =>
      rw [one_each hA hr (ho ρ (by simp)) p]
      by_cases hp : HasPredicate ts lo hi a p
      · rw [if_pos hp, List.filter_cons_of_pos (by simpa [hr] using hp)]
        simp
        omega
      · rw [if_neg hp, List.filter_cons_of_neg (by simpa [hr] using hp)]
        simp

/-- If the subjects of the rest are different, then the solutions with the predicate `p` have different subjects. -/
theorem subjects_nodup (hA : Asks W ts lo hi t) {R : List Sol} (ho : Free t.o R) (hs : Bound t.s R ∨ R = [fun _ => none])
    (hn : (R.map (· t.s)).Nodup) (p : Nat) : ((join R (W.triple t)).filter fun μ => μ t.o == some p).Pairwise fun μ ν => μ t.s ≠ ν t.s := by
  rcases hs with hs | rfl
  · unfold join
    induction R with
    | nil => exact .nil
    | cons ρ R ih =>
      rw [List.map_cons, List.nodup_cons] at hn
      have ih := ih (fun μ hμ => ho μ (List.mem_cons_of_mem _ hμ)) hn.2 fun μ hμ => hs μ (List.mem_cons_of_mem _ hμ)
      rw [List.flatMap_cons, List.filter_append, List.pairwise_append]
      refine ⟨?_, ih, ?_⟩
      · cases hr : ρ t.s with
        | none => exact absurd hr (hs ρ (by simp))
        | some a =>
          rw [one_each hA hr (ho ρ (by simp)) p]
          split
          · exact List.pairwise_singleton _ _
          · exact .nil
      · intro μ hμ ν hν he
        obtain ⟨τ, _, _, rfl⟩ := mem_matching.1 (List.mem_filter.1 hμ).1
        obtain ⟨ρ', hρ', τ', _, _, rfl⟩ := mem_join.1 (List.mem_filter.1 hν).1
        have h1 := hs ρ (by simp)
        have h2 := hs ρ' (List.mem_cons_of_mem _ hρ')
        refine hn.1 (List.mem_map.2 ⟨ρ', hρ', ?_⟩)
        cases hr : ρ t.s with
        | none => exact absurd hr h1
        | some a =>
          cases hr' : ρ' t.s with
          | none => exact absurd hr' h2
          | some a' => simpa [merge, hr, hr', eq_comm] using he
  · rw [join_unit]
    have hnd : ((W.triple t).filter fun μ => μ t.o == some p).Pairwise (· ≠ ·) := List.Nodup.filter _ hA.nodup
    refine hnd.imp_of_mem fun {μ ν} hμ hν hne he => hne ?_
    rw [List.mem_filter, hA.mem, beq_iff_eq] at hμ hν
    obtain ⟨⟨a, p1, _, rfl⟩, h1⟩ := hμ
    obtain ⟨⟨a', p2, _, rfl⟩, h2⟩ := hν
    rw [pair_o hA.ne] at h1 h2
    rw [pair_s, pair_s] at he
    cases he; cases h1; cases h2
    rfl

theorem counts_length {Ω : List Sol} {v w : Str} {p n : Nat} (hc : CountsDistinct Ω v w p n)
    (hn : (Ω.filter fun μ => μ v == some p).Pairwise fun μ ν => μ w ≠ ν w) (hb : ∀ μ ∈ Ω, μ v = some p → μ w ≠ none) : n = counted Ω v p := by
  obtain ⟨D, hD, rfl, hD2⟩ := hc
  unfold counted
  have : ((Ω.filter fun μ => μ v == some p).map (· w)).Perm (D.map some) := by
    refine (List.perm_ext_iff_of_nodup (List.pairwise_map.2 hn) (hD.map (fun _ _ h => Option.some.inj h))).2 fun x => ?_
    simp only [List.mem_map, List.mem_filter, beq_iff_eq]
    constructor
    · rintro ⟨μ, ⟨h1, h2⟩, rfl⟩
      cases hx : μ w with
      | none => exact absurd hx (hb μ h1 h2)
      | some a => exact ⟨a, (hD2 a).2 ⟨μ, h1, h2, hx⟩, rfl⟩
    · rintro ⟨a, ha, rfl⟩
      obtain ⟨μ, h1, h2, h3⟩ := (hD2 a).1 ha
      exact ⟨μ, ⟨h1, h2⟩, h3⟩
  simpa using this.length_eq.symm

/-- C70, for a rest with each subject at most once: the rows are the predicates with the number of solutions, as for `COUNT`. -/
theorem C70_exact_partial (hix : Correct ix ts lo hi) (hno : ¬ Subject ts ID_NO_VALUE) (hW : W.Lawful)
    (hc : checkUse low (.mk info (.mk fs cs)) = some (t, .mk info' (.mk fs' cs'))) (hA : Asks W ts lo hi t) (hS : Suited fs cs t)
    (hM : Means W fs t holds) (hal : info.aliases ≠ [])
    (hr : (noPlan cs' = true ∧ fs' = []) ∨ (noPlan cs' = false ∧ Anchored cs' t ∧ Gives W t.s (.mk fs' cs') (rest (.mk fs' cs'))))
    (hone : ((evalGroup W (.mk fs' cs')).map (· t.s)).Nodup)
    (h : Answer low ix vocab rest holds (.mk info (.mk fs cs)) o) :
    ∃ rows, o = .ok rows ∧ (rows.map Prod.fst).Nodup ∧
      ∀ p n, (p, n) ∈ rows ↔ n = counted (evalGroup W (.mk fs cs)) t.o p ∧ 0 < n ∧ info.having.all (holds · (p, n)) = true := by
  obtain ⟨rows, h1, h2, h3⟩ := C70_trick_partial hix hno hW hc hA hS hM hal hr h
  refine ⟨rows, h1, h2, fun p n => ?_⟩
  rw [h3]
  obtain ⟨hp, hfree, hk, _⟩ := eval_check hW hc (asks_vars hA) hA.isVar hS
  obtain ⟨_, _, _, _, o', hc2, hrow, _⟩ := h
  rw [hc] at hc2
  have hb : Bound t.s (evalGroup W (.mk fs' cs')) ∨ evalGroup W (.mk fs' cs') = [fun _ => none] := by
    rcases hr with ⟨hn, rfl⟩ | ⟨_, han, _⟩
    · refine .inr ?_
      rw [evalGroup, noPlan_eval hn]
      simp
    · exact .inl (anchored_bound hW hA.isVar hk han)
  have hpw : ((evalGroup W (.mk fs cs)).filter fun μ => μ t.o == some p).Pairwise fun μ ν => μ t.s ≠ ν t.s := by
    refine (((hp.filter _).pairwise_iff (R := fun μ ν : Sol => μ t.s ≠ ν t.s) (fun h => Ne.symm h)).2 ?_)
    rw [List.filter_filter, List.filter_congr fun μ _ => Bool.and_comm _ _, ← List.filter_filter]
    exact (subjects_nodup hA hfree hb hone p).filter _
  have hbnd : ∀ μ ∈ evalGroup W (.mk fs cs), μ t.o = some p → μ t.s ≠ none := by
    intro μ hμ _
    obtain ⟨ρ, _, τ, hτ, _, rfl⟩ := mem_join.1 (List.mem_filter.1 (hp.mem_iff.1 hμ)).1
    obtain ⟨a, p', _, rfl⟩ := (hA.mem τ).1 hτ
    unfold merge
    rw [pair_s]
    cases ρ t.s <;> simp
  constructor
  · exact fun hh => ⟨counts_length hh.1 hpw hbnd, hh.2⟩
  · rintro ⟨rfl, pos, hh⟩
    refine ⟨⟨((evalGroup W (.mk fs cs)).filter fun μ => μ t.o == some p).filterMap (· t.s), ?_, ?_, ?_⟩, pos, hh⟩
    · rw [List.Nodup, List.pairwise_filterMap]
      refine hpw.imp fun {μ ν} hne a ha b hb he => hne ?_
      subst he
      exact ha.trans hb.symm
    · unfold counted
      rw [List.length_filterMap_eq_countP, List.countP_eq_length]
      intro μ hμ
      rw [List.mem_filter, beq_iff_eq] at hμ
      rw [Option.isSome_iff_ne_none]
      exact hbnd μ hμ.1 hμ.2
    · intro a
      simp only [List.mem_filterMap, List.mem_filter, beq_iff_eq, and_assoc]

/-! ### The queries for which the trick is used -/

theorem contains_iff (w : Str) : ∀ s : Str, contains w s = true ↔ w <:+: s
  | [] => by
    rw [contains, List.isPrefixOf_iff_prefix, List.infix_nil, List.prefix_nil]
  | c :: s => by
    rw [contains, Bool.or_eq_true, contains_iff w s, List.isPrefixOf_iff_prefix, List.infix_cons_iff]

/-- The triple is one with `ql:has-predicate`; the query groups by its object alone, and returns nothing but this object and at most one
count, which is a count of the object or the subject without `DISTINCT`. -/
theorem C70_chosen (h : checkUse low (.mk info (.mk fs cs)) = some (t, .mk info' (.mk fs' cs'))) :
    t.p.iri = "<QLever-internal-function/has-predicate>".toList ∧ info.groupBy = [t.o] ∧ (info.aliases = [] ∨ ∃ al, info.aliases = [al] ∧
      (al.inVar = t.o ∨ al.inVar = t.s) ∧ "count".toList <+: al.function.map low ∧ ¬ "distinct".toList <:+: al.function.map low) ∧
    ∀ v ∈ info.selected, v = t.o ∨ v = (info.aliases.map Alias.outVar).headD [] := by
  obtain ⟨before, a, b, after, h1, h2, h3⟩ := check_spec h
  unfold usable at h2
  simp only [Bool.and_eq_true, beq_iff_eq, List.all_eq_true, Bool.or_eq_true] at h2
  obtain ⟨⟨⟨⟨⟨⟨u1, u2⟩, u3⟩, u4⟩, _⟩, _⟩, _⟩ := h2
  rw [checkUse] at h
  by_cases hl : info.groupBy.length ≠ 1 ∨ info.aliases.length > 1
  · rw [if_pos hl] at h
    cases h
  · rw [if_neg hl] at h
    by_cases ha : info.aliases.all (countAlias low) = true
    · refine ⟨u1, ?_, ?_, fun v hv => ?_⟩
      · cases hg : info.groupBy with
        | nil => rw [hg] at u3; simp at u3
        | cons x l =>
          rw [hg] at hl u3
          cases l with
          | nil => simp at u3; rw [u3]
          | cons y l => simp at hl
      · cases hal : info.aliases with
        | nil => exact .inl rfl
        | cons al l =>
          cases l with
          | cons y l => rw [hal] at hl; simp at hl
          | nil =>
            refine .inr ⟨al, rfl, u2 al (by rw [hal]; simp), ?_⟩
            rw [hal, List.all_cons, Bool.and_eq_true, countAlias, Bool.and_eq_true, List.isPrefixOf_iff_prefix] at ha
            refine ⟨ha.1.2, fun hd => ?_⟩
            rw [(contains_iff _ _).2 hd] at ha
            simp at ha
      · rcases u4 v hv with u4 | u4
        · exact .inl u4
        · refine .inr (u4.trans ?_)
          cases info.aliases <;> rfl
    · rw [if_pos (by simpa using ha)] at h
      cases h

/-! ### A constant as subject -/

/-- C70, for `<a> ql:has-predicate ?p` alone: the rows are the predicates of the entity, each with the count 1. -/
theorem C70_constant_partial (hix : Correct ix ts lo hi) (hno : ¬ Subject ts ID_NO_VALUE)
    (hc : checkUse low (.mk info (.mk [] [.basic [t]])) = some (t, .mk info' (.mk fs' cs'))) (hv : t.s.head? ≠ some '?')
    (hA : ∀ τ, τ ∈ W.triple t ↔ ∃ a p, vocab t.s = some a ∧ HasPredicate ts lo hi a p ∧ τ = fun v => if v = t.o then some p else none)
    (hn : (W.triple t).Nodup) (hal : info.aliases ≠ [])
    (h : Answer low ix vocab rest holds (.mk info (.mk [] [.basic [t]])) o) :
    ∃ rows, o = .ok rows ∧ (rows.map Prod.fst).Nodup ∧
      ∀ p n, (p, n) ∈ rows ↔ n = counted (evalGroup W (.mk [] [.basic [t]])) t.o p ∧ 0 < n ∧ info.having.all (holds · (p, n)) = true := by
  obtain ⟨t2, info2, fs2, cs2, o', hc2, hrow, rfl⟩ := h
  rw [hc] at hc2
  cases hc2
  obtain ⟨before, a, b, after, h1, h2, h3⟩ := check_spec hc
  cases h3
  have hdec : before = [] ∧ a = [] ∧ b = [] ∧ after = [] := by
    cases before with
    | cons x xs => simp at h1
    | nil =>
      simp only [List.nil_append, List.cons.injEq, Op.basic.injEq] at h1
      cases a with
      | cons x xs => simp at h1
      | nil =>
        simp only [List.nil_append, List.cons.injEq, true_and] at h1
        exact ⟨rfl, rfl, h1.1.symm, h1.2.symm⟩
  obtain ⟨rfl, rfl, rfl, rfl⟩ := hdec
  have he : evalGroup W (.mk [] [.basic [t]]) = W.triple t := by
    rw [evalGroup, evalOps, evalOps, evalOp, List.foldl_cons, List.foldl_nil, join_unit]
    simp
  rw [he]
  have hnp : noPlan ([] ++ .basic ([] ++ []) :: []) = true := rfl
  rw [hnp, if_pos rfl] at hrow
  unfold Row at hrow
  simp only [ne_eq, hv, not_false_eq_true, if_true, if_neg hal] at hrow
  -- the predicates of the entity, each once
  have hcount : ∀ p, counted (W.triple t) t.o p = if ∃ a, vocab t.s = some a ∧ HasPredicate ts lo hi a p then 1 else 0 := by
    intro p
    unfold counted
    have hm : ∀ τ, τ ∈ (W.triple t).filter (fun μ => μ t.o == some p) ↔
        (∃ a, vocab t.s = some a ∧ HasPredicate ts lo hi a p) ∧ τ = fun v => if v = t.o then some p else none := by
      intro τ
      rw [List.mem_filter, hA, beq_iff_eq]
      constructor
      · rintro ⟨⟨a, p', h1, h2, rfl⟩, h3⟩
        simp only [if_true, Option.some.injEq] at h3
        subst h3
        exact ⟨⟨a, h1, h2⟩, rfl⟩
      · rintro ⟨⟨a, h1, h2⟩, rfl⟩
        exact ⟨⟨a, p, h1, h2, rfl⟩, by simp⟩
    have hnd := hn.filter fun μ => μ t.o == some p
    generalize (W.triple t).filter (fun μ => μ t.o == some p) = L at *
    split
    · rename_i hx
      rcases all_equal hnd fun τ hτ => ((hm τ).1 hτ).2 with rfl | rfl
      · exact absurd ((hm _).2 ⟨hx, rfl⟩) (by simp)
      · rfl
    · rename_i hx
      rw [List.eq_nil_iff_forall_not_mem.2 fun τ hτ => hx ((hm τ).1 hτ).1]
      rfl
  cases hvo : vocab t.s with
  | none =>
    rw [hvo] at hrow
    simp only at hrow
    subst hrow
    refine ⟨[], rfl, by simp, fun p n => ?_⟩
    rw [hcount, hvo]
    simp
    omega
  | some a =>
    rw [hvo] at hrow
    obtain ⟨rows, rfl, r2, r3⟩ := (C33_counts hix hno [a] (grouped_of_sorted (by simp))).2 _ hrow
    refine ⟨_, rfl, (List.Sublist.map _ List.filter_sublist).nodup r2, fun p n => ?_⟩
    rw [List.mem_filter, hcount, hvo]
    simp only [List.filter_nil, List.append_nil, Option.some.injEq, exists_eq_left']
    by_cases hp : HasPredicate ts lo hi a p
    · rw [r3 p [a] (by simp) (fun s => by
        simp only [List.mem_singleton]
        constructor
        · rintro rfl; exact ⟨rfl, hp⟩
        · exact fun hh => hh.1) n, if_pos hp, and_assoc]
      rfl
    · rw [r3 p [] (by simp) (fun s => by
        simp only [List.mem_singleton, List.not_mem_nil, false_iff]
        rintro ⟨rfl, hh⟩
        exact hp hh) n, if_neg hp, and_assoc]
      rfl

/-! ### Data and queries -/

section Examples
open Verif.Patterns (sample sample_index)

def vs : Str := "?s".toList
def vp : Str := "?p".toList
def vy : Str := "?y".toList

def tri (s : Str) (p : String) (o : Str) : QTriple := ⟨s, .node .iri 0 p.toList [] false, o⟩

/-- `?s ql:has-predicate ?p` -/
def askT : QTriple := tri vs "<QLever-internal-function/has-predicate>" vp

/-- The world with the data of `sample`: the pairs for `ql:has-predicate`, and what else is given. -/
noncomputable def world (other : QTriple → List Sol) (vals : List Str → List Sol) : World where
  triple t := if t = askT then [pair vs vp 0 5, pair vs vp 1 5, pair vs vp 3 6, pair vs vp 4 7, pair vs vp 4 8] else other t
  values v _ := vals v
  sub _ := []
  filter _ _ := true
  expr _ _ := none

theorem pair_vars {s o v : Str} {a p : Nat} (h : pair s o a p v ≠ none) : v = s ∨ v = o := by
  unfold pair at h
  by_cases h1 : v = s
  · exact .inl h1
  · by_cases h2 : v = o
    · exact .inr h2
    · simp [h1, h2] at h

theorem world_lawful {other : QTriple → List Sol} {vals : List Str → List Sol}
    (h1 : ∀ t μ, μ ∈ other t → ∀ v, μ v ≠ none → v ∈ [t.s, t.p.iri, t.o])
    (h2 : ∀ t μ, μ ∈ other t → ∀ v ∈ [t.s, t.p.iri, t.o], v.head? = some '?' → μ v ≠ none)
    (h3 : ∀ vs μ, μ ∈ vals vs → ∀ v, μ v ≠ none → v ∈ vs) : (world other vals).Lawful where
  triple t μ hμ v hv := by
    simp only [world] at hμ
    by_cases ht : t = askT
    · rw [if_pos ht] at hμ
      have : v = vs ∨ v = vp := by
        simp only [List.mem_cons, List.not_mem_nil, or_false] at hμ
        rcases hμ with rfl | rfl | rfl | rfl | rfl <;> exact pair_vars hv
      subst ht
      rcases this with rfl | rfl <;> simp [askT, tri]
    · rw [if_neg ht] at hμ
      exact h1 t μ hμ v hv
  bound t μ hμ v hv hq := by
    simp only [world] at hμ
    by_cases ht : t = askT
    · rw [if_pos ht] at hμ
      subst ht
      simp only [askT, tri, List.mem_cons, List.not_mem_nil, or_false] at hv
      have : v = vs ∨ v = vp := by
        rcases hv with rfl | rfl | rfl
        · exact .inl rfl
        · exact absurd hq (by decide)
        · exact .inr rfl
      simp only [List.mem_cons, List.not_mem_nil, or_false] at hμ
      rcases this with rfl | rfl <;> rcases hμ with rfl | rfl | rfl | rfl | rfl <;> simp [pair, vs, vp]
    · rw [if_neg ht] at hμ
      exact h2 t μ hμ v hv hq
  values v _ μ hμ := h3 v μ hμ
  sub _ _ μ hμ := absurd hμ List.not_mem_nil
  filter _ _ _ _ := rfl
  expr _ _ _ _ := rfl

theorem sample_hp (a p : Nat) : HasPredicate sample 9 10 a p ↔ (a, p) ∈ [(0, 5), (1, 5), (3, 6), (4, 7), (4, 8)] := by
  constructor
  · rintro ⟨⟨x, hx⟩, h⟩
    simp [sample] at hx
    simp
    omega
  · intro h
    simp only [List.mem_cons, Prod.mk.injEq, List.not_mem_nil, or_false] at h
    rcases h with ⟨rfl, rfl⟩ | ⟨rfl, rfl⟩ | ⟨rfl, rfl⟩ | ⟨rfl, rfl⟩ | ⟨rfl, rfl⟩
    · exact ⟨⟨1, by decide⟩, by decide⟩
    · exact ⟨⟨7, by decide⟩, by decide⟩
    · exact ⟨⟨4, by decide⟩, by decide⟩
    · exact ⟨⟨4, by decide⟩, by decide⟩
    · exact ⟨⟨4, by decide⟩, by decide⟩

theorem pair_ne {s o : Str} (h : s ≠ o) {a p a' p' : Nat} (hn : (a, p) ≠ (a', p')) : pair s o a p ≠ pair s o a' p' := by
  intro e
  have h1 := congrFun e s
  have h2 := congrFun e o
  rw [pair_s, pair_s] at h1
  rw [pair_o h, pair_o h] at h2
  cases h1; cases h2
  exact hn rfl

theorem world_asks (other : QTriple → List Sol) (vals : List Str → List Sol) : Asks (world other vals) sample 9 10 askT where
  isVar := by decide
  ne := by decide
  mem τ := by
    simp only [world, if_true]
    constructor
    · intro h
      simp only [List.mem_cons, List.not_mem_nil, or_false] at h
      rcases h with rfl | rfl | rfl | rfl | rfl <;> exact ⟨_, _, (sample_hp _ _).2 (by decide), rfl⟩
    · rintro ⟨a, p, h, rfl⟩
      rw [sample_hp] at h
      simp only [List.mem_cons, Prod.mk.injEq, List.not_mem_nil, or_false] at h
      rcases h with ⟨rfl, rfl⟩ | ⟨rfl, rfl⟩ | ⟨rfl, rfl⟩ | ⟨rfl, rfl⟩ | ⟨rfl, rfl⟩ <;> simp [askT, tri]
  nodup := by
    have hne : vs ≠ vp := by decide
    simp only [world, if_true]
    have : [pair vs vp 0 5, pair vs vp 1 5, pair vs vp 3 6, pair vs vp 4 7, pair vs vp 4 8] =
        [(0, 5), (1, 5), (3, 6), (4, 7), (4, 8)].map fun x => pair vs vp x.1 x.2 := rfl
    rw [this]
    refine List.pairwise_map.2 ?_
    have hd : [(0, 5), (1, 5), (3, 6), (4, 7), (4, 8)].Nodup := by decide
    exact hd.imp fun h => pair_ne hne h

def counts : Info := { selected := [vp, "?c".toList], groupBy := [vp], aliases := [⟨.count, vs, "?c".toList, false, "COUNT(?s) as ?c".toList, [' ']⟩] }

/-- `?s <p> ?y` -/
def otherT : QTriple := tri vs "<p>" vy

noncomputable def other (t : QTriple) : List Sol := if t = otherT then [pair vs vy 0 1, pair vs vy 0 2, pair vs vy 1 7] else []

theorem other_mem {t : QTriple} {μ : Sol} (h : μ ∈ other t) : t = otherT ∧ ∃ a b, μ = pair vs vy a b := by
  unfold other at h
  by_cases ht : t = otherT
  · rw [if_pos ht] at h
    simp only [List.mem_cons, List.not_mem_nil, or_false] at h
    rcases h with rfl | rfl | rfl <;> exact ⟨ht, _, _, rfl⟩
  · rw [if_neg ht] at h
    cases h

/-- `VALUES ?p { <x> }`, with 77 as the id of `<x>`. -/
noncomputable def vals (l : List Str) : List Sol := if l = [vp] then [fun v => if v = vp then some 77 else none] else []

theorem lawful : (world other vals).Lawful := by
  refine world_lawful ?_ ?_ ?_
  · intro t μ hμ v hv
    obtain ⟨rfl, a, b, rfl⟩ := other_mem hμ
    rcases pair_vars hv with rfl | rfl <;> simp [otherT, tri]
  · intro t μ hμ v hv hq
    obtain ⟨rfl, a, b, rfl⟩ := other_mem hμ
    simp only [otherT, tri, List.mem_cons, List.not_mem_nil, or_false] at hv
    rcases hv with rfl | rfl | rfl
    · simp [pair]
    · exact absurd hq (by decide)
    · simp [pair, vs, vy]
  · intro l μ hμ v hv
    unfold vals at hμ
    by_cases hl : l = [vp]
    · rw [if_pos hl, List.mem_singleton] at hμ
      subst hμ hl
      by_cases h : v = vp
      · simp [h]
      · simp [h] at hv
    · rw [if_neg hl] at hμ
      cases hμ

theorem basic_one (W : World) (t : QTriple) (Ω : List Sol) : evalOp W Ω (.basic [t]) = join Ω (W.triple t) := by
  rw [evalOp, List.foldl_cons, List.foldl_nil]

theorem basic_nil (W : World) (Ω : List Sol) : evalOp W Ω (.basic []) = Ω := by rw [evalOp, List.foldl_nil]

theorem values_one (W : World) (l : List Str) (r : List (List Str)) (Ω : List Sol) : evalOp W Ω (.values l r) = join Ω (W.values l r) := by
  rw [evalOp]

theorem other_world : (world other vals).triple otherT = [pair vs vy 0 1, pair vs vy 0 2, pair vs vy 1 7] := by
  have : otherT ≠ askT := by decide
  simp only [world, if_neg this, other, if_true]

theorem ask_world : (world other vals).triple askT = [pair vs vp 0 5, pair vs vp 1 5, pair vs vp 3 6, pair vs vp 4 7, pair vs vp 4 8] := by
  simp only [world, if_true]

/-- The plan for the rest: the subjects 0, 0 and 1. -/
def restRows : Rest := ⟨fun v => if v = vs then some 0 else none, [[0], [1], [0]]⟩

theorem gives_other {W : World} {g : Pattern} {f : Sol → Sol} (hf : ∀ μ, f μ vs = μ vs)
    (h : evalGroup W g = [f (pair vs vy 0 1), f (pair vs vy 0 2), f (pair vs vy 1 7)]) : Gives W vs g restRows := by
  refine ⟨0, rfl, ?_⟩
  rw [h]
  simp only [List.map_cons, List.map_nil, hf, pair_s, restRows, Option.getD_some]
  decide

/-- `{ ?s <p> ?y . ?s ql:has-predicate ?p }` -/
def query : List Op := [.basic [otherT, askT]]

theorem query_check : checkUse SparqlLexer.lower (.mk counts (.mk [] query)) = some (askT, .mk counts (.mk [] [.basic [otherT]])) := by
  have h' : usable counts [] [] [] otherT [askT] [] = false := by decide
  have h1 : counts.aliases.all (countAlias SparqlLexer.lower) = true := by decide
  simp only [checkUse, query, findChild, findTriple, h', h1]
  rfl

theorem query_rest : evalGroup (world other vals) (.mk [] [.basic [otherT]]) = [pair vs vy 0 1, pair vs vy 0 2, pair vs vy 1 7] := by
  rw [evalGroup, evalOps, evalOps, basic_one, join_unit, other_world]
  simp

theorem query_suited : Suited [] query askT where
  unchecked c hc hu := by
    simp only [query, List.mem_singleton] at hc
    subst hc
    exact absurd hu (by simp [Unchecked])
  keeps c hc := by
    simp only [query, List.mem_singleton] at hc
    subst hc
    trivial
  filters f hf := absurd hf List.not_mem_nil
  order before a b after h := by
    refine .inl ?_
    cases before with
    | cons x xs => simp [query] at h
    | nil =>
      simp only [query, List.nil_append, List.cons.injEq, Op.basic.injEq] at h
      cases a with
      | nil =>
        simp only [List.nil_append, List.cons.injEq] at h
        exact absurd h.1.1 (by decide)
      | cons x a =>
        simp only [List.cons_append, List.cons.injEq] at h
        exact ⟨x, by simp, by rw [← h.1.1]; decide⟩

/-- The hypotheses of `C70_trick_partial` can be met: the subjects 0 and 1 have the predicate 5. -/
theorem query_answer {ix : Index} (h : Correct ix sample 9 10) {vocab : Str → Option Nat} {o : Outcome (List (Nat × Nat))}
    (ho : Answer SparqlLexer.lower ix vocab (fun _ => restRows) (fun _ _ => true) (.mk counts (.mk [] query)) o) :
    ∃ rows, o = .ok rows ∧ (rows.map Prod.fst).Nodup ∧
      ∀ p n, (p, n) ∈ rows ↔ CountsDistinct (evalGroup (world other vals) (.mk [] query)) vp vs p n ∧ 0 < n ∧ true = true :=
  C70_trick_partial (rest := fun _ => restRows) h (by rw [Verif.Patterns.subject_iff]; decide) lawful query_check (world_asks _ _) query_suited
    (fun f hf => absurd hf List.not_mem_nil) (by decide)
    (.inr ⟨rfl, ⟨otherT, by decide, by decide⟩, gives_other (f := id) (fun _ => rfl) query_rest⟩) ho

/-- The hypothesis of `C70_chosen` can be met. -/
example : counts.groupBy = [vp] := (C70_chosen query_check).2.1

/-- There is such an answer. -/
example : ∃ ix o, Correct ix sample 9 10 ∧
    Answer SparqlLexer.lower ix (fun _ => none) (fun _ => restRows) (fun _ _ => true) (.mk counts (.mk [] query)) o := by
  obtain ⟨ix, h, _⟩ := sample_index
  obtain ⟨o, ho⟩ := C70_answered (vocab := fun _ => none) (rest := fun _ => restRows) (holds := fun _ _ => true) h
    (by rw [Verif.Patterns.subject_iff]; decide) query_check (by decide) (by decide) fun _ => ⟨0, rfl⟩
  exact ⟨ix, o, h, ho⟩

/-- The hypotheses of `C70_exact_partial` can be met: all subjects. -/
example {ix : Index} (h : Correct ix sample 9 10) {vocab : Str → Option Nat} {rest : Pattern → Rest} {o : Outcome (List (Nat × Nat))}
    (ho : Answer SparqlLexer.lower ix vocab rest (fun _ _ => true) (.mk counts (.mk [] [.basic [askT]])) o) :
    ∃ rows, o = .ok rows ∧ (rows.map Prod.fst).Nodup ∧ ∀ p n, (p, n) ∈ rows ↔
      n = counted (evalGroup (world other vals) (.mk [] [.basic [askT]])) vp p ∧ 0 < n ∧ true = true := by
  have hc : checkUse SparqlLexer.lower (.mk counts (.mk [] [.basic [askT]])) = some (askT, .mk counts (.mk [] [.basic []])) := by
    have h1 : counts.aliases.all (countAlias SparqlLexer.lower) = true := by decide
    simp only [checkUse, findChild, findTriple, h1]
    rfl
  refine C70_exact_partial (rest := rest) h (by rw [Verif.Patterns.subject_iff]; decide) lawful hc (world_asks _ _) ⟨?_, ?_, ?_, ?_⟩
    (fun f hf => absurd hf List.not_mem_nil) (by decide) (.inl ⟨rfl, rfl⟩) ?_ ho
  · intro c hc hu
    simp only [List.mem_singleton] at hc
    subst hc
    exact absurd hu (by simp [Unchecked])
  · intro c hc
    simp only [List.mem_singleton] at hc
    subst hc
    trivial
  · exact fun f hf => absurd hf List.not_mem_nil
  · intro before a b after h
    refine .inr ?_
    cases before with
    | cons x xs => simp at h
    | nil =>
      simp only [List.nil_append, List.cons.injEq] at h
      rw [← h.2]
      exact fun c hc => absurd hc List.not_mem_nil
  · rw [evalGroup, evalOps, evalOps, basic_nil]
    simp

/-- `<a> ql:has-predicate ?p` -/
def constT : QTriple := tri "<a>".toList "<QLever-internal-function/has-predicate>" vp

/-- The hypotheses of `C70_constant_partial` can be met: the entity 4. -/
example {ix : Index} (h : Correct ix sample 9 10) {rest : Pattern → Rest} {o : Outcome (List (Nat × Nat))} (W : World)
    (hW : W.triple constT = [fun v => if v = vp then some 7 else none, fun v => if v = vp then some 8 else none])
    (ho : Answer SparqlLexer.lower ix (fun _ => some 4) rest (fun _ _ => true) (.mk { counts with aliases := [⟨.count, vp, "?c".toList, false, "COUNT(?p) as ?c".toList, [' ']⟩] } (.mk [] [.basic [constT]])) o) :
    ∃ rows, o = .ok rows ∧ (rows.map Prod.fst).Nodup ∧ ∀ p n, (p, n) ∈ rows ↔
      n = counted (evalGroup W (.mk [] [.basic [constT]])) vp p ∧ 0 < n ∧ true = true := by
  have hc : checkUse SparqlLexer.lower (.mk { counts with aliases := [⟨.count, vp, "?c".toList, false, "COUNT(?p) as ?c".toList, [' ']⟩] } (.mk [] [.basic [constT]])) =
      some (constT, .mk { counts with aliases := [⟨.count, vp, "?c".toList, false, "COUNT(?p) as ?c".toList, [' ']⟩] } (.mk [] [.basic []])) := by
    have h1 : [(⟨.count, vp, "?c".toList, false, "COUNT(?p) as ?c".toList, [' ']⟩ : Alias)].all (countAlias SparqlLexer.lower) = true := by decide
    simp only [checkUse, findChild, findTriple, h1]
    rfl
  refine C70_constant_partial (vocab := fun _ => some 4) (rest := rest) h (by rw [Verif.Patterns.subject_iff]; decide) hc (by decide) ?_ ?_ (by decide) ho
  · intro τ
    rw [hW]
    simp only [List.mem_cons, List.not_mem_nil, or_false, sample_hp]
    constructor
    · rintro (rfl | rfl)
      · exact ⟨4, 7, rfl, by simp, rfl⟩
      · exact ⟨4, 8, rfl, by simp, rfl⟩
    · rintro ⟨a, p, ha, hp, rfl⟩
      cases ha
      simp at hp
      rcases hp with rfl | rfl
      · exact .inl rfl
      · exact .inr rfl
  · rw [hW]
    refine List.nodup_cons.2 ⟨fun hm => ?_, by simp⟩
    rw [List.mem_singleton] at hm
    have := congrFun hm vp
    simp at this

/-- `COUNT(?s)` counts a subject once, however many solutions it has: for `SELECT ?p (COUNT(?s) AS ?c) WHERE { ?s <p> ?y .
?s ql:has-predicate ?p } GROUP BY ?p` there are 3 solutions with the predicate 5, but the answer is 2. -/
theorem C70_distinct_wrong {ix : Index} (h : Correct ix sample 9 10) {vocab : Str → Option Nat} {o : Outcome (List (Nat × Nat))}
    (ho : Answer SparqlLexer.lower ix vocab (fun _ => restRows) (fun _ _ => true) (.mk counts (.mk [] query)) o) :
    counted (evalGroup (world other vals) (.mk [] query)) vp 5 = 3 ∧ ∃ rows, o = .ok rows ∧ ∀ n, (5, n) ∈ rows ↔ n = 2 := by
  have hA := world_asks other vals
  obtain ⟨hp, hfree, _, _⟩ := eval_check lawful query_check (asks_vars hA) hA.isVar query_suited
  rw [query_rest] at hp hfree
  have hb : Bound vs [pair vs vy 0 1, pair vs vy 0 2, pair vs vy 1 7] := by
    intro μ hμ
    simp only [List.mem_cons, List.not_mem_nil, or_false] at hμ
    rcases hμ with rfl | rfl | rfl <;> simp [pair]
  have hp' : (evalGroup (world other vals) (.mk [] query)).Perm
      (join [pair vs vy 0 1, pair vs vy 0 2, pair vs vy 1 7] ((world other vals).triple askT)) := by simpa using hp
  refine ⟨?_, ?_⟩
  · have : counted (evalGroup (world other vals) (.mk [] query)) vp 5 = _ := (hp'.filter _).length_eq
    rw [this]
    refine (counted_join hA hfree hb 5).trans ?_
    rw [List.filter_eq_self.2]
    · rfl
    · intro μ hμ
      simp only [List.mem_cons, List.not_mem_nil, or_false] at hμ
      refine @decide_eq_true _ (propDecidable _) ?_
      rcases hμ with rfl | rfl | rfl
      · exact ⟨0, pair_s _ _ _ _, (sample_hp _ _).2 (by decide)⟩
      · exact ⟨0, pair_s _ _ _ _, (sample_hp _ _).2 (by decide)⟩
      · exact ⟨1, pair_s _ _ _ _, (sample_hp _ _).2 (by decide)⟩
  · obtain ⟨rows, h1, _, h3⟩ := query_answer h ho
    refine ⟨rows, h1, fun n => ?_⟩
    rw [h3]
    have hmem : ∀ a, a ∈ [0, 1] ↔ ∃ μ ∈ evalGroup (world other vals) (.mk [] query), μ vp = some 5 ∧ μ vs = some a := by
      intro a
      have e : (∃ μ ∈ evalGroup (world other vals) (.mk [] query), μ vp = some 5 ∧ μ vs = some a) ↔ _ :=
        (exists_congr fun μ => and_congr_left' hp.mem_iff).trans (subjects_of hA hfree (.inl hb) _ a 5)
      rw [e, sample_hp]
      constructor
      · intro ha
        simp only [List.mem_cons, List.not_mem_nil, or_false] at ha
        rcases ha with rfl | rfl
        · exact ⟨by decide, pair vs vy 0 1, by simp, .inl rfl, rfl⟩
        · exact ⟨by decide, pair vs vy 1 7, by simp, .inl rfl, rfl⟩
      · rintro ⟨ha, _⟩
        simp at ha ⊢
        omega
    constructor
    · rintro ⟨⟨D, hD, rfl, hD2⟩, _⟩
      have : D.Perm [0, 1] := (List.perm_ext_iff_of_nodup hD (by decide)).2 fun a => by rw [hD2, hmem]
      exact this.length_eq
    · rintro rfl
      exact ⟨⟨[0, 1], by decide, rfl, hmem⟩, by decide, rfl⟩

/-- A query without `COUNT` that has other triples: the name of a count that does not exist is read. -/
theorem C70_no_count_ub {low : Char → Char} {q : Query} {t : QTriple} {info' : Info} {fs' : List Filter} {cs' : List Op} {ix : Index}
    {vocab : Str → Option Nat} {rest : Pattern → Rest} {holds : Filter → Nat × Nat → Bool} {o : Outcome (List (Nat × Nat))}
    (hc : checkUse low q = some (t, .mk info' (.mk fs' cs'))) (hal : info'.aliases = []) (hn : noPlan cs' = false) {c : Nat}
    (hcol : (rest (.mk fs' cs')).column t.s = some c) (h : Answer low ix vocab rest holds q o) : o = .ub := by
  obtain ⟨_, _, _, _, o', hc2, hrow, rfl⟩ := h
  rw [hc] at hc2
  cases hc2
  rw [hn, if_neg (by simp)] at hrow
  unfold Row at hrow
  simp only [hcol, if_pos hal] at hrow
  rw [hrow]
  rfl

/-- A plan for the rest without the subject: an exception. -/
theorem C70_no_subject_throws {low : Char → Char} {q : Query} {t : QTriple} {info' : Info} {fs' : List Filter} {cs' : List Op} {ix : Index}
    {vocab : Str → Option Nat} {rest : Pattern → Rest} {holds : Filter → Nat × Nat → Bool} {o : Outcome (List (Nat × Nat))}
    (hc : checkUse low q = some (t, .mk info' (.mk fs' cs'))) (hn : noPlan cs' = false)
    (hcol : (rest (.mk fs' cs')).column t.s = none) (h : Answer low ix vocab rest holds q o) : o = .throw := by
  obtain ⟨_, _, _, _, o', hc2, hrow, rfl⟩ := h
  rw [hc] at hc2
  cases hc2
  rw [hn, if_neg (by simp)] at hrow
  unfold Row at hrow
  simp only [hcol] at hrow
  rw [hrow]
  rfl

/-- What the check says about the text of a query: the triple, the number of counts, and whether something is left. -/
def checked (s : String) : Option (Str × Str × Nat × Bool) :=
  match Prefixes.demo s with
  | .ok q => (checkUse SparqlLexer.lower q).map fun r => (r.1.s, r.1.o, r.2.info.aliases.length, match r.2 with | .mk _ (.mk _ cs) => !noPlan cs)
  | _ => none

/-- Texts for which `C70_no_count_ub` and `C70_no_subject_throws` apply, and for the queries below; `COUNT(DISTINCT ?s)`, which is what is
computed, is not taken. -/
theorem C70_texts :
    checked "SELECT ?p WHERE { ?s <p> ?y . ?s ql:has-predicate ?p } GROUP BY ?p" = some (vs, vp, 0, true) ∧
    checked "SELECT ?p (COUNT(?p) AS ?c) WHERE { <a> ql:has-predicate ?p . ?x <q> ?y } GROUP BY ?p" = some ("<a>".toList, vp, 1, true) ∧
    checked "SELECT ?p (COUNT(?s) AS ?c) WHERE { ?s <p> ?y . ?s ql:has-predicate ?p } GROUP BY ?p" = some (vs, vp, 1, true) ∧
    checked "SELECT ?p (COUNT(?s) AS ?c) WHERE { ?s ql:has-predicate ?p } GROUP BY ?p" = some (vs, vp, 1, false) ∧
    checked "SELECT ?p (COUNT(?s) AS ?c) WHERE { ?s <p> ?y . VALUES ?p { <x> } ?s ql:has-predicate ?p } GROUP BY ?p" = some (vs, vp, 1, true) ∧
    checked "SELECT ?p (COUNT(?s) AS ?c) WHERE { ?s ql:has-predicate ?p . OPTIONAL { ?s <p> ?y } } GROUP BY ?p" = some (vs, vp, 1, true) ∧
    checked "SELECT ?p (COUNT(DISTINCT ?s) AS ?c) WHERE { ?s <p> ?y . ?s ql:has-predicate ?p } GROUP BY ?p" = none := by
  refine ⟨?_, ?_, ?_, ?_, ?_, ?_, ?_⟩ <;> decide +kernel

/-- `{ ?s <p> ?y . VALUES ?p { <x> } ?s ql:has-predicate ?p }` -/
def valuesQuery : List Op := [.basic [otherT], .values [vp] [["<x>".toList]], .basic [askT]]

/-- The values for the predicate are ignored: no solution has the predicate 5, but it is counted. -/
theorem C70_values_wrong {ix : Index} (h : Correct ix sample 9 10) {vocab : Str → Option Nat} {o : Outcome (List (Nat × Nat))}
    (ho : Answer SparqlLexer.lower ix vocab (fun _ => restRows) (fun _ _ => true) (.mk counts (.mk [] valuesQuery)) o) :
    Gives (world other vals) vs (.mk [] [.basic [otherT], .values [vp] [["<x>".toList]], .basic []]) restRows ∧
    (∀ μ ∈ evalGroup (world other vals) (.mk [] valuesQuery), μ vp = some 77) ∧ ∃ rows, o = .ok rows ∧ (5, 2) ∈ rows := by
  have hjoin : join [pair vs vy 0 1, pair vs vy 0 2, pair vs vy 1 7] ((world other vals).values [vp] [["<x>".toList]]) =
      [pair vs vy 0 1, pair vs vy 0 2, pair vs vy 1 7].map fun μ v => (μ v).or (if v = vp then some 77 else none) := by
    have hc : ∀ a b, Compat (pair vs vy a b) fun v => if v = vp then some 77 else none := by
      intro a b v
      by_cases hv : v = vp
      · subst hv
        exact .inl (by simp [pair, vs, vp, vy])
      · exact .inr (.inl (by simp [hv]))
    simp only [world, vals, if_true, join, matching, List.flatMap_cons, List.flatMap_nil, List.filter_cons, List.filter_nil, hc, decide_true,
      List.map_cons, List.map_nil, List.append_nil, List.singleton_append]
    rfl
  have hrest : evalGroup (world other vals) (.mk [] [.basic [otherT], .values [vp] [["<x>".toList]], .basic []]) =
      [pair vs vy 0 1, pair vs vy 0 2, pair vs vy 1 7].map fun μ v => (μ v).or (if v = vp then some 77 else none) := by
    rw [evalGroup, evalOps, evalOps, evalOps, evalOps, basic_nil, values_one, basic_one, join_unit, other_world, hjoin]
    simp
  have hG : Gives (world other vals) vs (.mk [] [.basic [otherT], .values [vp] [["<x>".toList]], .basic []]) restRows :=
    gives_other (f := fun μ v => (μ v).or (if v = vp then some 77 else none)) (fun μ => by simp [vs, vp]) hrest
  refine ⟨hG, ?_, ?_⟩
  · intro μ hμ
    rw [valuesQuery, evalGroup, evalOps, evalOps, evalOps, evalOps, basic_one, values_one, basic_one, join_unit, other_world, hjoin] at hμ
    obtain ⟨ρ, hρ, τ, _, _, rfl⟩ := mem_join.1 (List.mem_filter.1 hμ).1
    obtain ⟨ν, hν, rfl⟩ := List.mem_map.1 hρ
    simp only [List.mem_cons, List.not_mem_nil, or_false] at hν
    rcases hν with rfl | rfl | rfl <;> simp [merge, pair, vs, vp, vy]
  · obtain ⟨_, _, _, _, o', hc2, hrow, rfl⟩ := ho
    have hc : checkUse SparqlLexer.lower (.mk counts (.mk [] valuesQuery)) =
        some (askT, .mk counts (.mk [] [.basic [otherT], .values [vp] [["<x>".toList]], .basic []])) := by
      have h : usable counts [] [.basic [otherT], .values [vp] [["<x>".toList]]] [] askT [] [] = true := by decide
      have h' : usable counts [] [] [] otherT [] [.values [vp] [["<x>".toList]], .basic [askT]] = false := by decide
      have h1 : counts.aliases.all (countAlias SparqlLexer.lower) = true := by decide
      simp only [checkUse, valuesQuery, findChild, findTriple, List.nil_append, List.cons_append, h, h', h1]
      rfl
    rw [hc] at hc2
    cases hc2
    have hn : noPlan [.basic [otherT], .values [vp] [["<x>".toList]], .basic []] = false := rfl
    obtain ⟨_, rows, rfl, _, h3⟩ := row_spec (fs' := []) (rest := fun _ => restRows) h (by rw [Verif.Patterns.subject_iff]; decide) lawful (by decide) (by decide)
      (by intro c hc; simp only [List.mem_cons, List.not_mem_nil, or_false] at hc; rcases hc with rfl | rfl | rfl <;> trivial)
      (.inr ⟨hn, ⟨otherT, by decide, by decide⟩, hG⟩) hrow
    refine ⟨_, rfl, List.mem_filter.2 ⟨(h3 5 [0, 1] (by decide) ?_ 2).2 (by decide), by rfl⟩⟩
    intro a
    rw [hrest, sample_hp]
    constructor
    · intro ha
      simp only [List.mem_cons, List.not_mem_nil, or_false] at ha
      rcases ha with rfl | rfl
      · exact ⟨by decide, _, List.mem_map.2 ⟨pair vs vy 0 1, by simp, rfl⟩, .inl rfl⟩
      · exact ⟨by decide, _, List.mem_map.2 ⟨pair vs vy 1 7, by simp, rfl⟩, .inl rfl⟩
    · rintro ⟨ha, _⟩
      simp at ha ⊢
      omega

/-- `{ ?s ql:has-predicate ?p . OPTIONAL { ?s <p> ?y } }` -/
def optionalQuery : List Op := [.basic [askT], .optional (.mk [] [.basic [otherT]])]

/-- If the subject occurs in an `OPTIONAL` behind the triple, only the subjects with the optional part are counted: there is a solution
with the predicate 6, but it is not in the answer. -/
theorem C70_optional_wrong {ix : Index} (h : Correct ix sample 9 10) {vocab : Str → Option Nat} {o : Outcome (List (Nat × Nat))}
    (ho : Answer SparqlLexer.lower ix vocab (fun _ => restRows) (fun _ _ => true) (.mk counts (.mk [] optionalQuery)) o) :
    Gives (world other vals) vs (.mk [] [.basic [], .optional (.mk [] [.basic [otherT]])]) restRows ∧
    (∃ μ ∈ evalGroup (world other vals) (.mk [] optionalQuery), μ vp = some 6) ∧ ∃ rows, o = .ok rows ∧ ∀ n, (6, n) ∉ rows := by
  have hrest : evalGroup (world other vals) (.mk [] [.basic [], .optional (.mk [] [.basic [otherT]])]) =
      [pair vs vy 0 1, pair vs vy 0 2, pair vs vy 1 7] := by
    have hu : matching (fun _ => none) [pair vs vy 0 1, pair vs vy 0 2, pair vs vy 1 7] = [pair vs vy 0 1, pair vs vy 0 2, pair vs vy 1 7] := by
      have := join_unit [pair vs vy 0 1, pair vs vy 0 2, pair vs vy 1 7]
      unfold join at this
      simpa using this
    rw [evalGroup, evalOps, evalOps, evalOps, evalOp, evalOp, query_rest, List.foldl_nil]
    unfold leftJoin
    rw [List.flatMap_cons, List.flatMap_nil, hu, if_neg (by simp)]
    simp
  have hG : Gives (world other vals) vs (.mk [] [.basic [], .optional (.mk [] [.basic [otherT]])]) restRows :=
    gives_other (f := id) (fun _ => rfl) hrest
  refine ⟨hG, ⟨pair vs vp 3 6, ?_, by simp [pair, vs, vp]⟩, ?_⟩
  · rw [optionalQuery, evalGroup, evalOps, evalOps, evalOps, basic_one, join_unit, ask_world, evalOp, query_rest]
    refine List.mem_filter.2 ⟨List.mem_flatMap.2 ⟨pair vs vp 3 6, by simp, ?_⟩, by simp⟩
    rw [if_pos]
    · simp
    · rw [List.eq_nil_iff_forall_not_mem]
      intro μ hμ
      obtain ⟨φ, hφ, hc, _⟩ := mem_matching.1 hμ
      have := hc vs
      simp only [List.mem_cons, List.not_mem_nil, or_false] at hφ
      rcases hφ with rfl | rfl | rfl <;> simp [pair_s] at this
  · obtain ⟨_, _, _, _, o', hc2, hrow, rfl⟩ := ho
    have hc : checkUse SparqlLexer.lower (.mk counts (.mk [] optionalQuery)) =
        some (askT, .mk counts (.mk [] [.basic [], .optional (.mk [] [.basic [otherT]])])) := by
      have h : usable counts [] [] [] askT [] [.optional (.mk [] [.basic [otherT]])] = true := by decide
      have h1 : counts.aliases.all (countAlias SparqlLexer.lower) = true := by decide
      simp only [checkUse, optionalQuery, findChild, findTriple, h, h1]
      rfl
    rw [hc] at hc2
    cases hc2
    have hn : noPlan [.basic [], .optional (.mk [] [.basic [otherT]])] = false := rfl
    rw [hn, if_neg (by simp)] at hrow
    have hcol : restRows.column askT.s = some 0 := rfl
    have hal : counts.aliases ≠ [] := by decide
    unfold Row at hrow
    simp only [hcol, if_neg hal] at hrow
    obtain ⟨rows', hp, hsort, htr⟩ := hrow
    obtain ⟨rows, rfl, _, h3⟩ := (C33_counts h (by rw [Verif.Patterns.subject_iff]; decide) _ (grouped_of_sorted hsort)).2 _ htr
    refine ⟨_, rfl, fun n hmem => ?_⟩
    have := (h3 6 [] (by decide) (fun a => by
      rw [(hp.map _).mem_iff, sample_hp]
      simp [restRows]
      omega) n).1 (List.mem_filter.1 hmem).1
    simp at this
    omega

end Examples

end Verif.PatternTrick
