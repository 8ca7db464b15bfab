import Verif.Lemmas.CacheKeySame
import Verif.Spec.CacheKey
/-
C40: Two operations with the same cache key compute the same table.

Proved for plans made of scans, joins on one, two or several columns, sorts, has-predicate scans and transitive paths between variables
or fixed ends, with words that can be told apart in the key (`C40_partial`). For other operations the key leaves out members that the
result depends on; each such member gives two plans with the same key and different results.
-/
namespace Verif.CacheKey
open Outcome

/-- The keys of two operations are the same only if the operations differ at most in the members that `strip` drops. -/
theorem C40_key_determines {a b : Op} (wa : WF a) (wb : WF b) (h : cacheKey a = cacheKey b) : strip a = strip b := key_inj wa wb h

/-- Without the operations whose key leaves out members: the same key if and only if the same operation, up to the choice between the two
ways to sort by one ascending column. -/
theorem C40_same_operation {a b : Op} (wa : WF a) (wb : WF b) (ca : Complete a) (cb : Complete b) :
    cacheKey a = cacheKey b ↔ loosen a = loosen b := by
  constructor
  · intro h
    exact loosen_of_strip a b ca cb (key_inj wa wb h)
  · intro h
    unfold cacheKey
    rw [← key_loosen a 0, h, key_loosen b 0]

/-- A result of one operation is a correct result of the other: rows that agree on the column of a sort by one ascending column may come in
any order. -/
theorem C40_partial {a b : Op} (wa : WF a) (wb : WF b) (ca : Complete a) (cb : Complete b) (h : cacheKey a = cacheKey b) (env : Env)
    {t : Table} (ht : Computes env a (.ok t)) : Computes env (loosen b) (.ok t) := by
  rw [← (C40_same_operation wa wb ca cb).mp h]
  exact computes_loosen env a ca t ht

/-! ### Examples -/

def w (s : String) : Word := s.toList

/-- Numbers as a stand-in for floats. -/
def floats : GroupBy.Env Nat where
  zero := 0
  nan := 1000
  lowest := 0
  highest := 100
  add := (· + ·)
  divBy := fun x n => x / n
  lt := fun x y => decide (x < y)
  ofId := fun n => n
  ofBits := fun n => n
  toBits := fun n => n
  word := fun _ => []
  isFloatWord := fun _ => false
  wordToFloat := fun _ => 7
  isValueWord := fun _ => false
  wordToLiteral := fun s => s
  excerpt := fun _ => []
  showId := fun _ => []
  showFloat := fun _ => []
  localWord := fun _ => []

/-- `<p>` and `<q>` with a few triples; everything else is empty. Entity 1 has the predicate 8, no other entity has a predicate. -/
def demo : Env where
  fuel := 1000
  scan
    | .psoFreeS x => if x = w "<p>" then .ok [[1, 5], [1, 6], [5, 1]] else if x = w "<q>" then .ok [[1, 5], [2, 5]] else .ok []
    | _ => .ok []
  fullJoin _ _ _ _ := .ok []
  filterFixed _ _ _ _ t := .ok t
  index := ⟨[Patterns.NO_PATTERN, 0], ⟨[], 0, 0, 0⟩, ⟨List.replicate 8 0 ++ [1, 0, 0, 0, 0, 0, 0, 0, 8, 0, 0, 0, 0, 0, 0, 0], 1, 16, 24⟩, 1⟩
  hasPredicateFreeS _ := .ok []
  hasPredicateFreeO _ := .ok []
  F := Nat
  float := floats
  iter _ l := l

def p : Op := .scan (.psoFreeS (w "<p>"))
def q : Op := .scan (.psoFreeS (w "<q>"))

/-- Both operations have words that can be told apart, the same key, and different results. -/
def Collide (a b : Op) : Prop := WF a ∧ WF b ∧ cacheKey a = cacheKey b ∧ ∃ t, Computes demo a (.ok t) ∧ ¬ Computes demo b (.ok t)

theorem wf_p : WF p := by simp only [p, WF, Scan.WF, w]; decide
theorem wf_q : WF q := by simp only [q, WF, Scan.WF, w]; decide

theorem demo_p (o : Outcome Table) : Computes demo p o ↔ o = .ok [[1, 5], [1, 6], [5, 1]] := by
  show o = demo.scan _ ↔ _
  rw [show demo.scan (.psoFreeS (w "<p>")) = .ok [[1, 5], [1, 6], [5, 1]] by decide]

theorem demo_q (o : Outcome Table) : Computes demo q o ↔ o = .ok [[1, 5], [2, 5]] := by
  show o = demo.scan _ ↔ _
  rw [show demo.scan (.psoFreeS (w "<q>")) = .ok [[1, 5], [2, 5]] by decide]

/-- A plan with two joins and a sort meets the hypotheses of `C40_partial` together with one that sorts with `OrderBy`. -/
example :
    let a := Op.join (.sort (.join p 0 q 0) 1) 1 (.scan (.psoBoundS (w "<p>") (w "<s>"))) 0
    let b := Op.join (.orderBy (.join p 0 q 0) [(1, false)]) 1 (.scan (.psoBoundS (w "<p>") (w "<s>"))) 0
    WF a ∧ WF b ∧ Complete a ∧ Complete b ∧ cacheKey a = cacheKey b ∧ a ≠ b := by
  refine ⟨?_, ?_, ?_, ?_, ?_, ?_⟩
  · simp only [WF, Scan.WF, p, q, w]; decide
  · simp only [WF, Scan.WF, p, q, w]; decide
  · simp only [Complete, p, q]; decide
  · simp only [Complete, p, q]; decide
  · decide +kernel
  · decide +kernel

/-- Two plans without the same key. -/
example : cacheKey (.join p 0 q 0) ≠ cacheKey (.join p 0 q 1) := by decide +kernel

/-! ### Members that the keys leave out -/

/-- `SELECT DISTINCT ?x` and `SELECT DISTINCT ?x ?y` over `?x <p> ?y`: the columns are not in the key. -/
theorem C40_distinct_violated : Collide (.distinct p [0]) (.distinct p [0, 1]) := by
  refine ⟨wf_p, wf_p, by decide +kernel, [[1, 5], [5, 1]], ⟨_, (demo_p _).mpr rfl, by decide +kernel⟩, ?_⟩
  rintro ⟨t, ht, e⟩
  rw [demo_p] at ht
  subst ht
  exact absurd e (by decide +kernel)

/-- `{ ?x <p> ?y } UNION { ?x <q> ?y }` and `{ ?x <p> ?y } UNION { ?y <q> ?x }`: the matching of the columns is not in the key. -/
theorem C40_union_violated : Collide (.union p q [(some 0, some 0), (some 1, some 1)]) (.union p q [(some 0, some 1), (some 1, some 0)]) := by
  refine ⟨⟨wf_p, wf_q⟩, ⟨wf_p, wf_q⟩, by decide +kernel, [[1, 5], [1, 6], [5, 1], [1, 5], [2, 5]], ⟨_, _, (demo_p _).mpr rfl, (demo_q _).mpr rfl, by decide +kernel⟩, ?_⟩
  rintro ⟨t, u, ht, hu, e⟩
  rw [demo_p] at ht
  rw [demo_q] at hu
  subst ht hu
  exact absurd e (by decide +kernel)

/-- `?x <p> ?y FILTER(?x < ?y)` and `?y <p> ?x FILTER(?x < ?y)`: the key has the names of the variables and not their columns. -/
theorem C40_filter_violated : Collide (.filter p (.cmp .lt) false (w "?x") (w "?y") 0 (some 1)) (.filter p (.cmp .lt) false (w "?x") (w "?y") 1 (some 0)) := by
  refine ⟨⟨wf_p, by decide⟩, ⟨wf_p, by decide⟩, by decide +kernel, [[1, 5], [1, 6]], ⟨_, (demo_p _).mpr rfl, by decide +kernel⟩, ?_⟩
  rintro ⟨t, ht, e⟩
  rw [demo_p] at ht
  subst ht
  exact absurd e (by decide +kernel)

/-- `{ ?x <p> ?y } MINUS { ?x <q> ?z }` and `{ ?x <p> ?y } MINUS { ?x <q> ?y }`: the matched columns are not in the key. -/
theorem C40_minus_violated : Collide (.minus p q [(0, 0)]) (.minus p q [(0, 0), (1, 1)]) := by
  refine ⟨⟨wf_p, wf_q⟩, ⟨wf_p, wf_q⟩, by decide +kernel, [[5, 1]], ⟨_, _, (demo_p _).mpr rfl, (demo_q _).mpr rfl, by decide +kernel⟩, ?_⟩
  rintro ⟨t, u, ht, hu, e⟩
  rw [demo_p] at ht
  rw [demo_q] at hu
  subst ht hu
  exact absurd e (by decide +kernel)

/-- `{ ?x <p> ?y OPTIONAL { ?x <q> ?z } }` and `{ ?x <q> ?z OPTIONAL { ?x <p> ?y } }`: the constructor puts the sides into the order of their keys,
and which side is optional is not in the key. -/
theorem C40_optional_violated : Collide (mkOptionalJoin p false q true [(0, 0)]) (mkOptionalJoin q false p true [(0, 0)]) := by
  have e1 : mkOptionalJoin p false q true [(0, 0)] = .optionalJoin p q false true [(0, 0)] := by decide +kernel
  have e2 : mkOptionalJoin q false p true [(0, 0)] = .optionalJoin p q true false [(0, 0)] := by decide +kernel
  rw [e1, e2]
  refine ⟨⟨wf_p, wf_q⟩, ⟨wf_p, wf_q⟩, by decide +kernel, [[1, 5, 5], [1, 6, 5], [5, 1, ID_NO_VALUE]],
    ⟨_, _, (demo_p _).mpr rfl, (demo_q _).mpr rfl, by decide +kernel⟩, ?_⟩
  rintro ⟨t, u, ht, hu, e⟩
  rw [demo_p] at ht
  rw [demo_q] at hu
  subst ht hu
  exact absurd e (by decide +kernel)

/-- `?x <p> ?y . ?x ql:has-predicate ?z` and `?x <p> ?y . ?y ql:has-predicate ?z`: the column of the subject is not in the key. -/
theorem C40_hasPredicate_violated : Collide (.hasPredicateSub p 0) (.hasPredicateSub p 1) := by
  refine ⟨wf_p, wf_p, by decide +kernel, [[1, 5, 8], [1, 6, 8]], ⟨_, (demo_p _).mpr rfl, by decide +kernel⟩, ?_⟩
  rintro ⟨t, ht, e⟩
  rw [demo_p] at ht
  subst ht
  exact absurd e (by decide +kernel)

/-- `SELECT ?x (COUNT(?x) AS ?c)` and `SELECT ?x (COUNT(DISTINCT ?x) AS ?c)`, both grouped by `?x`: DISTINCT is not in the key. -/
theorem C40_groupBy_violated : Collide (.groupBy p [(0, 0)] [⟨.count, 0, 1, [], false⟩]) (.groupBy p [(0, 0)] [⟨.count, 0, 1, [], true⟩]) := by
  refine ⟨⟨wf_p, by decide⟩, ⟨wf_p, by decide⟩, by decide +kernel, [[1, 2], [5, 1]], ⟨_, (demo_p _).mpr rfl, by decide +kernel⟩, ?_⟩
  rintro ⟨t, ht, e⟩
  rw [demo_p] at ht
  subst ht
  exact absurd e (by decide +kernel)

/-- `?x <q> ?y . ?x <p>+ ?z` and `?x <q> ?y . ?y <p>+ ?z`: the column of the left side is not in the key. -/
theorem C40_path_violated : Collide (.transitivePathLeft p q 0 0 1 none 1 100) (.transitivePathLeft p q 1 0 1 none 1 100) := by
  refine ⟨⟨wf_p, wf_q⟩, ⟨wf_p, wf_q⟩, by decide +kernel, [[1, 5, 5], [1, 1, 5], [1, 6, 5]],
    ⟨_, _, (demo_p _).mpr rfl, (demo_q _).mpr rfl, by decide +kernel⟩, ?_⟩
  rintro ⟨t, u, ht, hu, e⟩
  rw [demo_p] at ht
  rw [demo_q] at hu
  subst ht hu
  exact absurd e (by decide +kernel)

/-- `FILTER regex(?x, "ignoring case a")` and `FILTER regex(?x, "a", "i")` have the same key. -/
theorem C40_regex_violated : cacheKey (.filter p (.regex false) false (w "?x") (w "ignoring case a") 0 none) =
    cacheKey (.filter p (.regex true) false (w "?x") (w "a") 0 none) := by decide +kernel

/-- C40 is violated. -/
theorem C40_violated : ¬ ∀ a b, WF a → WF b → cacheKey a = cacheKey b → ∀ env t, Computes env a (.ok t) → Computes env b (.ok t) := by
  intro h
  obtain ⟨wa, wb, hk, t, h1, h2⟩ := C40_distinct_violated
  exact h2 (h _ _ wa wb hk demo t h1)

end Verif.CacheKey
