import Verif.Model.Permutation
/-
Specification of scans on permutations.
-/
namespace Verif.PermutationSpec
open Verif.Permutation

/-- The order of the components in a permutation, e.g. `pso`: predicate, subject, object. -/
def comps : Name → Triple → Nat × Nat × Nat
  | .pso, t => (t.p, t.s, t.o)
  | .pos, t => (t.p, t.o, t.s)
  | .spo, t => (t.s, t.p, t.o)
  | .sop, t => (t.s, t.o, t.p)
  | .osp, t => (t.o, t.s, t.p)
  | .ops, t => (t.o, t.p, t.s)

/-- Strictly before in the order of pairs. -/
def Before (a b : Pair) : Prop := a.1 < b.1 ∨ (a.1 = b.1 ∧ a.2 < b.2)

/-- The pairs for a first key: each exactly once, in order. -/
def IsScan (n : Name) (triples : List Triple) (key : Nat) (res : List Pair) : Prop :=
  res.Pairwise Before ∧ ∀ p, p ∈ res ↔ ∃ t ∈ triples, comps n t = (key, p.1, p.2)

/-- The third components for two keys: each exactly once, in order. -/
def IsScan2 (n : Name) (triples : List Triple) (key1 key2 : Nat) (res : List Nat) : Prop :=
  res.Pairwise (· < ·) ∧ ∀ z, z ∈ res ↔ ∃ t ∈ triples, comps n t = (key1, key2, z)

/-- Relations (given by their pairs) that are stored with a block index: more than 20000 pairs, and some left hand side occurs twice. -/
def Blocked (data : List Pair) : Prop := 20000 < data.length ∧ ¬ (data.map Prod.fst).Nodup

/-- A second key `k2` that does not occur, in a relation with a block index, such that the number of distinct second keys below
`k2` is positive and is the number of all of them or a multiple of the block size: all second keys in the block in which `k2`
belongs are smaller. -/
def Gap (data : List Pair) (k2 : Nat) : Prop :=
  Blocked data ∧ k2 ∉ data.map Prod.fst ∧
    let k := ((data.map Prod.fst).filter fun x => decide (x < k2)).eraseDups.length
    0 < k ∧ (k = (data.map Prod.fst).eraseDups.length ∨ k % 10000 = 0)

end Verif.PermutationSpec
