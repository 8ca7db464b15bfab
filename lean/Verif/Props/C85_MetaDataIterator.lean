import Verif.Model.MetaDataIterator
import Verif.Lemmas.MetaData
/-
C85: Adding patterns to an existing index sees every triple of the permutation exactly once and then ends.
-/
namespace Verif.MetaDataIterator
open Verif.Bytes Verif.MetaData

/-- Specification: the bytes of a relation in a permutation -/
def relation (ps : List (Nat × Nat)) : List Nat := ps.flatMap fun p => toLE 8 p.1 ++ toLE 8 p.2

/-- Specification: the file has the pairs `ps` where the meta data `m` says. -/
structure Stored (file : List Nat) (m : Full) (ps : List (Nat × Nat)) : Prop where
  count : m.nofElements = ps.length
  inside : m.start + 16 * ps.length ≤ file.length
  bytes : (file.drop m.start).take (16 * ps.length) = relation ps
  small : ∀ p ∈ ps, p.1 < 2 ^ 64 ∧ p.2 < 2 ^ 64
  nonempty : ps ≠ []

/-- Specification: the triples of a permutation -/
def triples (rs : List (Nat × Full × List (Nat × Nat))) : List (Nat × Nat × Nat) :=
  rs.flatMap fun r => r.2.2.map fun p => (r.1, p.1, p.2)

/-- The entries of the meta data -/
def entries (rs : List (Nat × Full × List (Nat × Nat))) : List (Nat × Full) := rs.map fun r => (r.1, r.2.1)

theorem pairsOf_relation : ∀ (ps : List (Nat × Nat)), (∀ p ∈ ps, p.1 < 2 ^ 64 ∧ p.2 < 2 ^ 64) → pairsOf ps.length (relation ps) = ps
  | [], _ => rfl
  | p :: ps, h => by
    obtain ⟨h1, h2⟩ := h p List.mem_cons_self
    have e : relation (p :: ps) = toLE 8 p.1 ++ (toLE 8 p.2 ++ relation ps) := by
      simp only [relation, List.flatMap_cons, List.append_assoc]
    have d : (toLE 8 p.1 ++ (toLE 8 p.2 ++ relation ps)).drop 16 = relation ps := by
      rw [← List.append_assoc]; exact List.drop_left' (by simp)
    simp only [List.length_cons, pairsOf]
    rw [e, d, List.take_left' (length_toLE 8 _), List.drop_left' (length_toLE 8 _), List.take_left' (length_toLE 8 _),
      ofLE_toLE 8 _ (by simpa using h1), ofLE_toLE 8 _ (by simpa using h2),
      pairsOf_relation ps (fun x hx => h x (List.mem_cons_of_mem _ hx))]

theorem scan_stored {file : List Nat} {id : Nat} {m : Full} {ps : List (Nat × Nat)} (h : Stored file m ps) (rest : List (Nat × Full)) :
    scanCurrentPos file ((id, m) :: rest) = .ok ps := by
  simp only [scanCurrentPos, h.count]
  rw [show ps.length * 2 * 8 = 16 * ps.length by omega]
  unfold readAt
  rw [if_pos (Or.inr h.inside), show pread file m.start (16 * ps.length) = relation ps from h.bytes]
  simp only [Outcome.map, pairsOf_relation ps h.small]

/-- The loop in the middle of a relation -/
theorem visit_from (file : List Nat) : ∀ (n : Nat) (rs : List (Nat × Full × List (Nat × Nat))) (id : Nat) (m : Full)
    (ps : List (Nat × Nat)) (k : Nat), (∀ r ∈ rs, Stored file r.2.1 r.2.2) → k < ps.length →
    (ps.drop k).length + (triples rs).length ≤ n →
    visit file n ⟨(id, m) :: entries rs, ps, k⟩ = (((ps.drop k).map fun p => (id, p.1, p.2)) ++ triples rs, .ub)
  | 0, rs, id, m, ps, k, _, hk, hn => by rw [List.length_drop] at hn; omega
  | n + 1, rs, id, m, ps, k, hs, hk, hn => by
    have hdrop : ps.drop k = ps[k] :: ps.drop (k + 1) := List.drop_eq_getElem_cons hk
    rw [hdrop, List.length_cons] at hn
    have hderef : (It.mk ((id, m) :: entries rs) ps k).deref = .ok (id, ps[k].1, ps[k].2) := by
      simp only [It.deref, Outcome.read_lt _ _ hk, Outcome.map]
    have hne : (It.mk ((id, m) :: entries rs) ps k).empty = false := rfl
    unfold visit
    rw [hne, hderef, hdrop]
    simp only [Bool.false_eq_true, if_false, List.map_cons, List.cons_append]
    by_cases h : k + 1 ≥ ps.length
    · have hd0 : ps.drop (k + 1) = [] := List.drop_eq_nil_of_le h
      cases rs with
      | nil =>
        have hx : It.next file ⟨(id, m) :: entries [], ps, k⟩ = .ub := by
          unfold It.next
          rw [hne, if_neg (by simp), if_pos h]
          rfl
        rw [hx, hd0]
        rfl
      | cons r rs =>
        have hr := hs r List.mem_cons_self
        have hx : It.next file ⟨(id, m) :: entries (r :: rs), ps, k⟩ = .ok ⟨(r.1, r.2.1) :: entries rs, r.2.2, 0⟩ := by
          unfold It.next
          rw [hne, if_neg (by simp), if_pos h]
          show (scanCurrentPos file ((r.1, r.2.1) :: entries rs)).map _ = _
          rw [scan_stored hr]
          rfl
        have ht : triples (r :: rs) = (r.2.2.map fun p => (r.1, p.1, p.2)) ++ triples rs := by simp only [triples, List.flatMap_cons]
        have ih := visit_from file n rs r.1 r.2.1 r.2.2 0 (fun x hx => hs x (List.mem_cons_of_mem _ hx))
          (List.length_pos_iff.mpr hr.nonempty) (by
            rw [ht, List.length_append, List.length_map] at hn
            simp only [List.drop_zero]
            omega)
        rw [hx]
        simp only
        rw [ih, hd0, ht]
        simp
    · have hx : It.next file ⟨(id, m) :: entries rs, ps, k⟩ = .ok ⟨(id, m) :: entries rs, ps, k + 1⟩ := by
        unfold It.next
        rw [hne, if_neg (by simp), if_neg h]
      have ih := visit_from file n rs id m ps (k + 1) hs (by omega) (by omega)
      rw [hx]
      simp only
      rw [ih]

/-- **Every triple is seen once, in order**, for permutations with any number of relations that are not empty, wherever they are in the
file.  Missing: the iteration ends, see `C85_end_violated`. -/
theorem C85_triples_partial (file : List Nat) (r : Nat × Full × List (Nat × Nat)) (rs : List (Nat × Full × List (Nat × Nat)))
    (hs : ∀ x ∈ r :: rs, Stored file x.2.1 x.2.2) (n : Nat) (hn : (triples (r :: rs)).length ≤ n) :
    ∃ it, start file (entries (r :: rs)) = .ok it ∧ (visit file n it).1 = triples (r :: rs) := by
  have hr := hs r List.mem_cons_self
  have ht : triples (r :: rs) = (r.2.2.map fun p => (r.1, p.1, p.2)) ++ triples rs := by simp only [triples, List.flatMap_cons]
  refine ⟨⟨(r.1, r.2.1) :: entries rs, r.2.2, 0⟩, ?_, ?_⟩
  · unfold start
    rw [show entries (r :: rs) = (r.1, r.2.1) :: entries rs from rfl, scan_stored hr]
    rfl
  · rw [visit_from file n rs r.1 r.2.1 r.2.2 0 (fun x hx => hs x (List.mem_cons_of_mem _ hx)) (List.length_pos_iff.mpr hr.nonempty) (by
      rw [ht, List.length_append, List.length_map] at hn; simpa using hn), ht]
    simp

/-- Disagreement, for every permutation: behind the last triple the iterator uses the relation behind the last one before the loop can ask
whether it is at the end; for a permutation without relations already the constructor does so. -/
theorem C85_end_violated (file : List Nat) (rs : List (Nat × Full × List (Nat × Nat))) (hs : ∀ x ∈ rs, Stored file x.2.1 x.2.2) :
    (rs = [] → start file (entries rs) = .ub) ∧
    (rs ≠ [] → ∃ it, start file (entries rs) = .ok it ∧ ∀ n, (triples rs).length ≤ n → (visit file n it).2 = .ub) := by
  refine ⟨by rintro rfl; rfl, fun hne => ?_⟩
  cases rs with
  | nil => exact absurd rfl hne
  | cons r rs =>
    have hr := hs r List.mem_cons_self
    have ht : triples (r :: rs) = (r.2.2.map fun p => (r.1, p.1, p.2)) ++ triples rs := by simp only [triples, List.flatMap_cons]
    refine ⟨⟨(r.1, r.2.1) :: entries rs, r.2.2, 0⟩, ?_, fun n hn => ?_⟩
    · unfold start
      rw [show entries (r :: rs) = (r.1, r.2.1) :: entries rs from rfl, scan_stored hr]
      rfl
    · rw [visit_from file n rs r.1 r.2.1 r.2.2 0 (fun x hx => hs x (List.mem_cons_of_mem _ hx)) (List.length_pos_iff.mpr hr.nonempty) (by
        rw [ht, List.length_append, List.length_map] at hn; simpa using hn)]

/-! Example: two relations with three triples, the second one first in the file -/

def exFile : List Nat := relation [(8, 9)] ++ relation [(1, 2), (1, 3)]

def exRelations : List (Nat × Full × List (Nat × Nat)) :=
  [(4, Full.mk' 4 16 2 0 0 false false, [(1, 2), (1, 3)]), (6, Full.mk' 6 0 1 0 0 true false, [(8, 9)])]

example : ∀ x ∈ exRelations, Stored exFile x.2.1 x.2.2 := by
  intro x hx
  simp only [exRelations, List.mem_cons, List.not_mem_nil, or_false] at hx
  rcases hx with rfl | rfl
  · exact ⟨by decide, by decide, by decide, by decide, by decide⟩
  · exact ⟨by decide, by decide, by decide, by decide, by decide⟩

example : triples exRelations = [(4, 1, 2), (4, 1, 3), (6, 8, 9)] := by decide

end Verif.MetaDataIterator
