import Verif.Lemmas.Answers
import Mathlib.Data.List.Infix
/-
From the triples that the parser delivers to the items of the partial vocabularies.
-/
namespace Verif.Answers
open Verif.Collation Verif.VocabularyMerger VocabularySpec
open Verif.ExternalVocabulary (Word Fits)
open Verif.C58 (order Stored Term words_ok rfind_append rfind_none rfind_lt)
open Verif.CollationSpec (Closed content Quoted kind)
open TermSpec

/-! ### Batches -/

theorem passBatches_ok {α : Type} {n : Nat} (hn : 0 < n) : ∀ (fuel : Nat) (ts : List α), ts.length < fuel →
    ∃ bs last, passBatches n fuel ts = .ok (bs ++ [last]) ∧ (bs ++ [last]).flatten = ts ∧ (∀ b ∈ bs, b.length = n) ∧ last.length < n ∧
      bs.length ≤ ts.length
  | 0, ts, h => by omega
  | fuel + 1, ts, h => by
    unfold passBatches
    by_cases h1 : ts.length < n
    · rw [if_pos h1]
      exact ⟨[], ts, rfl, by simp, by simp, h1, by simp⟩
    · rw [if_neg h1]
      obtain ⟨bs, last, e1, e2, e3, e4, e5⟩ := passBatches_ok hn fuel (ts.drop n) (by rw [List.length_drop]; omega)
      refine ⟨ts.take n :: bs, last, by rw [e1]; rfl, ?_, ?_, e4, ?_⟩
      · rw [List.cons_append, List.flatten_cons, e2, List.take_append_drop]
      · intro b hb
        rcases List.mem_cons.mp hb with rfl | hb
        · rw [List.length_take]; omega
        · exact e3 b hb
      · rw [List.length_cons]
        rw [List.length_drop] at e5
        omega

theorem passBatches_zero {α : Type} : ∀ (fuel : Nat) (ts : List α), passBatches 0 fuel ts = .diverge
  | 0, _ => rfl
  | fuel + 1, ts => by
    unfold passBatches
    rw [if_neg (by omega), passBatches_zero fuel]
    rfl

/-! ### Words -/

theorem getLanguage_tagged (cs lang : Word) (h1 : '@' ∉ lang) (h2 : '"' ∉ lang) : getLanguage ('"' :: cs ++ '"' :: '@' :: lang) = lang := by
  unfold getLanguage
  have e1 : '"' :: cs ++ '"' :: '@' :: lang = ('"' :: cs ++ ['"']) ++ '@' :: lang := by simp
  rw [show rfind '"' ('"' :: cs ++ '"' :: '@' :: lang) = some ('"' :: cs).length from
    rfind_append '"' ('"' :: cs) ('@' :: lang) (by simp [h2])]
  rw [e1, rfind_append '@' ('"' :: cs ++ ['"']) lang h1]
  dsimp only
  rw [if_pos (by simp)]
  simp

theorem getLanguage_plain (cs : Word) : getLanguage ('"' :: cs ++ ['"']) = [] := by
  unfold getLanguage
  rw [rfind_append '"' ('"' :: cs) [] (by simp)]
  cases hr : rfind '@' ('"' :: cs ++ ['"']) with
  | none => rfl
  | some i =>
    have := rfind_lt hr
    dsimp only
    rw [if_neg]
    simp at this ⊢
    omega

theorem no_carets {w : Word} (h : '^' ∉ w) : (w.tails.any fun t => ['^', '^'].isPrefixOf t) = false := by
  rw [List.any_eq_false]
  intro t ht hp
  have h1 : t <:+ w := (List.mem_tails _ _).mp ht
  have h2 : ['^', '^'] <+: t := List.isPrefixOf_iff_prefix.mp hp
  exact h (h1.subset (h2.subset (by simp)))

theorem not_xsd {w lang : Word} (h : TermForm w lang) : Conversions.isXsdValue w = false := by
  have hr : ∀ w, Conversions.rfind '"' w = rfind '"' w := fun _ => rfl
  cases h with
  | iri cs =>
    unfold Conversions.isXsdValue
    split
    · rfl
    · simp
  | plain cs =>
    unfold Conversions.isXsdValue
    rw [hr, rfind_append '"' ('"' :: cs) [] (by simp)]
    dsimp only
    rw [show ('"' :: cs ++ ['"']).drop ('"' :: cs).length = ['"'] from List.drop_left, no_carets (by decide)]
    simp
  | tagged cs lang h1 h2 h3 h4 =>
    unfold Conversions.isXsdValue
    rw [hr, rfind_append '"' ('"' :: cs) ('@' :: lang) (by simp [h3])]
    dsimp only
    rw [show ('"' :: cs ++ '"' :: '@' :: lang).drop ('"' :: cs).length = '"' :: '@' :: lang from List.drop_left, no_carets (by simp [h4])]
    simp

theorem tag_of {w lang : Word} (h : TermForm w lang) : (if w.head? = some '"' then getLanguage w else []) = lang := by
  cases h with
  | iri cs => rfl
  | plain cs => rw [if_pos (by rfl), getLanguage_plain]
  | tagged cs lang h1 h2 h3 h4 => rw [if_pos (by rfl), getLanguage_tagged cs lang h2 h3]

/-- The word in the item maps. -/
def mark (v : Collation.Vocab) (u : Word) : Word :=
  if shouldBeExternalized v u then (match u with
    | [] => []
    | ch :: cs => if ch = '"' then Char.ofNat 127 :: cs else Char.ofNat 128 :: cs)
  else u

theorem form_cases {w lang : Word} (h : TermForm w lang) : ∃ cs, w = '<' :: cs ∨ w = '"' :: cs := by
  cases h with
  | iri cs => exact ⟨cs, .inl rfl⟩
  | plain cs => exact ⟨_, .inr rfl⟩
  | tagged cs lang => exact ⟨_, .inr rfl⟩

theorem internalWord_mark {nfc : Word → Word} {v : Collation.Vocab} {u lang : Word} (h : TermForm u lang) (hn : nfc u = u) :
    internalWord nfc true v u = .ok (mark v u) := by
  obtain ⟨cs, rfl | rfl⟩ := form_cases h
  all_goals
    unfold internalWord mark
    simp only [hn, Bool.true_and]
    split <;> simp

theorem shown_mark {v : Collation.Vocab} {u lang : Word} (h : TermForm u lang) :
    shown (mark v u) = u ∧ shouldBeExternalized v (shown (mark v u)) = !isInternal (mark v u) := by
  have := Verif.C58.mark_agrees id v u (mark v u) (by
    intro ch cs he
    obtain ⟨ds, rfl | rfl⟩ := form_cases h
    · cases he; decide
    · cases he; decide) (internalWord_mark h rfl)
  exact this

theorem mark_cases (v : Collation.Vocab) {u lang : Word} (h : TermForm u lang) :
    mark v u = u ∨ (∃ cs, u = '<' :: cs ∧ mark v u = Char.ofNat 128 :: cs) ∨ ∃ cs, u = '"' :: cs ∧ mark v u = Char.ofNat 127 :: cs := by
  obtain ⟨cs, rfl | rfl⟩ := form_cases h
  all_goals
    unfold mark
    split <;> simp

theorem toItem_ok {nfc : Word → Word} {v : Collation.Vocab} {t : Words} {lang : Word} {a b : Word} (h1 : TermForm t.1 a) (h2 : TermForm t.2.1 b)
    (h3 : TermForm t.2.2 lang) (n1 : nfc t.1 = t.1) (n2 : nfc t.2.1 = t.2.1) (n3 : nfc t.2.2 = t.2.2) :
    toItem nfc true v t = .ok ⟨lang, mark v t.1, mark v t.2.1, mark v t.2.2⟩ := by
  unfold toItem
  simp only [n3, not_xsd h3, Bool.false_eq_true, if_false, internalWord_mark h1 n1, internalWord_mark h2 n2, internalWord_mark h3 n3,
    Outcome.bind, Outcome.map, tag_of h3]

end Verif.Answers
