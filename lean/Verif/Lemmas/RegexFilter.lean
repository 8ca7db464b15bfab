import Verif.Model.RegexFilter
import Verif.Spec.RegexFilter
/-
Lemmas about the parser of regular expressions in filters.
-/
namespace Verif.RegexFilter
open Verif.ExternalVocabulary (Word)
open Verif.RegexSpec

theorem control_iff (c : Char) : controlChars.contains c = true ↔ Syntax c ∧ c ≠ '\\' ∧ c ≠ '{' ∧ c ≠ '}' := by
  unfold controlChars Syntax
  simp only [List.contains_cons, List.contains_nil, Bool.or_eq_true, beq_iff_eq, List.mem_cons, List.not_mem_nil, or_false, Bool.false_eq_true]
  constructor
  · rintro (h | h | h | h | h | h | h | h | h | h | h) <;> subst h <;> decide
  · rintro ⟨h, h1, h2, h3⟩
    rcases h with h | h | h | h | h | h | h | h | h | h | h | h | h | h <;> simp_all

theorem erase_at (pre : Word) (c : Char) (t : Word) : (pre ++ c :: t).eraseIdx pre.length = pre ++ t := by
  induction pre with
  | nil => rfl
  | cons x pre ih => simp [List.eraseIdx_cons_succ, ih]

theorem scan_taken {p t : Word} (h : Taken p t) : ∀ (pre : Word) (positions : List Nat), ∃ qs,
    scan pre.length false positions p = .ok (true, positions ++ qs) ∧ qs.reverse.foldl (fun s it => s.eraseIdx it) (pre ++ p) = pre ++ t := by
  induction h with
  | nil => intro pre pos; exact ⟨[], by simp [scan], by simp⟩
  | last =>
    intro pre pos
    refine ⟨[pre.length], by simp [scan], ?_⟩
    simp only [List.reverse_cons, List.reverse_nil, List.nil_append, List.foldl_cons, List.foldl_nil]
    rw [erase_at]
  | char c p t hc h ih =>
    intro pre pos
    obtain ⟨qs, h1, h2⟩ := ih (pre ++ [c]) pos
    have hb : c ≠ '\\' := by
      rintro rfl
      rcases hc with h | h | h
      · exact h (by decide)
      · exact absurd h (by decide)
      · exact absurd h (by decide)
    have hctl : controlChars.contains c = false := by
      rw [Bool.eq_false_iff]
      intro h'
      have := (control_iff c).mp h'
      rcases hc with h | h | h
      · exact h this.1
      · exact this.2.2.1 h
      · exact this.2.2.2 h
    refine ⟨qs, ?_, ?_⟩
    · rw [scan, if_neg hb]
      simp only [hctl, Bool.and_false, Bool.false_and, Bool.false_eq_true, if_false]
      rw [List.length_append] at h1
      exact h1
    · simpa using h2
  | escape c p t hc h ih =>
    intro pre pos
    obtain ⟨qs, h1, h2⟩ := ih (pre ++ ['\\', c]) (pos ++ [pre.length])
    refine ⟨pre.length :: qs, ?_, ?_⟩
    · rw [scan, if_pos rfl]
      simp only [Bool.not_false, if_true]
      rw [scan]
      rw [List.length_append] at h1
      by_cases hb : c = '\\'
      · rw [if_pos hb]
        simp only [Bool.not_true, Bool.false_eq_true, if_false]
        simpa using h1
      · rw [if_neg hb]
        have hctl : controlChars.contains c = true := (control_iff c).mpr ⟨hc.1, hb, hc.2⟩
        simp only [hctl, Bool.not_true, Bool.false_and, Bool.and_false, Bool.false_eq_true, if_false]
        simpa using h1
    · rw [List.reverse_cons, List.foldl_append]
      have e : pre ++ '\\' :: c :: p = pre ++ ['\\', c] ++ p := by simp
      rw [e, h2]
      simp only [List.foldl_cons, List.foldl_nil]
      have e2 : pre ++ ['\\', c] ++ t = pre ++ '\\' :: c :: t := by simp
      rw [e2, erase_at]

theorem scan_simple : ∀ (n : Nat) (p : Word) (i : Nat) (pos qs : List Nat), p.length ≤ n → scan i false pos p = .ok (true, qs) → ∃ t, Taken p t
  | _, [], _, _, _, _, _ => ⟨[], .nil⟩
  | 0, _ :: _, _, _, _, hn, _ => by simp at hn
  | n + 1, c :: p, i, pos, qs, hn, h => by
    rw [scan] at h
    simp only [List.length_cons] at hn
    by_cases hb : c = '\\'
    · subst hb
      rw [if_pos rfl] at h
      simp only [Bool.not_false, if_true] at h
      cases p with
      | nil => exact ⟨[], .last⟩
      | cons d p =>
        simp only [List.length_cons] at hn
        rw [scan] at h
        by_cases hd : d = '\\'
        · subst hd
          rw [if_pos rfl] at h
          simp only [Bool.not_true, Bool.false_eq_true, if_false] at h
          obtain ⟨t, ht⟩ := scan_simple n p _ _ _ (by omega) h
          exact ⟨_, .escape _ _ _ ⟨by decide, by decide, by decide⟩ ht⟩
        · rw [if_neg hd] at h
          cases hctl : controlChars.contains d with
          | false => simp only [hctl] at h; simp at h
          | true =>
            simp only [hctl, Bool.not_true, Bool.false_and, Bool.and_false, Bool.false_eq_true, if_false] at h
            obtain ⟨t, ht⟩ := scan_simple n p _ _ _ (by omega) h
            have := (control_iff d).mp hctl
            exact ⟨_, .escape _ _ _ ⟨this.1, this.2.2⟩ ht⟩
    · rw [if_neg hb] at h
      cases hctl : controlChars.contains c with
      | true => simp only [hctl] at h; simp at h
      | false =>
        simp only [hctl, Bool.and_false, Bool.false_and, Bool.false_eq_true, if_false] at h
        obtain ⟨t, ht⟩ := scan_simple n p _ _ _ (by omega) h
        refine ⟨_, .char _ _ _ ?_ ht⟩
        by_contra hcon
        have := (control_iff c).mpr ⟨by_contra fun h' => hcon (Or.inl h'), hb, fun h' => hcon (Or.inr (Or.inl h')),
          fun h' => hcon (Or.inr (Or.inr h'))⟩
        rw [hctl] at this; cases this

/-- The token for a pattern. -/
def token (p : Word) : Word := '"' :: p ++ ['"']

theorem token_rhs (p : Word) : ((token p).drop 1).take ((token p).length - 2) = p := by
  simp [token]

theorem parse_anchored (p : Word) : parseRegex (token ('^' :: p)) false = (scan 1 false [] p).map fun r =>
    if r.1 then ⟨true, r.2.reverse.foldl (fun s it => s.eraseIdx it) ('^' :: p)⟩ else ⟨false, '^' :: p⟩ := by
  unfold parseRegex
  rw [token_rhs]
  simp

end Verif.RegexFilter
