import Verif.Model.RdfEscaping
import Verif.Spec.RdfEscaping
namespace Verif.RdfEscaping
open Verif.Spec

theorem Outcome_map_ok {f : α → β} {x : Outcome α} {b : β} (h : x.map f = .ok b) : ∃ a, x = .ok a ∧ f a = b := by
  cases x <;> simp [Outcome.map] at h
  exact ⟨_, rfl, h⟩

theorem unescapeNB_escapeNB (s : List Char) : unescapeNB (escapeNB s) = .ok s := by
  induction s with
  | nil => simp [escapeNB, unescapeNB, unescapeGen]
  | cons c cs ih =>
    unfold unescapeNB at ih ⊢
    simp only [escapeNB]
    split
    · rename_i h; subst h; rw [unescapeGen]; simp [ih, Mode.newlineOk]
    · split
      · rename_i h; subst h; rw [unescapeGen]; simp [ih, Mode.newlineOk]
      · rename_i h1 h2; rw [unescapeGen.eq_def]; simp [ih, h2]

theorem newline_not_mem (s : List Char) : '\n' ∉ escapeNB s := by
  induction s with
  | nil => simp [escapeNB]
  | cons c cs ih =>
    simp only [escapeNB]
    split
    · simp [ih]
    · split
      · simp [ih]
      · rename_i h1 _; simp [ih]; exact fun h => h1 h.symm

theorem escapeNB_append (a b : List Char) : escapeNB (a ++ b) = escapeNB a ++ escapeNB b := by
  induction a with
  | nil => simp [escapeNB]
  | cons c cs ih =>
                   simp only [List.cons_append, escapeNB, ih]
                   split
                   · rfl
                   · split <;> rfl

/-- Soundness of the general unescaping: what it returns is what the text denotes. -/
theorem unescapeGen_sound (m : Mode) (hex : List Char → List Char) (hm : m.acceptOnlyBackslashAndNewline = false)
    (s v : List Char) (h : unescapeGen m hex s = .ok v) : DenotesNoTail (!m.acceptOnlyNumericEscapes) hex s v := by
  induction hlen : s.length using Nat.strongRecOn generalizing s v with
  | _ len ih =>
    subst hlen
    rw [unescapeGen.eq_def] at h
    split at h
    · simp at h; subst h; exact .nil
    · rename_i c cs
      split at h
      · rename_i hc
        obtain ⟨v', hv', rfl⟩ := Outcome_map_ok h
        exact .plain hc (ih _ (by simp) _ _ hv' rfl)
      · rename_i hc
        have hc : c = '\\' := by simpa using hc
        subst hc
        split at h
        · cases h
        · rename_i e rest
          have key : ∀ (ok : Bool) (x : Char), ok = !m.acceptOnlyNumericEscapes → EChar e x →
              (if ok = true then (unescapeGen m hex rest).map (x :: ·) else .throw) = .ok v →
              DenotesNoTail (!m.acceptOnlyNumericEscapes) hex ('\\' :: e :: rest) v := by
            intro ok x hok hx hv
            split at hv
            · rename_i hok'
              obtain ⟨v', hv', rfl⟩ := Outcome_map_ok hv
              exact .echar (by rw [← hok]; exact hok') hx (ih _ (by simp; omega) _ _ hv' rfl)
            · cases hv
          have ho : m.otherOk = !m.acceptOnlyNumericEscapes := by simp [Mode.otherOk, hm]
          have hn : m.newlineOk = !m.acceptOnlyNumericEscapes := by simp [Mode.newlineOk, hm]
          dsimp only at h
          by_cases he : e = 't'
          · rw [if_pos he] at h; subst he; exact key _ _ ho .t h
          rw [if_neg he] at h; clear he
          by_cases he : e = 'n'
          · rw [if_pos he] at h; subst he; exact key _ _ hn .n h
          rw [if_neg he] at h; clear he
          by_cases he : e = 'r'
          · rw [if_pos he] at h; subst he; exact key _ _ ho .r h
          rw [if_neg he] at h; clear he
          by_cases he : e = 'b'
          · rw [if_pos he] at h; subst he; exact key _ _ ho .b h
          rw [if_neg he] at h; clear he
          by_cases he : e = 'f'
          · rw [if_pos he] at h; subst he; exact key _ _ ho .f h
          rw [if_neg he] at h; clear he
          by_cases he : e = '"'
          · rw [if_pos he] at h; subst he; exact key _ _ ho .dquote h
          rw [if_neg he] at h; clear he
          by_cases he : e = '\''
          · rw [if_pos he] at h; subst he; exact key _ _ ho .squote h
          rw [if_neg he] at h; clear he
          by_cases he : e = '\\'
          · rw [if_pos he] at h; subst he; exact key _ _ hn .backslash h
          rw [if_neg he] at h; clear he
          by_cases he : e = 'u'
          · rw [if_pos he] at h; subst he
            split at h
            case isFalse => cases h
            split at h
            case isFalse => cases h
            rename_i hl
            obtain ⟨v', hv', rfl⟩ := Outcome_map_ok h
            have := DenotesNoTail.u4 (str := !m.acceptOnlyNumericEscapes) (hex := hex) (d := rest.take 4)
              (by simp; omega) (by intro hc; have := congrArg List.length hc; simp at this; omega)
              (ih (rest.drop 4).length (by simp; omega) _ _ hv' rfl)
            rwa [List.take_append_drop] at this
          rw [if_neg he] at h; clear he
          by_cases he : e = 'U'
          · rw [if_pos he] at h; subst he
            split at h
            case isFalse => cases h
            split at h
            case isFalse => cases h
            rename_i hl
            obtain ⟨v', hv', rfl⟩ := Outcome_map_ok h
            have := DenotesNoTail.u8 (str := !m.acceptOnlyNumericEscapes) (hex := hex) (d := rest.take 8)
              (by simp; omega) (by intro hc; have := congrArg List.length hc; simp at this; omega)
              (ih (rest.drop 8).length (by simp; omega) _ _ hv' rfl)
            rwa [List.take_append_drop] at this
          rw [if_neg he] at h; clear he
          cases h

/-- Completeness for texts that do not end with a numeric escape. -/
theorem unescapeGen_complete (m : Mode) (hex : List Char → List Char) (hm : m.acceptOnlyBackslashAndNewline = false)
    (s v : List Char) (h : DenotesNoTail (!m.acceptOnlyNumericEscapes) hex s v) : unescapeGen m hex s = .ok v := by
  induction h with
  | nil => simp [unescapeGen]
  | plain hc _ ih => rw [unescapeGen.eq_def]; simp [hc, ih]
  | echar hs he _ ih =>
    have ho : m.otherOk = true := by simp [Mode.otherOk, hm]; simpa using hs
    have hn : m.newlineOk = true := by simp [Mode.newlineOk, hm]; simpa using hs
    cases he <;> (rw [unescapeGen.eq_def]; simp [ih, ho, hn])
  | @u4 d s v hd hne _ ih =>
    have : 0 < s.length := List.length_pos_iff.mpr hne
    have h1 : List.take 4 (d ++ s) = d := by rw [← hd]; simp
    have h2 : List.drop 4 (d ++ s) = s := by rw [← hd]; simp
    rw [unescapeGen.eq_def]; simp [Mode.numericOk, hm, hd, h1, h2, ih, this]
  | @u8 d s v hd hne _ ih =>
    have : 0 < s.length := List.length_pos_iff.mpr hne
    have h1 : List.take 8 (d ++ s) = d := by rw [← hd]; simp
    have h2 : List.drop 8 (d ++ s) = s := by rw [← hd]; simp
    rw [unescapeGen.eq_def]; simp [Mode.numericOk, hm, hd, h1, h2, ih, this]

theorem toDenotes {str hex s v} (h : DenotesNoTail str hex s v) : Denotes str hex s v := by
  induction h with
  | nil => exact .nil
  | plain h _ ih => exact .plain h ih
  | echar h h' _ ih => exact .echar h h' ih
  | u4 h _ _ ih => exact .u4 h ih
  | u8 h _ _ ih => exact .u8 h ih

end Verif.RdfEscaping
