import Verif.Model.PrefixCompression
import Verif.Lemmas.RdfEscaping
namespace Verif.PrefixCompression
open Verif.RdfEscaping

theorem code_toNat (i : Nat) (h : i ≤ numPrefixes) : (Char.ofNat (minPrefix + i)).toNat = minPrefix + i := by
  have : ∀ i, i ≤ 126 → (Char.ofNat (129 + i)).toNat = 129 + i := by decide
  exact this i h

theorem startsWith_iff (w p : List Char) : startsWith w p = true ↔ p <+: w := by
  simp [startsWith]

theorem startsWith_append_drop (w p : List Char) (h : startsWith w p = true) : p ++ w.drop p.length = w := by
  obtain ⟨t, rfl⟩ := (startsWith_iff w p).mp h
  simp

theorem expand_noPrefix (ps : List (List Char)) (w : List Char) : expand ps (noPrefixChar :: w) = .ok w := by
  have := code_toNat numPrefixes (Nat.le_refl _)
  simp only [expand, noPrefixChar, this]
  rw [if_neg (by simp [minPrefix, numPrefixes])]

theorem expand_compress_aux (ps : List (List Char)) (pv : List (Char × List Char))
    (hpv : ∀ x ∈ pv, x ∈ prefixVecUnsorted ps) (w : List Char) : expand ps (compress pv w) = .ok w := by
  induction pv with
  | nil => exact expand_noPrefix ps w
  | cons x pv ih =>
    obtain ⟨c, p⟩ := x
    simp only [compress]
    split
    · rename_i hs
      have hx := hpv (c, p) (by simp)
      simp only [prefixVecUnsorted, List.mem_map, Prod.exists] at hx
      obtain ⟨p', i, hmem, heq⟩ := hx
      simp only [Prod.mk.injEq] at heq
      obtain ⟨rfl, rfl⟩ := heq
      rw [List.mem_zipIdx_iff_getElem?] at hmem
      simp only at hmem
      have hi : i < (ps.take numPrefixes).length := by
        rcases Nat.lt_or_ge i (ps.take numPrefixes).length with h | h
        · exact h
        · rw [List.getElem?_eq_none h] at hmem; cases hmem
      have hi' : i < numPrefixes := by rw [List.length_take] at hi; omega
      simp only [expand, code_toNat i (by omega)]
      rw [if_pos ⟨by omega, by omega⟩]
      have hm : prefixMap ps (minPrefix + i - minPrefix) = p' := by
        simp only [prefixMap, Nat.add_sub_cancel_left, List.getD_eq_getElem?_getD, hmem, Option.getD_some]
      rw [hm, startsWith_append_drop w p' hs]
    · exact ih (fun x hx => hpv x (by simp [hx]))

theorem compress_head (ps : List (List Char)) (pv : List (Char × List Char))
    (hpv : ∀ x ∈ pv, x ∈ prefixVecUnsorted ps) (w : List Char) :
    ∃ c n, compress pv w = c :: w.drop n ∧ c ≠ '\n' := by
  induction pv with
  | nil => exact ⟨noPrefixChar, 0, by simp [compress], by decide⟩
  | cons x pv ih =>
    obtain ⟨c, p⟩ := x
    simp only [compress]
    split
    · refine ⟨c, p.length, rfl, ?_⟩
      have hx := hpv (c, p) (by simp)
      simp only [prefixVecUnsorted, List.mem_map, Prod.exists] at hx
      obtain ⟨p', i, hmem, heq⟩ := hx
      simp only [Prod.mk.injEq] at heq
      obtain ⟨rfl, rfl⟩ := heq
      rw [List.mem_zipIdx_iff_getElem?] at hmem
      simp only at hmem
      have hi : i < (ps.take numPrefixes).length := by
        rcases Nat.lt_or_ge i (ps.take numPrefixes).length with h | h
        · exact h
        · rw [List.getElem?_eq_none h] at hmem; cases hmem
      have hi' : i < numPrefixes := by rw [List.length_take] at hi; omega
      intro hc
      have := congrArg Char.toNat hc
      rw [code_toNat i (by omega)] at this
      simp [minPrefix] at this
      omega
    · exact ih (fun x hx => hpv x (by simp [hx]))

theorem getlines_append_newline (l rest : List Char) (h : '\n' ∉ l) :
    getlines (l ++ '\n' :: rest) = l :: getlines rest := by
  induction l with
  | nil => simp [getlines]
  | cons c l ih =>
    simp at h
    have hc : c ≠ '\n' := fun e => h.1 e.symm
    simp only [List.cons_append, getlines, hc, if_false, ih h.2]

theorem getlines_writeLines (ls : List (List Char)) (h : ∀ l ∈ ls, '\n' ∉ l) : getlines (writeLines ls) = ls := by
  induction ls with
  | nil => simp [writeLines, getlines]
  | cons l ls ih =>
    have := ih (fun x hx => h x (by simp [hx]))
    simp only [writeLines] at this ⊢
    simp only [List.map_cons, List.flatten_cons, List.append_assoc, List.singleton_append]
    rw [getlines_append_newline l _ (h l (by simp)), this]

end Verif.PrefixCompression
