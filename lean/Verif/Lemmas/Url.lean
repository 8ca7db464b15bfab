import Verif.Lemmas.StringUtils
/- Helper lemmas for `Props/C44_Url.lean`. -/
namespace Verif.StringUtils
open Outcome StringSpec

theorem hex_ascii : ∀ n < 128, hexDigit (Char.ofNat n) = hexValue (Char.ofNat n) := by decide +kernel

theorem hex_eq (c : Char) : hexDigit c = hexValue c := by
  by_cases h : c.toNat < 128
  · have := hex_ascii c.toNat h
    rwa [Char.ofNat_toNat] at this
  · have h1 : hexDigit c = none := by
      have : toLower c = c := by rw [toLower, if_neg (by omega)]
      simp only [hexDigit, this]
      rw [if_neg (by omega), if_neg (by omega)]
    have h2 : ∀ l : List Char, (∀ d ∈ l, d.toNat < 128) → l.idxOf? c = none := by
      intro l hl
      rw [List.idxOf?_eq_none_iff]
      intro hm
      exact h (hl c hm)
    rw [h1, hexValue, h2 _ (by decide), h2 _ (by decide)]
    rfl

theorem encodes_unique {s t e : List Char} (hs : Encodes s e) (ht : Encodes t e) : s = t := by
  induction hs generalizing t with
  | nil => cases ht; rfl
  | raw h1 h2 _ ih =>
    cases ht with
    | raw _ _ h => rw [ih h]
    | plus => exact absurd rfl h1
    | escape => exact absurd rfl h2
    | stray => exact absurd rfl h2
  | plus _ ih =>
    cases ht with
    | raw h1 _ _ => exact absurd rfl h1
    | plus h => rw [ih h]
  | escape h1 h2 _ ih =>
    cases ht with
    | raw _ h _ => exact absurd rfl h
    | escape h3 h4 h =>
      rw [h1] at h3; rw [h2] at h4
      cases h3; cases h4
      rw [ih h]
    | stray h _ =>
      rcases h _ _ _ rfl with h | h
      · rw [h1] at h; cases h
      · rw [h2] at h; cases h
  | stray h1 _ ih =>
    cases ht with
    | raw _ h _ => exact absurd rfl h
    | escape h3 h4 h =>
      rcases h1 _ _ _ rfl with h | h
      · rw [h3] at h; cases h
      · rw [h4] at h; cases h
    | stray _ h => rw [ih h]

theorem decode_ok (url : List Char) (fuel : Nat) (hf : url.length < fuel) : ∃ s, decodeUrl fuel url = .ok s ∧ Encodes s url := by
  refine loop_spec
    (fun s : Nat × List Char => s.1 ≤ url.length ∧ ∀ t, Encodes t (url.drop s.1) → Encodes (s.2 ++ t) url)
    (fun r : List Char => Encodes r url) (fun s => url.length - s.1) ?_ fuel _ ⟨by simp, by simp⟩ (by dsimp only; omega)
  rintro ⟨i, dec⟩ ⟨h1, h2⟩
  dsimp only at h1 h2 ⊢
  by_cases hi : i < url.length
  · refine .inl ?_
    have hd := List.drop_eq_getElem_cons hi
    simp only [decodeBody, if_pos hi, read_lt _ _ hi, Outcome.bind]
    have step : ∀ c, (∀ t, Encodes t (url.drop (i + 1)) → Encodes (c :: t) (url.drop i)) →
        ∃ s', Outcome.ok (Sum.inl (i + 1, dec ++ [c])) = (.ok (.inl s') : Outcome ((Nat × List Char) ⊕ List Char)) ∧
          (s'.1 ≤ url.length ∧ ∀ t, Encodes t (url.drop s'.1) → Encodes (s'.2 ++ t) url) ∧
          url.length - s'.1 < url.length - i := by
      intro c hc
      refine ⟨_, rfl, ⟨hi, ?_⟩, by dsimp only; omega⟩
      intro t ht
      dsimp only at ht ⊢
      rw [List.append_assoc]
      exact h2 _ (hc t ht)
    by_cases hp : url[i] = '+'
    · rw [if_pos hp]
      refine step _ ?_
      intro t ht
      rw [hd, hp]; exact .plus ht
    · rw [if_neg hp]
      by_cases hq : url[i] = '%' ∧ i + 2 < url.length
      · rw [if_pos hq, read_lt _ _ (show i + 1 < url.length by omega)]
        have hd1 := List.drop_eq_getElem_cons (show i + 1 < url.length by omega)
        have hd2 := List.drop_eq_getElem_cons (show i + 2 < url.length by omega)
        dsimp only
        have stray : (hexValue url[i + 1] = none ∨ hexValue url[i + 2] = none) →
            ∀ t, Encodes t (url.drop (i + 1)) → Encodes ('%' :: t) (url.drop i) := by
          intro hn t ht
          rw [hd, hq.1]
          refine .stray ?_ ht
          intro a b r he
          rw [hd1, hd2] at he
          simp only [List.cons.injEq] at he
          rw [← he.1, ← he.2.1]; exact hn
        rw [hex_eq]
        cases hh1 : hexValue url[i + 1] with
        | none => exact step _ (stray (.inl hh1))
        | some a =>
          dsimp only
          rw [read_lt _ _ hq.2]
          simp only [hex_eq]
          cases hh2 : hexValue url[i + 2] with
          | none => exact step _ (stray (.inr hh2))
          | some b =>
            refine ⟨_, rfl, ⟨?_, ?_⟩, ?_⟩
            · dsimp only; omega
            · intro t ht
              dsimp only at ht ⊢
              rw [List.append_assoc]
              refine h2 _ ?_
              rw [hd, hd1, hd2, hq.1, Nat.mul_comm a 16]
              exact .escape hh1 hh2 ht
            · dsimp only; omega
      · rw [if_neg hq]
        refine step _ ?_
        intro t ht
        rw [hd]
        by_cases hc : url[i] = '%'
        · rw [hc]
          refine .stray ?_ ht
          intro a b r he
          have := congrArg List.length he
          simp only [List.length_drop, List.length_cons] at this
          exact absurd ⟨hc, by omega⟩ hq
        · exact .raw hp hc ht
  · refine .inr ⟨dec, by simp only [decodeBody, if_neg hi], ?_⟩
    have := h2 [] (by rw [List.drop_eq_nil_of_le (by omega)]; exact .nil)
    simpa using this

theorem hexChar_ok : ∀ n < 16, hexValue (hexChar n) = some n := by decide +kernel

theorem unreserved_ok {c : Char} (h : unreserved c = true) : c ≠ '+' ∧ c ≠ '%' := by
  constructor
  · rintro rfl; exact absurd h (by decide)
  · rintro rfl; exact absurd h (by decide)

theorem encodes_encode (s : List Char) (hb : ∀ c ∈ s, c.toNat < 256) : Encodes s (encode s) := by
  induction s with
  | nil => exact .nil
  | cons c s ih =>
    have ih := ih fun c hc => hb c (by simp [hc])
    have hc := hb c (by simp)
    rw [encode, List.flatMap_cons]
    by_cases hu : unreserved c = true
    · rw [if_pos hu]
      obtain ⟨h1, h2⟩ := unreserved_ok hu
      exact .raw h1 h2 ih
    · rw [if_neg hu]
      have := Encodes.escape (hexChar_ok (c.toNat / 16) (by omega)) (hexChar_ok (c.toNat % 16) (by omega)) ih
      rw [show 16 * (c.toNat / 16) + c.toNat % 16 = c.toNat by omega, Char.ofNat_toNat] at this
      exact this

end Verif.StringUtils
