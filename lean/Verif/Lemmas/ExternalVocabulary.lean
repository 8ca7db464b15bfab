import Verif.Model.ExternalVocabulary
import Verif.Lemmas.Bytes
import Verif.Lemmas.RdfEscaping
import Verif.Spec.Vocabulary
/-
Lemmas about the on-disk vocabulary.
-/
namespace Verif.ExternalVocabulary
open Verif.Bytes Verif.VocabularySpec

/-! ### The file -/

theorem offsets_length (cur : Nat) (ws : List Word) : (offsets cur ws).length = ws.length + 1 := by
  induction ws generalizing cur with
  | nil => rfl
  | cons w ws ih => simp [offsets, ih]

theorem offsets_get (cur : Nat) (ws : List Word) (i : Nat) (h : i ≤ ws.length) :
    (offsets cur ws)[i]? = some (cur + (ws.take i).flatten.length) := by
  induction ws generalizing cur i with
  | nil => have : i = 0 := by simpa using h
           subst this; simp [offsets]
  | cons w ws ih =>
    cases i with
    | zero => simp [offsets]
    | succ i =>
      simp only [offsets, List.getElem?_cons_succ, List.take_succ_cons, List.flatten_cons, List.length_append]
      rw [ih _ _ (by simpa using h)]
      simp [Nat.add_assoc]

theorem offsets_le (cur : Nat) (ws : List Word) : ∀ x ∈ offsets cur ws, x ≤ cur + ws.flatten.length := by
  induction ws generalizing cur with
  | nil => simp [offsets]
  | cons w ws ih =>
    intro x hx
    simp only [offsets, List.mem_cons] at hx
    rcases hx with rfl | hx
    · omega
    · have := ih _ x hx
      simp only [List.flatten_cons, List.length_append]; omega

theorem toSigned_small {n : Nat} (h : n < 2 ^ 63) : toSigned n = n := by simp [toSigned, h]

theorem toUnsigned_small {n : Nat} (h : n < 2 ^ 64) : toUnsigned n = n := by
  unfold toUnsigned; omega

/-- Reading inside a file. -/
theorem fileRead_mid (a b c : List Nat) (off : Int) (n : Nat) (ho : off = a.length) (hn : n = b.length) :
    fileRead (a ++ b ++ c) off n = .ok b := by
  subst ho hn
  unfold fileRead
  split
  · rename_i h; simp [List.length_eq_zero_iff] at h; simp [h]
  · rw [if_neg (by omega), if_pos (by simp)]
    simp

theorem ofArr_split (xs : List Nat) (i : Nat) (a b : Nat) (ha : xs[i]? = some a) (hb : xs[i + 1]? = some b) :
    ofArr 8 xs = ofArr 8 (xs.take i) ++ (toLE 8 a ++ toLE 8 b) ++ ofArr 8 (xs.drop (i + 2)) := by
  conv => lhs; rw [← List.take_append_drop i xs, ofArr_append]
  have h1 : xs.drop i = a :: b :: xs.drop (i + 2) := by
    obtain ⟨h, rfl⟩ := List.getElem?_eq_some_iff.mp ha
    obtain ⟨h', rfl⟩ := List.getElem?_eq_some_iff.mp hb
    rw [List.drop_eq_getElem_cons h, List.drop_eq_getElem_cons h']
  rw [h1, ofArr_cons, ofArr_cons]
  simp [List.append_assoc]

/-- The size of the file in bytes is below 2^63. -/
def Fits (ws : List Word) : Prop := ws.flatten.length + 8 * (ws.length + 1) < 2 ^ 63

instance (ws : List Word) : Decidable (Fits ws) := by unfold Fits; infer_instance

theorem length_fileOf (ws : List Word) : (fileOf ws).length = ws.flatten.length + 8 * (ws.length + 1) := by
  simp only [fileOf, List.length_append, List.length_map, length_ofArr, offsets_length]

/-- The vocabulary of these words. -/
def vocabOf (ws : List Word) : Vocab := ⟨fileOf ws, ws.flatten.length, ws.length⟩

theorem build_spec (ws : List Word) (h : Fits ws) : buildFromVector ws = .ok (vocabOf ws) := by
  unfold Fits at h
  have hl := length_fileOf ws
  unfold buildFromVector initFromFile
  rw [if_neg (by intro h0; rw [h0] at hl; simp at hl)]
  have hlast : ∃ xs, offsets 0 ws = xs ++ [ws.flatten.length] ∧ xs.length = ws.length := by
    have h1 := offsets_get 0 ws ws.length (Nat.le_refl _)
    have h2 := offsets_length 0 ws
    rw [List.take_length, Nat.zero_add] at h1
    refine ⟨(offsets 0 ws).take ws.length, ?_, by simp [h2]⟩
    obtain ⟨h3, h4⟩ := List.getElem?_eq_some_iff.mp h1
    conv => lhs; rw [← List.take_append_drop ws.length (offsets 0 ws)]
    rw [List.drop_eq_getElem_cons h3, h4, List.drop_eq_nil_of_le (by omega)]
  obtain ⟨xs, hxs, hxl⟩ := hlast
  have hsplit : fileOf ws = (ws.flatten.map Char.toNat ++ ofArr 8 xs) ++ toLE 8 ws.flatten.length ++ [] := by
    rw [fileOf, hxs, ofArr_append, ofArr_cons]
    simp [ofArr]
  have hr : fileRead (fileOf ws) ((fileOf ws).length - 8 : Int) 8 = .ok (toLE 8 ws.flatten.length) := by
    conv => lhs; rw [hsplit]
    apply fileRead_mid
    · simp only [List.length_append, List.length_map, length_ofArr, length_toLE, List.length_nil]; omega
    · simp
  have hv : ofLE (toLE 8 ws.flatten.length) = ws.flatten.length := ofLE_toLE _ _ (by omega)
  simp only [hr, Outcome.map, hv, toSigned_small (show ws.flatten.length < 2 ^ 63 by omega)]
  refine congrArg Outcome.ok ?_
  simp only [vocabOf, Vocab.mk.injEq, true_and]
  rw [hl]
  have : ((↑(ws.flatten.length + 8 * (ws.length + 1)) - 8 - ↑ws.flatten.length : Int)) = ↑(8 * ws.length) := by omega
  rw [this, toUnsigned_small (by omega)]
  omega

/-- `operator[]` for ids in range. -/
theorem get_spec (ws : List Word) (hf : Fits ws) (i : Nat) (w : Word) (hw : ws[i]? = some w) (hne : w ≠ []) :
    get (vocabOf ws) i = .ok w := by
  unfold Fits at hf
  obtain ⟨hi, hwi⟩ := List.getElem?_eq_some_iff.mp hw
  have h1 := offsets_get 0 ws i (by omega)
  have h2 := offsets_get 0 ws (i + 1) (by omega)
  rw [Nat.zero_add] at h1 h2
  have hsplit := ofArr_split _ i _ _ h1 h2
  have hat : toSigned ((toUnsigned (vocabOf ws).start + i * 8) % 2 ^ 64) = ↑(ws.flatten.length + i * 8) := by
    simp only [vocabOf]
    rw [toUnsigned_small (by omega), Nat.mod_eq_of_lt (by omega), toSigned_small (by omega)]
  have htk : (ws.take (i + 1)).flatten = (ws.take i).flatten ++ w := by
    rw [List.take_succ_eq_append_getElem hi, hwi]; simp
  have hfl : ws.flatten = (ws.take i).flatten ++ w ++ (ws.drop (i + 1)).flatten := by
    conv => lhs; rw [← List.take_append_drop (i + 1) ws, List.flatten_append, htk]
  have hlen : ws.flatten.length = (ws.take i).flatten.length + w.length + (ws.drop (i + 1)).flatten.length := by
    conv => lhs; rw [hfl]
    simp only [List.length_append]
  have hr1 : fileRead (vocabOf ws).bytes ↑(ws.flatten.length + i * 8) 16 =
      .ok (toLE 8 (ws.take i).flatten.length ++ toLE 8 (ws.take (i + 1)).flatten.length) := by
    have : (vocabOf ws).bytes = (ws.flatten.map Char.toNat ++ ofArr 8 ((offsets 0 ws).take i)) ++
        (toLE 8 (ws.take i).flatten.length ++ toLE 8 (ws.take (i + 1)).flatten.length) ++ ofArr 8 ((offsets 0 ws).drop (i + 2)) := by
      simp only [vocabOf, fileOf]; rw [hsplit]; simp only [List.append_assoc]
    rw [this]
    apply fileRead_mid
    · simp only [List.length_append, List.length_map, length_ofArr, List.length_take, offsets_length]
      omega
    · simp
  have hpos : 0 < w.length := List.length_pos_iff.mpr hne
  have hl2 : (ws.take (i + 1)).flatten.length = (ws.take i).flatten.length + w.length := by
    rw [htk, List.length_append]
  have hr2 : fileRead (vocabOf ws).bytes ↑(ws.take i).flatten.length w.length = .ok (w.map Char.toNat) := by
    have : (vocabOf ws).bytes = (ws.take i).flatten.map Char.toNat ++ w.map Char.toNat ++
        ((ws.drop (i + 1)).flatten.map Char.toNat ++ ofArr 8 (offsets 0 ws)) := by
      simp only [vocabOf, fileOf]
      conv => lhs; rw [hfl]
      simp [List.append_assoc]
    rw [this]
    apply fileRead_mid <;> rw [List.length_map]
  unfold get
  rw [hat, hr1]
  simp only [Outcome.bind]
  rw [List.take_left' (length_toLE _ _), List.drop_left' (length_toLE _ _), ofLE_toLE _ _ (by omega),
    ofLE_toLE _ _ (by omega), toSigned_small (by omega), toSigned_small (by omega)]
  rw [if_neg (by omega), hl2]
  have : (((((ws.take i).flatten.length + w.length : Nat) : Int) - ((ws.take i).flatten.length : Int))).toNat = w.length := by
    omega
  rw [this, hr2]
  simp only [Outcome.map, List.map_map]
  refine congrArg Outcome.ok ?_
  conv => rhs; rw [← List.map_id w]
  apply List.map_congr_left
  intro c _
  simp [Char.ofNat_toNat]

/-! ### The binary search -/

theorem badSize_one : BadSize 1 := ⟨0, by decide, by decide⟩

theorem not_badSize_zero : ¬ BadSize 0 := by
  rintro ⟨k, h, _⟩
  have := Nat.one_le_two_pow (n := k)
  omega

theorem badSize_step (u : Nat) (h : 2 ≤ u) : BadSize u ↔ BadSize (u / 2 - 1) := by
  constructor
  · rintro ⟨k, h1, h2⟩
    cases k with
    | zero => simp at h2; omega
    | succ k =>
      rw [Nat.pow_succ] at h1 h2
      exact ⟨k, by omega, by omega⟩
  · rintro ⟨k, h1, h2⟩
    refine ⟨k + 1, ?_, ?_⟩ <;> rw [Nat.pow_succ] <;> omega

/-- Assumptions about a lookup: sorted non-empty words, a comparison that is a total order on all words involved. -/
structure Setup (S : Word → Prop) (cmp : Word → Word → Int) (ws : List Word) (w : Word) : Prop where
  order : OrderOn S cmp
  words : ∀ x ∈ ws, S x ∧ x ≠ []
  query : S w
  sorted : ws.Pairwise fun a b => cmp a b < 0
  fits : Fits ws

variable {S : Word → Prop} {cmp : Word → Word → Int} {ws : List Word} {w : Word}

theorem Setup.lt (h : Setup S cmp ws w) {i j : Nat} {a b : Word} (ha : ws[i]? = some a) (hb : ws[j]? = some b)
    (hij : i < j) : cmp a b < 0 := by
  obtain ⟨hi, rfl⟩ := List.getElem?_eq_some_iff.mp ha
  obtain ⟨hj, rfl⟩ := List.getElem?_eq_some_iff.mp hb
  exact List.pairwise_iff_getElem.mp h.sorted i j hi hj hij

theorem Setup.mem (_ : Setup S cmp ws w) {i : Nat} {a : Word} (ha : ws[i]? = some a) : a ∈ ws :=
  List.mem_of_getElem? ha

/-- State of the search: everything before `lower` is smaller, everything behind `upper` is greater. -/
def Inv (cmp : Word → Word → Int) (ws : List Word) (w : Word) (s : Nat × Nat) : Prop :=
  s.1 ≤ s.2 + 1 ∧ s.2 ≤ ws.length ∧ s.1 ≤ ws.length ∧
  (∀ j x, ws[j]? = some x → j < s.1 → cmp x w < 0) ∧
  (∀ j x, ws[j]? = some x → s.2 < j → 0 < cmp x w) ∧
  ((∀ x ∈ ws, 0 < cmp x w) → ¬ BadSize s.2)

theorem Setup.bound (h : Setup S cmp ws w) : ws.length < 2 ^ 60 := by
  have := h.fits
  unfold Fits at this
  omega

theorem step_ok (h : Setup S cmp ws w) (s : Nat × Nat) (hs : Inv cmp ws w s) :
    (∃ s', searchStep cmp (vocabOf ws) w s = .ok (.inl s') ∧ Inv cmp ws w s' ∧ s'.2 + 1 - s'.1 < s.2 + 1 - s.1) ∨
    (∃ r, searchStep cmp (vocabOf ws) w s = .ok (.inr r) ∧
      (w ∈ ws → ws[r]? = some w)) := by
  obtain ⟨lo, up⟩ := s
  obtain ⟨h1, h2, h3, h4, h5, h6⟩ := hs
  simp only at h1 h2 h3 h4 h5 h6
  have hb := h.bound
  unfold searchStep
  simp only
  by_cases hlt : lo < up
  · rw [if_pos hlt, Nat.mod_eq_of_lt (by omega)]
    have hi : (lo + up) / 2 < ws.length := by omega
    obtain ⟨x, hx⟩ : ∃ x, ws[(lo + up) / 2]? = some x := ⟨_, List.getElem?_eq_getElem hi⟩
    have hxm := h.mem hx
    rw [get_spec ws h.fits _ x hx (h.words x hxm).2]
    simp only [Outcome.bind]
    by_cases hc : cmp x w < 0
    · rw [if_pos hc]
      refine .inl ⟨_, rfl, ⟨by simp only; omega, h2, by simp only; omega, ?_, h5, ?_⟩, by simp only; omega⟩
      · intro j y hy hj
        simp only at hj
        by_cases hji : j = (lo + up) / 2
        · subst hji; rw [hx] at hy; cases hy; exact hc
        · exact h.order.trans y x w (h.words y (h.mem hy)).1 (h.words x hxm).1 h.query (h.lt hy hx (by omega)) hc
      · intro hall
        have := hall x hxm
        omega
    · rw [if_neg hc]
      by_cases hc' : cmp x w > 0
      · rw [if_pos hc']
        have hpos : 0 < (lo + up) / 2 := by
          by_cases h0 : (lo + up) / 2 = 0
          · exfalso
            have hlo : lo = 0 := by omega
            have hup : up = 1 := by omega
            subst hlo hup
            refine h6 ?_ badSize_one
            intro y hy
            obtain ⟨j, hj⟩ := List.getElem?_of_mem hy
            by_cases hj0 : j = 0
            · subst hj0; rw [h0] at hx; rw [hx] at hj; cases hj; exact hc'
            · have h7 := h.lt hx hj (by omega)
              exact (h.order.flip w y h.query (h.words y hy).1).mp
                (h.order.trans w x y h.query (h.words x hxm).1 (h.words y hy).1
                  ((h.order.flip w x h.query (h.words x hxm).1).mpr hc') h7)
          · omega
        have hup : ((lo + up) / 2 + 2 ^ 64 - 1) % 2 ^ 64 = (lo + up) / 2 - 1 := by omega
        rw [hup]
        refine .inl ⟨_, rfl, ⟨by simp only; omega, by simp only; omega, h3, h4, ?_, ?_⟩, by simp only; omega⟩
        · intro j y hy hj
          simp only at hj
          by_cases hji : j = (lo + up) / 2
          · subst hji; rw [hx] at hy; cases hy; exact hc'
          · have hxy := h.lt hx hy (by omega)
            have hy' := (h.words y (h.mem hy)).1
            exact (h.order.flip w y h.query hy').mp
              (h.order.trans w x y h.query (h.words x hxm).1 hy'
                ((h.order.flip w x h.query (h.words x hxm).1).mpr hc') hxy)
        · intro hall hbad
          have hlo : lo = 0 := by
            by_cases h0 : lo = 0
            · exact h0
            · exfalso
              obtain ⟨y, hy⟩ : ∃ y, ws[0]? = some y := ⟨_, List.getElem?_eq_getElem (by omega)⟩
              have := h4 0 y hy (by omega)
              have := hall y (h.mem hy)
              omega
          subst hlo
          simp only [Nat.zero_add] at hbad hpos
          exact h6 hall ((badSize_step up (by omega)).mpr hbad)
      · rw [if_neg hc']
        have : cmp x w = 0 := by omega
        have := (h.order.eq_zero x w (h.words x hxm).1 h.query).mp this
        subst this
        exact .inr ⟨_, rfl, fun _ => hx⟩
  · rw [if_neg hlt]
    refine .inr ⟨_, rfl, ?_⟩
    intro hm
    obtain ⟨j, hj⟩ := List.getElem?_of_mem hm
    have hzero := (h.order.eq_zero w w h.query h.query).mpr rfl
    have hj1 : ¬ j < lo := fun hlt => by have := h4 j w hj hlt; omega
    have hj2 : ¬ up < j := fun hlt => by have := h5 j w hj hlt; omega
    have : j = lo := by omega
    subst this; exact hj

theorem search_ok (h : Setup S cmp ws w) (hg : ¬ ((∀ x ∈ ws, 0 < cmp x w) ∧ BadSize ws.length)) (fuel : Nat)
    (hf : ws.length + 1 < fuel) :
    ∃ r, binarySearch fuel cmp (vocabOf ws) w = .ok r ∧ (w ∈ ws → ws[r]? = some w) := by
  refine loop_spec (Inv cmp ws w) _ (fun s => s.2 + 1 - s.1) (step_ok h) fuel (0, ws.length) ?_ (by simpa using hf)
  refine ⟨by simp, by simp, by simp, ?_, ?_, ?_⟩
  · intro j x _ hj; simp at hj
  · intro j x hx hj
    have := (List.getElem?_eq_some_iff.mp hx).1
    simp only at hj; omega
  · intro hall hb; exact hg ⟨hall, hb⟩

theorem getId_ok (h : Setup S cmp ws w) (hg : ¬ ((∀ x ∈ ws, 0 < cmp x w) ∧ BadSize ws.length)) (fuel : Nat)
    (hf : ws.length + 1 < fuel) :
    ∃ r, getId fuel cmp (vocabOf ws) w = .ok r ∧ Finds ws w r := by
  obtain ⟨r, hr, hw⟩ := search_ok h hg fuel hf
  unfold getId
  rw [hr]
  simp only [Outcome.bind]
  have hsz : (vocabOf ws).size = ws.length := rfl
  rw [hsz]
  by_cases hlt : r < ws.length
  · rw [if_pos hlt]
    obtain ⟨x, hx⟩ : ∃ x, ws[r]? = some x := ⟨_, List.getElem?_eq_getElem hlt⟩
    rw [get_spec ws h.fits r x hx (h.words x (h.mem hx)).2]
    refine ⟨_, rfl, ?_⟩
    unfold Finds
    split
    · rename_i hm
      have := hw hm
      rw [hx] at this
      cases this
      exact ⟨by simp, hx⟩
    · rename_i hm
      simp only [beq_eq_false_iff_ne]
      intro he
      subst he
      exact hm (h.mem hx)
  · rw [if_neg hlt]
    refine ⟨_, rfl, ?_⟩
    unfold Finds
    rw [if_neg]
    intro hm
    have := (List.getElem?_eq_some_iff.mp (hw hm)).1
    exact hlt this

/-! ### Leaving the vocabulary -/

theorem ofLE_append (a b : List Nat) : ofLE (a ++ b) = ofLE a + 256 ^ a.length * ofLE b := by
  induction a with
  | nil => simp [ofLE]
  | cons x a ih =>
    simp only [List.cons_append, ofLE, ih, List.length_cons, Nat.pow_succ]
    rw [Nat.mul_add, Nat.add_assoc]
    congr 2
    rw [← Nat.mul_assoc, Nat.mul_comm 256]

theorem ofLE_lt (a : List Nat) (h : ∀ x ∈ a, x < 256) : ofLE a < 256 ^ a.length := by
  induction a with
  | nil => simp [ofLE]
  | cons x a ih =>
    have h1 := ih fun y hy => h y (List.mem_cons_of_mem _ hy)
    have h2 := h x (List.mem_cons_self ..)
    simp only [ofLE, List.length_cons, Nat.pow_succ]
    omega

/-- The id to which the search goes after `upper` has wrapped around. -/
theorem get_wrapped (ws : List Word) (hf : Fits ws) (hne : ws.flatten ≠ [])
    (hascii : ∀ c ∈ ws.flatten, c.toNat < 256) (hlast : ∀ c, ws.flatten.getLast? = some c → c.toNat < 128) :
    get (vocabOf ws) (2 ^ 63 - 1) = .ub ∨ get (vocabOf ws) (2 ^ 63 - 1) = .throw := by
  unfold Fits at hf
  have hat : toSigned ((toUnsigned (vocabOf ws).start + (2 ^ 63 - 1) * 8) % 2 ^ 64) = (ws.flatten.length : Int) - 8 := by
    simp only [vocabOf]
    rw [toUnsigned_small (by omega)]
    unfold toSigned
    split <;> omega
  unfold get
  rw [hat]
  by_cases h8 : ws.flatten.length < 8
  · left
    have : fileRead (vocabOf ws).bytes ((ws.flatten.length : Int) - 8) 16 = .ub := by
      unfold fileRead
      rw [if_neg (by omega), if_pos (by omega)]
    rw [this]; rfl
  · right
    have hpre : ∃ a b c, ws.flatten = a ++ b ++ [c] ∧ b.length = 7 := by
      refine ⟨ws.flatten.take (ws.flatten.length - 8), (ws.flatten.dropLast).drop (ws.flatten.length - 8), ws.flatten.getLast hne, ?_, ?_⟩
      · have h1 : ws.flatten.take (ws.flatten.length - 8) = ws.flatten.dropLast.take (ws.flatten.length - 8) := by
          rw [List.dropLast_eq_take, List.take_take, Nat.min_eq_left (by omega)]
        rw [h1, List.take_append_drop, List.dropLast_concat_getLast]
      · simp only [List.length_drop, List.length_dropLast]; omega
    obtain ⟨a, b, c, habc, hbl⟩ := hpre
    have hc : c.toNat < 128 := hlast c (by rw [habc]; simp)
    have hb : ∀ x ∈ b.map Char.toNat, x < 256 := by
      intro x hx
      obtain ⟨d, hd, rfl⟩ := List.mem_map.mp hx
      exact hascii d (by rw [habc]; simp [hd])
    have h0 : ∃ r, ofArr 8 (offsets 0 ws) = toLE 8 0 ++ r := by
      cases ws with
      | nil => exact ⟨[], by simp [offsets, ofArr]⟩
      | cons w ws => exact ⟨_, by simp only [offsets]; rw [ofArr_cons]⟩
    obtain ⟨r, hr⟩ := h0
    have hlen : ws.flatten.length = a.length + 8 := by rw [habc]; simp [hbl]
    have hrd : fileRead (vocabOf ws).bytes ((ws.flatten.length : Int) - 8) 16 =
        .ok ((b.map Char.toNat ++ [c.toNat]) ++ toLE 8 0) := by
      have : (vocabOf ws).bytes = a.map Char.toNat ++ ((b.map Char.toNat ++ [c.toNat]) ++ toLE 8 0) ++ r := by
        simp only [vocabOf, fileOf]; rw [hr, habc]; simp [List.append_assoc]
      rw [this]
      apply fileRead_mid
      · simp only [List.length_map]; omega
      · simp [hbl]
    rw [hrd]
    simp only [Outcome.bind]
    have hl8 : (b.map Char.toNat ++ [c.toNat]).length = 8 := by simp [hbl]
    rw [List.take_left' hl8, List.drop_left' hl8, ofLE_toLE _ _ (by decide), ofLE_append]
    have hlt := ofLE_lt _ hb
    rw [List.length_map, hbl] at hlt ⊢
    have hsmall : ofLE (b.map Char.toNat) + 256 ^ 7 * ofLE [c.toNat] < 2 ^ 63 := by
      simp only [ofLE]; omega
    rw [toSigned_small hsmall, toSigned_small (by decide), if_pos (by omega)]

/-- A word smaller than all others is looked up in a vocabulary of bad size. -/
theorem loop_bad (h : Setup S cmp ws w) (hall : ∀ x ∈ ws, 0 < cmp x w)
    (hascii : ∀ c ∈ ws.flatten, c.toNat < 256) (hlast : ∀ c, ws.flatten.getLast? = some c → c.toNat < 128) :
    ∀ u fuel, u ≤ ws.length → BadSize u → u + 1 < fuel →
      loop fuel (searchStep cmp (vocabOf ws) w) (0, u) = .ub ∨
      loop fuel (searchStep cmp (vocabOf ws) w) (0, u) = .throw := by
  intro u
  induction u using Nat.strongRecOn with
  | ind u ih =>
    intro fuel hu hbad hfuel
    have hb := h.bound
    have hu0 : 0 < u := by
      rcases Nat.eq_zero_or_pos u with rfl | h0
      · exact absurd hbad not_badSize_zero
      · exact h0
    obtain ⟨x, hx⟩ : ∃ x, ws[u / 2]? = some x := ⟨_, List.getElem?_eq_getElem (by omega)⟩
    have hxm := h.mem hx
    have hpos := hall x hxm
    obtain ⟨fuel, rfl⟩ : ∃ f, fuel = f + 1 := ⟨fuel - 1, by omega⟩
    have hstep : searchStep cmp (vocabOf ws) w (0, u) = .ok (.inl (0, (u / 2 + 2 ^ 64 - 1) % 2 ^ 64)) := by
      unfold searchStep
      simp only
      rw [if_pos hu0, Nat.zero_add, Nat.mod_eq_of_lt (by omega), get_spec ws h.fits _ x hx (h.words x hxm).2]
      simp only [Outcome.bind]
      rw [if_neg (by omega), if_pos hpos]
    rw [loop, hstep]
    simp only [Outcome.bind]
    by_cases h1 : u = 1
    · subst h1
      obtain ⟨fuel, rfl⟩ : ∃ f, fuel = f + 1 := ⟨fuel - 1, by omega⟩
      have hne : ws.flatten ≠ [] := by
        obtain ⟨d, hd⟩ := List.exists_mem_of_ne_nil _ (h.words x hxm).2
        intro h0
        have : d ∈ ws.flatten := List.mem_flatten.mpr ⟨x, hxm, hd⟩
        rw [h0] at this; simp at this
      have hi : (0 + (1 / 2 + 2 ^ 64 - 1) % 2 ^ 64) % 2 ^ 64 / 2 = 2 ^ 63 - 1 := by decide
      rw [loop]
      unfold searchStep
      simp only
      rw [if_pos (by decide), hi]
      rcases get_wrapped ws h.fits hne hascii hlast with hg | hg <;> rw [hg] <;> simp
    · have : (u / 2 + 2 ^ 64 - 1) % 2 ^ 64 = u / 2 - 1 := by omega
      rw [this]
      exact ih (u / 2 - 1) (by omega) fuel (by omega) ((badSize_step u (by omega)).mp hbad) (by omega)

theorem getId_bad (h : Setup S cmp ws w) (hall : ∀ x ∈ ws, 0 < cmp x w) (hbad : BadSize ws.length)
    (hascii : ∀ c ∈ ws.flatten, c.toNat < 256) (hlast : ∀ c, ws.flatten.getLast? = some c → c.toNat < 128)
    (fuel : Nat) (hf : ws.length + 1 < fuel) :
    getId fuel cmp (vocabOf ws) w = .ub ∨ getId fuel cmp (vocabOf ws) w = .throw := by
  have := loop_bad h hall hascii hlast ws.length fuel (Nat.le_refl _) hbad hf
  unfold getId binarySearch
  have hsz : (vocabOf ws).size = ws.length := rfl
  rw [hsz]
  rcases this with h1 | h1 <;> rw [h1] <;> simp

/-! ### The text file -/

theorem getLines_line (l rest cur : List Char) (h : '\n' ∉ l) :
    getLines cur (l ++ '\n' :: rest) = (cur.reverse ++ l) :: getLines [] rest := by
  induction l generalizing cur with
  | nil => simp [getLines]
  | cons c l ih =>
    simp only [List.mem_cons, not_or] at h
    simp only [List.cons_append, getLines]
    rw [if_neg (fun e => h.1 e.symm), ih _ h.2]
    simp

theorem text_lines (ws : List Word) :
    unescapeLines (getLines [] (ws.map fun w => RdfEscaping.escapeNB w ++ ['\n']).flatten) = .ok ws := by
  induction ws with
  | nil => simp [getLines, unescapeLines]
  | cons w ws ih =>
    simp only [List.map_cons, List.flatten_cons, List.append_assoc, List.singleton_append]
    rw [getLines_line _ _ _ (RdfEscaping.newline_not_mem w)]
    simp only [List.reverse_nil, List.nil_append, unescapeLines]
    rw [RdfEscaping.unescapeNB_escapeNB, ih]
    simp

end Verif.ExternalVocabulary
