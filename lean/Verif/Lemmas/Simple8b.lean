import Verif.Model.Simple8b
namespace Verif.Simple8b

/-- Little-endian packing of items in fields of `w` bits. -/
def pack (w : Nat) : List Nat → Nat
  | [] => 0
  | x :: xs => x + 2 ^ w * pack w xs

theorem unpack_pack (w : Nat) (n : Nat) (xs : List Nat) (hx : ∀ x ∈ xs, x < 2 ^ w) (hn : xs.length ≤ n) :
    unpack w (2 ^ w - 1) n (pack w xs) = xs ++ List.replicate (n - xs.length) 0 := by
  induction n generalizing xs with
  | zero => simp at hn; simp [hn, unpack]
  | succ n ih =>
    cases xs with
    | nil =>
      have := ih [] (by simp) (by simp)
      simp [pack] at this
      simp [unpack, pack, this, List.replicate_succ]
    | cons x xs =>
      have hx0 : x < 2 ^ w := hx x (by simp)
      have hpos : 0 < 2 ^ w := Nat.two_pow_pos w
      have ih' := ih xs (fun y hy => hx y (by simp [hy])) (by simpa using hn)
      have h1 : (x + 2 ^ w * pack w xs) % 2 ^ w = x := by
        rw [Nat.add_mul_mod_self_left]; exact Nat.mod_eq_of_lt hx0
      have h2 : (x + 2 ^ w * pack w xs) / 2 ^ w = pack w xs := by
        rw [Nat.add_mul_div_left _ _ hpos, Nat.div_eq_of_lt hx0]; simp
      simp only [unpack, pack, Nat.and_two_pow_sub_one_eq_mod, Nat.shiftRight_eq_div_pow, h1, h2, ih']
      simp

theorem pack_lt (w : Nat) (xs : List Nat) (hx : ∀ x ∈ xs, x < 2 ^ w) : pack w xs < 2 ^ (w * xs.length) := by
  induction xs with
  | nil => simp [pack]
  | cons x xs ih =>
    have hx0 : x < 2 ^ w := hx x (by simp)
    have ih' := ih (fun y hy => hx y (by simp [hy]))
    simp only [pack, List.length_cons, Nat.mul_add, Nat.mul_one]
    rw [Nat.pow_add, Nat.mul_comm (2 ^ (w * xs.length))]
    calc x + 2 ^ w * pack w xs < 2 ^ w + 2 ^ w * pack w xs := by omega
      _ = 2 ^ w * (pack w xs + 1) := by rw [Nat.mul_add]; omega
      _ ≤ 2 ^ w * 2 ^ (w * xs.length) := Nat.mul_le_mul_left _ ih'

/-- The packing loop, when it fills the word completely, packs exactly the first `lim` items. -/
theorem packLoop_spec (sel lim w : Nat) (hw : tab itemWidth sel = w) (hm : tab mask sel = 2 ^ w - 1)
    (hfit : 4 + lim * w ≤ 64) (fuel : Nat) (items : List Nat) (cw k : Nat)
    (hcw : cw < 2 ^ (4 + k * w)) (hk : k ≤ lim) (r : Nat × Nat)
    (hr : packLoop sel lim fuel items cw k = r) (hlim : r.2 = lim) :
    lim - k ≤ items.length ∧ (∀ x ∈ items.take (lim - k), x < 2 ^ w) ∧
      r.1 = cw + 2 ^ (4 + k * w) * pack w (items.take (lim - k)) := by
  induction fuel generalizing items cw k r with
  | zero =>
    simp [packLoop] at hr; subst hr; simp at hlim; subst hlim; simp [pack]
  | succ fuel ih =>
    cases items with
    | nil => simp [packLoop] at hr; subst hr; simp at hlim; subst hlim; simp [pack]
    | cons x xs =>
      simp only [packLoop] at hr
      split at hr
      · rename_i hc
        obtain ⟨hc1, hc2⟩ := hc
        have hpos : 0 < 2 ^ w := Nat.two_pow_pos w
        have hxlt : x < 2 ^ w := by omega
        have hkk : (k + 1) * w ≤ lim * w := Nat.mul_le_mul_right _ hc1
        have hkw : (k + 1) * w = k * w + w := Nat.succ_mul k w
        have hshift : x <<< (4 + k * w) = 2 ^ (4 + k * w) * x := by
          rw [Nat.shiftLeft_eq, Nat.mul_comm]
        have hlt : 2 ^ (4 + k * w) * x < 2 ^ (4 + (k + 1) * w) := by
          rw [hkw, ← Nat.add_assoc, Nat.pow_add 2 (4 + k * w) w]
          exact (Nat.mul_lt_mul_left (Nat.two_pow_pos _)).mpr hxlt
        have hlt64 : 2 ^ (4 + k * w) * x < 2 ^ 64 :=
          Nat.lt_of_lt_of_le hlt (Nat.pow_le_pow_right (by decide) (by omega))
        have hor : cw ||| ((x <<< (4 + k * tab itemWidth sel)) % 2 ^ 64) = 2 ^ (4 + k * w) * x + cw := by
          rw [hw, hshift, Nat.mod_eq_of_lt hlt64, Nat.or_comm, ← Nat.two_pow_add_eq_or_of_lt hcw]
        rw [hor] at hr
        have hnew : 2 ^ (4 + k * w) * x + cw < 2 ^ (4 + (k + 1) * w) := by
          have : 2 ^ (4 + (k + 1) * w) = 2 ^ (4 + k * w) * 2 ^ w := by
            rw [hkw, ← Nat.add_assoc, Nat.pow_add]
          rw [this]
          calc 2 ^ (4 + k * w) * x + cw < 2 ^ (4 + k * w) * x + 2 ^ (4 + k * w) := by omega
            _ = 2 ^ (4 + k * w) * (x + 1) := by rw [Nat.mul_add]; simp
            _ ≤ _ := Nat.mul_le_mul_left _ hxlt
        obtain ⟨h1, h2, h3⟩ := ih xs _ (k + 1) hnew hc1 r hr hlim
        have hs : lim - k = (lim - (k + 1)) + 1 := by omega
        refine ⟨by simp; omega, ?_, ?_⟩
        · rw [hs]; simp only [List.take_succ_cons, List.mem_cons]
          rintro y (rfl | hy)
          · exact hxlt
          · exact h2 y hy
        · rw [h3, hs, List.take_succ_cons]
          simp only [pack]
          have : 2 ^ (4 + (k + 1) * w) = 2 ^ (4 + k * w) * 2 ^ w := by
            rw [hkw, ← Nat.add_assoc, Nat.pow_add]
          rw [this, Nat.mul_add, Nat.mul_assoc]; omega
      · subst hr; simp at hlim; subst hlim; simp [pack]

/-- Completeness of the packing loop. -/
theorem packLoop_full (sel lim : Nat) (fuel : Nat) (items : List Nat) (cw k : Nat)
    (hx : ∀ x ∈ items.take (lim - k), x ≤ tab mask sel) (hk : k ≤ lim) (hlen : lim - k ≤ items.length)
    (hf : lim - k ≤ fuel) : (packLoop sel lim fuel items cw k).2 = lim := by
  induction fuel generalizing items cw k with
  | zero => simp [packLoop]; omega
  | succ fuel ih =>
    cases items with
    | nil => simp [packLoop] at *; omega
    | cons x xs =>
      simp only [packLoop]
      by_cases hkl : k < lim
      · have hs : lim - k = (lim - (k + 1)) + 1 := by omega
        rw [hs, List.take_succ_cons] at hx
        have hx0 := hx x (by simp)
        rw [if_pos ⟨hkl, by omega⟩]
        exact ih xs _ (k + 1) (fun y hy => hx y (by simp [hy])) hkl (by simp at hlen; omega) (by omega)
      · rw [if_neg (by omega)]; simp; omega

theorem sel_facts : ∀ s, s < 16 → 2 ≤ s →
    tab mask s = 2 ^ tab itemWidth s - 1 ∧ 4 + tab groupSize s * tab itemWidth s ≤ 64 ∧ 1 ≤ tab groupSize s ∧
      tab groupSize s ≤ 60 := by
  decide

/-- What a successful `pick` yields. -/
theorem pick_spec (items : List Nat) (hne : items ≠ []) (fuel sel : Nat) (hs : 2 ≤ sel) (hf : sel + fuel ≤ 16)
    (cw n : Nat) (h : pick items fuel sel = some (cw, n)) :
    ∃ s, 2 ≤ s ∧ s < 16 ∧ n = min items.length (tab groupSize s) ∧ 0 < n ∧
      (∀ x ∈ items.take n, x < 2 ^ tab itemWidth s) ∧
      cw = s + 2 ^ 4 * pack (tab itemWidth s) (items.take n) := by
  induction fuel generalizing sel with
  | zero => simp [pick] at h
  | succ fuel ih =>
    simp only [pick] at h
    split at h
    · rename_i hc
      obtain ⟨hm, hfit, hg, _⟩ := sel_facts sel (by omega) hs
      have hlen : 0 < items.length := by
        cases items with | nil => exact absurd rfl hne | cons => simp
      have hlimle : min items.length (tab groupSize sel) * tab itemWidth sel ≤ tab groupSize sel * tab itemWidth sel :=
        Nat.mul_le_mul_right _ (Nat.min_le_right _ _)
      have := packLoop_spec sel (min items.length (tab groupSize sel)) (tab itemWidth sel) rfl hm (by omega)
        _ items sel 0 (by simp; omega) (by omega) _ rfl hc
      simp only [Option.some.injEq] at h
      rw [h] at hc this
      simp only [Nat.sub_zero, Nat.zero_mul, Nat.add_zero] at hc this
      refine ⟨sel, hs, by omega, hc, by omega, ?_, ?_⟩
      · rw [hc]; exact this.2.1
      · rw [hc]; exact this.2.2
    · exact ih (sel + 1) (by omega) (by omega) h

theorem pick_isSome (items : List Nat) (hx : ∀ x ∈ items, x < 2 ^ 60) (fuel sel : Nat)
    (hf : 15 < sel + fuel) (hs : sel ≤ 15) : ∃ r, pick items fuel sel = some r := by
  induction fuel generalizing sel with
  | zero => omega
  | succ fuel ih =>
    simp only [pick]
    split
    · exact ⟨_, rfl⟩
    · rename_i hc
      rcases Nat.lt_or_ge sel 15 with h | h
      · exact ih (sel + 1) (by omega) (by omega)
      · obtain rfl : sel = 15 := by omega
        exfalso; apply hc
        apply packLoop_full
        · intro x hx'
          have := hx x (List.mem_of_mem_take hx')
          have h15 : tab mask 15 = 2 ^ 60 - 1 := by decide
          omega
        · omega
        · omega
        · omega

theorem firstNonzero_none (n : Nat) (l : List Nat) (i : Nat) (h : firstNonzero n l i = none) :
    ∀ x ∈ l.take n, x = 0 := by
  induction n generalizing l i with
  | zero => simp
  | succ n ih =>
    cases l with
    | nil => simp
    | cons x xs =>
      simp only [firstNonzero] at h
      split at h
      · cases h
      · rename_i hx
        have := ih xs (i + 1) h
        simp only [List.take_succ_cons, List.mem_cons]
        rintro y (rfl | hy)
        · omega
        · exact this y hy

theorem firstNonzero_some (n : Nat) (l : List Nat) (i j : Nat) (h : firstNonzero n l i = some j) :
    i ≤ j ∧ j < i + n ∧ j - i < l.length ∧ ∀ x ∈ l.take (j - i), x = 0 := by
  induction n generalizing l i with
  | zero => simp [firstNonzero] at h
  | succ n ih =>
    cases l with
    | nil => simp [firstNonzero] at h
    | cons x xs =>
      simp only [firstNonzero] at h
      split at h
      · simp at h; subst h; simp
      · rename_i hx
        obtain ⟨h1, h2, h3, h4⟩ := ih xs (i + 1) h
        refine ⟨by omega, by omega, by simp; omega, ?_⟩
        have hs : j - i = (j - (i + 1)) + 1 := by omega
        rw [hs]; simp only [List.take_succ_cons, List.mem_cons]
        rintro y (rfl | hy)
        · omega
        · exact h4 y hy

theorem eq_replicate_zero (l : List Nat) (h : ∀ x ∈ l, x = 0) : l = List.replicate l.length 0 :=
  List.eq_replicate_of_mem h

theorem unpack_zero (n word : Nat) : unpack 0 0 n word = List.replicate n 0 := by
  induction n generalizing word with
  | zero => rfl
  | succ n ih => simp [unpack, ih, List.replicate_succ]

theorem lor_and_sel (s p : Nat) (hs : s < 16) : (s + 2 ^ 4 * p) &&& 0xF = s ∧ (s + 2 ^ 4 * p) >>> 4 = p := by
  constructor
  · have := Nat.and_two_pow_sub_one_eq_mod (s + 2 ^ 4 * p) 4
    simp at this ⊢; rw [this]; omega
  · rw [Nat.shiftRight_eq_div_pow]; omega

/-- One zero word. -/
theorem decodeLoop_zero (s : Nat) (hs : s = 0 ∨ s = 1) (ws : List Nat) (left : Nat) (hl : 0 < left) (r : List Nat)
    (h : decodeLoop ws (left - tab groupSize s) = .ok r) :
    decodeLoop (s :: ws) left = .ok (List.replicate (tab groupSize s) 0 ++ r) := by
  obtain ⟨m, rfl⟩ : ∃ m, left = m + 1 := ⟨left - 1, by omega⟩
  rcases hs with rfl | rfl
  · simp only [decodeLoop]
    have : (0 &&& 0xF : Nat) = 0 := by decide
    rw [this, h]
    simp [show tab itemWidth 0 = 0 from rfl, show tab mask 0 = 0 from rfl, unpack_zero]
  · simp only [decodeLoop]
    have : (1 &&& 0xF : Nat) = 1 := by decide
    rw [this, h]
    simp [show tab itemWidth 1 = 0 from rfl, show tab mask 1 = 0 from rfl, unpack_zero]

/-- One packed word. -/
theorem decodeLoop_word (s : Nat) (hs : 2 ≤ s) (hs' : s < 16) (xs : List Nat)
    (hx : ∀ x ∈ xs, x < 2 ^ tab itemWidth s) (hg : xs.length ≤ tab groupSize s)
    (ws : List Nat) (left : Nat) (hl : 0 < left) (r : List Nat)
    (h : decodeLoop ws (left - tab groupSize s) = .ok r) :
    decodeLoop ((s + 2 ^ 4 * pack (tab itemWidth s) xs) :: ws) left =
      .ok (xs ++ List.replicate (tab groupSize s - xs.length) 0 ++ r) := by
  obtain ⟨m, rfl⟩ : ∃ m, left = m + 1 := ⟨left - 1, by omega⟩
  obtain ⟨h1, h2⟩ := lor_and_sel s (pack (tab itemWidth s) xs) hs'
  simp only [decodeLoop, h1, h2, h]
  rw [(sel_facts s hs' hs).1, unpack_pack _ _ _ hx hg]

/-- A whole word of the encoder followed by the rest: combined round trip step. -/
theorem step_word (items : List Nat) (s n : Nat) (hs : 2 ≤ s) (hs' : s < 16)
    (hn : n = min items.length (tab groupSize s)) (hn0 : 0 < n)
    (hx : ∀ x ∈ items.take n, x < 2 ^ tab itemWidth s) (ws : List Nat) (z : Nat) (hz : z ≤ 239)
    (hrest : decodeLoop ws (items.drop n).length = .ok (items.drop n ++ List.replicate z 0)) :
    ∃ z', z' ≤ 239 ∧ decodeLoop ((s + 2 ^ 4 * pack (tab itemWidth s) (items.take n)) :: ws) items.length =
      .ok (items ++ List.replicate z' 0) := by
  have hl : 0 < items.length := by omega
  have hg60 := (sel_facts s hs' hs).2.2.2
  have htl : (items.take n).length = n := by simp; omega
  rcases Nat.lt_or_ge items.length (tab groupSize s) with hlt | hge
  · have hnl : n = items.length := by omega
    have hd : decodeLoop ws (items.length - tab groupSize s) = .ok [] := by
      rw [show items.length - tab groupSize s = 0 by omega]; cases ws <;> rfl
    refine ⟨tab groupSize s - n, by omega, ?_⟩
    rw [decodeLoop_word s hs hs' _ hx (by omega) ws _ hl _ hd]
    simp only [htl, List.append_nil]
    rw [hnl, List.take_length]
  · have hng : n = tab groupSize s := by omega
    have hd : decodeLoop ws (items.length - tab groupSize s) = .ok (items.drop n ++ List.replicate z 0) := by
      rw [← hng, ← hrest]; simp
    refine ⟨z, hz, ?_⟩
    rw [decodeLoop_word s hs hs' _ hx (by omega) ws _ hl _ hd]
    rw [htl, ← hng]; simp [← List.append_assoc]

/-- Main lemma: whatever the encoder outputs decodes to the items followed by padding zeros. -/
theorem decodeLoop_encode (items : List Nat) : ∀ ws, encode items = .ok ws →
    ws.length ≤ items.length ∧
    ∃ z, z ≤ 239 ∧ decodeLoop ws items.length = .ok (items ++ List.replicate z 0) := by
  induction hlen : items.length using Nat.strongRecOn generalizing items with
  | _ len ih =>
    subst hlen
    intro ws h
    unfold encode at h
    split at h
    · simp at h; subst h; exact ⟨by simp, 0, by simp, by simp [decodeLoop]⟩
    · rename_i x xs
      generalize hitems : x :: xs = items at *
      have hne : items ≠ [] := by rw [← hitems]; simp
      have hpos : 0 < items.length := List.length_pos_iff.mpr hne
      simp only at h
      split at h
      · -- selector 0
        rename_i hz
        have hz' := firstNonzero_none _ _ _ hz
        split at h
        · rename_i ws' hws'
          simp at h; subst h
          obtain ⟨hl', z, hz239, hd⟩ := ih (items.drop 240).length (by simp; omega) _ rfl ws' hws'
          simp at hl'
          refine ⟨by simp; omega, ?_⟩
          have hg : tab groupSize 0 = 240 := rfl
          rcases Nat.lt_or_ge items.length 240 with hlt | hge
          · refine ⟨240 - items.length, by omega, ?_⟩
            rw [decodeLoop_zero 0 (Or.inl rfl) ws' _ hpos [] (by
              rw [hg, show items.length - 240 = 0 by omega]; cases ws' <;> rfl)]
            have : items.take (min 240 items.length) = items := by
              rw [show min 240 items.length = items.length by omega, List.take_length]
            rw [this] at hz'
            rw [hg, List.append_nil]
            have he := eq_replicate_zero items hz'
            generalize items.length = L at he hlt
            rw [he, List.replicate_append_replicate, show L + (240 - L) = 240 by omega]
          · refine ⟨z, hz239, ?_⟩
            rw [decodeLoop_zero 0 (Or.inl rfl) ws' _ hpos _ (by rw [hg, ← hd]; simp)]
            have htk : items.take 240 = List.replicate 240 0 := by
              rw [show min 240 items.length = 240 by omega] at hz'
              have := eq_replicate_zero _ hz'
              rw [List.length_take, Nat.min_eq_left hge] at this
              exact this
            rw [hg, ← htk, ← List.append_assoc, List.take_append_drop]
        · rename_i hne'
          exact (hne' ws h).elim
      · rename_i i hi
        have hi' := firstNonzero_some _ _ _ _ hi
        simp only [Nat.sub_zero, Nat.zero_add, Nat.zero_le, true_and] at hi'
        obtain ⟨hi1, hi2, hi3⟩ := hi'
        split at h
        · cases h
        · rename_i cw n hp
          split at h
          · cases h
          · rename_i hn0
            split at h
            · rename_i ws' hws'
              simp at h; subst h
              by_cases h120 : i ≥ 120
              · simp only [h120, if_true] at hp hws' ⊢
                have hrne : items.drop 120 ≠ [] := by
                  intro hc; have := congrArg List.length hc; rw [List.length_drop, List.length_nil] at this; omega
                obtain ⟨s, hs, hs', hn, hnp, hx, hcw⟩ := pick_spec _ hrne 14 2 (by omega) (by omega) cw n hp
                obtain ⟨hl', z, hz239, hd⟩ := ih ((items.drop 120).drop n).length (by simp; omega) _ rfl ws' hws'
                obtain ⟨z', hz', hstep⟩ := step_word (items.drop 120) s n hs hs' hn hnp hx ws' z hz239 hd
                rw [← hcw] at hstep
                simp at hl' hn
                refine ⟨by simp; omega, z', hz', ?_⟩
                have hg : tab groupSize 1 = 120 := rfl
                rw [List.singleton_append,
                  decodeLoop_zero 1 (Or.inr rfl) _ _ hpos _ (by rw [hg, ← hstep]; simp)]
                have htk : items.take 120 = List.replicate 120 0 := by
                  have : ∀ x ∈ items.take 120, x = 0 := by
                    intro x hx
                    apply hi3 x
                    have : items.take 120 = (items.take i).take 120 := by
                      rw [List.take_take]; congr 1; omega
                    rw [this] at hx
                    exact List.mem_of_mem_take hx
                  have := eq_replicate_zero _ this
                  rw [List.length_take, Nat.min_eq_left (by omega)] at this
                  exact this
                rw [hg, ← htk, ← List.append_assoc, List.take_append_drop]
              · simp only [h120, if_false] at hp hws' ⊢
                obtain ⟨s, hs, hs', hn, hnp, hx, hcw⟩ := pick_spec _ hne 14 2 (by omega) (by omega) cw n hp
                obtain ⟨hl', z, hz239, hd⟩ := ih (items.drop n).length (by simp; omega) _ rfl ws' hws'
                obtain ⟨z', hz', hstep⟩ := step_word items s n hs hs' hn hnp hx ws' z hz239 hd
                rw [← hcw] at hstep
                simp at hl'
                refine ⟨by simp; omega, z', hz', ?_⟩
                simpa using hstep
            · rename_i hne'
              exact (hne' ws h).elim

/-- The encoder succeeds on values below 2^60. -/
theorem encode_ok (items : List Nat) (hx : ∀ x ∈ items, x < 2 ^ 60) : ∃ ws, encode items = .ok ws := by
  induction hlen : items.length using Nat.strongRecOn generalizing items with
  | _ len ih =>
    subst hlen
    unfold encode
    split
    · exact ⟨_, rfl⟩
    · rename_i x xs
      generalize hitems : x :: xs = items at *
      have hne : items ≠ [] := by rw [← hitems]; simp
      have hpos : 0 < items.length := List.length_pos_iff.mpr hne
      simp only
      split
      · obtain ⟨ws, hws⟩ := ih (items.drop 240).length (by simp; omega) (items.drop 240)
          (fun y hy => hx y (List.mem_of_mem_drop hy)) rfl
        rw [hws]; exact ⟨_, rfl⟩
      · rename_i i hi
        have hi' := firstNonzero_some _ _ _ _ hi
        obtain ⟨_, hi1, hi2, _⟩ := hi'
        generalize hrest : (if i ≥ 120 then items.drop 120 else items) = rest
        have hrx : ∀ x ∈ rest, x < 2 ^ 60 := by
          rw [← hrest]; split
          · exact fun y hy => hx y (List.mem_of_mem_drop hy)
          · exact hx
        have hrl : 0 < rest.length ∧ rest.length ≤ items.length := by
          rw [← hrest]; split
          · simp; omega
          · omega
        have hrne : rest ≠ [] := by intro hc; rw [hc] at hrl; simp at hrl
        obtain ⟨⟨cw, n⟩, hp⟩ := pick_isSome rest hrx 14 2 (by omega) (by omega)
        obtain ⟨s, hs, hs', hn, hnp, _, _⟩ := pick_spec _ hrne 14 2 (by omega) (by omega) cw n hp
        rw [hp]
        simp only
        rw [if_neg (by omega)]
        obtain ⟨ws, hws⟩ := ih (rest.drop n).length (by simp; omega) (rest.drop n)
          (fun y hy => hrx y (List.mem_of_mem_drop hy)) rfl
        rw [hws]; exact ⟨_, rfl⟩

theorem encode_ok_ws_lt (items : List Nat) : ∀ ws, encode items = .ok ws → ∀ w ∈ ws, w < 2 ^ 64 := by
  induction hlen : items.length using Nat.strongRecOn generalizing items with
  | _ len ih =>
    subst hlen
    intro ws h
    unfold encode at h
    split at h
    · simp at h; subst h; simp
    · rename_i x xs
      generalize hitems : x :: xs = items at *
      have hne : items ≠ [] := by rw [← hitems]; simp
      have hpos : 0 < items.length := List.length_pos_iff.mpr hne
      simp only at h
      split at h
      · split at h
        · rename_i ws' hws'
          simp at h; subst h
          have := ih (items.drop 240).length (by simp; omega) _ rfl ws' hws'
          simp; exact this
        · rename_i hne'; exact (hne' ws h).elim
      · rename_i i hi
        obtain ⟨_, hi1, hi2, _⟩ := firstNonzero_some _ _ _ _ hi
        generalize hrest : (if i ≥ 120 then items.drop 120 else items) = rest at *
        have hrl : 0 < rest.length ∧ rest.length ≤ items.length := by
          rw [← hrest]; split
          · simp; omega
          · omega
        have hrne : rest ≠ [] := by intro hc; rw [hc] at hrl; simp at hrl
        split at h
        · cases h
        · rename_i cw n hp
          obtain ⟨s, hs, hs', hn, hnp, hx, hcw⟩ := pick_spec _ hrne 14 2 (by omega) (by omega) cw n hp
          split at h
          · cases h
          · split at h
            · rename_i ws' hws'
              simp at h; subst h
              have hw := ih (rest.drop n).length (by simp; omega) _ rfl ws' hws'
              have hp := pack_lt _ _ hx
              have hlen : (rest.take n).length = n := by simp; omega
              rw [hlen] at hp
              have hf := (sel_facts s hs' hs).2.1
              have hnw : tab itemWidth s * n ≤ tab groupSize s * tab itemWidth s := by
                rw [Nat.mul_comm]; exact Nat.mul_le_mul_right _ (by omega)
              have hp60 : pack (tab itemWidth s) (rest.take n) < 2 ^ 60 :=
                Nat.lt_of_lt_of_le hp (Nat.pow_le_pow_right (by decide) (by omega))
              intro w hw'
              simp only [List.mem_append, List.mem_cons] at hw'
              rcases hw' with h1 | rfl | h1
              · split at h1
                · simp at h1; omega
                · simp at h1
              · omega
              · exact hw w h1
            · rename_i hne'; exact (hne' ws h).elim

theorem unpack_le (w m n word : Nat) : ∀ x ∈ unpack w m n word, x ≤ m := by
  induction n generalizing word with
  | zero => simp [unpack]
  | succ n ih =>
    simp only [unpack, List.mem_cons]
    rintro x (rfl | hx)
    · exact Nat.and_le_right
    · exact ih _ x hx

theorem mask_le (s : Nat) : tab mask s < 2 ^ 60 := by
  by_cases h : s < 16
  · have : ∀ s, s < 16 → tab mask s < 2 ^ 60 := by decide
    exact this s h
  · simp [tab, mask, List.getD]
    rw [List.getElem?_eq_none (by simp; omega)]; simp

theorem decodeLoop_lt (ws : List Nat) (n : Nat) (r : List Nat) (h : decodeLoop ws n = .ok r) :
    ∀ x ∈ r, x < 2 ^ 60 := by
  induction ws generalizing n r with
  | nil => cases n <;> simp [decodeLoop] at h; subst h; simp
  | cons w ws ih =>
    cases n with
    | zero => simp [decodeLoop] at h; subst h; simp
    | succ n =>
      simp only [decodeLoop] at h
      split at h
      · rename_i r' hr'
        simp only [Outcome.ok.injEq] at h; subst h
        intro x hx
        rcases List.mem_append.mp hx with hx | hx
        · exact Nat.lt_of_le_of_lt (unpack_le _ _ _ _ x hx) (mask_le _)
        · exact ih _ _ hr' x hx
      · rename_i hne; exact (hne r h).elim

/-- The encoder neither throws nor has undefined behaviour. -/
theorem encode_ok_or_diverge (items : List Nat) : (∃ ws, encode items = .ok ws) ∨ encode items = .diverge := by
  fun_induction encode items <;> grind

end Verif.Simple8b
