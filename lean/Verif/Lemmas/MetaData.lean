import Verif.Model.MetaData
import Verif.Lemmas.Bytes
import Verif.Spec.MetaData
namespace Verif.MetaData
open Verif.Bytes Verif.MetaDataSpec

/-! ### Bits -/

theorem bit_hi {w : Nat} (hw : w < 2 ^ 64) {i : Nat} (hi : 64 ≤ i) : w.testBit i = false :=
  Nat.testBit_lt_two_pow (Nat.lt_of_lt_of_le hw (Nat.pow_le_pow_right (by decide) hi))

theorem and_lt (w m : Nat) (hw : w < 2 ^ 64) : w &&& m < 2 ^ 64 := Nat.lt_of_le_of_lt Nat.and_le_left hw

theorem tb_func (i : Nat) : IS_FUNCTIONAL_MASK.testBit i = decide (i = 56) := by
  have : IS_FUNCTIONAL_MASK = 2 ^ 56 := by decide
  rw [this, Nat.testBit_two_pow]; exact decide_eq_decide.mpr ⟨Eq.symm, Eq.symm⟩

theorem tb_blocks (i : Nat) : HAS_BLOCKS_MASK.testBit i = decide (i = 57) := by
  have : HAS_BLOCKS_MASK = 2 ^ 57 := by decide
  rw [this, Nat.testBit_two_pow]; exact decide_eq_decide.mpr ⟨Eq.symm, Eq.symm⟩

/-- A property of the 64 bits of a constant is checked bit by bit. -/
theorem bits_below (p : Nat → Bool) (h : (List.range 64).all p = true) (i : Nat) (hi : i < 64) : p i = true := by
  rw [List.all_eq_true] at h; exact h i (List.mem_range.mpr hi)

theorem tb_nfunc (i : Nat) (hi : i < 64) : (bnot IS_FUNCTIONAL_MASK).testBit i = decide (i ≠ 56) := by
  have := bits_below (fun i => (bnot IS_FUNCTIONAL_MASK).testBit i == decide (i ≠ 56)) (by decide) i hi
  simpa using this

theorem tb_nblocks (i : Nat) (hi : i < 64) : (bnot HAS_BLOCKS_MASK).testBit i = decide (i ≠ 57) := by
  have := bits_below (fun i => (bnot HAS_BLOCKS_MASK).testBit i == decide (i ≠ 57)) (by decide) i hi
  simpa using this

theorem tb_c1 (i : Nat) (hi : i < 64) : (0xFF00FFFFFFFFFFFF).testBit i = decide (¬ (48 ≤ i ∧ i < 56)) := by
  have := bits_below (fun i => (0xFF00FFFFFFFFFFFF).testBit i == decide (¬ (48 ≤ i ∧ i < 56))) (by decide) i hi
  simpa using this

theorem tb_c2 (i : Nat) (hi : i < 64) : (0xFFFF00FFFFFFFFFF).testBit i = decide (¬ (40 ≤ i ∧ i < 48)) := by
  have := bits_below (fun i => (0xFFFF00FFFFFFFFFF).testBit i == decide (¬ (40 ≤ i ∧ i < 48))) (by decide) i hi
  simpa using this

theorem tb_g1 (i : Nat) : (0x00FF000000000000).testBit i = decide (48 ≤ i ∧ i < 56) := by
  by_cases hi : i < 64
  · have := bits_below (fun i => (0x00FF000000000000).testBit i == decide (48 ≤ i ∧ i < 56)) (by decide) i hi
    simpa using this
  · rw [bit_hi (by decide) (by omega), eq_comm, decide_eq_false_iff_not]; omega

theorem tb_g2 (i : Nat) : (0x0000FF0000000000).testBit i = decide (40 ≤ i ∧ i < 48) := by
  by_cases hi : i < 64
  · have := bits_below (fun i => (0x0000FF0000000000).testBit i == decide (40 ≤ i ∧ i < 48)) (by decide) i hi
    simpa using this
  · rw [bit_hi (by decide) (by omega), eq_comm, decide_eq_false_iff_not]; omega

theorem bne_zero (n : Nat) : (n != 0) = true ↔ ∃ i, n.testBit i = true := by
  rw [bne_iff_ne]
  constructor
  · exact Nat.exists_testBit_of_ne_zero
  · rintro ⟨i, hi⟩ rfl; simp at hi

theorem isFunctional_eq (m : Full) : m.isFunctional = m.word.testBit 56 := by
  rw [Bool.eq_iff_iff, Full.isFunctional, bne_zero]
  constructor
  · rintro ⟨i, hi⟩; rw [Nat.testBit_and, tb_func] at hi; simp at hi; rw [← hi.2]; exact hi.1
  · intro h; exact ⟨56, by rw [Nat.testBit_and, tb_func, h]; rfl⟩

theorem hasBlocks_eq (m : Full) : m.hasBlocks = m.word.testBit 57 := by
  rw [Bool.eq_iff_iff, Full.hasBlocks, bne_zero]
  constructor
  · rintro ⟨i, hi⟩; rw [Nat.testBit_and, tb_blocks] at hi; simp at hi; rw [← hi.2]; exact hi.1
  · intro h; exact ⟨57, by rw [Nat.testBit_and, tb_blocks, h]; rfl⟩

theorem nofElements_eq (m : Full) : m.nofElements = m.word % 2 ^ 40 := by
  unfold Full.nofElements
  have : NOF_ELEMENTS_MASK = 2 ^ 40 - 1 := by decide
  rw [this, Nat.and_two_pow_sub_one_eq_mod]

theorem col1_bit (m : Full) (i : Nat) : m.col1.testBit i = (decide (i < 8) && m.word.testBit (48 + i)) := by
  unfold Full.col1
  rw [show (256 : Nat) = 2 ^ 8 from rfl, Nat.testBit_mod_two_pow, Nat.testBit_shiftRight, Nat.testBit_and, tb_g1]
  by_cases h : i < 8
  · simp [h]; intro _; omega
  · simp [h]

theorem col2_bit (m : Full) (i : Nat) : m.col2.testBit i = (decide (i < 8) && m.word.testBit (40 + i)) := by
  unfold Full.col2
  rw [show (256 : Nat) = 2 ^ 8 from rfl, Nat.testBit_mod_two_pow, Nat.testBit_shiftRight, Nat.testBit_and, tb_g2]
  by_cases h : i < 8
  · simp [h]; intro _; omega
  · simp [h]

/-- What a user sees of the packed word. -/
def fieldsOf (m : Full) : Fields := ⟨m.nofElements, m.col1, m.col2, m.isFunctional, m.hasBlocks⟩

/-- The setter call belonging to an assignment. -/
def setter : Update → Full → Full
  | .functional b, m => m.setIsFunctional b
  | .blocks b, m => m.setHasBlocks b
  | .col1 n, m => m.setCol1 n
  | .col2 n, m => m.setCol2 n

theorem shifted_bit (n k i : Nat) (hk : k + 8 ≤ 64) :
    (((n % 256) <<< k) % 2 ^ 64).testBit i = (decide (k ≤ i ∧ i < k + 8) && n.testBit (i - k)) := by
  rw [Nat.testBit_mod_two_pow, Nat.testBit_shiftLeft, show (256 : Nat) = 2 ^ 8 from rfl, Nat.testBit_mod_two_pow]
  by_cases h1 : k ≤ i
  · by_cases h2 : i < k + 8
    · have h3 : i - k < 8 := by omega
      have h4 : i < 64 := by omega
      simp [h1, h2, h3, h4]
    · have h3 : ¬ i - k < 8 := by omega
      simp [h2, h3]
  · simp [h1]

/-- The bits of the word after a setter. -/
theorem setter_bit (u : Update) (m : Full) (hm : m.word < 2 ^ 64) (i : Nat) :
    (setter u m).word.testBit i = match u with
      | .functional b => if i = 56 then b else m.word.testBit i
      | .blocks b => if i = 57 then b else m.word.testBit i
      | .col1 n => if 48 ≤ i ∧ i < 56 then n.testBit (i - 48) else m.word.testBit i
      | .col2 n => if 40 ≤ i ∧ i < 48 then n.testBit (i - 40) else m.word.testBit i := by
  by_cases hi : i < 64
  · cases u with
    | functional b =>
      cases b
      · simp [setter, Full.setIsFunctional, Nat.testBit_and, tb_nfunc i hi]
        by_cases h : i = 56 <;> simp [h]
      · simp [setter, Full.setIsFunctional, Nat.testBit_or, tb_func]
        by_cases h : i = 56 <;> simp [h]
    | blocks b =>
      cases b
      · simp [setter, Full.setHasBlocks, Nat.testBit_and, tb_nblocks i hi]
        by_cases h : i = 57 <;> simp [h]
      · simp [setter, Full.setHasBlocks, Nat.testBit_or, tb_blocks]
        by_cases h : i = 57 <;> simp [h]
    | col1 n =>
      simp only [setter, Full.setCol1, Nat.testBit_or, Nat.testBit_and, tb_c1 i hi]
      rw [shifted_bit n 48 i (by decide)]
      by_cases h : 48 ≤ i ∧ i < 56
      · simp [h]
      · rw [if_neg h]; simp only [h, decide_false, Bool.false_and, not_false_eq_true, decide_true, Bool.and_true,
          Bool.or_false]
    | col2 n =>
      simp only [setter, Full.setCol2, Nat.testBit_or, Nat.testBit_and, tb_c2 i hi]
      rw [shifted_bit n 40 i (by decide)]
      by_cases h : 40 ≤ i ∧ i < 48
      · simp [h]
      · rw [if_neg h]; simp only [h, decide_false, Bool.false_and, not_false_eq_true, decide_true, Bool.and_true,
          Bool.or_false]
  · have hw := bit_hi hm (i := i) (by omega)
    cases u with
    | functional b =>
      have h : i ≠ 56 := by omega
      cases b <;> simp [setter, Full.setIsFunctional, Nat.testBit_and, Nat.testBit_or, tb_func, hw, h]
    | blocks b =>
      have h : i ≠ 57 := by omega
      cases b <;> simp [setter, Full.setHasBlocks, Nat.testBit_and, Nat.testBit_or, tb_blocks, hw, h]
    | col1 n =>
      have h : ¬ (48 ≤ i ∧ i < 56) := by omega
      simp only [setter, Full.setCol1, Nat.testBit_or, Nat.testBit_and, hw]
      rw [shifted_bit n 48 i (by decide), if_neg h]; simp; omega
    | col2 n =>
      have h : ¬ (40 ≤ i ∧ i < 48) := by omega
      simp only [setter, Full.setCol2, Nat.testBit_or, Nat.testBit_and, hw]
      rw [shifted_bit n 40 i (by decide), if_neg h]; simp; omega

theorem setter_lt (u : Update) (m : Full) (hm : m.word < 2 ^ 64) : (setter u m).word < 2 ^ 64 := by
  apply Nat.lt_pow_two_of_testBit
  intro i hi
  rw [setter_bit u m hm]
  have hw := bit_hi hm hi
  cases u with
  | functional b => exact (if_neg (by omega)).trans hw
  | blocks b => exact (if_neg (by omega)).trans hw
  | col1 n => exact (if_neg (by omega)).trans hw
  | col2 n => exact (if_neg (by omega)).trans hw

theorem setter_fields (u : Update) (m : Full) (hm : m.word < 2 ^ 64) (hu : u.InRange) :
    fieldsOf (setter u m) = u.apply (fieldsOf m) := by
  have hb := setter_bit u m hm
  have hnof : (setter u m).nofElements = m.nofElements := by
    rw [nofElements_eq, nofElements_eq]
    apply Nat.eq_of_testBit_eq; intro i
    rw [Nat.testBit_mod_two_pow, Nat.testBit_mod_two_pow]
    by_cases hi : i < 40
    · simp only [hi, decide_true, Bool.true_and, hb]
      cases u <;> exact if_neg (by omega)
    · simp [hi]
  have hlt : ∀ n, n < 256 → ∀ i, ¬ i < 8 → n.testBit i = false := by
    intro n hn i hi
    exact Nat.testBit_lt_two_pow (Nat.lt_of_lt_of_le hn
      (show 2 ^ 8 ≤ 2 ^ i from Nat.pow_le_pow_right (by decide) (by omega)))
  have hc1 : (setter u m).col1 = match u with | .col1 n => n | _ => m.col1 := by
    apply Nat.eq_of_testBit_eq; intro i
    rw [col1_bit, hb]
    cases u with
    | col1 n =>
      by_cases hi : i < 8
      · have : 48 ≤ 48 + i ∧ 48 + i < 56 := by omega
        simp [hi, this]
      · simp [hi, hlt n hu i hi]
    | _ =>
      rw [col1_bit]
      by_cases hi : i < 8
      · simp only [hi, decide_true, Bool.true_and]; exact if_neg (by omega)
      · simp [hi]
  have hc2 : (setter u m).col2 = match u with | .col2 n => n | _ => m.col2 := by
    apply Nat.eq_of_testBit_eq; intro i
    rw [col2_bit, hb]
    cases u with
    | col2 n =>
      by_cases hi : i < 8
      · have : 40 ≤ 40 + i ∧ 40 + i < 48 := by omega
        simp [hi, this]
      · simp [hi, hlt n hu i hi]
    | _ =>
      rw [col2_bit]
      by_cases hi : i < 8
      · simp only [hi, decide_true, Bool.true_and]; exact if_neg (by omega)
      · simp [hi]
  have hf : (setter u m).isFunctional = match u with | .functional b => b | _ => m.isFunctional := by
    rw [isFunctional_eq, hb, isFunctional_eq]
    cases u <;> simp
  have hbl : (setter u m).hasBlocks = match u with | .blocks b => b | _ => m.hasBlocks := by
    rw [hasBlocks_eq, hb, hasBlocks_eq]
    cases u <;> simp
  unfold fieldsOf
  rw [hnof, hc1, hc2, hf, hbl]
  cases u <;> rfl

theorem setter_ids (u : Update) (m : Full) : (setter u m).relId = m.relId ∧ (setter u m).start = m.start := by
  cases u with
  | functional b => cases b <;> exact ⟨rfl, rfl⟩
  | blocks b => cases b <;> exact ⟨rfl, rfl⟩
  | col1 n => exact ⟨rfl, rfl⟩
  | col2 n => exact ⟨rfl, rfl⟩

theorem mk'_eq (relId start nof l1 l2 : Nat) (f b : Bool) :
    Full.mk' relId start nof l1 l2 f b = setter (.col2 (min l2 255)) (setter (.col1 (min l1 255))
      (setter (.blocks b) (setter (.functional f) ⟨relId, start, nof⟩))) := by
  unfold Full.mk' setter
  have h : ∀ l, (if l ≥ 255 then 255 else l) = min l 255 := by intro l; split <;> omega
  simp only [h]

theorem mk'_lt (relId start nof l1 l2 : Nat) (f b : Bool) (h : nof < 2 ^ 64) :
    (Full.mk' relId start nof l1 l2 f b).word < 2 ^ 64 := by
  rw [mk'_eq]
  exact setter_lt _ _ (setter_lt _ _ (setter_lt _ _ (setter_lt _ _ h)))

theorem mk'_fields (relId start nof l1 l2 : Nat) (f b : Bool) (h : nof < 2 ^ 64) :
    fieldsOf (Full.mk' relId start nof l1 l2 f b) = ⟨nof % 2 ^ 40, min l1 255, min l2 255, f, b⟩ := by
  rw [mk'_eq]
  have h1 := setter_lt (.functional f) ⟨relId, start, nof⟩ h
  have h2 := setter_lt (.blocks b) _ h1
  have h3 := setter_lt (.col1 (min l1 255)) _ h2
  rw [setter_fields (.col2 (min l2 255)) _ h3 (show min l2 255 < 256 by omega),
    setter_fields (.col1 (min l1 255)) _ h2 (show min l1 255 < 256 by omega), setter_fields (.blocks b) _ h1 trivial,
    setter_fields (.functional f) _ h trivial]
  simp [Update.apply, fieldsOf, nofElements_eq]

theorem mk'_ids (relId start nof l1 l2 : Nat) (f b : Bool) :
    (Full.mk' relId start nof l1 l2 f b).relId = relId ∧ (Full.mk' relId start nof l1 l2 f b).start = start := by
  rw [mk'_eq]
  simp [setter_ids]

/-! ### Bytes -/

theorem rd64_zero (x : Nat) (r : List Nat) (h : x < 2 ^ 64) : rd64 (toLE 8 x ++ r) 0 = .ok x := by
  unfold rd64
  rw [peek_mid' _ [] (toLE 8 x) r 0 8 (by simp) rfl (by simp)]
  show Outcome.ok _ = _
  rw [ofLE_toLE 8 x (by simpa using h)]

theorem rd64_skip (a r : List Nat) (n : Nat) : rd64 (a ++ r) (a.length + n) = rd64 r n := by
  unfold rd64 peek
  have h1 : (a.length + n + 8 ≤ (a ++ r).length) ↔ (n + 8 ≤ r.length) := by simp; omega
  by_cases h : n + 8 ≤ r.length
  · rw [if_pos h, if_pos (h1.mpr h), List.drop_append, List.drop_eq_nil_of_le (by omega)]
    simp
  · rw [if_neg h, if_neg (by rw [h1]; exact h)]

theorem rd64_8 (x : Nat) (r : List Nat) (n : Nat) : rd64 (toLE 8 x ++ r) (8 + n) = rd64 r n := by
  have := rd64_skip (toLE 8 x) r n
  rwa [length_toLE] at this

theorem peek_skip (a r : List Nat) (n k : Nat) : peek (a ++ r) (a.length + n) k = peek r n k := by
  unfold peek
  have h1 : (a.length + n + k ≤ (a ++ r).length) ↔ (n + k ≤ r.length) := by simp; omega
  by_cases h : n + k ≤ r.length
  · rw [if_pos h, if_pos (h1.mpr h), List.drop_append, List.drop_eq_nil_of_le (by omega)]
    simp
  · rw [if_neg h, if_neg (by rw [h1]; exact h)]

theorem peek_zero (a r : List Nat) (k : Nat) (hk : k = a.length) : peek (a ++ r) 0 k = .ok a :=
  peek_mid' _ [] a r 0 k (by simp) rfl hk

/-- Every stored number fits into 64 bits (true of every C++ object). -/
def Full.WF (m : Full) : Prop := m.relId < 2 ^ 64 ∧ m.start < 2 ^ 64 ∧ m.word < 2 ^ 64

def Blocks.WF (m : Blocks) : Prop :=
  m.startRhs < 2 ^ 64 ∧ m.offsetAfter < 2 ^ 64 ∧ m.blocks.length < 2 ^ 64 ∧
    ∀ b ∈ m.blocks, b.firstLhs < 2 ^ 64 ∧ b.startOffset < 2 ^ 64

theorem full_roundtrip (m : Full) (h : m.WF) (r : List Nat) : Full.create (m.write ++ r) = .ok m := by
  unfold Full.create Full.write
  rw [List.append_assoc, List.append_assoc, rd64_zero _ _ h.1]
  have h8 : ∀ x r, rd64 (toLE 8 x ++ r) 8 = rd64 r 0 := fun x r => rd64_8 x r 0
  simp only [Outcome.bind, h8, rd64_8, rd64_zero _ _ h.2.1, rd64_zero _ _ h.2.2]

@[simp] theorem full_length (m : Full) : m.write.length = m.bytesRequired := by
  simp [Full.write, Full.bytesRequired]

@[simp] theorem blockBytes_length (bs : List Block) : (blockBytes bs).length = bs.length * 16 := by
  induction bs with
  | nil => rfl
  | cons b bs ih =>
    simp only [blockBytes, List.flatMap_cons, List.length_append, length_toLE, List.length_cons] at *
    omega

theorem blocksOf_bytes (bs : List Block) (h : ∀ b ∈ bs, b.firstLhs < 2 ^ 64 ∧ b.startOffset < 2 ^ 64) :
    blocksOf bs.length (blockBytes bs) = bs := by
  induction bs with
  | nil => rfl
  | cons b bs ih =>
    have hb := h b (by simp)
    show blocksOf (bs.length + 1) (toLE 8 b.firstLhs ++ toLE 8 b.startOffset ++ blockBytes bs) = _
    unfold blocksOf
    rw [List.append_assoc, List.take_left' (length_toLE 8 _), List.drop_left' (length_toLE 8 _),
      List.take_left' (length_toLE 8 _), ← List.append_assoc,
      List.drop_left' (l₁ := toLE 8 b.firstLhs ++ toLE 8 b.startOffset) (by simp),
      ih (fun x hx => h x (by simp [hx])), ofLE_toLE 8 _ (by simpa using hb.1), ofLE_toLE 8 _ (by simpa using hb.2)]

theorem blocks_roundtrip (m : Blocks) (h : m.WF) (r : List Nat) : Blocks.create (m.write ++ r) = .ok m := by
  obtain ⟨h1, h2, h3, h4⟩ := h
  unfold Blocks.create Blocks.write
  simp only [List.append_assoc]
  rw [rd64_zero _ _ h1]
  have h8 : ∀ x r, rd64 (toLE 8 x ++ r) 8 = rd64 r 0 := fun x r => rd64_8 x r 0
  simp only [Outcome.bind, h8, rd64_8, rd64_zero _ _ h2, rd64_zero _ _ h3]
  rw [peek_mid' _ (toLE 8 m.startRhs ++ toLE 8 m.offsetAfter ++ toLE 8 m.blocks.length) (blockBytes m.blocks) r
    (8 + 8 + 8) (m.blocks.length * 16) (by simp) (by simp) (by simp)]
  simp only [blocksOf_bytes m.blocks h4]

@[simp] theorem blocks_length (m : Blocks) : m.write.length = m.bytesRequired := by
  simp [Blocks.write, Blocks.bytesRequired]; omega

end Verif.MetaData
