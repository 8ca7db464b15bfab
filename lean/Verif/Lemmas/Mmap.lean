import Verif.Spec.Mmap
/- Helper lemmas for `Props/C42_Mmap.lean` and `Props/C43_BufferedVector.lean`. -/
namespace Verif.Mmap
open MmapSpec

theorem leNum_leBytes : ∀ k n, n < 256 ^ k → leNum (leBytes k n) = n := by
  intro k
  induction k with
  | zero => intro n h; simp at h; subst h; rfl
  | succ k ih =>
    intro n h
    rw [leBytes, leNum, ih (n / 256) (by rw [Nat.pow_succ] at h; omega)]
    omega

theorem length_leBytes : ∀ k n, (leBytes k n).length = k := by
  intro k
  induction k with
  | zero => intro n; rfl
  | succ k ih => intro n; simp [leBytes, ih]

theorem length_meta (a b d : Nat) : (metaBytes a b d).length = 32 := by simp [metaBytes, length_leBytes]

theorem readMeta_append (d : List Nat) {a b e : Nat} (ha : a < 2 ^ 64) (hb : b < 2 ^ 64) (he : e < 2 ^ 64) :
    readMeta (d ++ metaBytes a b e) = some (a, b, e) := by
  have hl := length_meta a b e
  have hd : (d ++ metaBytes a b e).drop ((d ++ metaBytes a b e).length - 32) = metaBytes a b e := by
    rw [List.length_append, hl, Nat.add_sub_cancel, List.drop_left]
  simp only [readMeta, hd]
  rw [if_neg (by rw [List.length_append]; omega)]
  have h1 : (metaBytes a b e).take 8 = leBytes 8 a := by
    simp only [metaBytes, List.append_assoc]
    rw [List.take_left' (length_leBytes 8 a)]
  have h2 : ((metaBytes a b e).drop 8).take 8 = leBytes 8 b := by
    simp only [metaBytes, List.append_assoc]
    rw [List.drop_left' (length_leBytes 8 a), List.take_left' (length_leBytes 8 b)]
  have h3 : ((metaBytes a b e).drop 16).take 8 = leBytes 8 e := by
    rw [show 16 = 8 + 8 from rfl, ← List.drop_drop]
    simp only [metaBytes, List.append_assoc]
    rw [List.drop_left' (length_leBytes 8 a), List.drop_left' (length_leBytes 8 b), List.take_left' (length_leBytes 8 e)]
  have h4 : ((metaBytes a b e).drop 24).take 4 = leBytes 4 magicNumber := by
    rw [show 24 = 8 + (8 + 8) from rfl, ← List.drop_drop, ← List.drop_drop]
    simp only [metaBytes, List.append_assoc]
    rw [List.drop_left' (length_leBytes 8 a), List.drop_left' (length_leBytes 8 b), List.drop_left' (length_leBytes 8 e),
      List.take_left' (length_leBytes 4 _)]
  have h5 : ((metaBytes a b e).drop 28).take 4 = leBytes 4 version := by
    rw [show 28 = 8 + (8 + (8 + 4)) from rfl, ← List.drop_drop, ← List.drop_drop, ← List.drop_drop]
    simp only [metaBytes, List.append_assoc]
    rw [List.drop_left' (length_leBytes 8 a), List.drop_left' (length_leBytes 8 b), List.drop_left' (length_leBytes 8 e),
      List.drop_left' (length_leBytes 4 _), List.take_of_length_le (Nat.le_of_eq (length_leBytes 4 _))]
  rw [h1, h2, h3, h4, h5, leNum_leBytes 8 a (by simpa using ha), leNum_leBytes 8 b (by simpa using hb),
    leNum_leBytes 8 e (by simpa using he), leNum_leBytes 4 _ (by decide), leNum_leBytes 4 _ (by decide)]
  simp

/-- A file with metadata has a magic number. -/
theorem readMeta_some {d : List Nat} {r : Nat × Nat × Nat} (h : readMeta d = some r) :
    32 ≤ d.length ∧ leNum ((d.drop (d.length - 8)).take 4) = 7601577 ∧ leNum ((d.drop (d.length - 4)).take 4) = 0 := by
  simp only [readMeta] at h
  by_cases h1 : d.length < 32
  · rw [if_pos h1] at h; cases h
  · rw [if_neg h1] at h
    by_cases h2 : leNum (((d.drop (d.length - 32)).drop 24).take 4) ≠ magicNumber ∨
        leNum (((d.drop (d.length - 32)).drop 28).take 4) ≠ version
    · rw [if_pos h2] at h; cases h
    · rw [List.drop_drop, List.drop_drop, show d.length - 32 + 24 = d.length - 8 by omega,
        show d.length - 32 + 28 = d.length - 4 by omega] at h2
      refine ⟨by omega, ?_, ?_⟩
      · by_cases h3 : leNum ((d.drop (d.length - 8)).take 4) = 7601577
        · exact h3
        · exact absurd (.inl h3) h2
      · by_cases h3 : leNum ((d.drop (d.length - 4)).take 4) = 0
        · exact h3
        · exact absurd (.inr h3) h2

theorem leNum_zeros : ∀ n, leNum (List.replicate n 0) = 0 := by
  intro n
  induction n with
  | zero => rfl
  | succ n ih => rw [List.replicate_succ, leNum, ih]

/-! Positions in the file -/

/-- Element `i` of a file. -/
def slice (w : Nat) (d : List Nat) (i : Nat) : List Nat := (d.drop (i * w)).take w

theorem slice_take {w : Nat} {d : List Nat} {i n : Nat} (h : (i + 1) * w ≤ n) : slice w (d.take n) i = slice w d i := by
  rw [Nat.succ_mul] at h
  simp only [slice]
  rw [List.drop_take, List.take_take, Nat.min_eq_left (by omega)]

theorem slice_append {w : Nat} {d d' : List Nat} {i : Nat} (h : (i + 1) * w ≤ d.length) : slice w (d ++ d') i = slice w d i := by
  rw [Nat.succ_mul] at h
  simp only [slice]
  rw [List.drop_append_of_le_length (by omega), List.take_append_of_le_length (by rw [List.length_drop]; omega)]

theorem length_truncated (d : List Nat) (n : Nat) : (truncated d n).length = n := by
  simp [truncated, List.length_take]; omega

theorem slice_truncated {w : Nat} {d : List Nat} {i n : Nat} (h1 : (i + 1) * w ≤ n) (h2 : (i + 1) * w ≤ d.length) :
    slice w (truncated d n) i = slice w d i := by
  rw [truncated, slice_append (by rw [List.length_take]; omega), slice_take h1]

theorem length_writeAt {d : List Nat} {p : Nat} {b : List Nat} (h : p + b.length ≤ d.length) : (writeAt d p b).length = d.length := by
  simp [writeAt, List.length_take]; omega

theorem slice_writeAt_same {w : Nat} {d e : List Nat} {i : Nat} (he : e.length = w) (h : (i + 1) * w ≤ d.length) :
    slice w (writeAt d (i * w) e) i = e := by
  rw [Nat.succ_mul] at h
  simp only [slice, writeAt]
  rw [List.append_assoc, List.drop_left' (by rw [List.length_take]; omega), List.take_left' he]

theorem slice_writeAt_other {w : Nat} {d e : List Nat} {i j : Nat} (he : e.length = w) (h : (i + 1) * w ≤ d.length) (hij : j ≠ i) :
    slice w (writeAt d (i * w) e) j = slice w d j := by
  have hi : (i + 1) * w = i * w + w := Nat.succ_mul i w
  by_cases hlt : j < i
  · have hj : (j + 1) * w ≤ i * w := Nat.mul_le_mul_right w (by omega)
    rw [writeAt, List.append_assoc, slice_append (by rw [List.length_take]; omega), slice_take hj]
  · have hj : (i + 1) * w ≤ j * w := Nat.mul_le_mul_right w (by omega)
    simp only [slice, writeAt]
    have h0 : (d.take (i * w) ++ e).length = i * w + w := by
      rw [List.length_append, List.length_take, he]; omega
    rw [List.drop_append, h0, List.drop_eq_nil_of_le (by omega), List.nil_append, List.drop_drop, he]
    congr 2
    omega

theorem drop_writeAt {d b : List Nat} {p k : Nat} (h : p + b.length ≤ d.length) (hk : p + b.length ≤ k) :
    (writeAt d p b).drop k = d.drop k := by
  simp only [writeAt]
  have h0 : (d.take p ++ b).length = p + b.length := by
    rw [List.length_append, List.length_take]; omega
  rw [List.drop_append, h0, List.drop_eq_nil_of_le (by omega), List.nil_append, List.drop_drop]
  congr 1
  omega

theorem readMeta_writeAt {d b : List Nat} {p : Nat} (h : p + b.length + 32 ≤ d.length) : readMeta (writeAt d p b) = readMeta d := by
  have hl := length_writeAt (d := d) (p := p) (b := b) (by omega)
  simp only [readMeta, hl]
  rw [drop_writeAt (by omega) (by omega)]

theorem writeAt_end {d b : List Nat} {n : Nat} (h : d.length = n) : writeAt d n b = d ++ b := by
  subst h
  simp [writeAt]

/-! The vector -/

/-- The content of an open vector. -/
structure Rep (c : Cfg) (s : State) (l : Content) : Prop where
  mapped : s.mapped = true
  size : s.size = l.length
  fits : s.size ≤ s.capacity
  capacity : s.capacity = s.bytesize / c.w
  pages : ∃ k, 0 < k ∧ s.bytesize = k * c.page
  bound : s.bytesize < 2 ^ 63
  disk : s.disk.length = s.bytesize + 32
  stored : ∃ n ≤ l.length, readMeta s.disk = some (n, s.capacity, s.bytesize)
  content : ∀ i e, l[i]? = some (some e) → slice c.w s.disk i = e

theorem capacity_mul {c : Cfg} {s : State} {l : Content} (h : Rep c s l) {i : Nat} (hi : i < s.capacity) :
    (i + 1) * c.w ≤ s.bytesize := by
  rw [h.capacity] at hi
  exact Nat.le_trans (Nat.mul_le_mul_right c.w hi) (Nat.div_mul_le_self _ _)

theorem shows_of_rep {c : Cfg} {s : State} {l : Content} (h : Rep c s l) : Shows c s l := by
  refine ⟨h.size, ?_⟩
  intro i e hi
  have hlt : i < l.length := (List.getElem?_eq_some_iff.mp hi).1
  have h1 := capacity_mul h (show i < s.capacity by have := h.fits; have := h.size; omega)
  have hg : get c i s = .ok e := by
    rw [get, if_pos h.mapped, if_pos ⟨h1, by rw [h.disk]; omega⟩]
    have := h.content i e hi
    rw [slice] at this
    rw [this]
  refine ⟨hg, ?_⟩
  rw [getAt, if_pos ⟨h.mapped, by rw [h.size]; exact hlt⟩, hg]

/-- The file of a vector can be opened. -/
theorem recovers_of {c : Cfg} {d : List Nat} {n cap bs : Nat} {l : Content} (hm : readMeta d = some (n, cap, bs))
    (hn : n ≤ l.length) (hcap : n ≤ cap) (hcb : cap = bs / c.w) (hd : d.length = bs + 32) (hbs : 0 < bs)
    (hl : ∀ i e, i < n → l[i]? = some (some e) → slice c.w d i = e) : Recovers c d l := by
  refine ⟨⟨d, [], true, n, cap, bs⟩, ?_, n, hn, ?_, ?_⟩
  · rw [reuse, hm]
    dsimp only
    rw [if_neg (by omega)]
  · simp; omega
  · intro i e hi
    have hlt : i < n := by
      have := (List.getElem?_eq_some_iff.mp hi).1
      rw [List.length_take] at this; omega
    rw [List.getElem?_take, if_pos hlt] at hi
    have h1 : (i + 1) * c.w ≤ bs := by
      have : i + 1 ≤ bs / c.w := by omega
      exact Nat.le_trans (Nat.mul_le_mul_right c.w this) (Nat.div_mul_le_self _ _)
    have hg : get c i ⟨d, [], true, n, cap, bs⟩ = .ok e := by
      rw [get, if_pos rfl, if_pos ⟨h1, by dsimp only; omega⟩]
      have := hl i e hlt hi
      rw [slice] at this
      rw [this]
    exact ⟨hg, by rw [getAt, if_pos ⟨rfl, hlt⟩, hg]⟩

theorem pages_pos {c : Cfg} {s : State} {l : Content} (h : Rep c s l) : c.page ≤ s.bytesize := by
  obtain ⟨k, hk, he⟩ := h.pages
  rw [he]
  exact Nat.le_mul_of_pos_left _ hk

theorem recovers_of_rep {c : Cfg} (hc : Fine c) {s : State} {l : Content} (h : Rep c s l) : Recovers c s.disk l := by
  obtain ⟨n, hn, hm⟩ := h.stored
  have h1 := pages_pos h
  have h2 := hc.page
  exact recovers_of hm hn (by have := h.fits; have := h.size; omega) h.capacity h.disk (by omega)
    (fun i e _ hi => h.content i e hi)

/-- What a crash may leave behind. -/
def Crash (c : Cfg) (d : List Nat) (l l' : Content) : Prop :=
  readMeta d = none ∨ Accident c d ∨ Recovers c d l ∨ Recovers c d l'

/-- A file cut at a page. -/
theorem crash_pages {c : Cfg} {d : List Nat} {k : Nat} (h : d.length = k * c.page) (l l' : Content) : Crash c d l l' := by
  cases hm : readMeta d with
  | none => exact .inl hm
  | some r =>
    have := readMeta_some hm
    exact .inr (.inl ⟨⟨k, by rw [h, Nat.mul_comm]⟩, this.2⟩)

/-- Writing the metadata of a new capacity. -/
theorem writeMeta_rep {c : Cfg} (hc : Fine c) {s : State} {l : Content} (hm : s.mapped = true) (hs : s.size = l.length)
    (hf : s.size ≤ s.capacity) (hcap : s.capacity = s.bytesize / c.w) (hp : ∃ k, 0 < k ∧ s.bytesize = k * c.page)
    (hb : s.bytesize < 2 ^ 63) (hcont : ∀ i e, l[i]? = some (some e) → (i + 1) * c.w ≤ s.disk.length ∧ slice c.w s.disk i = e)
    (l₀ : Content) :
    Rep c (writeMeta s) l ∧ ∃ d2, (writeMeta s).seen = s.seen ++ [truncated s.disk s.bytesize, d2] ∧
      Crash c (truncated s.disk s.bytesize) l₀ l ∧ Recovers c d2 l ∧ (writeMeta s).disk = d2 := by
  have hmul : ∀ i, i < l.length → (i + 1) * c.w ≤ s.bytesize := by
    intro i hi
    have : i + 1 ≤ s.bytesize / c.w := by omega
    exact Nat.le_trans (Nat.mul_le_mul_right c.w this) (Nat.div_mul_le_self _ _)
  have hcb : s.capacity ≤ s.bytesize := by rw [hcap]; exact Nat.div_le_self _ _
  have hdisk : (writeMeta s).disk = truncated s.disk s.bytesize ++ metaBytes s.size s.capacity s.bytesize := by
    simp only [writeMeta, State.put]
    exact writeAt_end (length_truncated _ _)
  have hrep : Rep c (writeMeta s) l := by
    refine ⟨hm, hs, hf, hcap, hp, hb, ?_, ⟨l.length, Nat.le_refl _, ?_⟩, ?_⟩
    · rw [hdisk, List.length_append, length_truncated, length_meta]; rfl
    · rw [hdisk, readMeta_append _ (by omega) (by omega) (by omega), hs]; rfl
    · intro i e hi
      have hlt : i < l.length := (List.getElem?_eq_some_iff.mp hi).1
      have h1 := hmul i hlt
      rw [hdisk, slice_append (by rw [length_truncated]; exact h1), slice_truncated h1 (hcont i e hi).1]
      exact (hcont i e hi).2
  refine ⟨hrep, (writeMeta s).disk, ?_, ?_, ?_, rfl⟩
  · simp [writeMeta, State.put]
  · obtain ⟨k, _, hk⟩ := hp
    exact crash_pages (k := k) (by rw [length_truncated, hk]) _ _
  · exact recovers_of_rep hc hrep

theorem convert_spec {c : Cfg} (hc : Fine c) (n : Nat) :
    (convert c n).1 = (convert c n).2 / c.w ∧ (∃ k, 0 < k ∧ (convert c n).2 = k * c.page) ∧ n ≤ (convert c n).1 ∧ 2 ≤ (convert c n).1 := by
  have hw := hc.w
  have hp := hc.page
  have hsm := hc.small
  refine ⟨rfl, ⟨n * c.w / c.page + 1, Nat.succ_pos _, rfl⟩, ?_, ?_⟩
  · simp only [convert]
    rw [Nat.le_div_iff_mul_le hw]
    have h1 := Nat.div_add_mod (n * c.w) c.page
    have h2 := Nat.mod_lt (n * c.w) (show c.page > 0 by omega)
    rw [Nat.succ_mul]
    have h3 : c.page * (n * c.w / c.page) = n * c.w / c.page * c.page := Nat.mul_comm _ _
    omega
  · simp only [convert]
    rw [Nat.le_div_iff_mul_le hw, Nat.succ_mul (n * c.w / c.page)]
    omega

/-- A file that has grown ends with zeros. -/
theorem readMeta_grown {d : List Nat} {n : Nat} (h : d.length + 8 ≤ n) : readMeta (truncated d n) = none := by
  cases hm : readMeta (truncated d n) with
  | none => rfl
  | some r =>
    exfalso
    have h2 := (readMeta_some hm).2.1
    rw [length_truncated, truncated, List.drop_append, List.drop_eq_nil_of_le (by rw [List.length_take]; omega), List.nil_append,
      List.drop_replicate, List.take_replicate, leNum_zeros] at h2
    omega

/-- What a crash may leave behind when no file gets shorter. -/
def Safe (c : Cfg) (d : List Nat) (l l' : Content) : Prop := readMeta d = none ∨ Recovers c d l ∨ Recovers c d l'

/-- An operation keeps the representation, and every file on the way can be recovered. -/
def Good (c : Cfg) (o : Outcome State) (s : State) (l l' : Content) : Prop :=
  o = .throw ∨ ∃ s' ds, o = .ok s' ∧ Rep c s' l' ∧ s'.seen = s.seen ++ ds ∧ ∀ d ∈ ds, Safe c d l l'

theorem adapt_good {c : Cfg} (hc : Fine c) {s : State} {n : Nat} {l : Content} (hs : s.size = l.length) (hn : s.size ≤ n)
    (hcont : ∀ i e, l[i]? = some (some e) → (i + 1) * c.w ≤ s.disk.length ∧ slice c.w s.disk i = e) (l₀ : Content) :
    adaptCapacity c n s = .throw ∨ ∃ s' ds, adaptCapacity c n s = .ok s' ∧ Rep c s' l ∧ s'.seen = s.seen ++ ds ∧
      (∀ d ∈ ds, Crash c d l₀ l) ∧ (s.disk.length + 8 ≤ (convert c n).2 → ∀ d ∈ ds, Safe c d l₀ l) ∧ s'.size = s.size ∧
      s'.capacity = (convert c n).1 := by
  by_cases h : s.mapped = false ∨ 2 ^ 63 ≤ (convert c n).2
  · left; rw [adaptCapacity, if_pos h]
  · right
    obtain ⟨h1, h2, h3, h4⟩ := convert_spec hc n
    have hm : s.mapped = true := by
      cases hm : s.mapped with
      | true => rfl
      | false => exact absurd (.inl hm) h
    obtain ⟨hrep, d2, hseen, hc1, hc2, _⟩ := writeMeta_rep hc
      (s := { s with capacity := (convert c n).1, bytesize := (convert c n).2 }) hm hs (by dsimp only; omega) h1 h2
      (by dsimp only; omega) hcont l₀
    refine ⟨_, [_, d2], by rw [adaptCapacity, if_neg h], hrep, hseen, ?_, ?_, rfl, rfl⟩
    · intro d hd
      simp only [List.mem_cons, List.not_mem_nil, or_false] at hd
      rcases hd with rfl | rfl
      · exact hc1
      · exact .inr (.inr (.inr hc2))
    · intro hgrow d hd
      simp only [List.mem_cons, List.not_mem_nil, or_false] at hd
      rcases hd with rfl | rfl
      · exact .inl (readMeta_grown hgrow)
      · exact .inr (.inr hc2)

/-- More capacity needs another page. -/
theorem convert_grows {c : Cfg} (hc : Fine c) {s : State} {l : Content} (h : Rep c s l) {n : Nat} (hn : s.capacity < n) :
    s.disk.length + 8 ≤ (convert c n).2 := by
  obtain ⟨h1, ⟨k, hk, h2⟩, h3, _⟩ := convert_spec hc n
  obtain ⟨k', hk', h2'⟩ := h.pages
  have hlt : s.bytesize < (convert c n).2 := by
    by_cases hle : (convert c n).2 ≤ s.bytesize
    · have := Nat.div_le_div_right (c := c.w) hle
      rw [← h1, ← h.capacity] at this
      omega
    · omega
  have hkk : k' < k := by
    rw [h2, h2'] at hlt
    exact Nat.lt_of_mul_lt_mul_right hlt
  have hle : (k' + 1) * c.page ≤ k * c.page := Nat.mul_le_mul_right _ hkk
  rw [Nat.succ_mul] at hle
  have := hc.page
  rw [h.disk, h2, h2']
  omega

theorem rep_content {c : Cfg} {s : State} {l : Content} (h : Rep c s l) :
    ∀ i e, l[i]? = some (some e) → (i + 1) * c.w ≤ s.disk.length ∧ slice c.w s.disk i = e := by
  intro i e hi
  have hlt : i < l.length := (List.getElem?_eq_some_iff.mp hi).1
  have := capacity_mul h (show i < s.capacity by have := h.fits; have := h.size; omega)
  exact ⟨by rw [h.disk]; omega, h.content i e hi⟩

theorem resize_good {c : Cfg} (hc : Fine c) {s : State} {l : Content} (h : Rep c s l) (n : Nat) :
    resize c n s = .throw ∨ ∃ s' ds, resize c n s = .ok s' ∧ Rep c s' (step (.resize n) l) ∧ s'.seen = s.seen ++ ds ∧
      ∀ d ∈ ds, Crash c d l (step (.resize n) l) := by
  have hlen : (step (.resize n) l).length = n := by simp [step]; omega
  have hcont : ∀ i e, (step (.resize n) l)[i]? = some (some e) → (i + 1) * c.w ≤ s.disk.length ∧ slice c.w s.disk i = e := by
    intro i e hi
    refine rep_content h i e ?_
    simp only [step] at hi
    by_cases hlt : i < (l.take n).length
    · rw [List.getElem?_append_left hlt, List.getElem?_take] at hi
      by_cases hin : i < n
      · rwa [if_pos hin] at hi
      · rw [if_neg hin] at hi; cases hi
    · rw [List.getElem?_append_right (by omega), List.getElem?_replicate] at hi
      split at hi <;> simp at hi
  rcases adapt_good hc (s := { s with size := n }) (n := n) (l := step (.resize n) l) hlen.symm (Nat.le_refl _) hcont l with
    h1 | ⟨s', ds, h1, h2, h3, h4, _⟩
  · exact .inl h1
  · exact .inr ⟨s', ds, h1, h2, h3, h4⟩

theorem reserve_good {c : Cfg} (hc : Fine c) {s : State} {l : Content} (h : Rep c s l) (n : Nat) :
    Good c (reserve c n s) s l l := by
  rw [reserve]
  by_cases hn : n > s.capacity
  · rw [if_pos hn]
    rcases adapt_good hc (s := s) (n := n) (l := l) h.size (by have := h.fits; omega) (rep_content h) l with h1 | ⟨s', ds, h1, h2, h3, _, h4, _⟩
    · exact .inl h1
    · exact .inr ⟨s', ds, h1, h2, h3, h4 (convert_grows hc h hn)⟩
  · rw [if_neg hn]
    exact .inr ⟨s, [], rfl, h, by simp, by simp⟩

/-- Storing an element inside of the capacity. -/
theorem store_good {c : Cfg} {s : State} {l : Content} (h : Rep c s l) {i : Nat} (hi : i < s.capacity) {e : List Nat}
    (he : e.length = c.w) :
    ∃ s', store c i e s = .ok s' ∧ s' = s.put s'.disk ∧ s'.disk.length = s.disk.length ∧ readMeta s'.disk = readMeta s.disk ∧
      slice c.w s'.disk i = e ∧ ∀ j, j ≠ i → slice c.w s'.disk j = slice c.w s.disk j := by
  have h1 := capacity_mul h hi
  have hd := h.disk
  have h2 : (i + 1) * c.w = i * c.w + c.w := Nat.succ_mul i c.w
  refine ⟨s.put (writeAt s.disk (i * c.w) e), ?_, rfl, ?_, ?_, ?_, ?_⟩
  · rw [store, if_pos ⟨h.mapped, h1, by omega⟩]
  · exact length_writeAt (by omega)
  · exact readMeta_writeAt (by omega)
  · exact slice_writeAt_same he (by omega)
  · intro j hj
    exact slice_writeAt_other he (by omega) hj

theorem set_good {c : Cfg} {s : State} {l : Content} (h : Rep c s l) {i : Nat} {e : List Nat} (hi : i < l.length)
    (he : e.length = c.w) :
    ∃ s', set c i e s = .ok s' ∧ Rep c s' (l.set i (some e)) ∧ s'.seen = s.seen ++ [s'.disk] ∧ s'.size = s.size := by
  obtain ⟨s', h1, h2, h3, h4, h5, h6⟩ := store_good h (show i < s.capacity by have := h.fits; have := h.size; omega) he
  refine ⟨s', by rw [set, if_pos h.mapped, h1], ?_, by rw [h2]; rfl, by rw [h2]; rfl⟩
  have hm : s'.mapped = s.mapped := by rw [h2]; rfl
  have hs : s'.size = s.size := by rw [h2]; rfl
  have hcp : s'.capacity = s.capacity := by rw [h2]; rfl
  have hb : s'.bytesize = s.bytesize := by rw [h2]; rfl
  obtain ⟨n, hn, hst⟩ := h.stored
  refine ⟨by rw [hm, h.mapped], by rw [hs, List.length_set]; exact h.size, by rw [hs, hcp]; exact h.fits, by rw [hcp, hb]; exact h.capacity,
    by rw [hb]; exact h.pages, by rw [hb]; exact h.bound, by rw [h3, hb]; exact h.disk,
    ⟨n, by rw [List.length_set]; exact hn, by rw [h4, hcp, hb]; exact hst⟩, ?_⟩
  intro j e' hj
  rw [List.getElem?_set] at hj
  by_cases hij : i = j
  · subst hij
    rw [if_pos rfl, if_pos hi] at hj
    simp only [Option.some.injEq] at hj
    rw [h5, hj]
  · rw [if_neg hij] at hj
    rw [h6 j (by omega)]
    exact h.content j e' hj

/-- `push_back` when there is room. -/
theorem push_room {c : Cfg} {s : State} {l : Content} (h : Rep c s l) (hr : s.size < s.capacity) {e : List Nat}
    (he : e.length = c.w) :
    ∃ s', ((store c s.size e s).map fun s => { s with size := s.size + 1 }) = .ok s' ∧ Rep c s' (l ++ [some e]) ∧
      s'.seen = s.seen ++ [s'.disk] := by
  obtain ⟨s', h1, h2, h3, h4, h5, h6⟩ := store_good h hr he
  have hm : s'.mapped = s.mapped := by rw [h2]; rfl
  have hs : s'.size = s.size := by rw [h2]; rfl
  have hcp : s'.capacity = s.capacity := by rw [h2]; rfl
  have hb : s'.bytesize = s.bytesize := by rw [h2]; rfl
  refine ⟨{ s' with size := s'.size + 1 }, by rw [h1]; rfl, ?_, by dsimp only; rw [h2]; rfl⟩
  obtain ⟨n, hn, hst⟩ := h.stored
  refine ⟨by dsimp only; rw [hm, h.mapped], by dsimp only; rw [hs, h.size]; simp, by dsimp only; rw [hs, hcp]; exact hr,
    by dsimp only; rw [hcp, hb]; exact h.capacity, by dsimp only; rw [hb]; exact h.pages, by dsimp only; rw [hb]; exact h.bound,
    by dsimp only; rw [h3, hb]; exact h.disk, ⟨n, by simp; omega, by dsimp only; rw [h4, hcp, hb]; exact hst⟩, ?_⟩
  intro j e' hj
  dsimp only
  have hsz := h.size
  by_cases hlt : j < l.length
  · rw [List.getElem?_append_left hlt] at hj
    rw [h6 j (by omega)]
    exact h.content j e' hj
  · have hjl : j = l.length := by
      have := (List.getElem?_eq_some_iff.mp hj).1
      simp at this; omega
    subst hjl
    rw [List.getElem?_append_right (by omega)] at hj
    simp at hj
    rw [← hsz, h5, hj]

theorem push_good {c : Cfg} (hc : Fine c) {s : State} {l : Content} (h : Rep c s l) {e : List Nat} (he : e.length = c.w)
    (hcap : 2 ≤ s.capacity) : Good c (pushBack c e s) s l (l ++ [some e]) := by
  rw [pushBack]
  by_cases hf : s.size = s.capacity
  · rw [if_pos hf]
    have hg := hc.grow s.capacity hcap
    rcases adapt_good hc (s := s) (n := c.grow s.capacity) (l := l) h.size (by omega) (rep_content h) l with
      h1 | ⟨s1, ds, h1, h2, h3, _, h4, h5, h6⟩
    · left; rw [h1]; rfl
    · right
      have hroom : s1.size < s1.capacity := by
        have := (convert_spec hc (c.grow s.capacity)).2.2.1
        omega
      obtain ⟨s2, h7, h8, h9⟩ := push_room h2 hroom he
      refine ⟨s2, ds ++ [s2.disk], ?_, h8, by rw [h9, h3, List.append_assoc], ?_⟩
      · rw [h1]
        simp only [Outcome.bind]
        rw [if_pos hroom]
        exact h7
      · intro d hd
        rcases List.mem_append.mp hd with hd | hd
        · rcases h4 (convert_grows hc h hg) d hd with h | h | h
          · exact .inl h
          · exact .inr (.inl h)
          · exact .inr (.inl h)
        · simp only [List.mem_singleton] at hd
          subst hd
          exact .inr (.inr (recovers_of_rep hc h8))
  · rw [if_neg hf]
    obtain ⟨s2, h7, h8, h9⟩ := push_room h (by have := h.fits; omega) he
    refine .inr ⟨s2, [s2.disk], h7, h8, h9, ?_⟩
    intro d hd
    simp only [List.mem_singleton] at hd
    subst hd
    exact .inr (.inr (recovers_of_rep hc h8))

theorem close_rep {c : Cfg} (hc : Fine c) {s : State} {l : Content} (h : Rep c s l) :
    ∃ s', reuse (close s).disk = .ok s' ∧ Rep c s' l ∧ ∃ ds, (close s).seen = s.seen ++ ds ∧ ∀ d ∈ ds, Crash c d l l := by
  obtain ⟨hrep, d2, hseen, hc1, hc2, hd⟩ := writeMeta_rep hc h.mapped h.size h.fits h.capacity h.pages h.bound (rep_content h) l
  have hdisk : (writeMeta s).disk = truncated s.disk s.bytesize ++ metaBytes s.size s.capacity s.bytesize := by
    simp only [writeMeta, State.put]
    exact writeAt_end (length_truncated _ _)
  have hb := h.bound
  have hcb : s.capacity ≤ s.bytesize := by rw [h.capacity]; exact Nat.div_le_self _ _
  have hm : readMeta (writeMeta s).disk = some (s.size, s.capacity, s.bytesize) := by
    rw [hdisk]
    exact readMeta_append _ (by have := h.fits; omega) (by omega) (by omega)
  have hcd : (close s).disk = (writeMeta s).disk := by simp only [close, if_pos h.mapped]
  have hpp := pages_pos h
  have := hc.page
  refine ⟨⟨(writeMeta s).disk, [], true, s.size, s.capacity, s.bytesize⟩, ?_, ?_, [truncated s.disk s.bytesize, d2], ?_, ?_⟩
  · rw [reuse, hcd, hm]
    dsimp only
    rw [if_neg (by omega)]
  · exact ⟨rfl, h.size, h.fits, h.capacity, h.pages, h.bound, hrep.disk, ⟨s.size, by rw [h.size]; exact Nat.le_refl _, hm⟩, hrep.content⟩
  · simp only [close, if_pos h.mapped]
    exact hseen
  · intro d hd
    simp only [List.mem_cons, List.not_mem_nil, or_false] at hd
    rcases hd with rfl | rfl
    · exact hc1
    · exact .inr (.inr (.inr hc2))

theorem rep_seen {c : Cfg} {s : State} {l : Content} (h : Rep c s l) (x : List (List Nat)) : Rep c { s with seen := x } l :=
  ⟨h.mapped, h.size, h.fits, h.capacity, h.pages, h.bound, h.disk, h.stored, h.content⟩

theorem rep_capacity {c : Cfg} (hc : Fine c) {s : State} {l : Content} (h : Rep c s l) : 2 ≤ s.capacity := by
  rw [h.capacity, Nat.le_div_iff_mul_le hc.w]
  have := pages_pos h
  have := hc.small
  omega

theorem exec_good {c : Cfg} (hc : Fine c) {s : State} {l : Content} (h : Rep c s l) {op : Op} (ha : Allowed c.w op l) :
    exec c op s = .throw ∨ ∃ s' ds, exec c op s = .ok s' ∧ Rep c s' (step op l) ∧ s'.seen = s.seen ++ ds ∧
      ∀ d ∈ ds, Safe c d l (step op l) ∨ (MayShrink op ∧ Accident c d) := by
  have hgood : ∀ {o : Outcome State} {l'}, Good c o s l l' → o = .throw ∨ ∃ s' ds, o = .ok s' ∧ Rep c s' l' ∧ s'.seen = s.seen ++ ds ∧
      ∀ d ∈ ds, Safe c d l l' ∨ (MayShrink op ∧ Accident c d) := by
    intro o l' hg
    rcases hg with h1 | ⟨s', ds, h1, h2, h3, h4⟩
    · exact .inl h1
    · exact .inr ⟨s', ds, h1, h2, h3, fun d hd => .inl (h4 d hd)⟩
  have hcrash : ∀ {d : List Nat} {l'}, MayShrink op → Crash c d l l' → Safe c d l l' ∨ (MayShrink op ∧ Accident c d) := by
    intro d l' hm hc
    rcases hc with h | h | h | h
    · exact .inl (.inl h)
    · exact .inr ⟨hm, h⟩
    · exact .inl (.inr (.inl h))
    · exact .inl (.inr (.inr h))
  cases op with
  | push e => exact hgood (push_good hc h ha (rep_capacity hc h))
  | set i e =>
    obtain ⟨s', h1, h2, h3, _⟩ := set_good h ha.1 ha.2
    refine hgood (.inr ⟨s', [s'.disk], h1, h2, h3, ?_⟩)
    intro d hd
    simp only [List.mem_singleton] at hd
    subst hd
    exact .inr (.inr (recovers_of_rep hc h2))
  | resize n =>
    rcases resize_good hc h n with h1 | ⟨s', ds, h1, h2, h3, h4⟩
    · exact .inl h1
    · exact .inr ⟨s', ds, h1, h2, h3, fun d hd => hcrash trivial (h4 d hd)⟩
  | reserve n => exact hgood (reserve_good hc h n)
  | reopen =>
    obtain ⟨s', h1, h2, ds, h3, h4⟩ := close_rep hc h
    exact .inr ⟨{ s' with seen := (close s).seen }, ds, by simp only [exec, h1, Outcome.map], rep_seen h2 _, h3,
      fun d hd => hcrash trivial (h4 d hd)⟩

theorem convert_bytes (c : Cfg) (n : Nat) : (convert c n).2 ≤ n * c.w + c.page := by
  simp only [convert]
  rw [Nat.succ_mul]
  have := Nat.div_mul_le_self (n * c.w) c.page
  omega

theorem adapt_ok {c : Cfg} {s : State} {n : Nat} (hm : s.mapped = true) (h : n * c.w + c.page < 2 ^ 63) :
    adaptCapacity c n s ≠ .throw := by
  have := convert_bytes c n
  rw [adaptCapacity, if_neg (by rw [hm]; intro h; rcases h with h | h; cases h; omega)]
  intro h
  cases h

/-- No operation throws when the file stays below 2^63 bytes. -/
theorem exec_ok {c : Cfg} (hc : Fine c) (hg : ∀ n, c.grow n ≤ 2 * n) {s : State} {l : Content} (h : Rep c s l) {op : Op}
    (ha : Allowed c.w op l) (hb : Moderate c op l) : exec c op s ≠ .throw := by
  cases op with
  | push e =>
    have hg2 := hc.grow _ (rep_capacity hc h)
    rw [exec, pushBack]
    by_cases hf : s.size = s.capacity
    · rw [if_pos hf]
      have hsz := h.size
      have h2 : c.grow s.capacity * c.w ≤ 2 * l.length * c.w := Nat.mul_le_mul_right _ (by rw [← hsz, hf]; exact hg _)
      have hb' : 2 * l.length * c.w + c.page < 2 ^ 63 := hb
      have hok := adapt_ok (c := c) (s := s) (n := c.grow s.capacity) h.mapped (by omega)
      rcases adapt_good hc (s := s) (n := c.grow s.capacity) (l := l) h.size (by omega) (rep_content h) l with
        h1 | ⟨s1, ds, h1, h2, h3, _, h4, h5, h6⟩
      · exact absurd h1 hok
      · have hroom : s1.size < s1.capacity := by
          have := (convert_spec hc (c.grow s.capacity)).2.2.1
          omega
        obtain ⟨s2, h7, _⟩ := push_room h2 hroom ha
        rw [h1]
        simp only [Outcome.bind]
        rw [if_pos hroom]
        simp only [h7]
        intro h; cases h
    · rw [if_neg hf]
      obtain ⟨s2, h7, _⟩ := push_room h (by have := h.fits; omega) ha
      simp only [Outcome.bind, h7]
      intro h; cases h
  | set i e =>
    obtain ⟨s', h1, _⟩ := set_good h ha.1 ha.2
    rw [exec, h1]
    intro h; cases h
  | resize n => exact adapt_ok h.mapped hb
  | reserve n =>
    rw [exec, reserve]
    by_cases hn : n > s.capacity
    · rw [if_pos hn]; exact adapt_ok h.mapped hb
    · rw [if_neg hn]; intro h; cases h
  | reopen =>
    obtain ⟨s', h1, _⟩ := close_rep hc h
    simp only [exec, h1, Outcome.map]
    intro h; cases h

theorem run_ok {c : Cfg} (hc : Fine c) (hg : ∀ n, c.grow n ≤ 2 * n) : ∀ (ops : List Op) {s : State} {l : Content}, Rep c s l →
    AllowedAll c.w ops l → ModerateAll c ops l → run c ops s ≠ .throw := by
  intro ops
  induction ops with
  | nil => intro s l _ _ _ h; cases h
  | cons op ops ih =>
    intro s l h ha hb
    have h0 := exec_ok hc hg h ha.1 hb.1
    rw [run]
    rcases exec_good hc h ha.1 with h1 | ⟨s', ds, h1, h2, _⟩
    · exact absurd h1 h0
    · rw [h1]
      exact ih h2 ha.2 hb.2

theorem run_good {c : Cfg} (hc : Fine c) : ∀ (ops : List Op) {s : State} {l : Content}, Rep c s l → AllowedAll c.w ops l →
    run c ops s = .throw ∨ ∃ s', run c ops s = .ok s' ∧ Rep c s' (ops.foldl (fun l op => step op l) l) := by
  intro ops
  induction ops with
  | nil => intro s l h _; exact .inr ⟨s, rfl, h⟩
  | cons op ops ih =>
    intro s l h ha
    rw [run, List.foldl_cons]
    rcases exec_good hc h ha.1 with h1 | ⟨s', ds, h1, h2, _⟩
    · left; rw [h1]; rfl
    · rw [h1]
      exact ih h2 ha.2

theorem create_good {c : Cfg} (hc : Fine c) (n : Nat) :
    create c n = .throw ∨ ∃ s, create c n = .ok s ∧ Rep c s (List.replicate n none) ∧
      ∀ d ∈ s.seen, readMeta d = none ∨ Recovers c d (List.replicate n none) := by
  simp only [create]
  by_cases h : 2 ^ 63 ≤ (convert c (max n 100)).2
  · left; rw [if_pos h]
  · right
    rw [if_neg h]
    obtain ⟨h1, h2, h3, h4⟩ := convert_spec hc (max n 100)
    obtain ⟨hrep, _⟩ := writeMeta_rep hc (l := List.replicate n none)
      (s := ⟨[], [[]], true, n, (convert c (max n 100)).1, (convert c (max n 100)).2⟩) rfl (by simp) (by dsimp only; omega) h1 h2
      (by dsimp only; omega) (by
        intro i e hi
        rw [List.getElem?_replicate] at hi
        split at hi <;> simp at hi) []
    refine ⟨_, rfl, hrep, ?_⟩
    intro d hd
    simp only [writeMeta, State.put, List.cons_append, List.nil_append, List.mem_cons, List.not_mem_nil, or_false] at hd
    rcases hd with rfl | rfl | hd
    · left; rfl
    · left
      obtain ⟨k, hk, hk2⟩ := h2
      have := Nat.le_mul_of_pos_left c.page hk
      have := hc.page
      exact readMeta_grown (by rw [hk2]; simp; omega)
    · right
      have := recovers_of_rep hc hrep
      rw [hd]
      exact this

theorem fill_good {c : Cfg} : ∀ (es : List (List Nat)) (i : Nat) {s : State} {l : Content}, Rep c s l →
    i + es.length ≤ l.length → (∀ e ∈ es, e.length = c.w) →
    ∃ s', fill c i es s = .ok s' ∧ Rep c s' (l.take i ++ es.map some ++ l.drop (i + es.length)) := by
  intro es
  induction es with
  | nil =>
    intro i s l h _ _
    exact ⟨s, rfl, by simpa using h⟩
  | cons e es ih =>
    intro i s l h hi he
    simp only [List.length_cons] at hi
    have hset := set_good h (i := i) (e := e) (by omega) (he e (by simp))
    obtain ⟨s1, h1, h2, _⟩ := hset
    rw [set, if_pos h.mapped] at h1
    obtain ⟨s2, h3, h4⟩ := ih (i + 1) h2 (by rw [List.length_set]; omega) (fun e he' => he e (by simp [he']))
    refine ⟨s2, by rw [fill, h1]; exact h3, ?_⟩
    have : List.take (i + 1) (l.set i (some e)) ++ es.map some ++ (l.set i (some e)).drop (i + 1 + es.length) =
        l.take i ++ (e :: es).map some ++ l.drop (i + (e :: es).length) := by
      rw [List.take_add_one, List.take_set_of_le (Nat.le_refl _), List.getElem?_set, if_pos rfl, if_pos (by omega),
        List.drop_set_of_lt (by omega)]
      simp only [Option.toList_some, List.map_cons, List.append_assoc, List.cons_append, List.nil_append, List.length_cons]
      rw [show i + 1 + es.length = i + (es.length + 1) by omega]
    rw [this] at h4
    exact h4

theorem createFrom_good {c : Cfg} (hc : Fine c) (es : List (List Nat)) (he : ∀ e ∈ es, e.length = c.w) :
    createFrom c es = .throw ∨ ∃ s, createFrom c es = .ok s ∧ Rep c s (es.map some) := by
  rw [createFrom]
  rcases create_good hc es.length with h | ⟨s, h1, h2, _⟩
  · left; rw [h]; rfl
  · right
    obtain ⟨s', h3, h4⟩ := fill_good es 0 h2 (by simp) he
    refine ⟨s', by rw [h1]; exact h3, ?_⟩
    simpa using h4

/-! `BufferedVector` -/

theorem copyOut_good {c : Cfg} : ∀ (es : List (List Nat)) (i : Nat) {s : State} {l : Content}, Rep c s l →
    i + es.length ≤ l.length → (∀ e ∈ es, e.length = c.w) →
    ∃ s', copyOut c i es s = .ok s' ∧ Rep c s' (l.take i ++ es.map some ++ l.drop (i + es.length)) := by
  intro es
  induction es with
  | nil =>
    intro i s l h _ _
    exact ⟨s, rfl, by simpa using h⟩
  | cons e es ih =>
    intro i s l h hi he
    simp only [List.length_cons] at hi
    obtain ⟨s1, h1, h2, _⟩ := set_good h (i := i) (e := e) (by omega) (he e (by simp))
    obtain ⟨s2, h3, h4⟩ := ih (i + 1) h2 (by rw [List.length_set]; omega) (fun e he' => he e (by simp [he']))
    refine ⟨s2, by rw [copyOut, h1]; exact h3, ?_⟩
    have : List.take (i + 1) (l.set i (some e)) ++ es.map some ++ (l.set i (some e)).drop (i + 1 + es.length) =
        l.take i ++ (e :: es).map some ++ l.drop (i + (e :: es).length) := by
      rw [List.take_add_one, List.take_set_of_le (Nat.le_refl _), List.getElem?_set, if_pos rfl, if_pos (by omega),
        List.drop_set_of_lt (by omega)]
      simp only [Option.toList_some, List.map_cons, List.append_assoc, List.cons_append, List.nil_append, List.length_cons]
      rw [show i + 1 + es.length = i + (es.length + 1) by omega]
    rw [this] at h4
    exact h4

/-- The content of a buffered vector. -/
structure BRep (c : Cfg) (b : Buffered) (l : List (List Nat)) : Prop where
  width : ∀ e ∈ l, e.length = c.w
  ext : ∃ l₀, Rep c b.ext l₀
  inside : b.isInternal = true → b.vec = l
  outside : b.isInternal = false → Rep c b.ext (l.map some)

theorem brep_size {c : Cfg} {b : Buffered} {l : List (List Nat)} (h : BRep c b l) : b.size = l.length := by
  rw [Buffered.size]
  cases hi : b.isInternal with
  | true => rw [if_pos rfl, h.inside hi]
  | false => rw [if_neg (by decide), (h.outside hi).size]; simp

theorem bpush_good {c : Cfg} (hc : Fine c) (hg : ∀ n, c.grow n ≤ 2 * n) {b : Buffered} {l : List (List Nat)} (h : BRep c b l)
    {e : List Nat} (ha : PlainAllowed c (.push e) l) : ∃ b', b.push c e = .ok b' ∧ BRep c b' (l ++ [e]) := by
  obtain ⟨he, hm⟩ := ha
  have hsz := brep_size h
  have hwid : ∀ x ∈ l ++ [e], x.length = c.w := by
    intro x hx
    rcases List.mem_append.mp hx with hx | hx
    · exact h.width x hx
    · simp only [List.mem_singleton] at hx; rw [hx]; exact he
  have hm2 : 2 * l.length * c.w + c.page < 2 ^ 63 := by
    rw [Nat.succ_mul] at hm; omega
  simp only [Buffered.push, hsz]
  cases hi : b.isInternal with
  | false =>
    rw [if_pos rfl]
    have hr := h.outside hi
    rcases exec_good hc hr (op := .push e) he with h1 | ⟨s', ds, h1, h2, _⟩
    · exact absurd h1 (exec_ok hc hg hr (op := .push e) he (by simpa [Moderate] using hm2))
    · rw [exec] at h1
      refine ⟨{ b with ext := s' }, by rw [h1, hi]; rfl, hwid, ⟨_, h2⟩, ?_, ?_⟩
      · intro hx; dsimp only at hx; rw [hi] at hx; cases hx
      · intro _; simpa [step] using h2
  | true =>
    rw [if_neg (by decide)]
    have hv := h.inside hi
    obtain ⟨l₀, hr⟩ := h.ext
    by_cases ht : l.length < b.threshold
    · rw [if_pos ht]
      refine ⟨_, rfl, hwid, ⟨l₀, hr⟩, ?_, ?_⟩
      · intro _; rw [← hv]
      · intro hx; cases hx
    · rw [if_neg ht]
      have hsc : (l.length + 1) * c.w ≤ (2 * l.length + 1) * c.w := Nat.mul_le_mul_right _ (by omega)
      rcases resize_good hc hr (l.length + 1) with h1 | ⟨s1, ds, h1, h2, _⟩
      · exact absurd h1 (adapt_ok hr.mapped (by omega))
      · have hlen : (step (.resize (l.length + 1)) l₀).length = l.length + 1 := by simp [step]; omega
        obtain ⟨s2, h3, h4⟩ := copyOut_good l 0 h2 (by omega) h.width
        simp only [Nat.zero_add, List.take_zero, List.nil_append] at h4
        have hlen2 : (l.map some ++ (step (.resize (l.length + 1)) l₀).drop l.length).length = l.length + 1 := by
          simp [hlen]
        obtain ⟨s3, h5, h6, _⟩ := set_good h4 (i := l.length) (e := e) (by omega) he
        refine ⟨{ b with ext := s3, isInternal := false, vec := [] }, ?_, hwid, ⟨_, h6⟩, (fun hx => by cases hx), ?_⟩
        · rw [h1]
          simp only [Outcome.bind]
          rw [hv, h3]
          simp only
          rw [h5]
          rfl
        · intro _
          have : (l.map some ++ (step (.resize (l.length + 1)) l₀).drop l.length).set l.length (some e) = (l ++ [e]).map some := by
            obtain ⟨x, hx⟩ := List.length_eq_one_iff.mp (show ((step (.resize (l.length + 1)) l₀).drop l.length).length = 1 by
              rw [List.length_drop, hlen]; omega)
            rw [hx]
            simp
          rw [this] at h6
          exact h6

theorem bexec_good {c : Cfg} (hc : Fine c) (hg : ∀ n, c.grow n ≤ 2 * n) {b : Buffered} {l : List (List Nat)} (h : BRep c b l)
    {op : BOp} (ha : PlainAllowed c op l) : ∃ b', b.exec c op = .ok b' ∧ BRep c b' (plainStep op l) := by
  cases op with
  | push e => exact bpush_good hc hg h ha
  | clear =>
    refine ⟨_, rfl, by simp [plainStep], h.ext, fun _ => rfl, ?_⟩
    intro hx; cases hx
  | set i e =>
    obtain ⟨hi, he⟩ := ha
    have hwid : ∀ x ∈ l.set i e, x.length = c.w := by
      intro x hx
      rcases List.mem_or_eq_of_mem_set hx with hx | hx
      · exact h.width x hx
      · rw [hx]; exact he
    rw [Buffered.exec, Buffered.set]
    cases hin : b.isInternal with
    | true =>
      have hv := h.inside hin
      rw [if_pos rfl, if_pos (by rw [hv]; exact hi)]
      refine ⟨_, rfl, hwid, h.ext, ?_, ?_⟩
      · intro _; rw [hv]; rfl
      · intro hx; dsimp only at hx; cases hx
    | false =>
      rw [if_neg (by decide)]
      obtain ⟨s', h1, h2, _⟩ := set_good (h.outside hin) (i := i) (e := e) (by simpa using hi) he
      refine ⟨{ b with ext := s' }, by rw [h1, hin]; rfl, hwid, ⟨_, h2⟩, ?_, ?_⟩
      · intro hx; dsimp only at hx; rw [hin] at hx; cases hx
      · intro _
        rw [plainStep, List.map_set]
        exact h2

theorem brun_good {c : Cfg} (hc : Fine c) (hg : ∀ n, c.grow n ≤ 2 * n) : ∀ (ops : List BOp) {b : Buffered} {l : List (List Nat)},
    BRep c b l → PlainAllowedAll c ops l →
    ∃ b', b.run c ops = .ok b' ∧ BRep c b' (ops.foldl (fun l op => plainStep op l) l) := by
  intro ops
  induction ops with
  | nil => intro b l h _; exact ⟨b, rfl, h⟩
  | cons op ops ih =>
    intro b l h ha
    obtain ⟨b1, h1, h2⟩ := bexec_good hc hg h ha.1
    rw [Buffered.run, h1, List.foldl_cons]
    exact ih h2 ha.2

theorem brep_get {c : Cfg} {b : Buffered} {l : List (List Nat)} (h : BRep c b l) {i : Nat} (hi : i < l.length) :
    b.get c i = .ok l[i] ∧ b.getAt c i = .ok l[i] := by
  rw [Buffered.get, Buffered.getAt]
  cases hin : b.isInternal with
  | true =>
    rw [if_pos rfl, if_pos rfl, h.inside hin, if_pos hi, Outcome.read_lt l i hi]
    exact ⟨rfl, rfl⟩
  | false =>
    rw [if_neg (by decide), if_neg (by decide)]
    exact (shows_of_rep (h.outside hin)).2 i l[i] (by simp [hi])

theorem brep_getAt_out {c : Cfg} {b : Buffered} {l : List (List Nat)} (h : BRep c b l) {i : Nat} (hi : l.length ≤ i) :
    b.getAt c i = .throw := by
  rw [Buffered.getAt]
  cases hin : b.isInternal with
  | true => rw [if_pos rfl, h.inside hin, if_neg (by omega)]
  | false =>
    rw [if_neg (by decide), Mmap.getAt, if_neg]
    have := (h.outside hin).size
    simp only [List.length_map] at this
    omega

theorem make_good {c : Cfg} (hc : Fine c) {t : Nat} {b : Buffered} (h : Buffered.make c t = .ok b) : BRep c b [] := by
  rw [Buffered.make] at h
  rcases create_good hc 0 with h1 | ⟨s, h1, h2, _⟩
  · rw [h1] at h; cases h
  · rw [h1] at h
    simp only [Outcome.map, Outcome.ok.injEq] at h
    subst h
    refine ⟨by simp, ⟨_, h2⟩, fun _ => rfl, ?_⟩
    intro hx; cases hx

end Verif.Mmap
