import Verif.Lemmas.ConversionsEncode
import Verif.Spec.Dates
/-
Helper lemmas for C60: the index words of dates and their order.
-/
namespace Verif.Conversions
open Verif.ConversionsSpec (natOf)
open Verif.DatesSpec
open Verif.ExternalVocabulary (Word)

/-- Zeros before digits. -/
def padLeft (n : Nat) (ds : List Nat) : List Nat := List.replicate (n - ds.length) 0 ++ ds

theorem padLeft_length {n : Nat} {ds : List Nat} (h : ds.length ≤ n) : (padLeft n ds).length = n := by
  rw [padLeft, List.length_append, List.length_replicate]; omega

theorem padLeft_digits {n : Nat} {ds : List Nat} (h : Digits ds) : Digits (padLeft n ds) := by
  intro d hd
  rcases List.mem_append.1 hd with h' | h'
  · rw [(List.mem_replicate.1 h').2]; omega
  · exact h d h'

theorem natOf_padLeft (n : Nat) (ds : List Nat) : natOf (padLeft n ds) = natOf ds := by
  rw [padLeft, natOf_append, natOf_zeros]; omega

/-- The year in an index word. -/
def yearField (m : Moment) : Word := if m.neg then '-' :: chars (compl (padLeft 18 m.year)) else chars (padLeft 19 m.year)

/-- Everything after the year. -/
def tailOf (m : Moment) : Word :=
  '-' :: two m.month ++ ('-' :: two m.day ++ ('T' :: two m.hour ++ (':' :: two m.minute ++ (':' :: two m.second))))

/-- The index word of a moment. -/
def momentWord (m : Moment) : Word := datePrefix ++ (yearField m ++ tailOf m)

theorem chars_eq (ds : List Nat) : ds.map (fun d => Char.ofNat (48 + d)) = chars ds := rfl

theorem two_eq (n : Nat) : two n = chars [n / 10, n % 10] := rfl

theorem two_digits {n : Nat} (h : n < 100) : Digits [n / 10, n % 10] := by
  intro d hd
  simp only [List.mem_cons, List.not_mem_nil, or_false] at hd
  rcases hd with rfl | rfl <;> omega

theorem two_no {n : Nat} (h : n < 100) {c : Char} (hc : ∀ d, d < 10 → digitChar d ≠ c) : c ∉ two n := chars_no (two_digits h) hc

theorem digit_T : ∀ d, d < 10 → digitChar d ≠ 'T' ∧ digitChar d ≠ 'Z' ∧ digitChar d ≠ ':' := by decide

theorem year_length {m : Moment} (hm : m.Valid) : m.year.length ≤ if m.neg then 18 else 19 := by
  have := hm.long
  unfold Moment.yearText at this
  cases h : m.neg <;> rw [h] at this <;> simp at this <;> simp <;> omega

theorem padYear_text {m : Moment} (hm : m.Valid) : padYear m.yearText = .ok (yearField m) := by
  rw [padYear, if_pos hm.long]
  have hl := year_length hm
  unfold Moment.yearText
  cases h : m.neg
  · rw [h] at hl
    have hh : ((if false = true then ['-'] else []) ++ m.year.map fun d => Char.ofNat (48 + d)).head? ≠ some '-' := by
      cases hy : m.year with
      | nil => exact absurd hy hm.nonempty
      | cons d ds =>
        intro h1
        have h2 : digitChar d = '-' := Option.some.inj h1
        exact (digitChar_other d (hm.digits d (by rw [hy]; exact List.mem_cons_self))).2.1 h2
    rw [if_neg hh, yearField, h]
    simp only [Bool.false_eq_true, if_false, List.nil_append, padLeft, chars_append, chars_eq, chars_length]
    congr 2
    rw [chars, List.map_replicate]; rfl
  · rw [h] at hl
    rw [if_pos (by rfl), yearField, h]
    simp only [if_true, List.cons_append, List.nil_append, List.drop_succ_cons, List.drop_zero, chars_eq, complement_chars hm.digits,
      List.length_cons, chars_length, padLeft, compl_append, compl_zeros, chars_append]
    congr 3
    rw [chars, List.map_replicate]
    have : 19 - (m.year.length + 1) = 18 - m.year.length := by omega
    rw [this]; rfl

theorem findFrom_append {c : Char} (a b d : Word) (h : c ∉ b) : findFrom c (a ++ (b ++ c :: d)) a.length = some (a.length + b.length) := by
  rw [findFrom, List.drop_left, findIdx_append _ _ h, Option.map_some, Nat.add_comm]

theorem cut_append (a b d : Word) : cut (a ++ (b ++ d)) a.length (a.length + b.length) = b := by
  rw [cut, if_pos (by omega), List.drop_left, Nat.add_sub_cancel_left, List.take_left]

/-- A year has a sign only at its beginning. -/
theorem yearText_sign {m : Moment} (hm : m.Valid) : ∃ c u, m.yearText = c :: u ∧ '-' ∉ u := by
  have hd : '-' ∉ chars m.year := chars_no hm.digits fun d hd => (digitChar_other d hd).2.1
  unfold Moment.yearText
  cases h : m.neg
  · cases hy : m.year with
    | nil => exact absurd hy hm.nonempty
    | cons d ds =>
      rw [hy] at hd
      refine ⟨_, _, rfl, fun h => hd (List.mem_cons_of_mem _ h)⟩
  · exact ⟨_, _, rfl, hd⟩

/-- Year, month and day. -/
theorem dayOf_date {m : Moment} (hm : m.Valid) (rest : Word) : dayOf (m.dateText ++ rest) m.dateText.length = (m.yearText, two m.month, two m.day) := by
  obtain ⟨c, u, hu, hno⟩ := yearText_sign hm
  have e1 : m.dateText ++ rest = [c] ++ (u ++ '-' :: (two m.month ++ '-' :: (two m.day ++ rest))) := by
    simp [Moment.dateText, Moment.monthText, hu]
  have e2 : m.dateText ++ rest = (m.yearText ++ ['-']) ++ (two m.month ++ '-' :: (two m.day ++ rest)) := by
    simp [Moment.dateText, Moment.monthText]
  have e3 : m.dateText ++ rest = (m.yearText ++ ['-'] ++ two m.month ++ ['-']) ++ (two m.day ++ rest) := by
    simp [Moment.dateText, Moment.monthText]
  have hm2 : '-' ∉ two m.month := two_no hm.fields.1 fun d hd => (digitChar_other d hd).2.1
  have f1 : findFrom '-' (m.dateText ++ rest) 1 = some m.yearText.length := by
    rw [e1]
    have := findFrom_append [c] u (two m.month ++ '-' :: (two m.day ++ rest)) hno
    rw [show ([c] : Word).length = 1 from rfl] at this
    rw [this, hu, List.length_cons, Nat.add_comm]
  have f2 : findFrom '-' (m.dateText ++ rest) (m.yearText.length + 1) = some (m.yearText.length + 1 + 2) := by
    rw [e2]
    have := findFrom_append (m.yearText ++ ['-']) (two m.month) (two m.day ++ rest) hm2
    rw [List.length_append] at this
    exact this
  rw [dayOf, f1]
  dsimp only
  rw [f2]
  dsimp only
  refine Prod.ext ?_ (Prod.ext ?_ ?_)
  · show (m.dateText ++ rest).take _ = _
    rw [e2, List.append_assoc, List.take_left]
  · show cut _ _ _ = _
    rw [e2]
    have := cut_append (m.yearText ++ ['-']) (two m.month) ('-' :: (two m.day ++ rest))
    rw [List.length_append] at this
    exact this
  · show cut _ _ _ = _
    have hl : m.dateText.length = (m.yearText ++ ['-'] ++ two m.month ++ ['-']).length + (two m.day).length := by
      simp [Moment.dateText, Moment.monthText, two]
    rw [e3, hl]
    have := cut_append (m.yearText ++ ['-'] ++ two m.month ++ ['-']) (two m.day) rest
    have hl2 : m.yearText.length + 1 + 2 + 1 = (m.yearText ++ ['-'] ++ two m.month ++ ['-']).length := by simp [two]
    rw [hl2]
    exact this

theorem dateText_no {m : Moment} (hm : m.Valid) {c : Char} (h1 : c ≠ '-') (hc : ∀ d, d < 10 → digitChar d ≠ c) : c ∉ m.dateText := by
  unfold Moment.dateText Moment.monthText Moment.yearText
  simp only [List.mem_append, List.mem_cons, not_or]
  refine ⟨⟨⟨?_, chars_no hm.digits hc⟩, h1, two_no hm.fields.1 hc⟩, h1, two_no hm.fields.2.1 hc⟩
  cases m.neg <;> simp [h1]

/-- Hour, minute and second. -/
theorem timeOf_text {a : Word} {h mi s : Nat} (ha : ':' ∉ a) (hh : h < 100) (hmi : mi < 100) (rest : Word) :
    timeOf (a ++ 'T' :: two h ++ ':' :: two mi ++ ':' :: (two s ++ rest)) a.length = (two h, two mi, two s) := by
  obtain ⟨h1, h2, eh⟩ : ∃ h1 h2, two h = [h1, h2] := ⟨_, _, rfl⟩
  obtain ⟨m1, m2, em⟩ : ∃ m1 m2, two mi = [m1, m2] := ⟨_, _, rfl⟩
  have nh : ':' ∉ two h := two_no hh fun d hd => (digit_T d hd).2.2
  have nm : ':' ∉ two mi := two_no hmi fun d hd => (digit_T d hd).2.2
  have e0 : a ++ 'T' :: two h ++ ':' :: two mi ++ ':' :: (two s ++ rest) = a ++ 'T' :: h1 :: h2 :: ':' :: m1 :: m2 :: ':' :: (two s ++ rest) := by
    rw [eh, em]; simp
  have e1 : a ++ 'T' :: h1 :: h2 :: ':' :: m1 :: m2 :: ':' :: (two s ++ rest) = [] ++ ((a ++ ['T', h1, h2]) ++ ':' :: (m1 :: m2 :: ':' :: (two s ++ rest))) := by
    simp
  have e2 : a ++ 'T' :: h1 :: h2 :: ':' :: m1 :: m2 :: ':' :: (two s ++ rest) = (a ++ ['T', h1, h2, ':']) ++ ([m1, m2] ++ ':' :: (two s ++ rest)) := by
    simp
  have e3 : a ++ 'T' :: h1 :: h2 :: ':' :: m1 :: m2 :: ':' :: (two s ++ rest) = (a ++ ['T']) ++ ([h1, h2] ++ ':' :: m1 :: m2 :: ':' :: (two s ++ rest)) := by
    simp
  have e4 : a ++ 'T' :: h1 :: h2 :: ':' :: m1 :: m2 :: ':' :: (two s ++ rest) = (a ++ ['T', h1, h2, ':', m1, m2, ':']) ++ (two s ++ rest) := by
    simp
  rw [e0]
  have z1 : noZoneAt (a ++ 'T' :: h1 :: h2 :: ':' :: m1 :: m2 :: ':' :: (two s ++ rest)) (a.length + 3) = true := by
    have : (a ++ 'T' :: h1 :: h2 :: ':' :: m1 :: m2 :: ':' :: (two s ++ rest))[a.length + 3]? = some ':' := by
      rw [List.getElem?_append_right (by omega), Nat.add_sub_cancel_left]; rfl
    rw [noZoneAt, this]
    simp
  have z2 : noZoneAt (a ++ 'T' :: h1 :: h2 :: ':' :: m1 :: m2 :: ':' :: (two s ++ rest)) (a.length + 3 + 3) = true := by
    have : (a ++ 'T' :: h1 :: h2 :: ':' :: m1 :: m2 :: ':' :: (two s ++ rest))[a.length + 3 + 3]? = some ':' := by
      rw [List.getElem?_append_right (by omega), Nat.add_assoc, Nat.add_sub_cancel_left]; rfl
    rw [noZoneAt, this]
    simp
    omega
  have f1 : findFrom ':' (a ++ 'T' :: h1 :: h2 :: ':' :: m1 :: m2 :: ':' :: (two s ++ rest)) 0 = some (a.length + 3) := by
    rw [e1]
    have hno : ':' ∉ a ++ ['T', h1, h2] := by
      rw [eh] at nh
      simp only [List.mem_append, List.mem_cons, List.not_mem_nil, or_false, not_or] at nh ⊢
      exact ⟨ha, by decide, nh.1, nh.2⟩
    have := findFrom_append [] (a ++ ['T', h1, h2]) (m1 :: m2 :: ':' :: (two s ++ rest)) hno
    rw [List.length_nil, List.length_append, Nat.zero_add] at this
    exact this
  have f2 : findFrom ':' (a ++ 'T' :: h1 :: h2 :: ':' :: m1 :: m2 :: ':' :: (two s ++ rest)) (a.length + 3 + 1) = some (a.length + 6) := by
    rw [e2]
    have := findFrom_append (a ++ ['T', h1, h2, ':']) [m1, m2] (two s ++ rest) (by rw [← em]; exact nm)
    rw [List.length_append] at this
    exact this
  rw [timeOf, z1, if_pos rfl, f1]
  dsimp only
  rw [z2, if_pos rfl, f2]
  dsimp only
  refine Prod.ext ?_ (Prod.ext ?_ ?_)
  · show cut _ _ _ = _
    rw [eh, e3]
    have := cut_append (a ++ ['T']) [h1, h2] (':' :: m1 :: m2 :: ':' :: (two s ++ rest))
    rw [List.length_append] at this
    exact this
  · show cut _ _ _ = _
    rw [em, e2]
    have := cut_append (a ++ ['T', h1, h2, ':']) [m1, m2] (':' :: (two s ++ rest))
    rw [List.length_append] at this
    exact this
  · show List.take 2 _ = _
    rw [e4]
    have hl : a.length + 6 + 1 = (a ++ ['T', h1, h2, ':', m1, m2, ':']).length := by simp
    rw [hl, List.drop_left]
    exact List.take_left (l₁ := two s)

theorem dateWord_norm {v year : Word} (y : Word) (h : normalizeDate v = .ok (datePrefix ++ (year ++ y))) : dateWord v = .ok (datePrefix ++ (year ++ y)) := by
  rw [dateWord, h]
  rfl

theorem takeWhile_append {a b : Word} (h : 'Z' ∉ a) : (a ++ b).takeWhile (· ≠ 'Z') = a ++ b.takeWhile (· ≠ 'Z') := by
  rw [List.takeWhile_append_of_pos]
  intro c hc
  simp only [decide_eq_true_eq]
  exact fun h1 => h (h1 ▸ hc)

/-- The index word of a date with time, whatever follows it. -/
theorem dateWord_text {m : Moment} (hm : m.Valid) (suffix : Word) : dateWord (m.text ++ suffix) = .ok (momentWord m) := by
  have hT : 'T' ∉ m.dateText := dateText_no hm (by decide) fun d hd => (digit_T d hd).1
  have hC : ':' ∉ m.dateText := dateText_no hm (by decide) fun d hd => (digit_T d hd).2.2
  have hZ : 'Z' ∉ m.text := by
    unfold Moment.text
    have hz := fun {n} (h : n < 100) => two_no (n := n) (c := 'Z') h fun d hd => (digit_T d hd).2.1
    simp only [List.mem_append, List.mem_cons, not_or]
    exact ⟨⟨⟨dateText_no hm (by decide) fun d hd => (digit_T d hd).2.1, by decide, hz hm.fields.2.2.1⟩, by decide, hz hm.fields.2.2.2.1⟩,
      by decide, hz hm.fields.2.2.2.2⟩
  refine dateWord_norm _ ?_
  have hv : (m.text ++ suffix).takeWhile (· ≠ 'Z') = m.dateText ++ 'T' :: two m.hour ++ ':' :: two m.minute ++ ':' :: (two m.second ++ suffix.takeWhile (· ≠ 'Z')) := by
    rw [takeWhile_append hZ]
    simp [Moment.text]
  have ht : (m.dateText ++ 'T' :: two m.hour ++ ':' :: two m.minute ++ ':' :: (two m.second ++ suffix.takeWhile (· ≠ 'Z'))).findIdx? (· = 'T')
      = some m.dateText.length := by
    have : m.dateText ++ 'T' :: two m.hour ++ ':' :: two m.minute ++ ':' :: (two m.second ++ suffix.takeWhile (· ≠ 'Z'))
        = m.dateText ++ 'T' :: (two m.hour ++ ':' :: two m.minute ++ ':' :: (two m.second ++ suffix.takeWhile (· ≠ 'Z'))) := by simp
    rw [this]
    exact findIdx_append _ _ hT
  have hpos : (some m.dateText.length = some 0) = False := by
    have : 0 < m.dateText.length := by simp [Moment.dateText, Moment.monthText]
    simp only [Option.some.injEq, eq_iff_iff, iff_false]
    omega
  have hd : dayOf (m.dateText ++ 'T' :: two m.hour ++ ':' :: two m.minute ++ ':' :: (two m.second ++ suffix.takeWhile (· ≠ 'Z'))) m.dateText.length
      = (m.yearText, two m.month, two m.day) := by
    have := dayOf_date hm ('T' :: two m.hour ++ ':' :: two m.minute ++ ':' :: (two m.second ++ suffix.takeWhile (· ≠ 'Z')))
    rw [← this]
    congr 1
    simp
  rw [normalizeDate, hv]
  rw [ht]
  dsimp only
  rw [timeOf_text hC hm.fields.2.2.1 hm.fields.2.2.2.1, if_neg (by rw [hpos]; exact id), Option.getD_some, hd]
  dsimp only
  rw [padYear_text hm]
  simp only [Outcome.map, tailOf]
  simp

/-- The index word of a date with an hour and a time zone with a sign. -/
theorem dateWord_hour {m : Moment} (hm : m.Valid) (h0 : m.minute = 0 ∧ m.second = 0) (c : Char) (hc : c = '+' ∨ c = '-') (suffix : Word) :
    dateWord (m.dateText ++ 'T' :: two m.hour ++ c :: suffix) = .ok (momentWord m) := by
  have hT : 'T' ∉ m.dateText := dateText_no hm (by decide) fun d hd => (digit_T d hd).1
  have hZ : 'Z' ∉ m.dateText ++ 'T' :: two m.hour ++ [c] := by
    have hz := fun {n} (h : n < 100) => two_no (n := n) (c := 'Z') h fun d hd => (digit_T d hd).2.1
    simp only [List.mem_append, List.mem_cons, not_or, List.not_mem_nil, not_false_eq_true, and_true]
    refine ⟨⟨dateText_no hm (by decide) fun d hd => (digit_T d hd).2.1, by decide, hz hm.fields.2.2.1⟩, ?_⟩
    rcases hc with rfl | rfl <;> decide
  obtain ⟨h1, h2, eh⟩ : ∃ h1 h2, two m.hour = [h1, h2] := ⟨_, _, rfl⟩
  refine dateWord_norm _ ?_
  have hv : (m.dateText ++ 'T' :: two m.hour ++ c :: suffix).takeWhile (· ≠ 'Z') = m.dateText ++ 'T' :: h1 :: h2 :: c :: suffix.takeWhile (· ≠ 'Z') := by
    have : m.dateText ++ 'T' :: two m.hour ++ c :: suffix = (m.dateText ++ 'T' :: two m.hour ++ [c]) ++ suffix := by simp
    rw [this, takeWhile_append hZ, eh]
    simp
  have ht : (m.dateText ++ 'T' :: h1 :: h2 :: c :: suffix.takeWhile (· ≠ 'Z')).findIdx? (· = 'T') = some m.dateText.length := findIdx_append _ _ hT
  have hpos : ¬ some m.dateText.length = some 0 := by
    have : 0 < m.dateText.length := by simp [Moment.dateText, Moment.monthText]
    simp only [Option.some.injEq]
    omega
  have hz : noZoneAt (m.dateText ++ 'T' :: h1 :: h2 :: c :: suffix.takeWhile (· ≠ 'Z')) (m.dateText.length + 3) = false := by
    have : (m.dateText ++ 'T' :: h1 :: h2 :: c :: suffix.takeWhile (· ≠ 'Z'))[m.dateText.length + 3]? = some c := by
      rw [List.getElem?_append_right (by omega), Nat.add_sub_cancel_left]; rfl
    rw [noZoneAt, this]
    rcases hc with rfl | rfl <;> simp
  have htime : timeOf (m.dateText ++ 'T' :: h1 :: h2 :: c :: suffix.takeWhile (· ≠ 'Z')) m.dateText.length = (two m.hour, two m.minute, two m.second) := by
    rw [timeOf, hz, if_neg (by simp), h0.1, h0.2, eh]
    dsimp only
    have e : m.dateText ++ 'T' :: h1 :: h2 :: c :: suffix.takeWhile (· ≠ 'Z') = (m.dateText ++ ['T']) ++ (h1 :: h2 :: c :: suffix.takeWhile (· ≠ 'Z')) := by simp
    rw [e, show m.dateText.length + 1 = (m.dateText ++ ['T']).length by simp, List.drop_left]
    rfl
  rw [normalizeDate, hv]
  rw [ht]
  dsimp only
  rw [htime, if_neg hpos, Option.getD_some, dayOf_date hm]
  dsimp only
  rw [padYear_text hm]
  simp only [Outcome.map, tailOf]
  simp

/-! ### Order -/

theorem chars_lt' {w : Char → Nat} (hw : Weights w) : ∀ {a b : List Nat}, a.length = b.length → Digits a → Digits b → a < b →
    (chars a).map w < (chars b).map w
  | [], [], _, _, _, h => absurd h (by simp)
  | [], _ :: _, hl, _, _, _ => by simp at hl
  | _ :: _, [], hl, _, _, _ => by simp at hl
  | a :: as, b :: bs, hl, ha, hb, h => by
    refine List.cons_lt_cons_iff.2 ?_
    rcases List.cons_lt_cons_iff.1 h with h | ⟨h, h'⟩
    · exact Or.inl (hw.digits a b h (hb b List.mem_cons_self))
    · exact Or.inr ⟨by rw [h], chars_lt' hw (by simpa using hl) (fun x hx => ha x (List.mem_cons_of_mem _ hx))
        (fun x hx => hb x (List.mem_cons_of_mem _ hx)) h'⟩

/-- Digits of the same number are ordered like the numbers. -/
theorem chars_order {w : Char → Nat} (hw : Weights w) {a b : List Nat} (hl : a.length = b.length) (ha : Digits a) (hb : Digits b) :
    ((chars a).map w < (chars b).map w ↔ natOf a < natOf b) ∧ ((chars a).map w = (chars b).map w ↔ natOf a = natOf b) := by
  rcases Nat.lt_trichotomy (natOf a) (natOf b) with h | h | h
  · have h1 := chars_lt' hw hl ha hb ((natOf_lex hl ha hb).2 h)
    exact ⟨⟨fun _ => h, fun _ => h1⟩, ⟨fun h2 => absurd h1 (by rw [h2]; exact List.lt_irrefl _), fun h2 => by omega⟩⟩
  · have h1 := natOf_inj hl ha hb h
    subst h1
    exact ⟨⟨fun h2 => absurd h2 (List.lt_irrefl _), fun h2 => absurd h2 (Nat.lt_irrefl _)⟩, by simp⟩
  · have h1 := chars_lt' hw hl.symm hb ha ((natOf_lex hl.symm hb ha).2 h)
    exact ⟨⟨fun h2 => absurd h1 (List.lt_asymm h2), fun h2 => by omega⟩, ⟨fun h2 => absurd h1 (by rw [h2]; exact List.lt_irrefl _), fun h2 => by omega⟩⟩

theorem step {u v p q : List Nat} {i j : Int} {I J : List Int} (hl : u.length = v.length) (hlt : u < v ↔ i < j) (heq : u = v ↔ i = j)
    (ih : p < q ↔ I < J) : u ++ p < v ++ q ↔ i :: I < j :: J := by
  rw [List.cons_lt_cons_iff, ← hlt, ← heq, ← ih]
  constructor
  · intro h
    by_cases he : u = v
    · subst he
      refine Or.inr ⟨rfl, ?_⟩
      induction u with
      | nil => exact h
      | cons x u ih2 =>
        refine ih2 rfl (by simp_all) (by simp_all) ?_
        rcases List.cons_lt_cons_iff.1 h with h | ⟨_, h⟩
        · exact absurd h (Nat.lt_irrefl _)
        · exact h
    · left
      rcases lt_trichotomy u v with h1 | h1 | h1
      · exact h1
      · exact absurd h1 he
      · exact absurd h (List.lt_asymm (lt_append_of_lt q p hl.symm h1))
  · rintro (h | ⟨rfl, h⟩)
    · exact lt_append_of_lt p q hl h
    · exact lt_append_left _ h

theorem step' {w : Char → Nat} {u v p q : Word} {i j : Int} {I J : List Int} (hl : u.length = v.length) (hlt : u.map w < v.map w ↔ i < j)
    (heq : u.map w = v.map w ↔ i = j) (ih : p.map w < q.map w ↔ I < J) : (u ++ p).map w < (v ++ q).map w ↔ i :: I < j :: J := by
  have := step (by rw [List.length_map, List.length_map, hl]) hlt heq ih
  rwa [← List.map_append, ← List.map_append] at this

theorem two_order {w : Char → Nat} (hw : Weights w) (c : Char) {a b : Nat} (ha : a < 100) (hb : b < 100) :
    ((c :: two a).map w < (c :: two b).map w ↔ (a : Int) < b) ∧ ((c :: two a).map w = (c :: two b).map w ↔ (a : Int) = b) := by
  have h := chars_order hw (a := [a / 10, a % 10]) (b := [b / 10, b % 10]) rfl (two_digits ha) (two_digits hb)
  have e : ∀ n, natOf [n / 10, n % 10] = n := by
    intro n
    show 10 * (10 * 0 + n / 10) + n % 10 = n
    omega
  rw [e, e] at h
  rw [List.map_cons, List.map_cons, List.cons_lt_cons_iff, List.cons.injEq, two_eq, two_eq, h.1, h.2, Int.ofNat_lt, Int.ofNat_inj]
  simp

theorem yearField_length {m : Moment} (hm : m.Valid) : (yearField m).length = 19 := by
  have := year_length hm
  rw [yearField]
  cases h : m.neg <;> rw [h] at this <;> simp only [Bool.false_eq_true, if_false, if_true] at this
  · rw [if_neg (by simp), chars_length, padLeft_length this]
  · rw [if_pos rfl, List.length_cons, chars_length, compl_length, padLeft_length this]

theorem natOf_compl {ds : List Nat} (h : Digits ds) : natOf (compl ds) + natOf ds + 1 = 10 ^ ds.length := by
  induction ds with
  | nil => rfl
  | cons d ds ih =>
    have h1 := ih fun x hx => h x (List.mem_cons_of_mem _ hx)
    have h2 := h d List.mem_cons_self
    rw [show compl (d :: ds) = (9 - d) :: compl ds from rfl, natOf_cons, natOf_cons, compl_length, List.length_cons, pow_succ]
    have h3 : (9 - d) * 10 ^ ds.length + d * 10 ^ ds.length = 9 * 10 ^ ds.length := by rw [← Nat.add_mul]; congr 1; omega
    omega

theorem year_order {w : Char → Nat} (hw : Weights w) {m n : Moment} (hm : m.Valid) (hn : n.Valid) :
    ((yearField m).map w < (yearField n).map w ↔ m.yearValue < n.yearValue) ∧ ((yearField m).map w = (yearField n).map w ↔ m.yearValue = n.yearValue) := by
  have lm := year_length hm
  have ln := year_length hn
  have dm := hm.digits
  have dn := hn.digits
  -- a year with sign is before a year without
  have mixed : ∀ {a b : Moment}, a.Valid → b.Valid → a.neg = true → b.neg = false →
      (yearField a).map w < (yearField b).map w ∧ a.yearValue < b.yearValue := by
    intro a b va vb ha hb
    have lb := year_length vb
    replace lb : b.year.length ≤ 19 := by rw [hb] at lb; exact lb
    constructor
    · rw [yearField, yearField, ha, hb, if_pos rfl, if_neg (by simp)]
      cases hp : padLeft 19 b.year with
      | nil =>
        have := padLeft_length lb
        rw [hp] at this
        exact absurd this (by simp)
      | cons d ds =>
        refine List.cons_lt_cons_iff.2 (Or.inl ?_)
        have hd : d < 10 := padLeft_digits (n := 19) vb.digits d (by rw [hp]; exact List.mem_cons_self)
        rcases Nat.eq_zero_or_pos d with h | h
        · rw [h]; exact hw.sign
        · exact Nat.lt_trans hw.sign (hw.digits 0 d h hd)
    · rw [Moment.yearValue, Moment.yearValue, ha, hb, if_pos rfl, if_neg (by simp)]
      have := va.zero ha
      omega
  cases h1 : m.neg <;> cases h2 : n.neg
  · replace lm : m.year.length ≤ 19 := by rw [h1] at lm; exact lm
    replace ln : n.year.length ≤ 19 := by rw [h2] at ln; exact ln
    rw [yearField, yearField, Moment.yearValue, Moment.yearValue, h1, h2]
    simp only [Bool.false_eq_true, if_false]
    have := chars_order hw (a := padLeft 19 m.year) (b := padLeft 19 n.year) (by rw [padLeft_length lm, padLeft_length ln]) (padLeft_digits dm) (padLeft_digits dn)
    rw [natOf_padLeft, natOf_padLeft] at this
    rw [this.1, this.2]
    omega
  · have := mixed hn hm h2 h1
    exact ⟨⟨fun h => absurd this.1 (List.lt_asymm h), fun h => by omega⟩, ⟨fun h => absurd this.1 (by rw [h]; exact List.lt_irrefl _), fun h => by omega⟩⟩
  · have := mixed hm hn h1 h2
    exact ⟨⟨fun _ => this.2, fun _ => this.1⟩, ⟨fun h => absurd this.1 (by rw [h]; exact List.lt_irrefl _), fun h => by omega⟩⟩
  · replace lm : m.year.length ≤ 18 := by rw [h1] at lm; exact lm
    replace ln : n.year.length ≤ 18 := by rw [h2] at ln; exact ln
    rw [yearField, yearField, Moment.yearValue, Moment.yearValue, h1, h2]
    simp only [if_true, List.map_cons]
    have := chars_order hw (a := compl (padLeft 18 m.year)) (b := compl (padLeft 18 n.year))
      (by rw [compl_length, compl_length, padLeft_length lm, padLeft_length ln]) (compl_digits _) (compl_digits _)
    have c1 := natOf_compl (padLeft_digits (n := 18) dm)
    have c2 := natOf_compl (padLeft_digits (n := 18) dn)
    rw [natOf_padLeft, padLeft_length lm] at c1
    rw [natOf_padLeft, padLeft_length ln] at c2
    rw [List.cons_lt_cons_iff, List.cons.injEq, this.1, this.2]
    simp only [Nat.lt_irrefl, false_or, true_and]
    omega

/-- The index words are ordered like the moments. -/
theorem moment_order {w : Char → Nat} (hw : Weights w) {m n : Moment} (hm : m.Valid) (hn : n.Valid) :
    (momentWord m).map w < (momentWord n).map w ↔ m.key < n.key := by
  have hp : ∀ a b : List Nat, datePrefix.map w ++ a < datePrefix.map w ++ b ↔ a < b := by
    intro a b
    refine ⟨fun h => ?_, lt_append_left _⟩
    rcases lt_trichotomy a b with h1 | h1 | h1
    · exact h1
    · rw [h1] at h; exact absurd h (List.lt_irrefl _)
    · exact absurd (lt_append_left _ h1) (List.lt_asymm h)
  have f := hm.fields
  have g := hn.fields
  have e : ∀ k : Moment, (momentWord k).map w = datePrefix.map w ++ ((yearField k).map w ++ (tailOf k).map w) := fun k => by
    rw [momentWord, List.map_append, List.map_append]
  rw [e, e, hp, tailOf, tailOf, Moment.key, Moment.key]
  have hy := year_order hw hm hn
  refine step (by rw [List.length_map, List.length_map, yearField_length hm, yearField_length hn]) hy.1 hy.2 ?_
  refine step' rfl (two_order hw '-' f.1 g.1).1 (two_order hw '-' f.1 g.1).2 ?_
  refine step' rfl (two_order hw '-' f.2.1 g.2.1).1 (two_order hw '-' f.2.1 g.2.1).2 ?_
  refine step' rfl (two_order hw 'T' f.2.2.1 g.2.2.1).1 (two_order hw 'T' f.2.2.1 g.2.2.1).2 ?_
  refine step' rfl (two_order hw ':' f.2.2.2.1 g.2.2.2.1).1 (two_order hw ':' f.2.2.2.1 g.2.2.2.1).2 ?_
  have := step (p := []) (q := []) (I := []) (J := []) (u := (':' :: two m.second).map w) (v := (':' :: two n.second).map w) (i := m.second) (j := n.second) rfl
    (two_order hw ':' f.2.2.2.2 g.2.2.2.2).1 (two_order hw ':' f.2.2.2.2 g.2.2.2.2).2 (by simp)
  rw [List.append_nil, List.append_nil] at this
  exact this

end Verif.Conversions
