import Verif.Lemmas.Dates
import Verif.Props.C45_NumericLiterals
/-
C60: dates are ordered by time in their internal form, and are shown as they were written.
-/
namespace Verif.C60
open Verif.Conversions Verif.DatesSpec
open Verif.ConversionsSpec (natOf)
open Verif.ExternalVocabulary (Word)

/-! ### The order of the index words -/

/-- Comparing bytes puts the characters into the right order. -/
theorem bytes_weights : Weights Char.toNat := ⟨C45.bytes_weights.digits, by decide⟩

/-- Every valid date has an index word. -/
theorem encodes (m : Moment) (hm : m.Valid) : ∃ a, dateWord m.text = .ok a :=
  ⟨_, by have := dateWord_text hm []; rwa [List.append_nil] at this⟩

theorem word_eq {m : Moment} (hm : m.Valid) {a : Word} (h : dateWord m.text = .ok a) : a = momentWord m := by
  have := dateWord_text hm []
  rw [List.append_nil, h] at this
  exact Outcome.ok.inj this

/-- C60: the earlier of two dates has the smaller word.  Partial: no time zones (`zone_violated`), no fractions of seconds (`fraction_violated`), and the years
have at most 18 (negative) or 19 digits (`long_violated`). -/
theorem order_partial (w : Char → Nat) (hw : Weights w) (m n : Moment) (hm : m.Valid) (hn : n.Valid) (a b : Word) (ha : dateWord m.text = .ok a)
    (hb : dateWord n.text = .ok b) : a.map w < b.map w ↔ m.key < n.key := by
  rw [word_eq hm ha, word_eq hn hb]
  exact moment_order hw hm hn

/-- The Ides of March are before the reign of Augustus, and the first of January 2000 is before the second. -/
def ides : Moment := ⟨true, [0, 0, 4, 4], 3, 15, 12, 0, 0⟩
def augustus : Moment := ⟨true, [0, 0, 2, 7], 1, 16, 0, 0, 0⟩
def millennium : Moment := ⟨false, [2, 0, 0, 0], 1, 1, 23, 59, 59⟩
example : ides.Valid ∧ augustus.Valid ∧ millennium.Valid ∧ ides.key < augustus.key ∧ augustus.key < millennium.key := by decide
example : ides.text = "-0044-03-15T12:00:00".toList ∧ millennium.text = "2000-01-01T23:59:59".toList := by decide +kernel

/-- C60: two dates have the same word if and only if they are the same moment. -/
theorem equal_partial (m n : Moment) (hm : m.Valid) (hn : n.Valid) (a b : Word) (ha : dateWord m.text = .ok a) (hb : dateWord n.text = .ok b) :
    a = b ↔ m.key = n.key := by
  have h1 := order_partial _ bytes_weights m n hm hn a b ha hb
  have h2 := order_partial _ bytes_weights n m hn hm b a hb ha
  constructor
  · rintro rfl
    have h3 : ¬ m.key < n.key := fun h => List.lt_irrefl _ (h1.2 h)
    have h4 : ¬ n.key < m.key := fun h => List.lt_irrefl _ (h2.2 h)
    rcases lt_trichotomy m.key n.key with h | h | h
    · exact absurd h h3
    · exact h
    · exact absurd h h4
  · intro h
    have h3 : ¬ a.map Char.toNat < b.map Char.toNat := fun h' => List.lt_irrefl _ (h ▸ h1.1 h')
    have h4 : ¬ b.map Char.toNat < a.map Char.toNat := fun h' => List.lt_irrefl _ (h ▸ h2.1 h')
    rcases lt_trichotomy (a.map Char.toNat) (b.map Char.toNat) with h' | h' | h'
    · exact absurd h' h3
    · exact List.map_injective_iff.2 (fun c d hcd => Char.toNat_inj.1 hcd) h'
    · exact absurd h' h4

example : (⟨false, [0, 7, 5, 3], 4, 21, 0, 0, 0⟩ : Moment).key = (⟨false, [7, 5, 3], 4, 21, 0, 0, 0⟩ : Moment).key := by decide

/-! ### Days, months and years -/

/-- A day has the word of its beginning. -/
theorem date_word (m : Moment) (hm : m.Valid) : dateWord m.dateText = dateWord { m with hour := 0, minute := 0, second := 0 }.text := by
  have hm' : Moment.Valid { m with hour := 0, minute := 0, second := 0 } := ⟨hm.1, hm.2, hm.3, hm.4, hm.5.1, hm.5.2.1, Nat.zero_lt_succ 99, Nat.zero_lt_succ 99, Nat.zero_lt_succ 99⟩
  have h1 := dateWord_text hm' []
  rw [List.append_nil] at h1
  rw [h1]
  refine dateWord_norm _ ?_
  have hT : 'T' ∉ m.dateText := dateText_no hm (by decide) fun d hd => (digit_T d hd).1
  have hZ : 'Z' ∉ m.dateText := dateText_no hm (by decide) fun d hd => (digit_T d hd).2.1
  have hv : m.dateText.takeWhile (· ≠ 'Z') = m.dateText := by
    have := takeWhile_append (b := []) hZ
    simpa using this
  have ht : m.dateText.findIdx? (· = 'T') = none := by
    rw [List.findIdx?_eq_none_iff]
    intro c hc
    simp only [decide_eq_false_iff_not]
    exact fun h => hT (h ▸ hc)
  have hd := dayOf_date hm []
  rw [List.append_nil] at hd
  rw [normalizeDate, hv, ht]
  dsimp only
  rw [if_neg (by simp), Option.getD_none, hd]
  dsimp only
  rw [padYear_text hm]
  simp only [Outcome.map, tailOf]
  rw [show yearField { m with hour := 0, minute := 0, second := 0 } = yearField m from rfl]
  simp [two]

/-- A month has the word of its day 0, which is before its days. -/
theorem month_word (m : Moment) (hm : m.Valid) : dateWord m.monthText = dateWord { m with day := 0, hour := 0, minute := 0, second := 0 }.text := by
  have hm' : Moment.Valid { m with day := 0, hour := 0, minute := 0, second := 0 } := ⟨hm.1, hm.2, hm.3, hm.4, hm.5.1, Nat.zero_lt_succ 99, Nat.zero_lt_succ 99, Nat.zero_lt_succ 99, Nat.zero_lt_succ 99⟩
  have h1 := dateWord_text hm' []
  rw [List.append_nil] at h1
  rw [h1]
  refine dateWord_norm _ ?_
  have hsub : ∀ c, c ∉ m.dateText → c ∉ m.monthText := fun c h h' => h (List.mem_append_left _ h')
  have hT : 'T' ∉ m.monthText := hsub _ (dateText_no hm (by decide) fun d hd => (digit_T d hd).1)
  have hZ : 'Z' ∉ m.monthText := hsub _ (dateText_no hm (by decide) fun d hd => (digit_T d hd).2.1)
  have hv : m.monthText.takeWhile (· ≠ 'Z') = m.monthText := by
    have := takeWhile_append (b := []) hZ
    simpa using this
  have ht : m.monthText.findIdx? (· = 'T') = none := by
    rw [List.findIdx?_eq_none_iff]
    intro c hc
    simp only [decide_eq_false_iff_not]
    exact fun h => hT (h ▸ hc)
  have hd : dayOf m.monthText m.monthText.length = (m.yearText, two m.month, ['0', '0']) := by
    obtain ⟨c, u, hu, hno⟩ := yearText_sign hm
    have e1 : m.monthText = [c] ++ (u ++ '-' :: two m.month) := by simp [Moment.monthText, hu]
    have e2 : m.monthText = (m.yearText ++ ['-']) ++ (two m.month ++ []) := by simp [Moment.monthText]
    have f1 : findFrom '-' m.monthText 1 = some m.yearText.length := by
      rw [e1]
      have := findFrom_append [c] u (two m.month) hno
      rw [show ([c] : Word).length = 1 from rfl] at this
      rw [this, hu, List.length_cons, Nat.add_comm]
    have f2 : findFrom '-' m.monthText (m.yearText.length + 1) = none := by
      have hl : m.yearText.length + 1 = (m.yearText ++ ['-']).length := by simp
      rw [findFrom, e2, hl, List.drop_left, List.append_nil, List.findIdx?_eq_none_iff.2]
      · rfl
      · intro c hc
        simp only [decide_eq_false_iff_not]
        exact fun h => two_no hm.fields.1 (fun d hd => (digitChar_other d hd).2.1) (h ▸ hc)
    rw [dayOf, f1]
    dsimp only
    rw [f2]
    dsimp only
    refine Prod.ext ?_ (Prod.ext ?_ rfl)
    · show m.monthText.take _ = _
      rw [Moment.monthText, List.take_left]
    · show cut _ _ _ = _
      have := cut_append (m.yearText ++ ['-']) (two m.month) []
      have hl : m.monthText.length = (m.yearText ++ ['-']).length + (two m.month).length := by rw [e2]; simp; omega
      rw [hl, e2]
      rw [List.length_append] at this ⊢
      exact this
  rw [normalizeDate, hv, ht]
  dsimp only
  rw [if_neg (by simp), Option.getD_none, hd]
  dsimp only
  rw [padYear_text hm]
  simp only [Outcome.map, tailOf]
  rw [show yearField { m with day := 0, hour := 0, minute := 0, second := 0 } = yearField m from rfl]
  simp [two]

/-- A year has the word of its month 0, which is before its months. -/
theorem year_word (m : Moment) (hm : m.Valid) :
    dateWord m.yearText = dateWord { m with month := 0, day := 0, hour := 0, minute := 0, second := 0 }.text := by
  have hm' : Moment.Valid { m with month := 0, day := 0, hour := 0, minute := 0, second := 0 } :=
    ⟨hm.1, hm.2, hm.3, hm.4, Nat.zero_lt_succ 99, Nat.zero_lt_succ 99, Nat.zero_lt_succ 99, Nat.zero_lt_succ 99, Nat.zero_lt_succ 99⟩
  have h1 := dateWord_text hm' []
  rw [List.append_nil] at h1
  rw [h1]
  refine dateWord_norm _ ?_
  have hsub : ∀ c, c ∉ m.dateText → c ∉ m.yearText := fun c h h' => h (List.mem_append_left _ (List.mem_append_left _ h'))
  have hT : 'T' ∉ m.yearText := hsub _ (dateText_no hm (by decide) fun d hd => (digit_T d hd).1)
  have hZ : 'Z' ∉ m.yearText := hsub _ (dateText_no hm (by decide) fun d hd => (digit_T d hd).2.1)
  have hv : m.yearText.takeWhile (· ≠ 'Z') = m.yearText := by
    have := takeWhile_append (b := []) hZ
    simpa using this
  have ht : m.yearText.findIdx? (· = 'T') = none := by
    rw [List.findIdx?_eq_none_iff]
    intro c hc
    simp only [decide_eq_false_iff_not]
    exact fun h => hT (h ▸ hc)
  have hd : dayOf m.yearText m.yearText.length = (m.yearText, ['0', '0'], ['0', '0']) := by
    obtain ⟨c, u, hu, hno⟩ := yearText_sign hm
    have f1 : findFrom '-' m.yearText 1 = none := by
      rw [findFrom, hu, List.drop_succ_cons, List.drop_zero, List.findIdx?_eq_none_iff.2]
      · rfl
      · intro c hc
        simp only [decide_eq_false_iff_not]
        exact fun h => hno (h ▸ hc)
    rw [dayOf, f1]
  rw [normalizeDate, hv, ht]
  dsimp only
  rw [if_neg (by simp), Option.getD_none, hd]
  dsimp only
  rw [padYear_text hm]
  simp only [Outcome.map, tailOf]
  rw [show yearField { m with month := 0, day := 0, hour := 0, minute := 0, second := 0 } = yearField m from rfl]
  simp [two]

example : dateWord "2000-01-01".toList = dateWord "2000-01-01T00:00:00".toList ∧ dateWord "-0044".toList = dateWord "-0044-00-00T00:00:00".toList := by
  decide +kernel

/-! ### How dates are shown -/

/-- A literal of type `xsd:dateTime`. -/
abbrev literal (v : Word) : Word := ['"'] ++ v ++ ['"'] ++ xsdSuffix ['d', 'a', 't', 'e', 'T', 'i', 'm', 'e']

theorem literal_date (v : Word) : valueWord (literal v) = dateWord v := by
  rw [literal, C45.literal_word _ _ (by decide)]
  rfl

/-- How the word of a date is shown: positive years without zeros at the beginning, negative years with 18 digits.  Partial: not for the year 0
(`zero_violated`). -/
theorem shown_partial (m : Moment) (hm : m.Valid) (h0 : natOf m.year ≠ 0) :
    ((valueWord (literal m.text)).bind wordValue) = .ok (literal m.shown.text) := by
  have h1 := dateWord_text hm []
  rw [List.append_nil] at h1
  rw [literal_date, h1]
  dsimp only [Outcome.bind]
  have hpre : datePrefix.isPrefixOf (momentWord m) = true := by
    rw [List.isPrefixOf_iff_prefix, momentWord]
    exact List.prefix_append _ _
  rw [wordValue, if_pos hpre]
  have hdrop : (momentWord m).drop datePrefix.length = yearField m ++ tailOf m := by rw [momentWord, List.drop_left]
  have htext : ∀ k : Moment, k.text = k.yearText ++ tailOf k := by intro k; simp [Moment.text, Moment.dateText, Moment.monthText, tailOf]
  have hl := year_length hm
  cases hn : m.neg
  · replace hl : m.year.length ≤ 19 := by rw [hn] at hl; exact hl
    have hf : yearField m = chars (padLeft 19 m.year) := by rw [yearField, hn]; rfl
    have hsign : (yearField m ++ tailOf m).head? ≠ some '-' := by
      rw [hf]
      cases hp : padLeft 19 m.year with
      | nil => have := padLeft_length hl; rw [hp] at this; exact absurd this (by simp)
      | cons d ds =>
        intro h
        exact (digitChar_other d (padLeft_digits (n := 19) hm.digits d (by rw [hp]; exact List.mem_cons_self))).2.1 (Option.some.inj h)
    have hw : wordDate (momentWord m) = .ok (yearField m ++ tailOf m) := by
      rw [wordDate, hdrop, if_neg hsign]
    -- the zeros at the beginning
    have hz : ∀ ds : List Nat, Digits ds → natOf ds ≠ 0 → ∃ d ds', ds.dropWhile (· = 0) = d :: ds' ∧ d ≠ 0 ∧ d < 10 ∧
        ∀ rest, (chars ds ++ rest).dropWhile (· = '0') = chars (d :: ds') ++ rest := by
      intro ds
      induction ds with
      | nil => intro _ h; exact absurd rfl h
      | cons d ds ih =>
        intro h h'
        by_cases hd : d = 0
        · subst hd
          obtain ⟨e, es, h2, h3, h4, h5⟩ := ih (fun x hx => h x (List.mem_cons_of_mem _ hx)) (by rw [natOf_cons] at h'; omega)
          refine ⟨e, es, by simp [h2], h3, h4, fun rest => ?_⟩
          rw [← h5 rest]
          rfl
        · refine ⟨d, ds, by simp [hd], hd, h d List.mem_cons_self, fun rest => ?_⟩
          have : digitChar d ≠ '0' := fun h3 => hd ((digitChar_zero d (h d List.mem_cons_self)).1 h3)
          rw [chars, List.map_cons, List.cons_append, List.dropWhile_cons, if_neg (by simpa using this)]
    obtain ⟨d, ds, h2, h3, h4, h5⟩ := hz _ (padLeft_digits (n := 19) hm.digits) (by rw [natOf_padLeft]; exact h0)
    have hstrip : m.year.dropWhile (· = 0) = d :: ds := by
      rw [← h2, padLeft]
      have : ∀ k, (List.replicate k 0 ++ m.year).dropWhile (· = 0) = m.year.dropWhile (· = 0) := by
        intro k
        induction k with
        | zero => rfl
        | succ k ih => rw [List.replicate_succ, List.cons_append, List.dropWhile_cons, if_pos (by simp), ih]
      rw [this]
    have hs : m.shown.text = chars (d :: ds) ++ tailOf m := by
      rw [htext, Moment.yearText, Moment.shown, hn]
      simp only [Bool.false_eq_true, if_false, List.nil_append, hstrip]
      rfl
    rw [hw, hs]
    simp only [Outcome.map]
    congr 3
    rw [showDate, hf, h5]
    have hT : ¬ (chars (d :: ds) ++ tailOf m = [] ∨ (chars (d :: ds) ++ tailOf m).head? = some 'T') := by
      rintro (h | h)
      · exact absurd h (by simp [chars])
      · exact (digit_T d h4).1 (Option.some.inj h)
    rw [if_neg hT]
  · replace hl : m.year.length ≤ 18 := by rw [hn] at hl; exact hl
    have hf : yearField m = '-' :: chars (compl (padLeft 18 m.year)) := by rw [yearField, hn]; rfl
    have hw : wordDate (momentWord m) = .ok ('-' :: chars (padLeft 18 m.year) ++ tailOf m) := by
      have hll : (chars (compl (padLeft 18 m.year))).length = 18 := by rw [chars_length, compl_length, padLeft_length hl]
      rw [wordDate, hdrop, hf, if_pos (by rfl)]
      rw [if_neg (by rw [List.length_append, List.length_cons, hll]; omega)]
      congr 1
      have e1 : (('-' :: chars (compl (padLeft 18 m.year)) ++ tailOf m).drop 1).take 18 = chars (compl (padLeft 18 m.year)) := by
        have := List.take_left (l₁ := chars (compl (padLeft 18 m.year))) (l₂ := tailOf m)
        rw [hll] at this; exact this
      have e2 : ('-' :: chars (compl (padLeft 18 m.year)) ++ tailOf m).drop 19 = tailOf m := by
        rw [show 19 = (chars (compl (padLeft 18 m.year))).length + 1 by rw [hll]]; exact List.drop_left
      rw [e1, e2, complement_chars (compl_digits _), compl_compl (padLeft_digits hm.digits)]
    have hs : m.shown.text = '-' :: chars (padLeft 18 m.year) ++ tailOf m := by
      rw [htext, Moment.yearText, Moment.shown, hn]
      simp only [if_true]
      rfl
    rw [hw, hs]
    rfl

example : millennium.Valid ∧ natOf millennium.year ≠ 0 := by decide

/-- The date that is shown is the same moment. -/
theorem shown_key (m : Moment) : m.shown.key = m.key := by
  have h : ∀ ds : List Nat, natOf (ds.dropWhile (· = 0)) = natOf ds := by
    intro ds
    induction ds with
    | nil => rfl
    | cons d ds ih =>
      rw [List.dropWhile_cons]
      by_cases hd : d = 0
      · subst hd; rw [if_pos (by simp), ih, natOf_cons]; simp
      · rw [if_neg (by simpa using hd)]
  rw [Moment.key, Moment.key, Moment.yearValue, Moment.yearValue]
  cases hn : m.neg
  · simp only [Moment.shown, hn, Bool.false_eq_true, if_false, h]
  · simp only [Moment.shown, hn, if_true]
    rw [show List.replicate (18 - m.year.length) 0 ++ m.year = padLeft 18 m.year from rfl, natOf_padLeft]

/-- C60: dates with a positive year without zeros at its beginning are shown as they were written. -/
theorem same_partial (m : Moment) (hm : m.Valid) (hn : m.neg = false) (h0 : m.year.head? ≠ some 0) :
    ((valueWord (literal m.text)).bind wordValue) = .ok (literal m.text) := by
  obtain ⟨d, ds, hy⟩ : ∃ d ds, m.year = d :: ds := by
    cases hy : m.year with
    | nil => exact absurd hy hm.nonempty
    | cons d ds => exact ⟨d, ds, rfl⟩
  have hd : d ≠ 0 := fun h => h0 (by rw [hy, h]; rfl)
  rw [shown_partial m hm]
  · congr 2
    have : m.shown = m := by
      rw [Moment.shown, hn]
      simp only [Bool.false_eq_true, if_false]
      rw [show m.year.dropWhile (· = 0) = m.year by rw [hy]; simp [hd], ← hn]
    rw [this]
  · rw [hy, natOf_cons]
    have : 0 < d * 10 ^ ds.length := Nat.mul_pos (by omega) (by positivity)
    omega

example : millennium.Valid ∧ millennium.neg = false ∧ millennium.year.head? ≠ some 0 := by decide

/-! ### Filters -/

open Verif.Collation Verif.CollationSpec Verif.Filter Verif.FilterSpec in
/-- C60 for filters: `?x < d` and `?x >= d` keep the rows whose date is before (not before) d, and `?x = d` the rows with this date.  Partial: as `order_partial`,
and the collator orders the words of dates like their characters. -/
theorem filter_partial (c : Collator) (N : Word → Prop) (hc : c.Laws N) (w : Char → Nat) (hw : Weights w)
    (hk : ∀ (x y : Moment) a b, x.Valid → y.Valid → dateWord x.text = .ok a → dateWord y.text = .ok b → a.map w < b.map w →
      c.key .quarternary a < c.key .quarternary b)
    (words : List Word) (t : Table) (width lhs : Nat) (sorted : Bool) (hwf : t.WF width) (hwords : words.Pairwise fun a b => tripleCompare c a b .total < 0)
    (hcol : lhs < width) (hs : sorted = true → Ascending lhs id t) (date : Nat → Moment)
    (ht : ∀ r ∈ t, ∃ a, words[r.getD lhs 0]? = some a ∧ dateWord (date (r.getD lhs 0)).text = .ok a ∧ (date (r.getD lhs 0)).Valid)
    (y : Moment) (hy : y.Valid) (v : Word) (hv : dateWord y.text = .ok v) (cmp : Cmp) (hcmp : cmp = .lt ∨ cmp = .ge ∨ cmp = .eq) :
    filterKB ((triple c).less .quarternary) words cmp sorted lhs v t = .ok (keep cmp lhs (fun i => (date i).key) y.key t) := by
  have hin : ∀ r ∈ t, r.getD lhs 0 < words.length := fun r hr => by
    obtain ⟨a, ha, _⟩ := ht r hr
    exact (List.getElem?_eq_some_iff.1 ha).1
  -- the words of dates have the same kind, and are their own content
  have hrank : ∀ (z : Moment) (b : Word), z.Valid → dateWord z.text = .ok b → kind b = 58 ∧ content b = b := by
    intro z b hz hb
    rw [word_eq hz hb]
    exact ⟨rfl, rfl⟩
  have hlt : ∀ (z z' : Moment) (b b' : Word), z.Valid → z'.Valid → dateWord z.text = .ok b → dateWord z'.text = .ok b' → z.key < z'.key →
      c.key .quarternary b < c.key .quarternary b' :=
    fun z z' b b' h1 h2 h3 h4 h5 => hk z z' b b' h1 h2 h3 h4 ((order_partial w hw z z' h1 h2 b b' h3 h4).2 h5)
  have key : ∀ r ∈ t, ∀ a, words[r.getD lhs 0]? = some a → dateWord (date (r.getD lhs 0)).text = .ok a → (date (r.getD lhs 0)).Valid →
      (c.key .quarternary a < c.key .quarternary v ↔ (date (r.getD lhs 0)).key < y.key) ∧
      (c.key .quarternary a = c.key .quarternary v ↔ (date (r.getD lhs 0)).key = y.key) := by
    intro r hr a ha hx hxv
    rcases lt_trichotomy (date (r.getD lhs 0)).key y.key with h | h | h
    · have h1 := hlt _ _ _ _ hxv hy hx hv h
      exact ⟨⟨fun _ => h, fun _ => h1⟩, ⟨fun h2 => absurd h1 (by rw [h2]; exact List.lt_irrefl _), fun h2 => absurd h (by rw [h2]; exact List.lt_irrefl _)⟩⟩
    · have h1 := (equal_partial _ _ hxv hy a v hx hv).2 h
      rw [h1, h]
      exact ⟨⟨fun h => absurd h (List.lt_irrefl _), fun h => absurd h (List.lt_irrefl _)⟩, by simp⟩
    · have h1 := hlt _ _ _ _ hy hxv hv hx h
      exact ⟨⟨fun h2 => absurd h1 (List.lt_asymm h2), fun h2 => absurd h (List.lt_asymm h2)⟩,
        ⟨fun h2 => absurd h1 (by rw [h2]; exact List.lt_irrefl _), fun h2 => absurd h (by rw [h2]; exact List.lt_irrefl _)⟩⟩
  obtain ⟨kv, cv⟩ := hrank y v hy hv
  by_cases he : cmp = .eq
  · subst he
    rw [C59.equality_partial c N hc words t width lhs sorted v hwf hwords hcol hs hin, keep]
    congr 1
    refine List.filter_congr fun r hr => ?_
    obtain ⟨a, ha, hx, hxv⟩ := ht r hr
    obtain ⟨ka, ca⟩ := hrank _ a hxv hx
    rw [ha, Option.any_some, Bool.eq_iff_iff, decide_eq_true_eq, decide_eq_true_eq, ka, kv, ca, cv, (key r hr a ha hx hxv).2]
    exact ⟨fun h => h.2, fun h => ⟨rfl, h⟩⟩
  · have hcmp' : cmp = .lt ∨ cmp = .ge := by
      rcases hcmp with h | h | h
      exacts [Or.inl h, Or.inr h, absurd h he]
    rw [C59.less_partial c N hc words t width lhs sorted v hwf hwords hcol hs hin cmp hcmp', keep]
    congr 1
    refine List.filter_congr fun r hr => ?_
    obtain ⟨a, ha, hx, hxv⟩ := ht r hr
    obtain ⟨ka, ca⟩ := hrank _ a hxv hx
    have hk1 := (key r hr a ha hx hxv).1
    have hr1 : C59.rank c a < C59.rank c v ↔ (date (r.getD lhs 0)).key < y.key := by
      rw [C59.rank, C59.rank, ka, kv, ca, cv, ← hk1, List.cons_lt_cons_iff]
      exact ⟨fun h => h.elim (fun h => absurd h (Nat.lt_irrefl _)) (·.2), fun h => Or.inr ⟨rfl, h⟩⟩
    rw [ha, Option.any_some, Bool.eq_iff_iff, decide_eq_true_eq, decide_eq_true_eq]
    rcases hcmp' with rfl | rfl
    · exact hr1
    · show C59.rank c v ≤ C59.rank c a ↔ y.key ≤ (date (r.getD lhs 0)).key
      rw [← not_lt, ← not_lt]
      exact not_congr hr1

theorem word_chars (m : Moment) (hm : m.Valid) : ∀ ch ∈ momentWord m, ch.toNat < 128 := by
  have hd : ∀ (ds : List Nat), Digits ds → ∀ ch ∈ chars ds, ch.toNat < 128 := by
    intro ds h ch hch
    obtain ⟨d, hd, rfl⟩ := List.mem_map.1 hch
    have := h d hd
    revert this
    exact (by decide : ∀ d, d < 10 → (digitChar d).toNat < 128) d
  have h2 := fun {n} (h : n < 100) => hd _ (two_digits (n := n) h)
  intro ch h
  rcases List.mem_append.1 h with h | h
  · exact (by decide : ∀ c ∈ datePrefix, c.toNat < 128) ch h
  rcases List.mem_append.1 h with h | h
  · rw [yearField] at h
    cases hn : m.neg <;> rw [hn] at h
    · exact hd _ (padLeft_digits hm.digits) ch h
    · rcases List.mem_cons.1 h with rfl | h
      · decide
      · exact hd _ (compl_digits _) ch h
  · rw [tailOf] at h
    have f := hm.fields
    simp only [List.mem_append, List.mem_cons] at h
    rcases h with (rfl | h) | (rfl | h) | (rfl | h) | (rfl | h) | (rfl | h)
    exacts [by decide, h2 f.1 _ h, by decide, h2 f.2.1 _ h, by decide, h2 f.2.2.1 _ h, by decide, h2 f.2.2.2.1 _ h, by decide, h2 f.2.2.2.2 _ h]

open Verif.Collation Verif.CollationSpec in
/-- The collator of the examples keeps the order of dates, as `filter_partial` asks for. -/
theorem ascii_dates : Weights weight ∧ ∀ (x y : Moment) a b, x.Valid → y.Valid → dateWord x.text = .ok a →
    dateWord y.text = .ok b → a.map weight < b.map weight → ascii.key .quarternary a < ascii.key .quarternary b := by
  refine ⟨⟨C45.ascii_numbers.1.digits, by decide⟩, fun x y a b hx hy ha hb h => ?_⟩
  have key : ∀ (z : Moment) w, z.Valid → dateWord z.text = .ok w → heard w = w := by
    intro z w hz hw
    rw [word_eq hz hw]
    refine List.filter_eq_self.2 fun ch hch => ?_
    have := word_chars z hz ch hch
    simp only [decide_eq_true_eq]
    omega
  have hw : ∀ s : Word, ∀ n ∈ s.map weight, 2 < n := by
    intro s n hn
    obtain ⟨ch, _, rfl⟩ := List.mem_map.1 hn
    rw [weight]; omega
  show key4 a < key4 b
  rw [key4, key4, key1, key1, key x a hx ha, key y b hy hb]
  exact lex_sep _ _ (hw a) (hw b) h

open Verif.Collation Verif.CollationSpec Verif.Filter Verif.FilterSpec in
/-- The dates before the year 1. -/
example : ∃ a b d v, dateWord ides.text = .ok a ∧ dateWord augustus.text = .ok b ∧ dateWord millennium.text = .ok d ∧
    dateWord "0001-01-01T00:00:00".toList = .ok v ∧ [a, b, d].Pairwise (fun a b => tripleCompare ascii a b .total < 0) ∧
    filterKB ((triple ascii).less .quarternary) [a, b, d] .lt false 0 v [[2], [0], [1]] = .ok [[0], [1]] :=
  ⟨_, _, _, _, rfl, rfl, rfl, rfl, by decide +kernel, by decide +kernel⟩

/-! ### Where C60 fails -/

/-- C60 fails for time zones: whatever follows the seconds is ignored. -/
theorem suffix_ignored (m : Moment) (hm : m.Valid) (suffix : Word) : dateWord (m.text ++ suffix) = dateWord m.text := by
  have h := dateWord_text hm []
  rw [List.append_nil] at h
  rw [h, dateWord_text hm suffix]

/-- A time zone that directly follows the hour is ignored as well, and is not taken for minutes. -/
theorem hour_zone (m : Moment) (hm : m.Valid) (h0 : m.minute = 0 ∧ m.second = 0) (c : Char) (hc : c = '+' ∨ c = '-') (suffix : Word) :
    dateWord (m.dateText ++ 'T' :: two m.hour ++ c :: suffix) = dateWord m.text := by
  have h := dateWord_text hm []
  rw [List.append_nil] at h
  rw [h, dateWord_hour hm h0 c hc suffix]

example : dateWord "2000-01-01T10+14:00".toList = dateWord "2000-01-01T10:00:00".toList := hour_zone ⟨false, [2, 0, 0, 0], 1, 1, 10, 0, 0⟩ (by decide) ⟨rfl, rfl⟩ '+' (.inl rfl) "14:00".toList

/-- C60 fails for time zones: 10 o'clock in Kiribati (UTC+14) is 8 p.m. of the day before in Greenwich, and is put after 9 p.m. of the day before in Greenwich. -/
theorem zone_violated : ∃ a b, dateWord "2000-01-01T10:00:00+14:00".toList = .ok a ∧ dateWord "1999-12-31T21:00:00Z".toList = .ok b ∧
    b.map Char.toNat < a.map Char.toNat := ⟨_, _, rfl, rfl, by decide +kernel⟩

/-- C60 fails for fractions of seconds: they are ignored. -/
theorem fraction_violated (m : Moment) (hm : m.Valid) (ds : List Nat) : dateWord (m.text ++ '.' :: chars ds) = dateWord m.text := suffix_ignored m hm _

/-- C60 fails for days with a time zone: the time zone becomes a part of the day, and the first is not before the second of the month. -/
theorem day_zone_violated : ((valueWord (['"'] ++ "2000-01-01+05:00".toList ++ ['"'] ++ xsdSuffix ['d', 'a', 't', 'e'])).bind wordValue)
    = .ok (literal "2000-01-01+05:00T00:00:00".toList) := by decide +kernel

/-- C60 fails for the type: days, months and years are shown as moments, with months and days 0. -/
theorem type_violated : ((valueWord (['"'] ++ "2000".toList ++ ['"'] ++ xsdSuffix ['g', 'Y', 'e', 'a', 'r'])).bind wordValue)
    = .ok (literal "2000-00-00T00:00:00".toList) := by decide +kernel

/-- C60 fails for years with zeros at the beginning and for negative years. -/
theorem year_violated : ((valueWord (literal "0753-04-21T00:00:00".toList)).bind wordValue) = .ok (literal "753-04-21T00:00:00".toList) ∧
    ((valueWord (literal "-0044-03-15T12:00:00".toList)).bind wordValue) = .ok (literal "-000000000000000044-03-15T12:00:00".toList) := by decide +kernel

/-- C60 fails for the year 0: it is shown as a date without year, which is read as the year -1. -/
theorem zero_violated : ((valueWord (literal "0000-01-02T00:00:00".toList)).bind wordValue) = .ok (literal "-01-02T00:00:00".toList) ∧
    dateWord "-01-02T00:00:00".toList ≠ dateWord "0000-01-02T00:00:00".toList := by decide +kernel

/-- C60 fails for years with more than 19 characters: there is no word. -/
theorem long_violated (m : Moment) (hd : ∀ d ∈ m.year, d < 10) (hl : 19 < m.yearText.length) : dateWord m.yearText = .throw := by
  have hd' : ∀ c, c ≠ '-' → (∀ d, d < 10 → digitChar d ≠ c) → c ∉ m.yearText := by
    intro c h1 h2 h
    rcases List.mem_append.1 h with h | h
    · cases h3 : m.neg <;> rw [h3] at h <;> simp at h
      exact h1 h
    · exact chars_no hd h2 h
  have hv : m.yearText.takeWhile (· ≠ 'Z') = m.yearText := by
    have := takeWhile_append (b := []) (hd' 'Z' (by decide) fun d hd => (digit_T d hd).2.1)
    simpa using this
  have ht : m.yearText.findIdx? (· = 'T') = none := by
    rw [List.findIdx?_eq_none_iff]
    intro c hc
    simp only [decide_eq_false_iff_not]
    exact fun h => hd' 'T' (by decide) (fun d hd => (digit_T d hd).1) (h ▸ hc)
  have hday : dayOf m.yearText m.yearText.length = (m.yearText, ['0', '0'], ['0', '0']) := by
    have hno : '-' ∉ chars m.year := chars_no hd fun d hd => (digitChar_other d hd).2.1
    have f1 : findFrom '-' m.yearText 1 = none := by
      have : m.yearText.drop 1 = chars m.year ∨ m.yearText.drop 1 = (chars m.year).drop 1 := by
        unfold Moment.yearText
        cases m.neg
        · right; rfl
        · left; rfl
      rw [findFrom, List.findIdx?_eq_none_iff.2]
      · rfl
      · intro c hc
        simp only [decide_eq_false_iff_not]
        intro h
        subst h
        rcases this with h | h <;> rw [h] at hc
        · exact hno hc
        · exact hno (List.mem_of_mem_drop hc)
    rw [dayOf, f1]
  rw [dateWord, normalizeDate, hv, ht]
  dsimp only
  rw [if_neg (by simp), Option.getD_none, hday]
  dsimp only
  rw [padYear, if_neg (by omega)]
  rfl

example : 19 < (⟨false, List.replicate 20 1, 1, 1, 0, 0, 0⟩ : Moment).yearText.length := by decide

end Verif.C60
