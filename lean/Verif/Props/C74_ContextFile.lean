import Verif.Model.ContextFile
import Verif.Spec.ContextFile
import Verif.Lemmas.PrefixCompression
import Verif.Lemmas.Modifiers
import Verif.Props.C73_TextIndex
/-
C74: a context file is read as the words, entities, records and scores it states.
-/
namespace Verif.ContextFile
open Verif.StringUtils Verif.TextIndex Verif.Spec.ContextFile Verif.Spec.TextIndex

/-! ### Helpers -/

theorem findPos_at {p : Char → Bool} {a b : Str} {c : Char} (ha : ∀ x ∈ a, p x = false) (hc : p c = true) {start : Nat}
    (hs : start ≤ a.length) : findPos p (a ++ c :: b) start = some a.length := by
  unfold findPos
  rw [List.drop_append_of_le_length hs]
  have h1 : ∀ (a : Str), (∀ x ∈ a, p x = false) → (a ++ c :: b).findIdx? p = some a.length := by
    intro a
    induction a with
    | nil => intro _; simp [List.findIdx?_cons, hc]
    | cons x xs ih =>
      intro h
      rw [List.cons_append, List.findIdx?_cons, h x (by simp)]
      simp [ih fun y hy => h y (by simp [hy])]
  rw [h1 _ fun x hx => ha x (List.mem_of_mem_drop hx), List.length_drop]
  simp only [Option.map_some, Option.some.injEq]
  omega

theorem findPos_after {p : Char → Bool} {a b r : Str} {c : Char} (hb : ∀ x ∈ b, p x = false) (hc : p c = true) {start : Nat}
    (h1 : a.length ≤ start) (h2 : start ≤ a.length + b.length) :
    findPos p (a ++ b ++ c :: r) start = some (a.length + b.length) := by
  have hd : (a ++ b ++ c :: r).drop start = (b ++ c :: r).drop (start - a.length) := by
    rw [List.append_assoc, List.drop_append, List.drop_eq_nil_of_le h1, List.nil_append]
  have := findPos_at (b := r) hb hc (start := start - a.length) (by omega)
  unfold findPos at this ⊢
  rw [hd]
  cases hf : ((b ++ c :: r).drop (start - a.length)).findIdx? p with
  | none => rw [hf] at this; cases this
  | some v =>
    rw [hf] at this
    simp only [Option.map_some, Option.some.injEq] at this ⊢
    omega

theorem digits_no (n : Nat) (c : Char) (hc : c.isDigit = false) : c ∉ Nat.toDigits 10 n := by
  intro h
  have := Nat.isDigit_of_mem_toDigits (by omega) (by omega) h
  rw [hc] at this; cases this

theorem atol_digits {n : Nat} (h : n < 2 ^ 63) : atol (Nat.toDigits 10 n) = .ok n := by
  unfold atol
  have : (Nat.toDigits 10 n).dropWhile isSpace = Nat.toDigits 10 n := by
    cases hd : Nat.toDigits 10 n with
    | nil => rfl
    | cons c cs =>
      rw [List.dropWhile_cons, if_neg]
      intro hs
      have hm : c ∈ Nat.toDigits 10 n := by rw [hd]; simp
      have hdig := Nat.isDigit_of_mem_toDigits (by omega) (by omega) hm
      unfold isSpace at hs
      simp only [Bool.or_eq_true, decide_eq_true_eq, Bool.and_eq_true] at hs
      unfold Char.isDigit at hdig
      simp only [Bool.and_eq_true, decide_eq_true_eq] at hdig
      rcases hs with hs | hs
      · subst hs; exact absurd hdig (by decide)
      · have h1 : (48 : Nat) ≤ c.toNat := by
          have := hdig.1
          rw [ge_iff_le, UInt32.le_iff_toNat_le] at this
          exact this
        omega
  rw [this, Modifiers.atol_toDigits h]

/-- The line of the index builder for an entry. -/
def lineOf (lower : Str → Str) (e : Entry) : Line :=
  ⟨if e.entity then e.text else lower e.text, e.entity, e.record, e.score % 2 ^ 16⟩

theorem toDigits_pos (n : Nat) : 0 < (Nat.toDigits 10 n).length := Nat.length_toDigits_pos

/-! ### The file -/

/-- C74 for one line. -/
theorem C74_line (lower : Str → Str) (e : Entry) (hw : Writable e) (hr : e.record < 2 ^ 63) (hs : e.score < 2 ^ 63)
    (hl : (line e).length < 2 ^ 63) : parseLine lower (line e) = .ok (lineOf lower e) := by
  have hp : ∀ x : Str, '\t' ∉ x → ∀ y ∈ x, (y == '\t') = false := by
    intro x hx y hy
    rw [beq_eq_false_iff_ne]
    rintro rfl
    exact hx hy
  let flag : Char := if e.entity then '1' else '0'
  have hline : line e = e.text ++ '\t' :: (flag :: '\t' :: (Nat.toDigits 10 e.record ++ '\t' :: Nat.toDigits 10 e.score)) := by
    unfold line
    simp only [List.append_assoc, List.cons_append, List.nil_append]
    rfl
  have hlen := hl
  rw [hline] at hlen
  simp only [List.length_append, List.length_cons] at hlen
  have hi : findTab (line e) 0 = e.text.length := by
    unfold findTab
    rw [hline, findPos_at (hp _ hw.1) rfl (Nat.zero_le _)]
    rfl
  have hpos := toDigits_pos e.record
  have hk : findTab (line e) (e.text.length + 2 + 2) = e.text.length + 3 + (Nat.toDigits 10 e.record).length := by
    unfold findTab
    have : line e = (e.text ++ ['\t', flag, '\t']) ++ Nat.toDigits 10 e.record ++ '\t' :: Nat.toDigits 10 e.score := by
      rw [hline]; simp [List.append_assoc]
    rw [this, findPos_after (hp _ (digits_no _ _ rfl)) rfl (by simp) (by simp; omega)]
    simp
  have hc : charAt (line e) (e.text.length + 1) = .ok flag := by
    unfold charAt
    rw [if_neg (by rw [hline]; simp), hline, Outcome.read_lt _ _ (by simp)]
    congr 1
    rw [List.getElem_append_right (by omega)]
    simp
  unfold parseLine
  simp only
  rw [hi, Nat.mod_eq_of_lt (a := e.text.length + 2) (by omega), Nat.mod_eq_of_lt (a := e.text.length + 2 + 2) (by omega), hk,
    Nat.mod_eq_of_lt (a := e.text.length + 1) (by omega), hc]
  simp only [Outcome.bind]
  have h1 : substr (line e) 0 e.text.length = .ok e.text := by
    unfold substr
    rw [if_pos (Nat.zero_le _), hline]
    simp
  rw [h1]
  simp only
  have h2 : sub64 (sub64 (e.text.length + 3 + (Nat.toDigits 10 e.record).length) (e.text.length + 2)) 1 = (Nat.toDigits 10 e.record).length := by
    have key : ∀ a b : Nat, a + b + 4 < 2 ^ 63 → sub64 (sub64 (a + 3 + b) (a + 2)) 1 = b := by
      intro a b hab
      unfold sub64
      omega
    exact key _ _ (by omega)
  have h3 : substr (line e) ((e.text.length + 2 + 1) % 2 ^ 64) (Nat.toDigits 10 e.record).length = .ok (Nat.toDigits 10 e.record) := by
    unfold substr
    rw [Nat.mod_eq_of_lt (by omega), if_pos (by rw [hline]; simp; omega), hline]
    have : e.text ++ '\t' :: flag :: '\t' :: (Nat.toDigits 10 e.record ++ '\t' :: Nat.toDigits 10 e.score) =
        (e.text ++ ['\t', flag, '\t']) ++ (Nat.toDigits 10 e.record ++ '\t' :: Nat.toDigits 10 e.score) := by simp [List.append_assoc]
    rw [this, List.drop_left' (by simp), List.take_left' rfl]
  rw [h2, h3]
  simp only
  rw [atol_digits hr]
  simp only
  have h4 : substr (line e) ((e.text.length + 3 + (Nat.toDigits 10 e.record).length + 1) % 2 ^ 64) npos = .ok (Nat.toDigits 10 e.score) := by
    unfold substr
    rw [Nat.mod_eq_of_lt (by omega), if_pos (by rw [hline]; simp; omega), hline]
    have : e.text ++ '\t' :: flag :: '\t' :: (Nat.toDigits 10 e.record ++ '\t' :: Nat.toDigits 10 e.score) =
        (e.text ++ ['\t', flag, '\t'] ++ Nat.toDigits 10 e.record ++ ['\t']) ++ Nat.toDigits 10 e.score := by simp [List.append_assoc]
    rw [this, List.drop_left' (by simp; omega), List.take_of_length_le (by unfold npos; omega)]
  rw [h4]
  simp only
  rw [atol_digits hs]
  simp only [lineOf]
  have h5 : decide (flag = '1') = e.entity := by
    show decide ((if e.entity then '1' else '0') = '1') = e.entity
    cases e.entity <;> rfl
  rw [h5]
  have h6 : ((e.record : Int) % 2 ^ 64).toNat = e.record := by omega
  have h7 : ((e.score : Int) % 2 ^ 16).toNat = e.score % 2 ^ 16 := by omega
  rw [h6, h7]

/-- C74: the file for entries is read as these entries, in order; words that are no entities in lower case.  Partial: of the score
only 16 bits are kept. -/
theorem C74_file_partial (lower : Str → Str) (es : List Entry)
    (h : ∀ e ∈ es, Writable e ∧ e.record < 2 ^ 63 ∧ e.score < 2 ^ 63 ∧ (line e).length < 2 ^ 63) :
    parseFile lower (file es) = .ok (es.map (lineOf lower)) := by
  have hfile : file es = PrefixCompression.writeLines (es.map line) := by
    unfold file PrefixCompression.writeLines
    rw [List.flatMap_def, List.map_map]
    rfl
  have hline : ∀ l ∈ es.map line, '\n' ∉ l := by
    intro l hl
    obtain ⟨e, he, rfl⟩ := List.mem_map.mp hl
    unfold line
    simp only [List.mem_append, List.mem_singleton, not_or]
    refine ⟨⟨⟨⟨⟨⟨(h e he).1.2, by decide⟩, ?_⟩, by decide⟩, digits_no _ _ rfl⟩, by decide⟩, digits_no _ _ rfl⟩
    cases e.entity <;> decide
  unfold parseFile
  rw [hfile, PrefixCompression.getlines_writeLines _ hline]
  clear hfile hline
  induction es with
  | nil => rfl
  | cons e es ih =>
    have he := h e (by simp)
    rw [List.map_cons, List.map_cons]
    unfold parseLines
    rw [C74_line lower e he.1 he.2.1 he.2.2.1 he.2.2.2, ih fun x hx => h x (by simp [hx])]
    rfl

example : let e : Entry := ⟨"Star".toList, false, 17, 3⟩
    Writable e ∧ (line e).length < 2 ^ 63 ∧ parseLine (·.map Char.toLower) (line e) = .ok ⟨"star".toList, false, 17, 3⟩ :=
  ⟨⟨by decide, by decide⟩, by decide, by decide +kernel⟩

/-- C74 fails for scores of 65536 and more. -/
theorem C74_score_violated : parseFile id (file [⟨"a".toList, false, 0, 65536⟩]) = .ok [⟨"a".toList, false, 0, 0⟩] := by decide +kernel

/-! ### From the file to the answer -/

/-- C74 and C73 together: after the text index has been built from the file for entries, a query for a word finds exactly the
records for which the file has a line with the word, up to lower case, that is no entity. -/
theorem C74_search (lower : Str → Str) {short : Str → Bool} {gt : Str → Str → Bool} {vocab : List Str} {kb : Str → Option Nat}
    {cb : Codebooks} {name : List Nat} {vec : List Tuple} {out : List Nat} (es : List Entry)
    (h : ∀ e ∈ es, Writable e ∧ e.record < 2 ^ 63 ∧ e.score < 2 ^ 63 ∧ (line e).length < 2 ^ 63) {lines : List Line}
    (hp : parseFile lower (file es) = .ok lines) (hi : Index short gt vocab kb lines cb name vec out) (C : Collation.Comparator)
    {term : Str} (ht : Plain term) {fuel : Nat} (hf : Enough vec fuel) :
    ∃ records scores, queryWords fuel C vocab kb out term = .ok (records, scores) ∧ StrictlyAscending records ∧
      ∀ c, c ∈ records ↔ ∃ e ∈ es, e.entity = false ∧ lower e.text = term ∧ e.record = c := by
  obtain ⟨records, scores, h1, h2, h3, h4⟩ := C73_word hi C ht hf
  refine ⟨records, scores, h1, h3, fun c => ?_⟩
  rw [C74_file_partial lower es h] at hp
  cases hp
  have hc : c ∈ records ↔ ∃ s, (c, s) ∈ records.zip scores := by
    constructor
    · intro hc
      obtain ⟨i, hi, rfl⟩ := List.mem_iff_getElem.mp hc
      exact ⟨scores[i]'(by omega), List.mem_iff_getElem.mpr ⟨i, by simp; omega, by simp⟩⟩
    · rintro ⟨s, hs⟩
      exact (List.of_mem_zip hs).1
  rw [hc]
  have : (∃ s, (c, s) ∈ records.zip scores) ↔ Occurs (wordText (es.map (lineOf lower))) term c := by
    constructor
    · rintro ⟨s, hs⟩; exact ((h4 c s).mp hs).1
    · intro ho; exact ⟨_, (h4 c _).mpr ⟨ho, rfl⟩⟩
  rw [this]
  unfold Occurs wordText
  constructor
  · rintro ⟨s, hs⟩
    obtain ⟨l, hl, he⟩ := List.mem_map.mp hs
    obtain ⟨h5, h6⟩ := List.mem_filter.mp hl
    obtain ⟨e, he', rfl⟩ := List.mem_map.mp h5
    have h6' : e.entity = false := by simpa [lineOf] using h6
    simp only [lineOf, h6', Prod.mk.injEq, Bool.false_eq_true, if_false] at he
    exact ⟨e, he', h6', he.1, he.2.1⟩
  · rintro ⟨e, he, h5, rfl, rfl⟩
    refine ⟨e.score % 2 ^ 16, List.mem_map.mpr ⟨lineOf lower e, List.mem_filter.mpr ⟨List.mem_map.mpr ⟨e, he, rfl⟩, ?_⟩, ?_⟩⟩
    · simp [lineOf, h5]
    · simp [lineOf, h5]

def demoEntries : List Entry :=
  [⟨"Star".toList, false, 1, 3⟩, ⟨"<a>".toList, true, 1, 7⟩, ⟨"star".toList, false, 1, 4⟩, ⟨"starts".toList, false, 2, 1⟩,
   ⟨"moo".toList, false, 2, 1⟩, ⟨"<b>".toList, true, 2, 1⟩, ⟨"star".toList, false, 3, 65535⟩, ⟨"star".toList, false, 3, 2⟩]

example : (∀ e ∈ demoEntries, Writable e ∧ e.record < 2 ^ 63 ∧ e.score < 2 ^ 63 ∧ (line e).length < 2 ^ 63) ∧
    parseFile (·.map Char.toLower) (file demoEntries) = .ok demoText ∧ Demo demoWords demoText :=
  ⟨by unfold Spec.ContextFile.Writable; decide +kernel, by decide +kernel, demo (by decide +kernel)⟩

/-! ### Files that are not as they should be -/

/-- A line without tabulators is not rejected: it is read as a word of record 0, or as an entity if it begins with 1. -/
theorem C74_malformed_violated :
    parseFile id "abc\n".toList = .ok [⟨"abc".toList, false, 0, 0⟩] ∧ parseFile id "1bc\n".toList = .ok [⟨"1bc".toList, true, 0, 1⟩] := by
  decide +kernel

/-- An empty line ends the reading with an exception. -/
theorem C74_empty_line (lower : Str → Str) : parseFile lower ['\n'] = .throw := by
  unfold parseFile
  rfl

/-- A file that is not sorted by records is not rejected, and a record is found twice. -/
theorem C74_unsorted_violated : ∃ es lines out, parseFile id (file es) = .ok lines ∧ demoBuild ["star".toList] lines = .ok out ∧
    queryWords 100 demoC ["star".toList] demoKb out "star".toList = .ok ([1, 2, 2], [1, 1, 1]) :=
  ⟨[⟨"star".toList, false, 2, 1⟩, ⟨"star".toList, false, 1, 1⟩, ⟨"star".toList, false, 2, 1⟩],
    [⟨"star".toList, false, 2, 1⟩, ⟨"star".toList, false, 1, 1⟩, ⟨"star".toList, false, 2, 1⟩],
    demoFile ["star".toList] [⟨"star".toList, false, 2, 1⟩, ⟨"star".toList, false, 1, 1⟩, ⟨"star".toList, false, 2, 1⟩],
    by decide +kernel, by decide +kernel, by decide +kernel⟩

end Verif.ContextFile
