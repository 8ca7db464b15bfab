import Verif.Model.StringUtils
import Verif.Spec.StringUtils
import Mathlib.Data.List.TakeWhile
/- Helper lemmas for `Props/C48_Strings.lean` and `Props/C44_Url.lean`. -/
namespace Verif.StringUtils
open Outcome StringSpec

theorem findPos_none {p : Char → Bool} {s : List Char} {k : Nat} (h : findPos p s k = none) : ∀ c ∈ s.drop k, p c = false := by
  simp only [findPos, Option.map_eq_none_iff, List.findIdx?_eq_none_iff] at h
  exact h

theorem findPos_some {p : Char → Bool} {s : List Char} {k i : Nat} (h : findPos p s k = some i) :
    k ≤ i ∧ ∃ (hi : i < s.length), p s[i] = true ∧ (∀ c ∈ (s.drop k).take (i - k), p c = false) ∧
      s.drop k = (s.drop k).take (i - k) ++ s[i] :: s.drop (i + 1) := by
  simp only [findPos, Option.map_eq_some_iff] at h
  obtain ⟨a, ha, rfl⟩ := h
  rw [List.findIdx?_eq_some_iff_getElem] at ha
  obtain ⟨hl, hp, hb⟩ := ha
  simp only [List.length_drop] at hl
  refine ⟨by omega, by omega, ?_, ?_, ?_⟩
  · simpa [Nat.add_comm] using hp
  · intro c hc
    rw [List.mem_take_iff_getElem] at hc
    obtain ⟨j, hj, rfl⟩ := hc
    have := hb j (by omega)
    simpa using this
  · have h1 : a + k - k = a := by omega
    rw [h1]
    conv => lhs; rw [← List.take_append_drop a (s.drop k)]
    congr 1
    rw [List.drop_drop, List.drop_eq_getElem_cons (by omega)]
    simp only [Nat.add_comm]

theorem intercalate_snoc (sep : List Char) (res : List (List Char)) (l : List Char) :
    List.intercalate sep (res ++ [l]) = (res.map (· ++ sep)).flatten ++ l := by
  induction res with
  | nil => simp [List.intercalate]
  | cons x xs ih =>
    cases xs with
    | nil => simp [List.intercalate]
    | cons y ys =>
      simp only [List.intercalate, List.cons_append, List.intersperse_cons_cons, List.flatten_cons, List.map_cons,
        List.append_assoc] at ih ⊢
      rw [ih]

theorem substr_ok {s : List Char} {pos : Nat} (n : Nat) (h : pos ≤ s.length) : substr s pos n = .ok ((s.drop pos).take n) := by
  rw [substr, if_pos h]

theorem split_loop (orig : List Char) (sep : Char) (fuel : Nat) (hf : orig.length + 1 < fuel) :
    ∃ r, loop fuel (splitBody orig sep) ([], 0, findPos (· == sep) orig 0) = .ok r ∧ r.2 ≤ orig.length ∧
      orig.take r.2 = (r.1.map (· ++ [sep])).flatten ∧ (∀ p ∈ r.1, sep ∉ p) ∧ sep ∉ orig.drop r.2 := by
  refine loop_spec
    (fun s : List (List Char) × Nat × Option Nat => s.2.1 ≤ orig.length ∧ s.2.2 = findPos (· == sep) orig s.2.1 ∧
      orig.take s.2.1 = (s.1.map (· ++ [sep])).flatten ∧ ∀ p ∈ s.1, sep ∉ p)
    (fun r : List (List Char) × Nat => r.2 ≤ orig.length ∧
      orig.take r.2 = (r.1.map (· ++ [sep])).flatten ∧ (∀ p ∈ r.1, sep ∉ p) ∧ sep ∉ orig.drop r.2)
    (fun s => orig.length + 1 - s.2.1) ?_ fuel _ ⟨by simp, rfl, by simp, by simp⟩ (by dsimp only; omega)
  rintro ⟨res, start, idx⟩ ⟨h1, h2, h3, h4⟩
  dsimp only at h1 h2 h3 h4 ⊢
  cases idx with
  | none =>
    refine .inr ⟨(res, start), rfl, h1, h3, h4, ?_⟩
    intro hm
    have := findPos_none h2.symm sep hm
    simp at this
  | some i =>
    obtain ⟨hk, hi, hp, hb, hd⟩ := findPos_some h2.symm
    refine .inl ⟨(res ++ [(orig.drop start).take (i - start)], i + 1, findPos (· == sep) orig (i + 1)), ?_, ⟨?_, rfl, ?_, ?_⟩, ?_⟩
    · simp only [splitBody, substr_ok _ h1, Outcome.map]
    · dsimp only; omega
    · dsimp only
      have hs : orig[i] = sep := by simpa using hp
      have : i + 1 = start + (i + 1 - start) := by omega
      rw [List.map_append, List.flatten_append, ← h3, this, List.take_add]
      congr 1
      have h5 : i + 1 - start = (i - start) + 1 := by omega
      rw [h5, List.take_add_one]
      simp only [List.map_cons, List.map_nil, List.flatten_cons, List.flatten_nil, List.append_nil]
      congr 1
      rw [List.getElem?_drop, show start + (i - start) = i by omega, List.getElem?_eq_getElem hi, hs]
      rfl
    · intro p hp'
      rcases List.mem_append.mp hp' with hp' | hp'
      · exact h4 p hp'
      · simp only [List.mem_singleton] at hp'
        subst hp'
        intro hm
        have := hb sep hm
        simp at this
    · dsimp only; omega

theorem split_ok (orig : List Char) (sep : Char) (fuel : Nat) (hf : orig.length + 1 < fuel) :
    ∃ parts, split fuel orig sep = .ok parts ∧ List.intercalate [sep] parts = orig ∧ (∀ p ∈ parts, sep ∉ p) ∧
      (parts = [] ↔ orig = []) := by
  by_cases h0 : orig.length > 0
  · obtain ⟨r, h1, h2, h3, h4, h5⟩ := split_loop orig sep fuel hf
    refine ⟨r.1 ++ [orig.drop r.2], ?_, ?_, ?_, ?_⟩
    · rw [split, if_pos h0, h1]
      simp only [Outcome.bind, substr_ok _ h2, Outcome.map]
      rw [List.take_of_length_le (by simp)]
    · rw [intercalate_snoc, ← h3, List.take_append_drop]
    · intro p hp
      rcases List.mem_append.mp hp with hp | hp
      · exact h4 p hp
      · simp only [List.mem_singleton] at hp
        subst hp; exact h5
    · have : orig ≠ [] := by intro h; simp [h] at h0
      simp [this]
  · have : orig = [] := by
      cases orig with
      | nil => rfl
      | cons _ _ => simp at h0
    subst this
    exact ⟨[], by simp [split], by simp [List.intercalate], by simp, by simp⟩

theorem cut {sep : Char} {x y r r' : List Char} (hx : sep ∉ x) (hy : sep ∉ y) (h : x ++ sep :: r = y ++ sep :: r') :
    x = y ∧ r = r' := by
  induction x generalizing y with
  | nil =>
    cases y with
    | nil => simpa using h
    | cons b ys => simp only [List.nil_append, List.cons_append, List.cons.injEq] at h; simp [h.1] at hy
  | cons a xs ih =>
    cases y with
    | nil => simp only [List.nil_append, List.cons_append, List.cons.injEq] at h; simp [h.1] at hx
    | cons b ys =>
      simp only [List.cons_append, List.cons.injEq] at h
      simp only [List.mem_cons, not_or] at hx hy
      obtain ⟨h1, h2⟩ := ih hx.2 hy.2 h.2
      exact ⟨by rw [h.1, h1], h2⟩

theorem intercalate_cons₂ (sep : List Char) (x y : List Char) (l : List (List Char)) :
    List.intercalate sep (x :: y :: l) = x ++ (sep ++ List.intercalate sep (y :: l)) := by
  simp [List.intercalate]

theorem intercalate_inj {sep : Char} : ∀ {a b : List (List Char)}, a ≠ [] → b ≠ [] → (∀ p ∈ a, sep ∉ p) → (∀ p ∈ b, sep ∉ p) →
    List.intercalate [sep] a = List.intercalate [sep] b → a = b := by
  intro a
  induction a with
  | nil => intro b h; exact absurd rfl h
  | cons x xs ih =>
    intro b _ hb hx hy h
    cases b with
    | nil => exact absurd rfl hb
    | cons y ys =>
      have hx1 := hx x (by simp)
      have hy1 := hy y (by simp)
      cases xs with
      | nil =>
        cases ys with
        | nil => simpa [List.intercalate] using h
        | cons y2 ys =>
          rw [intercalate_cons₂] at h
          simp only [List.intercalate, List.intersperse_singleton, List.flatten_cons, List.flatten_nil, List.append_nil] at h
          exact absurd (by rw [h]; simp) hx1
      | cons x2 xs =>
        cases ys with
        | nil =>
          rw [intercalate_cons₂] at h
          simp only [List.intercalate, List.intersperse_singleton, List.flatten_cons, List.flatten_nil, List.append_nil] at h
          exact absurd (by rw [← h]; simp) hy1
        | cons y2 ys =>
          rw [intercalate_cons₂, intercalate_cons₂] at h
          obtain ⟨h1, h2⟩ := cut hx1 hy1 h
          rw [h1, ih (by simp) (by simp) (fun p hp => hx p (by simp [hp])) (fun p hp => hy p (by simp [hp])) h2]

theorem joinLoop_eq (joiner : List Char) : ∀ xs res, joinLoop joiner res xs = List.intercalate joiner (res :: xs) := by
  intro xs
  induction xs with
  | nil => intro res; simp [joinLoop, List.intercalate]
  | cons x xs ih =>
    intro res
    rw [joinLoop, ih, intercalate_cons₂]
    cases xs with
    | nil => simp [List.intercalate]
    | cons y ys => rw [intercalate_cons₂, intercalate_cons₂]; simp

theorem join_eq (joiner : List Char) (l : List (List Char)) : join joiner l = List.intercalate joiner l := by
  cases l with
  | nil => simp [join, List.intercalate]
  | cons x xs => exact joinLoop_eq joiner xs x

/- `Words` -/

theorem words_seps {p : Char → Bool} {a s : List Char} {ws : List (List Char)} (ha : ∀ c ∈ a, p c = true)
    (h : Words p s ws) : Words p (a ++ s) ws := by
  induction a with
  | nil => exact h
  | cons c a ih => exact .sep (ha c (by simp)) (ih fun c hc => ha c (by simp [hc]))

theorem words_last {p : Char → Bool} {w : List Char} (h : w ≠ []) (hw : ∀ c ∈ w, p c = false) : Words p w [w] := by
  have := Words.word (s := []) h hw (by simp) .nil
  simpa using this

theorem words_unique {p : Char → Bool} {s : List Char} {a b : List (List Char)} (ha : Words p s a) (hb : Words p s b) : a = b := by
  induction ha generalizing b with
  | nil =>
    generalize hs : ([] : List Char) = s at hb
    cases hb with
    | nil => rfl
    | sep => cases hs
    | word h _ _ _ => simp at hs; exact absurd hs.1 h
  | @sep c s ws hc h ih =>
    generalize hs : c :: s = t at hb
    cases hb with
    | nil => cases hs
    | sep hc' h' => cases hs; exact ih h'
    | @word w s' ws' hw hw' hh h' =>
      cases w with
      | nil => exact absurd rfl hw
      | cons d w =>
        simp only [List.cons_append, List.cons.injEq] at hs
        have := hw' d (by simp)
        rw [← hs.1, hc] at this; cases this
  | @word w s ws hw hw' hh h ih =>
    generalize hs : w ++ s = t at hb
    cases hb with
    | nil => simp at hs; exact absurd hs.1 hw
    | @sep c t ws' hc h' =>
      cases w with
      | nil => exact absurd rfl hw
      | cons d w =>
        simp only [List.cons_append, List.cons.injEq] at hs
        have := hw' d (by simp)
        rw [hs.1, hc] at this; cases this
    | @word w2 s2 ws2 hw2 hw2' hh2 h2 =>
      have key : ∀ (w w2 : List Char), (∀ c ∈ w, p c = false) → (∀ c ∈ w2, p c = false) → w ++ s = w2 ++ s2 → w = w2 ∧ s = s2 := by
        intro w
        induction w with
        | nil =>
          intro w2 _ h2 h
          cases w2 with
          | nil => exact ⟨rfl, h⟩
          | cons c w2 =>
            have h3 := hh c (by simp at h; rw [h]; rfl)
            rw [h2 c (by simp)] at h3; cases h3
        | cons d w ihw =>
          intro w2 h1 h2 h
          cases w2 with
          | nil =>
            have h3 := hh2 d (by simp at h; rw [← h]; rfl)
            rw [h1 d (by simp)] at h3; cases h3
          | cons c w2 =>
            simp only [List.cons_append, List.cons.injEq] at h
            obtain ⟨h3, h4⟩ := ihw w2 (fun c hc => h1 c (by simp [hc])) (fun c hc => h2 c (by simp [hc])) h.2
            exact ⟨by rw [h.1, h3], h4⟩
      obtain ⟨h3, h4⟩ := key w w2 hw' hw2' hs
      subst h3 h4
      rw [ih h2]

theorem drop_split (s : List Char) {a b : Nat} (h : a ≤ b) : s.drop a = (s.drop a).take (b - a) ++ s.drop b := by
  conv => lhs; rw [← List.take_append_drop (b - a) (s.drop a)]
  rw [List.drop_drop, show a + (b - a) = b by omega]

theorem take_succ_drop {s : List Char} {a b : Nat} (h : a ≤ b) (hb : b < s.length) :
    (s.drop a).take (b + 1 - a) = (s.drop a).take (b - a) ++ [s[b]] := by
  rw [show b + 1 - a = (b - a) + 1 by omega, List.take_add_one, List.getElem?_drop, show a + (b - a) = b by omega,
    List.getElem?_eq_getElem hb]
  rfl

theorem drop_takeWhile (p : Char → Bool) (l : List Char) : l.drop (l.takeWhile p).length = l.dropWhile p := by
  induction l with
  | nil => rfl
  | cons a l ih =>
    by_cases h : p a = true
    · simp [List.takeWhile_cons_of_pos h, List.dropWhile_cons_of_pos h, ih]
    · simp [List.takeWhile_cons_of_neg h, List.dropWhile_cons_of_neg h]

theorem splitWs_loop (orig : List Char) (fuel : Nat) (hf : orig.length + 2 < fuel) :
    ∃ r, loop fuel (splitWsBody orig) ([], 0, 0) = .ok r ∧ r.2 ≤ orig.length ∧ (∀ c ∈ orig.drop r.2, isSpace c = false) ∧
      ∀ ws, Words isSpace (orig.drop r.2) ws → Words isSpace orig (r.1 ++ ws) := by
  refine loop_spec
    (fun s : List (List Char) × Nat × Nat => s.2.1 ≤ s.2.2 ∧ s.2.1 ≤ orig.length ∧ s.2.2 ≤ orig.length + 1 ∧
      (∀ c ∈ (orig.drop s.2.1).take (s.2.2 - s.2.1), isSpace c = false) ∧
      ∀ ws, Words isSpace (orig.drop s.2.1) ws → Words isSpace orig (s.1 ++ ws))
    (fun r : List (List Char) × Nat => r.2 ≤ orig.length ∧ (∀ c ∈ orig.drop r.2, isSpace c = false) ∧
      ∀ ws, Words isSpace (orig.drop r.2) ws → Words isSpace orig (r.1 ++ ws))
    (fun s => orig.length + 2 - s.2.2) ?_ fuel _ ⟨by simp, by simp, by simp, by simp, by simp⟩ (by dsimp only; omega)
  rintro ⟨res, start, pos⟩ ⟨h1, h2, h3, h4, h5⟩
  dsimp only at h1 h2 h3 h4 h5 ⊢
  by_cases hp : pos < orig.length
  · refine .inl ?_
    simp only [splitWsBody, if_pos hp, read_lt _ _ hp, Outcome.bind]
    by_cases hs : isSpace orig[pos] = true
    · rw [if_pos hs]
      generalize hn : pos + ((orig.drop pos).takeWhile isSpace).length = next
      have hle : ((orig.drop pos).takeWhile isSpace).length ≤ orig.length - pos := by
        rw [← List.length_drop]
        exact (List.takeWhile_sublist _).length_le
      have hlt : 1 ≤ ((orig.drop pos).takeWhile isSpace).length := by
        rw [List.drop_eq_getElem_cons hp, List.takeWhile_cons_of_pos hs]; simp
      have hd : orig.drop pos = (orig.drop pos).takeWhile isSpace ++ orig.drop next := by
        conv => lhs; rw [← List.takeWhile_append_dropWhile (p := isSpace) (l := orig.drop pos)]
        congr 1
        rw [← hn, ← List.drop_drop, drop_takeWhile]
      have htake : ∀ c ∈ (orig.drop next).take (next + 1 - next), isSpace c = false := by
        intro c hc
        rw [show next + 1 - next = 1 by omega] at hc
        have hdw : orig.drop next = (orig.drop pos).dropWhile isSpace := by
          have := List.takeWhile_append_dropWhile (p := isSpace) (l := orig.drop pos)
          rw [← List.append_cancel_left_eq ((orig.drop pos).takeWhile isSpace), ← hd, this]
        rw [hdw] at hc
        cases hx : (orig.drop pos).dropWhile isSpace with
        | nil => rw [hx] at hc; simp at hc
        | cons d t =>
          rw [hx] at hc
          simp only [List.take_succ_cons, List.take_zero, List.mem_singleton] at hc
          subst hc
          have := List.head_dropWhile_not isSpace (l := orig.drop pos) (by rw [hx]; simp)
          simpa [hx] using this
      have hw : ∀ ws, Words isSpace (orig.drop next) ws → Words isSpace (orig.drop pos) ws := by
        intro ws h
        rw [hd]
        exact words_seps (fun c hc => List.mem_takeWhile_imp hc) h
      by_cases he : start ≠ pos
      · rw [if_pos he, substr_ok _ h2]
        refine ⟨_, rfl, ⟨?_, ?_, ?_, htake, ?_⟩, ?_⟩
        · dsimp only; omega
        · dsimp only; omega
        · dsimp only; omega
        · intro ws h
          dsimp only at h ⊢
          rw [List.append_assoc]
          refine h5 _ ?_
          suffices hg : Words _ ((orig.drop start).take (pos - start) ++ orig.drop pos) ((orig.drop start).take (pos - start) :: ws) by
            rw [← drop_split orig h1] at hg; exact hg
          refine Words.word ?_ h4 ?_ (hw ws h)
          · intro hnil
            have := congrArg List.length hnil
            simp at this
            omega
          · intro c hc
            rw [List.drop_eq_getElem_cons hp] at hc
            simp only [List.head?_cons, Option.some.injEq] at hc
            rw [← hc]; exact hs
        · dsimp only; omega
      · rw [if_neg he]
        simp only [ne_eq, Decidable.not_not] at he
        subst he
        refine ⟨_, rfl, ⟨?_, ?_, ?_, htake, ?_⟩, ?_⟩
        · dsimp only; omega
        · dsimp only; omega
        · dsimp only; omega
        · intro ws h
          exact h5 _ (hw ws h)
        · dsimp only; omega
    · rw [if_neg hs]
      refine ⟨_, rfl, ⟨?_, h2, ?_, ?_, h5⟩, ?_⟩
      · dsimp only; omega
      · dsimp only; omega
      · intro c hc
        dsimp only at hc
        rw [take_succ_drop h1 hp, List.mem_append, List.mem_singleton] at hc
        rcases hc with hc | hc
        · exact h4 c hc
        · rw [hc]; simpa using hs
      · dsimp only; omega
  · refine .inr ⟨(res, start), by simp only [splitWsBody, if_neg hp], h2, ?_, h5⟩
    dsimp only
    rw [List.take_of_length_le (by rw [List.length_drop]; omega)] at h4
    exact h4

theorem splitWs_ok (orig : List Char) (fuel : Nat) (hf : orig.length + 2 < fuel) :
    ∃ ws, splitWs fuel orig = .ok ws ∧ Words isSpace orig ws := by
  by_cases h0 : orig.length > 0
  · obtain ⟨r, h1, h2, h3, h4⟩ := splitWs_loop orig fuel hf
    rw [splitWs, if_pos h0, h1]
    simp only [Outcome.bind]
    by_cases he : r.2 ≠ orig.length
    · rw [if_pos he, substr_ok _ h2]
      refine ⟨_, rfl, h4 _ ?_⟩
      rw [List.take_of_length_le (by rw [List.length_drop]; omega)]
      refine words_last ?_ h3
      intro h
      have := congrArg List.length h
      simp at this
      omega
    · rw [if_neg he]
      simp only [ne_eq, Decidable.not_not] at he
      refine ⟨_, rfl, ?_⟩
      have := h4 [] (by rw [he, List.drop_length]; exact .nil)
      simpa using this
  · rw [splitWs, if_neg h0]
    cases orig with
    | nil => exact ⟨_, rfl, .nil⟩
    | cons _ _ => simp at h0

theorem splitAny_loop (seps orig : List Char) (fuel : Nat) (hf : orig.length < fuel) :
    ∃ r, loop fuel (splitAnyBody seps orig) ([], 0, 0) = .ok r ∧ r.2 ≤ orig.length ∧
      (∀ c ∈ orig.drop r.2, seps.contains c = false) ∧
      ∀ ws, Words seps.contains (orig.drop r.2) ws → Words seps.contains orig (r.1 ++ ws) := by
  refine loop_spec
    (fun s : List (List Char) × Nat × Nat => s.2.1 ≤ s.2.2 ∧ s.2.2 ≤ orig.length ∧
      (∀ c ∈ (orig.drop s.2.1).take (s.2.2 - s.2.1), seps.contains c = false) ∧
      ∀ ws, Words seps.contains (orig.drop s.2.1) ws → Words seps.contains orig (s.1 ++ ws))
    (fun r : List (List Char) × Nat => r.2 ≤ orig.length ∧ (∀ c ∈ orig.drop r.2, seps.contains c = false) ∧
      ∀ ws, Words seps.contains (orig.drop r.2) ws → Words seps.contains orig (r.1 ++ ws))
    (fun s => orig.length - s.2.2) ?_ fuel _ ⟨by simp, by simp, by simp, by simp⟩ (by dsimp only; omega)
  rintro ⟨res, start, pos⟩ ⟨h1, h3, h4, h5⟩
  dsimp only at h1 h3 h4 h5 ⊢
  by_cases hp : pos < orig.length
  · refine .inl ?_
    simp only [splitAnyBody, if_pos hp, read_lt _ _ hp, Outcome.bind]
    by_cases hs : seps.contains orig[pos] = true
    · rw [if_pos hs]
      have hw : ∀ ws, Words seps.contains (orig.drop (pos + 1)) ws → Words seps.contains (orig.drop pos) ws := by
        intro ws h
        rw [List.drop_eq_getElem_cons hp]
        exact .sep hs h
      by_cases he : start < pos
      · rw [if_pos he, substr_ok _ (by omega)]
        refine ⟨_, rfl, ⟨?_, ?_, ?_, ?_⟩, ?_⟩
        · dsimp only; omega
        · dsimp only; omega
        · simp
        · intro ws h
          dsimp only at h ⊢
          rw [List.append_assoc]
          refine h5 _ ?_
          suffices hg : Words _ ((orig.drop start).take (pos - start) ++ orig.drop pos) ((orig.drop start).take (pos - start) :: ws) by
            rw [← drop_split orig h1] at hg; exact hg
          refine Words.word ?_ h4 ?_ (hw ws h)
          · intro hnil
            have := congrArg List.length hnil
            simp at this
            omega
          · intro c hc
            rw [List.drop_eq_getElem_cons hp] at hc
            simp only [List.head?_cons, Option.some.injEq] at hc
            rw [← hc]; exact hs
        · dsimp only; omega
      · rw [if_neg he]
        have : start = pos := by omega
        subst this
        refine ⟨_, rfl, ⟨?_, ?_, ?_, ?_⟩, ?_⟩
        · dsimp only; omega
        · dsimp only; omega
        · simp
        · intro ws h
          exact h5 _ (hw ws h)
        · dsimp only; omega
    · rw [if_neg hs]
      refine ⟨_, rfl, ⟨?_, ?_, ?_, h5⟩, ?_⟩
      · dsimp only; omega
      · dsimp only; omega
      · intro c hc
        dsimp only at hc
        rw [take_succ_drop h1 hp, List.mem_append, List.mem_singleton] at hc
        rcases hc with hc | hc
        · exact h4 c hc
        · rw [hc]; exact Bool.eq_false_iff.mpr hs
      · dsimp only; omega
  · refine .inr ⟨(res, start), by simp only [splitAnyBody, if_neg hp], by dsimp only; omega, ?_, h5⟩
    dsimp only
    rw [List.take_of_length_le (by rw [List.length_drop]; omega)] at h4
    exact h4

theorem splitAny_ok (orig seps : List Char) (fuel : Nat) (hf : orig.length < fuel) (ha : ∀ c ∈ seps, c.toNat < 128) :
    ∃ ws, splitAny fuel orig seps = .ok ws ∧ Words seps.contains orig ws := by
  have hub : (seps.any fun c => 128 ≤ c.toNat) = false := by
    rw [List.any_eq_false]
    intro c hc
    have := ha c hc
    simp; omega
  rw [splitAny, hub]
  simp only [Bool.false_eq_true, if_false]
  by_cases h0 : orig.length > 0
  · obtain ⟨r, h1, h2, h3, h4⟩ := splitAny_loop seps orig fuel hf
    rw [if_pos h0, h1]
    simp only [Outcome.bind]
    by_cases he : r.2 < orig.length
    · rw [if_pos he, substr_ok _ h2]
      refine ⟨_, rfl, h4 _ ?_⟩
      rw [List.take_of_length_le (by rw [List.length_drop]; omega)]
      refine words_last ?_ h3
      intro h
      have := congrArg List.length h
      simp at this
      omega
    · rw [if_neg he]
      refine ⟨_, rfl, ?_⟩
      have := h4 [] (by rw [show r.2 = orig.length by omega, List.drop_length]; exact .nil)
      simpa using this
  · rw [if_neg h0]
    cases orig with
    | nil => exact ⟨_, rfl, .nil⟩
    | cons _ _ => simp at h0

/- `strip` -/

theorem findLastPos_none {p : Char → Bool} {s : List Char} (h : findLastPos p s = none) : ∀ c ∈ s, p c = false := by
  simp only [findLastPos, Option.map_eq_none_iff, List.findIdx?_eq_none_iff, List.mem_reverse] at h
  exact h

theorem findLastPos_some {p : Char → Bool} {s : List Char} {i : Nat} (h : findLastPos p s = some i) :
    ∃ (hi : i < s.length), p s[i] = true ∧ ∀ c ∈ s.drop (i + 1), p c = false := by
  simp only [findLastPos, Option.map_eq_some_iff] at h
  obtain ⟨a, ha, rfl⟩ := h
  rw [List.findIdx?_eq_some_iff_getElem] at ha
  obtain ⟨hl, hp, hb⟩ := ha
  simp only [List.length_reverse] at hl
  refine ⟨by omega, by simpa using hp, ?_⟩
  intro c hc
  rw [List.mem_drop_iff_getElem] at hc
  obtain ⟨j, hj, rfl⟩ := hc
  have := hb (s.length - 1 - (j + (s.length - 1 - a + 1))) (by omega)
  rw [List.getElem_reverse] at this
  have he : s.length - 1 - (s.length - 1 - (j + (s.length - 1 - a + 1))) = s.length - 1 - a + 1 + j := by omega
  simp only [he] at this
  simpa using this

theorem lstrip_ok (text set : List Char) : ∃ r a, lstrip text set = .ok r ∧ text = a ++ r ∧ (∀ c ∈ a, c ∈ set) ∧
    ∀ c, r.head? = some c → c ∉ set := by
  unfold lstrip
  cases h : findPos (fun c => !set.contains c) text 0 with
  | none =>
    have := findPos_none h
    exact ⟨[], text, rfl, by simp, by simpa using this, by simp⟩
  | some i =>
    obtain ⟨_, hi, hp, hb, hd⟩ := findPos_some h
    refine ⟨text.drop i, text.take i, ?_, by simp, by simpa using hb, ?_⟩
    · dsimp only
      rw [substr_ok _ (by omega), List.take_of_length_le (by simp)]
    · intro c hc
      rw [List.drop_eq_getElem_cons hi] at hc
      simp only [List.head?_cons, Option.some.injEq] at hc
      rw [← hc]; simpa using hp

theorem rstrip_ok (text set : List Char) : ∃ r b, rstrip text set = .ok r ∧ text = r ++ b ∧ (∀ c ∈ b, c ∈ set) ∧
    ∀ c, r.getLast? = some c → c ∉ set := by
  unfold rstrip
  cases h : findLastPos (fun c => !set.contains c) text with
  | none =>
    have := findLastPos_none h
    exact ⟨[], text, rfl, by simp, by simpa using this, by simp⟩
  | some i =>
    obtain ⟨hi, hp, hb⟩ := findLastPos_some h
    refine ⟨text.take (i + 1), text.drop (i + 1), ?_, by simp, by simpa using hb, ?_⟩
    · dsimp only
      rw [substr_ok _ (by omega)]
      simp
    · intro c hc
      rw [List.take_add_one, List.getElem?_eq_getElem hi, Option.toList_some, List.getLast?_append] at hc
      simp only [List.getLast?_singleton, Option.some_or, Option.some.injEq] at hc
      rw [← hc]; simpa using hp

theorem strip_ok (text set : List Char) : ∃ r a b, strip text set = .ok r ∧ text = a ++ r ++ b ∧ (∀ c ∈ a, c ∈ set) ∧
    (∀ c ∈ b, c ∈ set) ∧ (∀ c, r.head? = some c → c ∉ set) ∧ ∀ c, r.getLast? = some c → c ∉ set := by
  unfold strip
  cases h : findPos (fun c => !set.contains c) text 0 with
  | none =>
    have := findPos_none h
    exact ⟨[], text, [], rfl, by simp, by simpa using this, by simp, by simp, by simp⟩
  | some i =>
    obtain ⟨_, hi, hp, hb, hd⟩ := findPos_some h
    cases h2 : findLastPos (fun c => !set.contains c) text with
    | none =>
      have := findLastPos_none h2 text[i] (by simp)
      rw [hp] at this; cases this
    | some l =>
      obtain ⟨hl, hpl, hbl⟩ := findLastPos_some h2
      have hil : i ≤ l := by
        apply Nat.le_of_not_lt
        intro hlt
        have := hbl text[i] (by rw [List.mem_drop_iff_getElem]; exact ⟨i - (l + 1), by omega, by congr 1; omega⟩)
        rw [hp] at this; cases this
      refine ⟨(text.drop i).take (l - i + 1), text.take i, text.drop (l + 1), ?_, ?_, by simpa using hb, by simpa using hbl, ?_, ?_⟩
      · dsimp only
        rw [substr_ok _ (by omega)]
      · rw [List.append_assoc, show l - i + 1 = l + 1 - i by omega, ← drop_split text (by omega), List.take_append_drop]
      · intro c hc
        rw [List.drop_eq_getElem_cons hi] at hc
        simp only [List.take_succ_cons, List.head?_cons, Option.some.injEq] at hc
        rw [← hc]; simpa using hp
      · intro c hc
        rw [show l - i + 1 = l + 1 - i by omega, take_succ_drop hil hl, List.getLast?_append] at hc
        simp only [List.getLast?_singleton, Option.some_or, Option.some.injEq] at hc
        rw [← hc]; simpa using hpl

/- `findClosingBracket` -/

theorem closingLoop_ok {o c : Char} (hne : o ≠ c) : ∀ (l : List Char) (i d : Nat),
    (∃ k, closingLoop o c i d l = .ok (i + k) ∧ k < l.length ∧
        (l.take (k + 1)).count c = (l.take (k + 1)).count o + d + 1 ∧
        ∀ j ≤ k, (l.take j).count c ≤ (l.take j).count o + d) ∨
    (closingLoop o c i d l = .throw ∧ ∀ j, (l.take j).count c ≤ (l.take j).count o + d) := by
  intro l
  induction l with
  | nil => intro i d; exact .inr ⟨rfl, by simp⟩
  | cons x xs ih =>
    intro i d
    simp only [closingLoop]
    by_cases hc : x = c
    · have ho : ¬ x = o := fun h => hne (h ▸ hc)
      simp only [if_neg ho, if_pos hc]
      by_cases hd : d = 0
      · subst hd
        refine .inl ⟨0, by simp, by simp, ?_, ?_⟩
        · subst hc
          simp [fun h => ho h]
        · intro j hj
          have : j = 0 := by omega
          subst this; simp
      · simp only [if_neg hd]
        rcases ih (i + 1) (d - 1) with ⟨k, h1, h2, h3, h4⟩ | ⟨h1, h2⟩
        · refine .inl ⟨k + 1, by rw [h1]; congr 1; omega, by simp; omega, ?_, ?_⟩
          · rw [List.take_succ_cons]
            subst hc
            simp only [List.count_cons, beq_self_eq_true, if_true, beq_iff_eq, if_neg ho]
            omega
          · intro j hj
            cases j with
            | zero => simp
            | succ j =>
              have := h4 j (by omega)
              rw [List.take_succ_cons]
              subst hc
              simp only [List.count_cons, beq_self_eq_true, if_true, beq_iff_eq, if_neg ho]
              omega
        · refine .inr ⟨h1, ?_⟩
          intro j
          cases j with
          | zero => simp
          | succ j =>
            have := h2 j
            rw [List.take_succ_cons]
            subst hc
            simp only [List.count_cons, beq_self_eq_true, if_true, beq_iff_eq, if_neg ho]
            omega
    · simp only [if_neg hc]
      by_cases ho : x = o
      · simp only [if_pos ho]
        rcases ih (i + 1) (d + 1) with ⟨k, h1, h2, h3, h4⟩ | ⟨h1, h2⟩
        · refine .inl ⟨k + 1, by rw [h1]; congr 1; omega, by simp; omega, ?_, ?_⟩
          · rw [List.take_succ_cons]
            subst ho
            simp only [List.count_cons, beq_self_eq_true, if_true, beq_iff_eq, if_neg hc]
            omega
          · intro j hj
            cases j with
            | zero => simp
            | succ j =>
              have := h4 j (by omega)
              rw [List.take_succ_cons]
              subst ho
              simp only [List.count_cons, beq_self_eq_true, if_true, beq_iff_eq, if_neg hc]
              omega
        · refine .inr ⟨h1, ?_⟩
          intro j
          cases j with
          | zero => simp
          | succ j =>
            have := h2 j
            rw [List.take_succ_cons]
            subst ho
            simp only [List.count_cons, beq_self_eq_true, if_true, beq_iff_eq, if_neg hc]
            omega
      · simp only [if_neg ho]
        rcases ih (i + 1) d with ⟨k, h1, h2, h3, h4⟩ | ⟨h1, h2⟩
        · refine .inl ⟨k + 1, by rw [h1]; congr 1; omega, by simp; omega, ?_, ?_⟩
          · rw [List.take_succ_cons]
            simp only [List.count_cons, beq_iff_eq, if_neg hc, if_neg ho]
            omega
          · intro j hj
            cases j with
            | zero => simp
            | succ j =>
              have := h4 j (by omega)
              rw [List.take_succ_cons]
              simp only [List.count_cons, beq_iff_eq, if_neg hc, if_neg ho]
              omega
        · refine .inr ⟨h1, ?_⟩
          intro j
          cases j with
          | zero => simp
          | succ j =>
            have := h2 j
            rw [List.take_succ_cons]
            simp only [List.count_cons, beq_iff_eq, if_neg hc, if_neg ho]
            omega

/- `findLiteralEnd` -/

theorem find_none {sub s : List Char} {k : Nat} (h : find sub s k = none) : ∀ i, k ≤ i → i ≤ s.length → ¬ sub <+: s.drop i := by
  simp only [find, Option.map_eq_none_iff, List.find?_eq_none, List.mem_range, List.isPrefixOf_iff_prefix] at h
  intro i hk hi hp
  exact h (i - k) (by omega) (by rw [show k + (i - k) = i by omega]; exact hp)

theorem find_some {sub s : List Char} {k i : Nat} (h : find sub s k = some i) :
    k ≤ i ∧ i ≤ s.length ∧ sub <+: s.drop i ∧ ∀ j, k ≤ j → j < i → ¬ sub <+: s.drop j := by
  simp only [find, Option.map_eq_some_iff, List.find?_range_eq_some, List.isPrefixOf_iff_prefix, List.mem_range] at h
  obtain ⟨a, ⟨h2, h1, h3⟩, rfl⟩ := h
  refine ⟨by omega, by omega, h2, ?_⟩
  intro j hj hlt hp
  have := h3 (j - k) (by omega)
  rw [show k + (j - k) = j by omega] at this
  rw [List.isPrefixOf_iff_prefix.mpr hp] at this
  cases this

theorem find_eq {sub s : List Char} {k i : Nat} (hk : k ≤ i) (hi : i ≤ s.length) (hp : sub <+: s.drop i)
    (hb : ∀ j, k ≤ j → j < i → ¬ sub <+: s.drop j) : find sub s k = some i := by
  cases h : find sub s k with
  | none => exact absurd hp (find_none h i hk hi)
  | some j =>
    obtain ⟨h1, h2, h3, h4⟩ := find_some h
    congr 1
    rcases Nat.lt_trichotomy i j with hlt | he | hlt
    · exact absurd hp (h4 i hk hlt)
    · exact he.symm
    · exact absurd h3 (hb j h1 hlt)

theorem backslashes_zero {s : List Char} {pos : Nat} (h : ¬ (0 < pos ∧ s[pos - 1]? = some '\\')) (hle : pos ≤ s.length) :
    backslashes s pos = 0 := by
  cases pos with
  | zero => simp [backslashes]
  | succ n =>
    have hn : n < s.length := by omega
    have : s[n] ≠ '\\' := by
      intro he
      exact h ⟨by omega, by simp [hn, he]⟩
    rw [backslashes, List.take_add_one, List.getElem?_eq_getElem hn, Option.toList_some, List.reverse_append,
      List.reverse_singleton, List.singleton_append, List.takeWhile_cons_of_neg (by simpa using this), List.length_nil]

/-- A match of the end of the literal that is not escaped. -/
def Ends (input e : List Char) (i : Nat) : Prop := i ≤ input.length ∧ e <+: input.drop i ∧ backslashes input i % 2 = 0

theorem literalEnd_ok (input e : List Char) (fuel : Nat) (hf : input.length + 1 < fuel) :
    ∃ r, findLiteralEnd fuel input e = .ok r ∧ (∀ i, r = some i → Ends input e i ∧ ∀ j < i, ¬ Ends input e j) ∧
      (r = none → ∀ j, ¬ Ends input e j) := by
  refine loop_spec
    (fun s : Option Nat => (∀ i, s = some i → i ≤ input.length ∧ e <+: input.drop i ∧ ∀ j < i, ¬ Ends input e j) ∧
      (s = none → ∀ j, ¬ Ends input e j))
    (fun r : Option Nat => (∀ i, r = some i → Ends input e i ∧ ∀ j < i, ¬ Ends input e j) ∧ (r = none → ∀ j, ¬ Ends input e j))
    (fun s => match s with | none => 0 | some i => input.length + 1 - i) ?_ fuel _ ?_ ?_
  · rintro s ⟨h1, h2⟩
    cases s with
    | none => exact .inr ⟨none, rfl, by simp, fun _ => h2 rfl⟩
    | some pos =>
      obtain ⟨h3, h4, h5⟩ := h1 pos rfl
      simp only [literalEndBody]
      by_cases hb : 0 < pos ∧ input[pos - 1]? = some '\\'
      · rw [if_pos hb]
        by_cases hm : backslashes input pos % 2 = 0
        · rw [if_pos hm]
          refine .inr ⟨_, rfl, ?_, by simp⟩
          rintro i hi
          cases hi
          exact ⟨⟨h3, h4, hm⟩, h5⟩
        · rw [if_neg hm]
          have hup : ∀ j ≤ pos, ¬ Ends input e j := by
            intro j hj
            rcases Nat.lt_or_eq_of_le hj with hj | hj
            · exact h5 j hj
            · subst hj; exact fun h => hm h.2.2
          refine .inl ⟨_, rfl, ⟨?_, ?_⟩, ?_⟩
          · intro i hi
            obtain ⟨g1, g2, g3, g4⟩ := find_some hi
            refine ⟨g2, g3, ?_⟩
            intro j hj he
            by_cases hjp : j ≤ pos
            · exact hup j hjp he
            · exact g4 j (by omega) hj he.2.1
          · intro hn j he
            by_cases hjp : j ≤ pos
            · exact hup j hjp he
            · exact find_none hn j (by omega) he.1 he.2.1
          · cases hn : find e input (pos + 1) with
            | none => dsimp only; omega
            | some i =>
              have := find_some hn
              dsimp only; omega
      · rw [if_neg hb]
        refine .inr ⟨_, rfl, ?_, by simp⟩
        rintro i hi
        cases hi
        exact ⟨⟨h3, h4, by rw [backslashes_zero hb h3]⟩, h5⟩
  · refine ⟨?_, ?_⟩
    · intro i hi
      obtain ⟨g1, g2, g3, g4⟩ := find_some hi
      exact ⟨g2, g3, fun j hj he => g4 j (by omega) hj he.2.1⟩
    · intro hn j he
      exact find_none hn j (by omega) he.1 he.2.1
  · cases hn : find e input 0 with
    | none => dsimp only; omega
    | some i => dsimp only; omega

/-- The scanner with the information whether the next character is escaped. -/
def scanEsc (q : Char) : Bool → List Char → Option Nat
  | _, [] => none
  | esc, c :: cs => if c = q ∧ esc = false then some 0 else (scanEsc q (c == '\\' && !esc) cs).map (· + 1)

theorem scanEnd_eq {q : Char} : ∀ (n : Nat) (l : List Char), l.length ≤ n → scanEnd q l = scanEsc q false l := by
  intro n
  induction n with
  | zero =>
    intro l hl
    have : l = [] := List.eq_nil_of_length_eq_zero (by omega)
    subst this; rfl
  | succ n ih =>
    intro l hl
    match l with
    | [] => rfl
    | [c] =>
      by_cases hc : c = q
      · simp [scanEnd, scanEsc, hc]
      · simp [scanEnd, scanEsc, hc]
    | c :: d :: cs =>
      simp only [List.length_cons] at hl
      simp only [scanEnd]
      rw [scanEsc]
      by_cases hc : c = q
      · simp [hc]
      · have : ¬ (c = q ∧ false = false) := fun h => hc h.1
        rw [if_neg hc, if_neg this]
        by_cases hb : c = '\\'
        · rw [if_pos hb, ih cs (by omega)]
          subst hb
          rw [scanEsc]
          have : ¬ (d = q ∧ (('\\' == '\\') && !false) = false) := by simp
          rw [if_neg this]
          simp [Option.map_map, Function.comp_def, Nat.add_assoc]
        · rw [if_neg hb, ih (d :: cs) (by simp; omega), beq_false_of_ne hb]
          rfl

theorem backslashes_succ {s : List Char} {n : Nat} (h : n < s.length) :
    backslashes s (n + 1) = if s[n] = '\\' then backslashes s n + 1 else 0 := by
  rw [backslashes, List.take_add_one, List.getElem?_eq_getElem h]
  by_cases hb : s[n] = '\\'
  · rw [if_pos hb, Option.toList_some, List.reverse_append,
      List.reverse_singleton, List.singleton_append, List.takeWhile_cons_of_pos (by simpa using hb), List.length_cons]
    rfl
  · rw [if_neg hb, Option.toList_some, List.reverse_append,
      List.reverse_singleton, List.singleton_append, List.takeWhile_cons_of_neg (by simpa using hb), List.length_nil]

theorem scanEsc_ends {q : Char} (s : List Char) : ∀ (m k : Nat), s.length - k = m → k ≤ s.length →
    (∀ i, scanEsc q (backslashes s k % 2 == 1) (s.drop k) = some i →
        Ends s [q] (k + i) ∧ ∀ j, k ≤ j → j < k + i → ¬ Ends s [q] j) ∧
    (scanEsc q (backslashes s k % 2 == 1) (s.drop k) = none → ∀ j, k ≤ j → ¬ Ends s [q] j) := by
  intro m
  induction m with
  | zero =>
    intro k hm hk
    have : k = s.length := by omega
    subst this
    rw [List.drop_length]
    refine ⟨by simp [scanEsc], ?_⟩
    intro _ j hj he
    have := he.2.1
    rw [List.drop_eq_nil_of_le hj] at this
    simp at this
  | succ m ih =>
    intro k hm hk
    have hlt : k < s.length := by omega
    rw [List.drop_eq_getElem_cons hlt, scanEsc]
    by_cases hc : s[k] = q ∧ (backslashes s k % 2 == 1) = false
    · rw [if_pos hc]
      refine ⟨?_, by simp⟩
      intro i hi
      cases hi
      refine ⟨⟨by omega, ?_, ?_⟩, by omega⟩
      · simp [List.drop_eq_getElem_cons hlt, hc.1]
      · have := hc.2
        simp at this
        simpa using this
    · rw [if_neg hc]
      have hk' : ¬ Ends s [q] k := by
        intro he
        apply hc
        have h1 := he.2.1
        rw [List.drop_eq_getElem_cons hlt] at h1
        simp only [List.cons_prefix_cons, List.nil_prefix, and_true] at h1
        exact ⟨h1.symm, by simp [he.2.2]⟩
      have hpar : (s[k] == '\\' && !(backslashes s k % 2 == 1)) = (backslashes s (k + 1) % 2 == 1) := by
        rw [backslashes_succ hlt]
        by_cases hb : s[k] = '\\'
        · rw [if_pos hb, hb]
          rcases Nat.mod_two_eq_zero_or_one (backslashes s k) with h | h
          · rw [h, show (backslashes s k + 1) % 2 = 1 by omega]; rfl
          · rw [h, show (backslashes s k + 1) % 2 = 0 by omega]; rfl
        · rw [if_neg hb, beq_false_of_ne hb]; rfl
      rw [hpar]
      obtain ⟨h1, h2⟩ := ih (k + 1) (by omega) (by omega)
      refine ⟨?_, ?_⟩
      · intro i hi
        rw [Option.map_eq_some_iff] at hi
        obtain ⟨a, ha, rfl⟩ := hi
        obtain ⟨g1, g2⟩ := h1 a ha
        rw [show k + (a + 1) = k + 1 + a by omega]
        refine ⟨g1, ?_⟩
        intro j hj hja
        by_cases hjk : j = k
        · subst hjk; exact hk'
        · exact g2 j (by omega) hja
      · intro hn j hj
        rw [Option.map_eq_none_iff] at hn
        by_cases hjk : j = k
        · subst hjk; exact hk'
        · exact h2 hn j (by omega)

theorem literalEnd_scan {q : Char} (s : List Char) (fuel : Nat) (hf : s.length + 1 < fuel) :
    findLiteralEnd fuel s [q] = .ok (scanEnd q s) := by
  obtain ⟨r, h1, h2, h3⟩ := literalEnd_ok s [q] fuel hf
  rw [h1]
  congr 1
  rw [scanEnd_eq s.length s (Nat.le_refl _)]
  obtain ⟨g1, g2⟩ := scanEsc_ends (q := q) s s.length 0 (by simp) (by simp)
  have hz : (backslashes s 0 % 2 == 1) = false := by simp [backslashes]
  rw [hz, List.drop_zero] at g1 g2
  cases hs : scanEsc q false s with
  | none =>
    cases r with
    | none => rfl
    | some i => exact absurd (h2 i rfl).1 (g2 hs i (by omega))
  | some a =>
    obtain ⟨g3, g4⟩ := g1 a hs
    rw [Nat.zero_add] at g3 g4
    cases r with
    | none => exact absurd g3 (h3 rfl a)
    | some i =>
      obtain ⟨g5, g6⟩ := h2 i rfl
      congr 1
      rcases Nat.lt_trichotomy i a with h | h | h
      · exact absurd g5 (g4 i (by omega) h)
      · exact h
      · exact absurd g3 (g6 a h)

end Verif.StringUtils
