import Verif.Spec.CacheKey
namespace Verif.CacheKey
open Outcome

/-! ### Recognising a part of a list by its characters -/

/-- The list is empty or starts with a character that does not satisfy `p`. -/
def Stops (p : Char → Bool) (r : List Char) : Prop := ∀ c, r.head? = some c → p c = false

theorem split_unique (p : Char → Bool) : ∀ (l1 l2 r1 r2 : List Char), (∀ c ∈ l1, p c = true) → (∀ c ∈ l2, p c = true) →
    Stops p r1 → Stops p r2 → l1 ++ r1 = l2 ++ r2 → l1 = l2 ∧ r1 = r2 := by
  intro l1
  induction l1 with
  | nil =>
    intro l2 r1 r2 _ h2 s1 _ h
    cases l2 with
    | nil => exact ⟨rfl, h⟩
    | cons c l2 =>
      have e : r1 = c :: (l2 ++ r2) := h
      have := s1 c (by rw [e]; rfl)
      rw [h2 c (by simp)] at this
      cases this
  | cons x l1 ih =>
    intro l2 r1 r2 h1 h2 s1 s2 h
    cases l2 with
    | nil =>
      have e : r2 = x :: (l1 ++ r1) := h.symm
      have := s2 x (by rw [e]; rfl)
      rw [h1 x (by simp)] at this
      cases this
    | cons c l2 =>
      injection h with hx h
      subst hx
      obtain ⟨e1, e2⟩ := ih l2 r1 r2 (fun c hc => h1 c (List.mem_cons_of_mem _ hc)) (fun c hc => h2 c (List.mem_cons_of_mem _ hc))
        s1 s2 h
      exact ⟨by rw [e1], e2⟩

/-- Words that end at a fixed character. -/
theorem split_at (d : Char) (l1 l2 r1 r2 : List Char) (h1 : d ∉ l1) (h2 : d ∉ l2) (s1 : ∀ c, r1.head? = some c → c = d)
    (s2 : ∀ c, r2.head? = some c → c = d) (h : l1 ++ r1 = l2 ++ r2) : l1 = l2 ∧ r1 = r2 := by
  apply split_unique (fun c => c != d) l1 l2 r1 r2 _ _ _ _ h
  · intro c hc; simp; rintro rfl; exact h1 hc
  · intro c hc; simp; rintro rfl; exact h2 hc
  · intro c hc; simp [s1 c hc]
  · intro c hc; simp [s2 c hc]

/-! ### Numbers -/

def isDig (c : Char) : Bool := 48 ≤ c.toNat && c.toNat ≤ 57

def value (l : List Char) : Nat := l.foldl (fun acc c => 10 * acc + (c.toNat - 48)) 0

theorem ofNat_digit (d : Nat) (h : d < 10) : (Char.ofNat (48 + d)).toNat = 48 + d := by
  have : d = 0 ∨ d = 1 ∨ d = 2 ∨ d = 3 ∨ d = 4 ∨ d = 5 ∨ d = 6 ∨ d = 7 ∨ d = 8 ∨ d = 9 := by omega
  rcases this with rfl | rfl | rfl | rfl | rfl | rfl | rfl | rfl | rfl | rfl <;> rfl

theorem natStr_value (n : Nat) : value (natStr n) = n := by
  induction n using Nat.strongRecOn with
  | _ n ih =>
    unfold natStr
    by_cases h : n < 10
    · rw [if_pos h]; simp [value, ofNat_digit n h]
    · rw [if_neg h]
      have := ih (n / 10) (by omega)
      unfold value at this ⊢
      rw [List.foldl_append, this]
      simp only [List.foldl_cons, List.foldl_nil, ofNat_digit (n % 10) (by omega)]
      omega

theorem natStr_digits (n : Nat) : ∀ c ∈ natStr n, isDig c = true := by
  induction n using Nat.strongRecOn with
  | _ n ih =>
    have one : ∀ d, d < 10 → isDig (Char.ofNat (48 + d)) = true := by
      intro d hd
      unfold isDig
      rw [ofNat_digit d hd]
      simp; omega
    unfold natStr
    by_cases h : n < 10
    · rw [if_pos h]; simpa using one n h
    · rw [if_neg h]
      intro c hc
      rcases List.mem_append.mp hc with hc | hc
      · exact ih (n / 10) (by omega) c hc
      · rw [List.mem_singleton.mp hc]; exact one _ (by omega)

theorem natStr_ne_nil (n : Nat) : ∃ c l, natStr n = c :: l ∧ isDig c = true := by
  cases h : natStr n with
  | nil =>
    unfold natStr at h
    by_cases hn : n < 10
    · rw [if_pos hn] at h; simp at h
    · rw [if_neg hn] at h; simp at h
  | cons c l => exact ⟨c, l, rfl, natStr_digits n c (by rw [h]; simp)⟩

theorem natStr_inj {a b : Nat} {r1 r2 : List Char} (s1 : Stops isDig r1) (s2 : Stops isDig r2)
    (h : natStr a ++ r1 = natStr b ++ r2) : a = b ∧ r1 = r2 := by
  obtain ⟨e1, e2⟩ := split_unique isDig _ _ _ _ (natStr_digits a) (natStr_digits b) s1 s2 h
  exact ⟨by rw [← natStr_value a, e1, natStr_value], e2⟩

theorem stops_cons (p : Char → Bool) (c : Char) (l : List Char) (h : p c = false) : Stops p (c :: l) := by
  intro d hd; simp at hd; rw [← hd]; exact h

/-- Whether a list starts with a character that is not a digit. -/
def headStop : List Char → Bool
  | [] => false
  | c :: _ => !isDig c

theorem headStop_stops {l r : List Char} (h : headStop l = true) : Stops isDig (l ++ r) := by
  cases l with
  | nil => cases h
  | cons c l => apply stops_cons; simpa [headStop] using h

theorem natStr_app {a b : Nat} {s1 s2 r1 r2 : List Char} (h : natStr a ++ (s1 ++ r1) = natStr b ++ (s2 ++ r2))
    (h1 : headStop s1 = true) (h2 : headStop s2 = true) : a = b ∧ s1 ++ r1 = s2 ++ r2 :=
  natStr_inj (headStop_stops h1) (headStop_stops h2) h

/-! ### Parts of keys -/

/-- The list is empty or starts with a line break. -/
def Ends (r : List Char) : Prop := ∀ c, r.head? = some c → c = '\n'

theorem ends_stops {r : List Char} (h : Ends r) (p : Char → Bool) (hp : p '\n' = false) : Stops p r := by
  intro c hc; rw [h c hc]; exact hp

theorem keysStr_inj : ∀ (a b : List (Nat × Bool)) (r1 r2 : List Char), keysStr a ++ '\n' :: r1 = keysStr b ++ '\n' :: r2 →
    a = b ∧ r1 = r2 := by
  intro a
  induction a with
  | nil =>
    intro b r1 r2 h
    cases b with
    | nil => simpa [keysStr] using h
    | cons k b => cases hk : k.2 <;> simp [keysStr, hk] at h
  | cons k a ih =>
    intro b r1 r2 h
    cases b with
    | nil => cases hk : k.2 <;> simp [keysStr, hk] at h
    | cons k' b =>
      have hk : k.2 = k'.2 := by cases e1 : k.2 <;> cases e2 : k'.2 <;> simp [keysStr, e1, e2] at h <;> rfl
      simp only [keysStr, hk, List.append_assoc] at h
      have h := List.append_cancel_left h
      obtain ⟨e, h⟩ := natStr_app h (by decide) (by decide)
      have h := List.append_cancel_left h
      obtain ⟨e1, e2⟩ := ih b r1 r2 h
      exact ⟨by rw [e1, Prod.ext e hk], e2⟩

theorem colsStr_inj : ∀ (a b : List Nat) (r1 r2 : List Char), colsStr a ++ ']' :: r1 = colsStr b ++ ']' :: r2 →
    a = b ∧ r1 = r2 := by
  intro a
  induction a with
  | nil =>
    intro b r1 r2 h
    cases b with
    | nil => simpa [colsStr] using h
    | cons k b =>
      obtain ⟨c, l, e, hc⟩ := natStr_ne_nil k
      cases b <;> simp only [colsStr, e, List.nil_append, List.cons_append] at h <;> injection h with h <;> subst h <;>
        exact absurd hc (by decide)
  | cons k a ih =>
    intro b r1 r2 h
    cases b with
    | nil =>
      obtain ⟨c, l, e, hc⟩ := natStr_ne_nil k
      cases a <;> simp only [colsStr, e, List.nil_append, List.cons_append] at h <;> injection h with h <;> subst h <;>
        exact absurd hc (by decide)
    | cons k' b =>
      have st : ∀ l : List Char, Stops isDig (']' :: l) := fun l => stops_cons _ _ _ (by decide)
      have st' : ∀ l : List Char, Stops isDig (" & ".toList ++ l) := fun l => stops_cons _ _ _ (by decide)
      cases a with
      | nil =>
        cases b with
        | nil =>
          simp only [colsStr] at h
          obtain ⟨e, h⟩ := natStr_inj (st _) (st _) h
          injection h with _ h
          exact ⟨by rw [e], h⟩
        | cons k'' b =>
          simp only [colsStr, List.append_assoc] at h
          obtain ⟨e, h⟩ := natStr_inj (st _) (st' _) h
          simp at h
      | cons k2 a =>
        cases b with
        | nil =>
          simp only [colsStr, List.append_assoc] at h
          obtain ⟨e, h⟩ := natStr_inj (st' _) (st _) h
          simp at h
        | cons k'' b =>
          have u : ∀ x y (l : List Nat), colsStr (x :: y :: l) = natStr x ++ (" & ".toList ++ colsStr (y :: l)) := by
            intro x y l; simp only [colsStr, List.append_assoc]
          rw [u, u, List.append_assoc, List.append_assoc, List.append_assoc, List.append_assoc] at h
          obtain ⟨e, h⟩ := natStr_inj (st' _) (st' _) h
          have h := List.append_cancel_left h
          obtain ⟨e1, e2⟩ := ih _ _ _ h
          exact ⟨by rw [e, e1], e2⟩

theorem groupsStr_inj : ∀ (a b : List (Nat × Nat)) (r1 r2 : List Char), Stops isDig r1 → Stops isDig r2 →
    groupsStr a ++ r1 = groupsStr b ++ r2 → a.map (·.2) = b.map (·.2) ∧ r1 = r2 := by
  intro a
  induction a with
  | nil =>
    intro b r1 r2 s1 s2 h
    cases b with
    | nil => exact ⟨rfl, h⟩
    | cons k b =>
      obtain ⟨c, l, e, hc⟩ := natStr_ne_nil k.2
      simp only [groupsStr, e, List.nil_append, List.cons_append] at h
      have := s1 c (by rw [h]; rfl)
      rw [hc] at this; cases this
  | cons k a ih =>
    intro b r1 r2 s1 s2 h
    cases b with
    | nil =>
      obtain ⟨c, l, e, hc⟩ := natStr_ne_nil k.2
      simp only [groupsStr, e, List.nil_append, List.cons_append] at h
      have := s2 c (by rw [← h]; rfl)
      rw [hc] at this; cases this
    | cons k' b =>
      simp only [groupsStr, List.append_assoc] at h
      obtain ⟨e, h⟩ := natStr_app h (by decide) (by decide)
      obtain ⟨e1, e2⟩ := ih b r1 r2 s1 s2 (List.append_cancel_left h)
      exact ⟨by simp [e, e1], e2⟩

theorem aggName_head (t : GroupBy.AggregateType) : ∃ c l, aggName t = c :: l ∧ isDig c = false ∧ c ≠ '\n' := by
  cases t <;> exact ⟨_, _, rfl, by decide, by decide⟩

theorem aggName_inj (t t' : GroupBy.AggregateType) (r1 r2 : List Char) (h : aggName t ++ ' ' :: r1 = aggName t' ++ ' ' :: r2) :
    t = t' ∧ r1 = r2 := by
  have ns : ∀ t, ' ' ∉ aggName t := by intro t; cases t <;> decide
  obtain ⟨e1, e2⟩ := split_at ' ' _ _ _ _ (ns t) (ns t') (by simp) (by simp) h
  injection e2 with _ e2
  refine ⟨?_, e2⟩
  revert e1
  cases t <;> cases t' <;> first | (intro _; rfl) | (intro h; exact absurd h (by decide))

theorem aggsStr_stops (as : List GroupBy.Aggregate) (r : List Char) (p : Char → Bool) (hp : p '\n' = false)
    (ha : ∀ t c l, aggName t = c :: l → p c = false) : Stops p (aggsStr as ++ '\n' :: r) := by
  cases as with
  | nil => exact stops_cons _ _ _ hp
  | cons a as =>
    obtain ⟨c, l, e, _⟩ := aggName_head a.type
    simp only [aggsStr, e, List.cons_append]
    exact stops_cons _ _ _ (ha _ _ _ e)

theorem aggName_notDig : ∀ t c l, aggName t = c :: l → isDig c = false := by
  intro t c l h
  obtain ⟨c', l', e, hd, _⟩ := aggName_head t
  rw [e] at h; injection h with h; rw [← h]; exact hd

theorem aggsStr_inj : ∀ (a b : List GroupBy.Aggregate) (r1 r2 : List Char), (∀ x ∈ a, x.type ≠ .groupConcat) →
    (∀ x ∈ b, x.type ≠ .groupConcat) → aggsStr a ++ '\n' :: r1 = aggsStr b ++ '\n' :: r2 →
    (a.map fun a => (⟨a.type, a.inCol, a.outCol, [], false⟩ : GroupBy.Aggregate)) = b.map (fun a => ⟨a.type, a.inCol, a.outCol, [], false⟩) ∧
      r1 = r2 := by
  intro a
  induction a with
  | nil =>
    intro b r1 r2 _ _ h
    cases b with
    | nil => simpa [aggsStr] using h
    | cons x b =>
      obtain ⟨c, l, e, _, hc⟩ := aggName_head x.type
      simp only [aggsStr, e, List.nil_append, List.cons_append] at h
      injection h with h
      exact absurd h.symm hc
  | cons x a ih =>
    intro b r1 r2 ha hb h
    cases b with
    | nil =>
      obtain ⟨c, l, e, _, hc⟩ := aggName_head x.type
      simp only [aggsStr, e, List.nil_append, List.cons_append] at h
      injection h with h
      exact absurd h hc
    | cons y b =>
      simp only [aggsStr, if_neg (ha x (by simp)), if_neg (hb y (by simp)), List.append_nil, List.append_assoc] at h
      obtain ⟨et, h⟩ := aggName_inj x.type y.type (natStr x.inCol ++ (" ".toList ++ (natStr x.outCol ++ (aggsStr a ++ '\n' :: r1))))
        (natStr y.inCol ++ (" ".toList ++ (natStr y.outCol ++ (aggsStr b ++ '\n' :: r2)))) h
      obtain ⟨ei, h⟩ := natStr_app h (by decide) (by decide)
      have h := List.append_cancel_left h
      obtain ⟨eo, h⟩ := natStr_inj (aggsStr_stops _ _ _ (by decide) aggName_notDig) (aggsStr_stops _ _ _ (by decide) aggName_notDig) h
      obtain ⟨e1, e2⟩ := ih b r1 r2 (fun z hz => ha z (List.mem_cons_of_mem _ hz)) (fun z hz => hb z (List.mem_cons_of_mem _ hz)) h
      exact ⟨by simp only [List.map_cons, e1, et, ei, eo], e2⟩

/-- What remains of the operand of a last word before a quotation mark. -/
theorem quoted_end (w1 w2 r1 r2 : List Char) (h1 : '\n' ∉ w1) (h2 : '\n' ∉ w2) (s1 : Ends r1) (s2 : Ends r2)
    (h : w1 ++ ('"' :: r1) = w2 ++ ('"' :: r2)) : w1 = w2 ∧ r1 = r2 := by
  have e : (w1 ++ ['"']) ++ r1 = (w2 ++ ['"']) ++ r2 := by simpa using h
  have ne : ∀ w : List Char, '\n' ∉ w → '\n' ∉ w ++ ['"'] := by intro w hw; simp [hw]
  obtain ⟨e1, e2⟩ := split_at '\n' _ _ _ _ (ne _ h1) (ne _ h2) s1 s2 e
  exact ⟨by simpa using e1, e2⟩

/-- A word without quotation marks, before a quotation mark. -/
theorem quoted (w1 w2 r1 r2 : List Char) (h1 : '"' ∉ w1) (h2 : '"' ∉ w2) (h : w1 ++ ('"' :: r1) = w2 ++ ('"' :: r2)) :
    w1 = w2 ∧ r1 = r2 := by
  obtain ⟨e1, e2⟩ := split_at '"' _ _ _ _ h1 h2 (by simp) (by simp) h
  injection e2 with _ e2
  exact ⟨e1, e2⟩

theorem ends_not_comma {r l : List Char} (h : Ends r) (e : r = ',' :: l) : False := by
  have := h ',' (by rw [e]; rfl)
  exact absurd this (by decide)

end Verif.CacheKey
