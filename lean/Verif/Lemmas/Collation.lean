import Verif.Model.Collation
import Verif.Spec.Collation
import Verif.Lemmas.StringUtils
import Verif.Lemmas.Filter
/-
Lemmas about the comparison of words.
-/
namespace Verif.Collation
open Verif.CollationSpec
open Verif.StringSpec (scanEnd)
open Verif.Filter (partitionPoint)
open Verif.ExternalVocabulary (Word)

/-! ### Lexicographic comparison -/

theorem nil_lt_cons' (a : Nat) (l : List Nat) : ([] : List Nat) < a :: l := List.nil_lt_cons a l

theorem cons_lt_cons' (a b : Nat) (l m : List Nat) : a :: l < b :: m ↔ a < b ∨ a = b ∧ l < m := List.cons_lt_cons_iff

theorem lexCmp_lt : ∀ a b : List Nat, lexCmp a b < 0 ↔ a < b
  | [], [] => by simp [lexCmp]
  | [], b :: bs => by simp [lexCmp]
  | a :: as, [] => by simp [lexCmp]
  | a :: as, b :: bs => by
    rw [cons_lt_cons', lexCmp]
    by_cases h : a < b
    · simp [h]
    · rw [if_neg h]
      by_cases h2 : b < a
      · rw [if_pos h2]; constructor
        · intro h3; omega
        · rintro (h3 | h3) <;> omega
      · rw [if_neg h2, lexCmp_lt as bs]
        have : a = b := by omega
        simp [this]

theorem lexCmp_flip : ∀ a b : List Nat, lexCmp a b = - lexCmp b a
  | [], [] => by simp [lexCmp]
  | [], b :: bs => by simp [lexCmp]
  | a :: as, [] => by simp [lexCmp]
  | a :: as, b :: bs => by
    rw [lexCmp, lexCmp]
    by_cases h : a < b
    · rw [if_pos h, if_neg (by omega), if_pos h]
    · rw [if_neg h]
      by_cases h2 : b < a
      · rw [if_pos h2, if_pos h2]; rfl
      · rw [if_neg h2, if_neg h2, if_neg h, lexCmp_flip as bs]

theorem lexCmp_eq : ∀ a b : List Nat, lexCmp a b = 0 ↔ a = b
  | [], [] => by simp [lexCmp]
  | [], b :: bs => by simp [lexCmp]
  | a :: as, [] => by simp [lexCmp]
  | a :: as, b :: bs => by
    rw [lexCmp, List.cons.injEq]
    by_cases h : a < b
    · rw [if_pos h]; constructor
      · intro h; omega
      · rintro ⟨h, _⟩; omega
    · rw [if_neg h]
      by_cases h2 : b < a
      · rw [if_pos h2]; constructor
        · intro h; omega
        · rintro ⟨h, _⟩; omega
      · rw [if_neg h2, lexCmp_eq as bs]
        have : a = b := by omega
        simp [this]

theorem takeWhile_nz {a : List Nat} (h : ∀ x ∈ a, 0 < x) : a.takeWhile (· ≠ 0) = a := by
  rw [List.takeWhile_eq_self_iff]
  intro x hx
  have := h x hx
  simp; omega

theorem strcmp_eq {a b : List Nat} (ha : ∀ x ∈ a, 0 < x) (hb : ∀ x ∈ b, 0 < x) : strcmp a b = lexCmp a b := by
  unfold strcmp; rw [takeWhile_nz ha, takeWhile_nz hb]

/-- The laws of a three-way comparison. -/
structure Cmp3 (f : α → α → Int) : Prop where
  eq : ∀ a b, f a b = 0 ↔ a = b
  flip : ∀ a b, f a b < 0 ↔ 0 < f b a
  trans : ∀ a b c, f a b < 0 → f b c < 0 → f a c < 0

theorem Cmp3.self {f : α → α → Int} (h : Cmp3 f) (a : α) : f a a = 0 := (h.eq a a).mpr rfl

/-- First `f`, then `g`. -/
def thenCmp (f : α → α → Int) (g : β → β → Int) (a b : α × β) : Int := if f a.1 b.1 ≠ 0 then f a.1 b.1 else g a.2 b.2

theorem Cmp3.thenCmp {f : α → α → Int} {g : β → β → Int} (hf : Cmp3 f) (hg : Cmp3 g) : Cmp3 (thenCmp f g) := by
  refine ⟨fun a b => ?_, fun a b => ?_, fun a b c h1 h2 => ?_⟩
  · unfold Collation.thenCmp
    by_cases h : f a.1 b.1 = 0
    · rw [if_neg (by simpa using h), hg.eq]
      have := (hf.eq _ _).mp h
      constructor
      · intro h2; exact Prod.ext this h2
      · rintro rfl; rfl
    · rw [if_pos h]
      constructor
      · intro h2; exact absurd h2 h
      · rintro rfl; exact hf.self _
  · unfold Collation.thenCmp
    by_cases h : f a.1 b.1 = 0
    · have h' : f b.1 a.1 = 0 := (hf.eq _ _).mpr ((hf.eq _ _).mp h).symm
      rw [if_neg (by simpa using h), if_neg (by simpa using h')]
      exact hg.flip _ _
    · have h' : f b.1 a.1 ≠ 0 := fun e => h ((hf.eq _ _).mpr ((hf.eq _ _).mp e).symm)
      rw [if_pos h, if_pos h']
      exact hf.flip _ _
  · unfold Collation.thenCmp at *
    by_cases h3 : f a.1 b.1 = 0
    · rw [if_neg (by simpa using h3)] at h1
      have e := (hf.eq _ _).mp h3
      by_cases h4 : f b.1 c.1 = 0
      · rw [if_neg (by simpa using h4)] at h2
        have e2 := (hf.eq _ _).mp h4
        rw [if_neg (by simp [e, e2, hf.self])]
        exact hg.trans _ _ _ h1 h2
      · rw [if_pos h4] at h2
        rw [e, if_pos h4]; exact h2
    · rw [if_pos h3] at h1
      by_cases h4 : f b.1 c.1 = 0
      · have e2 := (hf.eq _ _).mp h4
        rw [← e2, if_pos h3]; exact h1
      · rw [if_pos h4] at h2
        have := hf.trans _ _ _ h1 h2
        rw [if_pos (by omega)]; exact this

theorem lexCmp_laws : Cmp3 lexCmp := by
  refine ⟨lexCmp_eq, fun a b => ?_, fun a b c h1 h2 => ?_⟩
  · rw [lexCmp_flip a b]; omega
  · rw [lexCmp_lt] at *; exact List.lt_trans h1 h2

theorem firstCmp_laws : Cmp3 firstCmp := by
  refine ⟨fun a b => ?_, fun a b => ?_, fun a b c h1 h2 => ?_⟩
  · unfold firstCmp; split
    · omega
    · split <;> omega
  · unfold firstCmp; split <;> split <;> (simp; try omega)
  · unfold firstCmp at *
    have h3 : a < b := by
      by_cases h : a < b
      · exact h
      · rw [if_neg h] at h1; split at h1 <;> omega
    have h4 : b < c := by
      by_cases h : b < c
      · exact h
      · rw [if_neg h] at h2; split at h2 <;> omega
    rw [if_pos (by omega)]; decide

theorem bytesCmp_laws : Cmp3 bytesCmp := by
  refine ⟨fun a b => ?_, fun a b => lexCmp_laws.flip _ _, fun a b c => lexCmp_laws.trans _ _ _⟩
  unfold bytesCmp
  rw [lexCmp_eq]
  constructor
  · intro h
    exact List.map_injective_iff.mpr (fun x y h => Char.toNat_inj.mp h) h
  · rintro rfl; rfl

/-! ### Splitting words -/

theorem literalEnd_eq (s : Word) : literalEnd s = scanEnd '"' s := by
  unfold literalEnd
  rw [StringUtils.literalEnd_scan s _ (by omega)]

theorem extract_eq (w : Word) : extract w = ⟨kind w, content w, tag w⟩ := by
  cases w with
  | nil => rfl
  | cons ch res =>
    unfold extract content tag kind Quoted
    simp only [List.head?_cons, Option.some.injEq, List.tail_cons, Option.map_some, Option.getD_some]
    by_cases h : ch = '"' ∨ ch = Char.ofNat 127
    · rw [if_pos h, if_pos h, if_pos h, literalEnd_eq]
      cases scanEnd '"' res <;> rfl
    · rw [if_neg h, if_neg h, if_neg h]

theorem scanEnd_some : ∀ (n : Nat) (l : Word) (q : Char) (i : Nat), l.length ≤ n → scanEnd q l = some i → l = l.take i ++ q :: l.drop (i + 1)
  | 0, l, q, i, hn, h => by
    have : l = [] := List.length_eq_zero_iff.mp (by omega)
    subst this; simp [scanEnd] at h
  | n + 1, [], q, i, hn, h => by simp [scanEnd] at h
  | n + 1, [c], q, i, hn, h => by
    simp only [scanEnd] at h
    by_cases hc : c = q
    · rw [if_pos hc] at h; cases h; simp [hc]
    · rw [if_neg hc] at h; cases h
  | n + 1, c :: d :: cs, q, i, hn, h => by
    simp only [scanEnd] at h
    by_cases hc : c = q
    · rw [if_pos hc] at h; cases h; simp [hc]
    · rw [if_neg hc] at h
      by_cases hb : c = '\\'
      · rw [if_pos hb, Option.map_eq_some_iff] at h
        obtain ⟨j, hj, rfl⟩ := h
        have := scanEnd_some n cs q j (by simp at hn; omega) hj
        conv => lhs; rw [this]
        simp
      · rw [if_neg hb, Option.map_eq_some_iff] at h
        obtain ⟨j, hj, rfl⟩ := h
        have := scanEnd_some n (d :: cs) q j (by simp at hn ⊢; omega) hj
        conv => lhs; rw [this]
        simp

theorem split_quoted {w : Word} (hq : Quoted w) (hc : Closed w) : ∃ ch, w = ch :: (content w ++ '"' :: tag w) := by
  cases w with
  | nil => simp [Quoted] at hq
  | cons ch res =>
    have h2 := hc hq
    obtain ⟨i, hi⟩ := Option.isSome_iff_exists.mp h2
    simp only [List.tail_cons] at hi
    refine ⟨ch, ?_⟩
    unfold content tag
    rw [if_pos hq, if_pos hq]
    simp only [List.tail_cons, hi]
    congr 1
    exact scanEnd_some _ _ _ _ (Nat.le_refl _) hi

theorem kind_head {a b : Word} (ha : a ≠ []) (hb : b ≠ []) (h : kind a = kind b) : a.head? = b.head? := by
  cases a with
  | nil => exact absurd rfl ha
  | cons x xs =>
    cases b with
    | nil => exact absurd rfl hb
    | cons y ys =>
      simp only [kind, List.head?_cons, Option.map_some, Option.getD_some] at h
      rw [List.head?_cons, List.head?_cons, Char.toNat_inj.mp h]

theorem split_inj {a b : Word} (ha : Closed a) (hb : Closed b) (hna : a ≠ []) (hnb : b ≠ []) (h1 : kind a = kind b)
    (h2 : content a = content b) (h3 : tag a = tag b) : a = b := by
  have hh := kind_head hna hnb h1
  by_cases hq : Quoted a
  · have hq' : Quoted b := by unfold Quoted at hq ⊢; rw [← hh]; exact hq
    obtain ⟨x, hx⟩ := split_quoted hq ha
    obtain ⟨y, hy⟩ := split_quoted hq' hb
    have hxy : x = y := by
      rw [hx, hy] at hh
      simpa using hh
    rw [hx, hy, h2, h3, hxy]
  · have hq' : ¬ Quoted b := by unfold Quoted at hq ⊢; rw [← hh]; exact hq
    unfold content at h2
    rw [if_neg hq, if_neg hq'] at h2
    exact h2

/-! ### Prefixes of keys -/

theorem prefix_between : ∀ (k x : List Nat) (last : Nat), k.getLast? = some last →
    (¬ x < k ∧ x < k.dropLast ++ [last + 1] ↔ k <+: x)
  | [], x, last, h => by simp at h
  | [a], x, last, h => by
    simp only [List.getLast?_singleton, Option.some.injEq] at h
    subst h
    cases x with
    | nil => simp
    | cons b xs =>
      simp only [List.dropLast_singleton, List.nil_append, cons_lt_cons', List.not_lt_nil, and_false, or_false, List.cons_prefix_cons,
        List.nil_prefix, and_true]
      omega
  | a :: b :: k, x, last, h => by
    rw [List.getLast?_cons_cons] at h
    cases x with
    | nil => simp
    | cons y xs =>
      have ih := prefix_between (b :: k) xs last h
      rw [List.dropLast_cons_cons, List.cons_append, cons_lt_cons', cons_lt_cons', List.cons_prefix_cons, ← ih]
      by_cases hy : y = a
      · subst hy; simp
      · constructor
        · rintro ⟨h1, h2⟩; omega
        · rintro ⟨h1, _⟩; omega

/-! ### Partition points -/

theorem partition_ok {p : α → Bool} {l : List α} (h : l.Pairwise fun a b => p b = true → p a = true) :
    ∃ n, partitionPoint p l = .ok n ∧ n ≤ l.length ∧ ∀ i a, l[i]? = some a → (i < n ↔ p a = true) := by
  refine ⟨(l.takeWhile p).length, by unfold partitionPoint; rw [if_pos h], (List.takeWhile_sublist p).length_le, ?_⟩
  induction l with
  | nil => intro i a hi; simp at hi
  | cons x xs ih =>
    rw [List.pairwise_cons] at h
    intro i a hi
    by_cases hx : p x = true
    · rw [List.takeWhile_cons_of_pos hx, List.length_cons]
      cases i with
      | zero =>
        simp only [List.getElem?_cons_zero, Option.some.injEq] at hi
        subst hi; simp [hx]
      | succ j =>
        rw [List.getElem?_cons_succ] at hi
        rw [← ih h.2 j a hi]; omega
    · rw [List.takeWhile_cons_of_neg hx, List.length_nil]
      have : p a ≠ true := by
        cases i with
        | zero =>
          simp only [List.getElem?_cons_zero, Option.some.injEq] at hi
          exact hi ▸ hx
        | succ j =>
          rw [List.getElem?_cons_succ] at hi
          exact fun hp => hx (h.1 a (List.mem_of_getElem? hi) hp)
      simp [this]

theorem partition_ub {p : α → Bool} {l : List α} (h : ¬ l.Pairwise fun a b => p b = true → p a = true) : partitionPoint p l = .ub := by
  unfold partitionPoint; rw [if_neg h]

/-! ### Comparison at the level PRIMARY -/

/-- The collator satisfies the laws. -/
abbrev Collator.Laws (c : Collator) (N : Word → Prop) : Prop := Lawful (c.key .primary) (c.key .quarternary) (c.key .identical) N

theorem bump_lt {k : List Nat} {last : Nat} (h : k.getLast? = some last) (hl : last < 255) : bump k = .ok (k.dropLast ++ [last + 1]) := by
  unfold bump; rw [h]; simp only; rw [if_pos hl]

theorem bump_ge {k : List Nat} {last : Nat} (h : k.getLast? = some last) (hl : ¬ last < 255) : bump k = .ok (k ++ [0]) := by
  unfold bump; rw [h]; simp only; rw [if_neg hl]

theorem bump_nil : bump [] = .ub := rfl

theorem sortKey_primary (c : Collator) (s : Word) : c.sortKey s .primary = c.key .primary s := by
  simp [Collator.sortKey, Level.strength]

theorem takeWhile_bump {k : List Nat} (last : Nat) (hk : ∀ x ∈ k, 0 < x) :
    (k.dropLast ++ [last + 1]).takeWhile (· ≠ 0) = k.dropLast ++ [last + 1] := by
  apply takeWhile_nz
  intro x hx
  rcases List.mem_append.mp hx with h1 | h1
  · exact hk x (List.dropLast_subset k h1)
  · simp at h1; omega

theorem takeWhile_zero {k : List Nat} (hk : ∀ x ∈ k, 0 < x) : (k ++ [0]).takeWhile (· ≠ 0) = k := by
  rw [List.takeWhile_append_of_pos]
  · simp
  · intro x hx
    have := hk x hx
    simp; omega

/-- `a` comes before `b`. -/
def Before (key : Word → List Nat) (a b : Word) : Prop := kind a < kind b ∨ kind a = kind b ∧ key (content a) < key (content b)

theorem firstCmp_ne {a b : Nat} : (firstCmp a b ≠ 0 ↔ a ≠ b) ∧ (firstCmp a b < 0 ↔ a < b) := by
  unfold firstCmp
  by_cases h : a < b
  · rw [if_pos h]; exact ⟨by simp; omega, by simp [h]⟩
  · rw [if_neg h]
    by_cases h2 : b < a
    · rw [if_pos h2]; exact ⟨by simp; omega, by simp; omega⟩
    · rw [if_neg h2]; exact ⟨by simp; omega, by simp; omega⟩

theorem splitCompare_coarse {valCmp bytes : α → α → Int} {a b : Split α} {level : Level} (hl : level ≠ .total) :
    splitCompare valCmp bytes a b level < 0 ↔ a.first < b.first ∨ a.first = b.first ∧ valCmp a.val b.val < 0 := by
  unfold splitCompare
  dsimp only
  by_cases h : firstCmp a.first b.first ≠ 0
  · rw [if_pos h, firstCmp_ne.2]
    have := firstCmp_ne.1.mp h
    constructor
    · intro h; exact Or.inl h
    · rintro (h | h)
      · exact h
      · exact absurd h.1 this
  · rw [if_neg h, if_pos (Or.inr hl)]
    have : a.first = b.first := Classical.byContradiction fun h2 => h (firstCmp_ne.1.mpr h2)
    constructor
    · intro h; exact Or.inr ⟨this, h⟩
    · rintro (h | h)
      · omega
      · exact h.2

theorem triple_less (c : Collator) (level : Level) (hl : level ≠ .total) (a b : Word) :
    (triple c).less level a b = true ↔ Before (c.key level) a b := by
  unfold Comparator.less triple tripleCompare
  simp only [decide_eq_true_eq]
  rw [splitCompare_coarse hl, extract_eq, extract_eq]
  simp only [Collator.compare]
  rw [lexCmp_lt]
  have : level.strength = level := by cases level <;> first | rfl | exact absurd rfl hl
  rw [this]
  rfl

theorem triple_lessKey (c : Collator) (N : Word → Prop) (hc : c.Laws N) (w : Word) (n : Nat) (k : List Nat) (t : Word) :
    tripleLessKey c w ⟨n, k, t⟩ = true ↔ kind w < n ∨ kind w = n ∧ c.key .primary (content w) < k.takeWhile (· ≠ 0) := by
  unfold tripleLessKey keyCompare extractKey
  simp only [decide_eq_true_eq]
  rw [splitCompare_coarse (by decide), extract_eq]
  dsimp only
  rw [sortKey_primary, strcmp, lexCmp_lt, takeWhile_nz (fun x hx => ((hc.bytes _).1 x hx).1)]

theorem simple_less (c : Collator) (level : Level) (hl : level ≠ .total) (a b : Word) :
    (simple c).less level a b = true ↔ c.key level a < c.key level b := by
  unfold Comparator.less simple simpleCompare
  simp only [decide_eq_true_eq]
  rw [if_pos (Or.inr hl)]
  simp only [Collator.compare]
  rw [lexCmp_lt]
  have : level.strength = level := by cases level <;> first | rfl | exact absurd rfl hl
  rw [this]

theorem simple_lessKey (c : Collator) (N : Word → Prop) (hc : c.Laws N) (w : Word) (k : List Nat) :
    simpleLessKey c w k = true ↔ c.key .primary w < k.takeWhile (· ≠ 0) := by
  unfold simpleLessKey
  simp only [decide_eq_true_eq]
  rw [sortKey_primary, strcmp, lexCmp_lt, takeWhile_nz (fun x hx => ((hc.bytes _).1 x hx).1)]

theorem lt_of_not_lt_of_lt {a b c : List Nat} (h1 : ¬ b < a) (h2 : b < c) : a < c := by
  rcases (inferInstance : Std.Trichotomous (α := List Nat) (· < ·)) with ⟨ht⟩
  by_cases h3 : a < b
  · exact List.lt_trans h3 h2
  · exact (ht a b h3 h1) ▸ h2

theorem notAfter_before {key : Word → List Nat} {a b p : Word} (h : NotAfter key a b) (h2 : Before key b p) : Before key a p := by
  unfold NotAfter at h
  unfold Before at *
  rcases h with h | ⟨h, h3⟩
  · rcases h2 with h2 | h2 <;> omega
  · rcases h2 with h2 | ⟨h2, h4⟩
    · omega
    · exact Or.inr ⟨by omega, lt_of_not_lt_of_lt h3 h4⟩

theorem notAfter_lessKey {c : Collator} {N : Word → Prop} (hc : c.Laws N) {a b : Word} (h : NotAfter (c.key .primary) a b)
    (k : Split (List Nat)) (h2 : tripleLessKey c b k = true) : tripleLessKey c a k = true := by
  rw [triple_lessKey c N hc] at *
  unfold NotAfter at h
  rcases h with h | ⟨h, h3⟩
  · rcases h2 with h2 | h2 <;> omega
  · rcases h2 with h2 | ⟨h2, h4⟩
    · omega
    · exact Or.inr ⟨by omega, lt_of_not_lt_of_lt h3 h4⟩

end Verif.Collation
