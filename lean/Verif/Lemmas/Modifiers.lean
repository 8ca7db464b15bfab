import Verif.Model.Modifiers
import Verif.Spec.Modifiers
import Mathlib.Data.List.Lex
import Mathlib.Order.Lattice
/-
Lemmas about the solution modifiers.
-/
namespace Verif.Modifiers
open JoinSpec ModifiersSpec

/-! ### DISTINCT -/

theorem sameKey_spec {w : Nat} {a b : Row} (ha : a.length = w) (hb : b.length = w) {keep : List Nat} (hk : ∀ c ∈ keep, c < w) :
    sameKey keep a b = .ok (decide (key keep a = key keep b)) := by
  induction keep with
  | nil => rfl
  | cons i is ih =>
    have ih := ih fun c hc => hk c (List.mem_cons_of_mem _ hc)
    have hi := hk i List.mem_cons_self
    have h1 : i < a.length := by omega
    have h2 : i < b.length := by omega
    simp only [sameKey, Outcome.read_lt _ _ h1, Outcome.read_lt _ _ h2, Outcome.bind, ih]
    have e1 : a.getD i 0 = a[i] := by simp [h1]
    have e2 : b.getD i 0 = b[i] := by simp [h2]
    simp only [key, List.map_cons, List.cons.injEq, e1, e2]
    by_cases h : a[i] = b[i]
    · simp [h]
    · simp [h]

theorem uniqueFrom_spec {w : Nat} {keep : List Nat} (hk : ∀ c ∈ keep, c < w) : ∀ (rs : Table) (last : Row),
    Table.WF (last :: rs) w → SortedOnCols keep (last :: rs) →
    ∃ t', uniqueFrom keep last rs = .ok t' ∧ t'.Sublist rs ∧ (last :: t').Pairwise (fun x y => key keep x < key keep y) ∧
      ∀ r ∈ rs, key keep r ∈ (last :: t').map (key keep) := by
  intro rs
  induction rs with
  | nil => intro last _ _; exact ⟨[], rfl, List.Sublist.refl _, by simp, by simp⟩
  | cons r rs ih =>
    intro last hw hs
    have hwl : last.length = w := hw _ List.mem_cons_self
    have hwr : r.length = w := hw _ (by simp)
    rw [uniqueFrom, sameKey_spec hwl hwr hk]
    by_cases h : key keep last = key keep r
    · obtain ⟨t', h1, h2, h3, h4⟩ := ih last (fun x hx => hw x (by
          rcases List.mem_cons.mp hx with h | h <;> simp [h])) (hs.sublist (by simp))
      refine ⟨t', by simpa [h] using h1, h2.cons _, h3, ?_⟩
      intro x hx
      rcases List.mem_cons.mp hx with rfl | hx
      · rw [← h]; simp
      · exact h4 x hx
    · obtain ⟨t', h1, h2, h3, h4⟩ := ih r (fun x hx => hw x (List.mem_cons_of_mem _ hx)) hs.tail
      have hlt : key keep last < key keep r := by
        have := (List.pairwise_cons.mp hs).1 r List.mem_cons_self
        exact lt_of_le_of_ne (not_lt.mp this) h
      refine ⟨r :: t', by simp [h, h1], h2.cons_cons _, ?_, ?_⟩
      · refine List.pairwise_cons.mpr ⟨?_, h3⟩
        intro y hy
        rcases List.mem_cons.mp hy with rfl | hy
        · exact hlt
        · exact hlt.trans ((List.pairwise_cons.mp h3).1 y hy)
      · intro x hx
        rw [List.map_cons, List.mem_cons]
        right
        rcases List.mem_cons.mp hx with rfl | hx
        · simp
        · exact h4 x hx

theorem distinct_spec {w : Nat} {keep : List Nat} {t : Table} (hk : ∀ c ∈ keep, c < w) (hl : keep.length ≤ w) (hw : t.WF w)
    (hs : SortedOnCols keep t) : ∃ t', distinct w keep t = .ok t' ∧ DistinctOf keep t t' := by
  cases t with
  | nil => exact ⟨[], rfl, List.Sublist.refl _, by simp, by simp⟩
  | cons r rs =>
    obtain ⟨t', h1, h2, h3, h4⟩ := uniqueFrom_spec hk rs r hw hs
    refine ⟨r :: t', by simp [distinct, hl, h1], h2.cons_cons _, ?_, ?_⟩
    · rw [List.nodup_iff_pairwise_ne, List.pairwise_map]
      exact h3.imp fun h => ne_of_lt h
    · intro x hx
      rcases List.mem_cons.mp hx with rfl | hx
      · simp
      · exact h4 x hx

theorem key_lt_append {x y : Row} {c : List Nat} (d : List Nat) (h : key c x < key c y) : key (c ++ d) x < key (c ++ d) y := by
  unfold key at *
  rw [List.map_append, List.map_append]
  have hl : (c.map fun i => x.getD i 0).length = (c.map fun i => y.getD i 0).length := by simp
  revert h hl
  generalize (c.map fun i => x.getD i 0) = a
  generalize (c.map fun i => y.getD i 0) = b
  intro h hl
  induction a generalizing b with
  | nil => cases b with
    | nil => exact absurd h (lt_irrefl _)
    | cons _ _ => simp at hl
  | cons p a ih =>
    cases b with
    | nil => simp at hl
    | cons q b =>
      rw [List.cons_lt_cons_iff] at h
      rw [List.cons_append, List.cons_append, List.cons_lt_cons_iff]
      rcases h with h | ⟨h, h'⟩
      · exact .inl h
      · exact .inr ⟨h, ih b h' (by simpa using hl)⟩

theorem sortedOn_prefix {c d : List Nat} {t : Table} (h : SortedOnCols (c ++ d) t) : SortedOnCols c t :=
  h.imp fun h h' => h (key_lt_append d h')

/-! ### Sorting -/

theorem image_decide {α : Type} [LinearOrder α] {less : Row → Row → Outcome Bool} {t : Table} {f : Row → α}
    (h' : ∀ x ∈ t, ∀ y ∈ t, ∃ b, less x y = .ok b ∧ (b = true ↔ f x < f y)) :
    ∀ x ∈ t, ∀ y ∈ t, less x y = .ok (decide (f x < f y)) := by
  intro x hx y hy
  obtain ⟨b, h1, h2⟩ := h' x hx y hy
  rw [h1]
  congr 1
  rw [Bool.eq_iff_iff, h2, decide_eq_true_iff]

/-- A comparison that compares images in a linear order. -/
theorem comparable_of_image {α : Type} [LinearOrder α] {less : Row → Row → Outcome Bool} {t : Table} (f : Row → α)
    (h' : ∀ x ∈ t, ∀ y ∈ t, ∃ b, less x y = .ok b ∧ (b = true ↔ f x < f y)) : Comparable less t := by
  have h : ∀ x ∈ t, ∀ y ∈ t, less x y = .ok (decide (f x < f y)) := image_decide h'
  refine ⟨fun x hx y hy => ⟨_, h x hx y hy⟩, fun x hx => by rw [h x hx x hx]; simp, ?_, ?_⟩
  · intro x hx y hy z hz h1 h2
    rw [h x hx y hy] at h1
    rw [h y hy z hz] at h2
    simp only [Outcome.ok.injEq, decide_eq_true_eq] at h1 h2
    rw [h x hx z hz]
    simp [h1.trans h2]
  · intro x hx y hy z hz h1 h2 h3 h4
    rw [h x hx y hy] at h1
    rw [h y hy x hx] at h2
    rw [h y hy z hz] at h3
    rw [h z hz y hy] at h4
    simp only [Outcome.ok.injEq, decide_eq_false_iff_not, not_lt] at h1 h2 h3 h4
    rw [h x hx z hz, h z hz x hx]
    simp only [Outcome.ok.injEq, decide_eq_false_iff_not, not_lt]
    exact ⟨h3.trans h1, h2.trans h4⟩

theorem sorts_exists {α : Type} [LinearOrder α] {less : Row → Row → Outcome Bool} {t : Table} (f : Row → α)
    (h' : ∀ x ∈ t, ∀ y ∈ t, ∃ b, less x y = .ok b ∧ (b = true ↔ f x < f y)) : ∃ t', Sorts less t (.ok t') := by
  have h : ∀ x ∈ t, ∀ y ∈ t, less x y = .ok (decide (f x < f y)) := image_decide h'
  refine ⟨t.mergeSort (fun x y => decide (f x ≤ f y)), .sorted _ (comparable_of_image f h') (List.mergeSort_perm _ _) ?_⟩
  have hp : (t.mergeSort (fun x y => decide (f x ≤ f y))).Pairwise (fun x y => decide (f x ≤ f y) = true) :=
    List.pairwise_mergeSort (fun a b c h1 h2 => by
      simp only [decide_eq_true_eq] at *; exact h1.trans h2) (fun a b => by simpa using le_total (f a) (f b)) t
  refine (List.Pairwise.and_mem.mp hp).imp ?_
  rintro x y ⟨hx, hy, hxy⟩
  rw [h y ((List.mergeSort_perm _ _).subset hy) x ((List.mergeSort_perm _ _).subset hx)]
  simpa using hxy

theorem sorts_spec {α : Type} [LinearOrder α] {less : Row → Row → Outcome Bool} {t : Table} (f : Row → α)
    (h' : ∀ x ∈ t, ∀ y ∈ t, ∃ b, less x y = .ok b ∧ (b = true ↔ f x < f y)) {o : Outcome Table} (ho : Sorts less t o) :
    ∃ t', o = .ok t' ∧ t'.Perm t ∧ t'.Pairwise (fun x y => f x ≤ f y) := by
  have h : ∀ x ∈ t, ∀ y ∈ t, less x y = .ok (decide (f x < f y)) := image_decide h'
  cases ho with
  | sorted t' _ hp hs =>
    refine ⟨t', rfl, hp, (List.Pairwise.and_mem.mp hs).imp ?_⟩
    rintro x y ⟨hx, hy, hxy⟩
    rw [h y (hp.subset hy) x (hp.subset hx)] at hxy
    simpa using hxy
  | undefined hn => exact absurd (comparable_of_image f h') hn

theorem lessColumn_eq {w c : Nat} {t : Table} (hw : t.WF w) (hc : c < w) :
    ∀ x ∈ t, ∀ y ∈ t, ∃ b, lessColumn c x y = .ok b ∧ (b = true ↔ x.getD c 0 < y.getD c 0) := by
  intro x hx y hy
  have h1 : c < x.length := by rw [hw x hx]; exact hc
  have h2 : c < y.length := by rw [hw y hy]; exact hc
  exact ⟨decide (x.getD c 0 < y.getD c 0), by simp [lessColumn, Outcome.read_lt, h1, h2], by simp⟩

/-- The image under which `lessKeys` compares. -/
def image (keys : List (Nat × Bool)) (r : Row) : List Int :=
  keys.map (fun k => if k.2 then -((r.getD k.1 0 : Nat) : Int) else ((r.getD k.1 0 : Nat) : Int)) ++ [((r.getD 0 0 : Nat) : Int)]

theorem lessKeys_eq' {w : Nat} {t : Table} (hw : t.WF w) (h0 : 0 < w) {keys : List (Nat × Bool)} (hk : ∀ k ∈ keys, k.1 < w) :
    ∀ x ∈ t, ∀ y ∈ t, lessKeys keys x y = .ok (decide (image keys x < image keys y)) := by
  intro x hx y hy
  have lx := hw x hx
  have ly := hw y hy
  induction keys with
  | nil =>
    have h1 : 0 < x.length := by omega
    have h2 : 0 < y.length := by omega
    simp [lessKeys, image, Outcome.read_lt, h1, h2, List.cons_lt_cons_iff]
  | cons k ks ih =>
    have ih := ih fun c hc => hk c (List.mem_cons_of_mem _ hc)
    have hi := hk k List.mem_cons_self
    have h1 : k.1 < x.length := by omega
    have h2 : k.1 < y.length := by omega
    have e1 : x.getD k.1 0 = x[k.1] := by simp [h1]
    have e2 : y.getD k.1 0 = y[k.1] := by simp [h2]
    simp only [lessKeys, Outcome.read_lt _ _ h1, Outcome.read_lt _ _ h2, Outcome.bind, ih]
    have key : (image (k :: ks) x < image (k :: ks) y) ↔
        (if k.2 then y[k.1] < x[k.1] else x[k.1] < y[k.1]) ∨ (x[k.1] = y[k.1] ∧ image ks x < image ks y) := by
      unfold image
      rw [List.map_cons, List.map_cons, List.cons_append, List.cons_append, List.cons_lt_cons_iff, e1, e2]
      cases k.2 <;> simp [Int.natCast_inj]
    rcases lt_trichotomy x[k.1] y[k.1] with h | h | h
    · rw [if_pos h]
      congr 1
      rw [Bool.eq_iff_iff, decide_eq_true_iff, key]
      cases k.2 <;> simp <;> omega
    · rw [if_neg (by omega), if_neg (by omega)]
      congr 1
      rw [decide_eq_decide, key]
      cases k.2 <;> simp [h]
    · rw [if_neg (by omega), if_pos h]
      congr 1
      rw [Bool.eq_iff_iff, decide_eq_true_iff, key]
      cases k.2 <;> simp <;> omega

theorem lessKeys_eq {w : Nat} {t : Table} (hw : t.WF w) (h0 : 0 < w) {keys : List (Nat × Bool)} (hk : ∀ k ∈ keys, k.1 < w) :
    ∀ x ∈ t, ∀ y ∈ t, ∃ b, lessKeys keys x y = .ok b ∧ (b = true ↔ image keys x < image keys y) :=
  fun x hx y hy => ⟨_, lessKeys_eq' hw h0 hk x hx y hy, by simp⟩

theorem image_lt_of_before {keys : List (Nat × Bool)} {x y : Row} (h : Before keys x y) : image keys x < image keys y := by
  induction keys with
  | nil => obtain ⟨i, c, d, h1, _⟩ := h; simp at h1
  | cons k ks ih =>
    obtain ⟨i, c, d, h1, h2, h3⟩ := h
    unfold image
    rw [List.map_cons, List.map_cons, List.cons_append, List.cons_append, List.cons_lt_cons_iff]
    cases i with
    | zero =>
      left
      simp only [List.getElem?_cons_zero, Option.some.injEq] at h1
      subst h1
      cases d
      · simp only [Bool.false_eq_true, if_false] at h3 ⊢; omega
      · simp only [if_true] at h3 ⊢; exact Int.neg_lt_neg (Int.ofNat_lt.mpr h3)
    | succ i =>
      right
      simp only [List.getElem?_cons_succ] at h1
      have he := h2 0 k.1 k.2 (by omega) (by simp)
      refine ⟨by rw [he], ih ⟨i, c, d, h1, ?_, h3⟩⟩
      intro j c' d' hj hk
      exact h2 (j + 1) c' d' (by omega) (by simpa using hk)

theorem image_lt_of_key {keys : List (Nat × Bool)} (hd : ∀ k ∈ keys, k.2 = false) {x y : Row}
    (h' : key (keys.map (·.1)) x < key (keys.map (·.1)) y) : image keys x < image keys y := by
  induction keys with
  | nil => exact absurd h' (lt_irrefl _)
  | cons k ks ih =>
    have hk := hd k List.mem_cons_self
    unfold key at h'
    rw [List.map_cons, List.map_cons, List.map_cons, List.cons_lt_cons_iff] at h'
    unfold image
    rw [List.map_cons, List.map_cons, List.cons_append, List.cons_append, List.cons_lt_cons_iff, hk]
    rcases h' with h' | ⟨h1, h2⟩
    · left; simp only [Bool.false_eq_true, if_false]; omega
    · right
      exact ⟨by rw [h1], ih (fun c hc => hd c (List.mem_cons_of_mem _ hc)) h2⟩

theorem sortedOnCols_of_image {keys : List (Nat × Bool)} (hd : ∀ k ∈ keys, k.2 = false) {t : Table}
    (h : t.Pairwise fun x y => image keys x ≤ image keys y) : SortedOnCols (keys.map (·.1)) t :=
  h.imp fun h h' => absurd (image_lt_of_key hd h') (not_lt.mpr h)

theorem not_before_of_key {keys : List (Nat × Bool)} (hd : ∀ k ∈ keys, k.2 = false) {x y : Row}
    (h : ¬ key (keys.map (·.1)) x < key (keys.map (·.1)) y) : ¬ Before keys x y := by
  intro hb
  apply h
  clear h
  induction keys with
  | nil => obtain ⟨i, c, d, h1, _⟩ := hb; simp at h1
  | cons k ks ih =>
    obtain ⟨i, c, d, h1, h2, h3⟩ := hb
    unfold key
    rw [List.map_cons, List.map_cons, List.map_cons, List.cons_lt_cons_iff]
    cases i with
    | zero =>
      left
      simp only [List.getElem?_cons_zero, Option.some.injEq] at h1
      have := hd k List.mem_cons_self
      subst h1
      simp only at this
      subst this
      simpa using h3
    | succ i =>
      right
      simp only [List.getElem?_cons_succ] at h1
      have he := h2 0 k.1 k.2 (by omega) (by simp)
      refine ⟨he, ih (fun c hc => hd c (List.mem_cons_of_mem _ hc)) ⟨i, c, d, h1, ?_, h3⟩⟩
      intro j c' d' hj hk
      exact h2 (j + 1) c' d' (by omega) (by simpa using hk)

theorem key_lt_single {c : Nat} {x y : Row} : key [c] x < key [c] y ↔ x.getD c 0 < y.getD c 0 := by
  simp only [key, List.map_cons, List.map_nil, List.cons_lt_cons_iff, lt_irrefl, and_false, or_false]

/-! ### LIMIT and OFFSET -/

theorem takeWhile_all {α : Type} {p : α → Bool} {l : List α} (h : ∀ c ∈ l, p c = true) : l.takeWhile p = l := by
  induction l with
  | nil => rfl
  | cons a l ih => rw [List.takeWhile_cons, if_pos (h a List.mem_cons_self), ih fun c hc => h c (List.mem_cons_of_mem _ hc)]

theorem atol_toDigits {n : Nat} (h : n < 2 ^ 63) : atol (Nat.toDigits 10 n) = .ok n := by
  have hd : ∀ c ∈ Nat.toDigits 10 n, c.isDigit = true := fun c => Nat.isDigit_of_mem_toDigits (by omega) (by omega)
  have htw : (Nat.toDigits 10 n).takeWhile Char.isDigit = Nat.toDigits 10 n := takeWhile_all hd
  have hv : (Nat.toDigits 10 n).foldl (fun (acc : Nat) c => 10 * acc + (c.toNat - 48)) 0 = n := by
    have := Nat.ofDigitChars_ten_toDigits (n := n)
    rwa [Nat.ofDigitChars_eq_foldl] at this
  unfold atol
  have hsplit : splitSign (Nat.toDigits 10 n) = (false, Nat.toDigits 10 n) := by
    unfold splitSign
    split
    · rename_i ds he; have := hd '-' (by rw [he]; simp); simp [Char.isDigit] at this
    · rename_i ds he; have := hd '+' (by rw [he]; simp); simp [Char.isDigit] at this
    · rfl
  simp only [hsplit, htw, hv, Bool.false_eq_true, if_false, if_pos h]

theorem sizeOr_toDigits {d n : Nat} (h : n < 2 ^ 63) : sizeOr d (Nat.toDigits 10 n) = .ok n := by
  unfold sizeOr
  rw [if_pos Nat.length_toDigits_pos, atol_toDigits h]
  simp only [Outcome.map, toSize, Outcome.ok.injEq]
  omega

theorem writeRows_spec (t : Table) (a b : Nat) (h : b ≤ t.length) : writeRows t a b = .ok ((t.drop a).take (b - a)) := by
  unfold writeRows
  have key : ∀ k i, i + k ≤ t.length → writeRows.go t i k = .ok ((t.drop i).take k) := by
    intro k
    induction k with
    | zero => intro i _; simp [writeRows.go]
    | succ k ih =>
      intro i hi
      have h1 : i < t.length := by omega
      rw [writeRows.go, Outcome.read_lt _ _ h1, Outcome.bind, ih (i + 1) (by omega), Outcome.map,
        List.drop_eq_getElem_cons h1, List.take_succ_cons]
  by_cases hab : a ≤ b
  · exact key _ _ (by omega)
  · have : b - a = 0 := by omega
    rw [this]; simp [writeRows.go]

end Verif.Modifiers
