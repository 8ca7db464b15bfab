import Verif.Spec.Permutation
import Verif.Lemmas.MetaData
import Verif.Lemmas.Filter
/-
Lemmas about writing one relation and scanning it.
-/
namespace Verif.Permutation
open Verif.Bytes Verif.MetaData

/-! ### Lists -/

theorem partitionPoint_spec {p : α → Bool} {l : List α} (h : Filter.Part p l) :
    ∃ k, Filter.partitionPoint p l = .ok k ∧ k ≤ l.length ∧ ∀ i (hi : i < l.length), i < k ↔ p l[i] = true := by
  refine ⟨_, Filter.partitionPoint_ok h, Filter.takeWhile_length_le _, fun i hi => ?_⟩
  obtain ⟨ht, hd⟩ := Filter.part_filter h
  generalize (l.takeWhile p).length = lo at *
  constructor
  · intro hlo
    have : l[i] ∈ l.take lo := List.mem_take_iff_getElem.mpr ⟨i, by omega, rfl⟩
    rw [ht] at this
    simpa using (List.mem_filter.mp this).2
  · intro hlt
    apply Classical.byContradiction; intro hlo
    have : l[i] ∈ l.drop lo := List.mem_drop_iff_getElem.mpr ⟨i - lo, by omega, by congr 1; omega⟩
    rw [hd] at this
    have := (List.mem_filter.mp this).2
    rw [hlt] at this; simp at this

@[simp] theorem length_pairBytes (l : List Pair) : (pairBytes l).length = 16 * l.length := by
  induction l with
  | nil => rfl
  | cons a l ih => simp only [pairBytes, List.flatMap_cons, List.length_append, length_toLE, List.length_cons] at *; omega

theorem pairBytes_append (a b : List Pair) : pairBytes (a ++ b) = pairBytes a ++ pairBytes b := by simp [pairBytes]

theorem toPairs_pairBytes (l : List Pair) (h : ∀ e ∈ l, e.1 < 2 ^ 64 ∧ e.2 < 2 ^ 64) (r : List Nat) :
    toPairs l.length (pairBytes l ++ r) = l := by
  induction l with
  | nil => rfl
  | cons a l ih =>
    obtain ⟨h1, h2⟩ := h a (by simp)
    have e : pairBytes (a :: l) ++ r = toLE 8 a.1 ++ (toLE 8 a.2 ++ (pairBytes l ++ r)) := by
      simp [pairBytes, List.append_assoc]
    rw [e, List.length_cons, toPairs]
    rw [List.take_left' (length_toLE 8 _), List.drop_left' (length_toLE 8 _), List.take_left' (length_toLE 8 _),
      ofLE_toLE 8 _ (by simpa using h1), ofLE_toLE 8 _ (by simpa using h2), ← List.append_assoc,
      List.drop_left' (by simp), ih fun e he => h e (by simp [he])]

theorem fileRead_mid (file a b c : List Nat) (off n : Nat) (hb : file = a ++ b ++ c) (ho : off = a.length)
    (hn : n = b.length) : fileRead file off n = .ok b := by
  subst hb ho hn
  unfold fileRead
  by_cases h : b.length = 0
  · rw [if_pos h, List.length_eq_zero_iff.mp h]
  · rw [if_neg h, if_pos (by simp), List.append_assoc, List.drop_left, List.take_left]

/-- Reading a range of an array of pairs stored in a file. -/
theorem readPairs_slice {file pre post : List Nat} {L : List Pair} (hL : ∀ e ∈ L, e.1 < 2 ^ 64 ∧ e.2 < 2 ^ 64)
    (hf : file = pre ++ pairBytes L ++ post) (i n : Nat) (hi : i + n ≤ L.length) :
    readPairs file (pre.length + 16 * i) (16 * n) = .ok ((L.drop i).take n) := by
  have hsplit : L = L.take i ++ ((L.drop i).take n ++ L.drop (i + n)) := by
    rw [← List.drop_drop, List.take_append_drop, List.take_append_drop]
  have hlen : ((L.drop i).take n).length = n := by rw [List.length_take, List.length_drop]; omega
  unfold readPairs
  rw [if_neg (by omega), fileRead_mid file (pre ++ pairBytes (L.take i)) (pairBytes ((L.drop i).take n))
    (pairBytes (L.drop (i + n)) ++ post)]
  · have := toPairs_pairBytes ((L.drop i).take n) (fun e he => hL e (List.mem_of_mem_drop (List.mem_of_mem_take he))) []
    rw [hlen, List.append_nil] at this
    simp only [Outcome.bind]
    rw [show 16 * n / 16 = n by omega, this]
  · rw [hf]
    conv => lhs; rw [hsplit]
    simp only [pairBytes_append, List.append_assoc]
  · rw [List.length_append, length_pairBytes, List.length_take, Nat.min_eq_left (by omega)]
  · rw [length_pairBytes, hlen]

/-- Reading a range of an array of ids stored in a file. -/
theorem readIds_slice {file pre post : List Nat} {L : List Nat} (hL : ∀ e ∈ L, e < 2 ^ 64)
    (hf : file = pre ++ ofArr 8 L ++ post) (i n : Nat) (hi : i + n ≤ L.length) :
    ∃ bytes, fileRead file (pre.length + 8 * i) (8 * n) = .ok bytes ∧ toArr 8 n bytes = (L.drop i).take n := by
  have hsplit : L = L.take i ++ ((L.drop i).take n ++ L.drop (i + n)) := by
    rw [← List.drop_drop, List.take_append_drop, List.take_append_drop]
  have hlen : ((L.drop i).take n).length = n := by rw [List.length_take, List.length_drop]; omega
  refine ⟨ofArr 8 ((L.drop i).take n), ?_, ?_⟩
  · apply fileRead_mid file (pre ++ ofArr 8 (L.take i)) (ofArr 8 ((L.drop i).take n)) (ofArr 8 (L.drop (i + n)) ++ post)
    · rw [hf]
      conv => lhs; rw [hsplit]
      simp only [ofArr_append, List.append_assoc]
    · rw [List.length_append, length_ofArr, List.length_take, Nat.min_eq_left (by omega)]
    · rw [length_ofArr, hlen]
  · have := toArr_ofArr 8 ((L.drop i).take n) [] (fun e he => by
      have := hL e (List.mem_of_mem_drop (List.mem_of_mem_take he)); simpa using this)
    rw [hlen, List.append_nil] at this; exact this

/-- Every `B`-th element. -/
theorem every_get {α β : Type} (B : Nat) (hB : 0 < B) (f : α → Nat → β) : ∀ (n : Nat) (l : List α) (i : Nat), l.length ≤ n → i % B = 0 → ∀ j,
    ((l.zipIdx i).filterMap fun e => if e.2 % B = 0 then some (f e.1 e.2) else none)[j]? =
      l[j * B]?.map fun x => f x (i + j * B) := by
  have none_lem : ∀ (l : List α) (i k : Nat), i % B = 0 → 0 < k → k + l.length ≤ B →
      ((l.zipIdx (i + k)).filterMap fun e => if e.2 % B = 0 then some (f e.1 e.2) else none) = [] := by
    intro l
    induction l with
    | nil => intro i k _ _ _; rfl
    | cons a l ih =>
      intro i k hi hk hl
      rw [List.length_cons] at hl
      have : ¬ (i + k) % B = 0 := by
        rw [Nat.add_mod, hi, Nat.zero_add, Nat.mod_mod, Nat.mod_eq_of_lt (by omega)]; omega
      rw [List.zipIdx_cons, List.filterMap_cons]
      simp only [this, if_false]
      exact ih i (k + 1) hi (by omega) (by omega)
  intro n
  induction n with
  | zero => intro l i hl hi j; rw [List.length_eq_zero_iff.mp (by omega : l.length = 0)]; simp
  | succ n ih =>
    intro l i hl hi j
    cases l with
    | nil => simp
    | cons a l =>
      rw [List.length_cons] at hl
      rw [List.zipIdx_cons, List.filterMap_cons]
      simp only [hi, if_true]
      have hsplit : l = l.take (B - 1) ++ l.drop (B - 1) := (List.take_append_drop _ _).symm
      have hrest : ((l.zipIdx (i + 1)).filterMap fun e => if e.2 % B = 0 then some (f e.1 e.2) else none) =
          (((l.drop (B - 1)).zipIdx (i + B)).filterMap fun e => if e.2 % B = 0 then some (f e.1 e.2) else none) := by
        conv => lhs; rw [hsplit]
        rw [List.zipIdx_append, List.filterMap_append, none_lem (l.take (B - 1)) i 1 hi (by omega)
          (by rw [List.length_take]; omega), List.nil_append]
        by_cases hlen : B - 1 ≤ l.length
        · rw [List.length_take, Nat.min_eq_left hlen, show i + 1 + (B - 1) = i + B by omega]
        · rw [List.drop_eq_nil_of_le (by omega)]; simp
      rw [hrest]
      cases j with
      | zero => simp
      | succ j =>
        rw [List.getElem?_cons_succ, ih (l.drop (B - 1)) (i + B) (by rw [List.length_drop]; omega)
          (by rw [Nat.add_mod_right]; exact hi) j, List.getElem?_drop]
        rw [show (j + 1) * B = (B - 1 + j * B) + 1 by rw [Nat.add_mul]; omega, List.getElem?_cons_succ]
        rw [show i + B + j * B = i + (B - 1 + j * B + 1) by omega]

/-! ### The list of left hand sides -/

/-- Number of rows with a smaller left hand side. -/
def below (data : List Pair) (d : Nat) : Nat := (data.filter fun x => decide (x.1 < d)).length

theorem lhsList_spec (data : List Pair) (hs : data.Pairwise fun a b => a.1 ≤ b.1) (i last : Nat) (hl : ∀ x ∈ data, last ≤ x.1) :
    (lhsList data i last).Pairwise (fun a b => a.1 < b.1) ∧
    ∀ d o, (d, o) ∈ lhsList data i last ↔ last < d ∧ (∃ x ∈ data, x.1 = d) ∧ o = 8 * (i + below data d) := by
  induction data generalizing i last with
  | nil => exact ⟨List.Pairwise.nil, fun d o => ⟨fun h => absurd h (by simp [lhsList]), fun h => by obtain ⟨_, ⟨x, hx, _⟩, _⟩ := h; simp at hx⟩⟩
  | cons a data ih =>
    rw [List.pairwise_cons] at hs
    by_cases h : a.1 = last
    · obtain ⟨h1, h2⟩ := ih hs.2 (i + 1) last fun x hx => hl x (by simp [hx])
      unfold lhsList
      rw [if_neg (by simpa using h)]
      refine ⟨h1, fun d o => ?_⟩
      rw [h2]
      constructor
      · rintro ⟨g1, ⟨x, hx, g2⟩, g3⟩
        refine ⟨g1, ⟨x, by simp [hx], g2⟩, ?_⟩
        rw [g3, below, below, List.filter_cons, if_pos (by simp; omega), List.length_cons]; omega
      · rintro ⟨g1, ⟨x, hx, g2⟩, g3⟩
        refine ⟨g1, ?_, ?_⟩
        · rcases List.mem_cons.mp hx with rfl | hx
          · omega
          · exact ⟨x, hx, g2⟩
        · rw [g3, below, below, List.filter_cons, if_pos (by simp; omega), List.length_cons]; omega
    · obtain ⟨h1, h2⟩ := ih hs.2 (i + 1) a.1 fun x hx => hs.1 x hx
      have hla := hl a (by simp)
      have h0 : below (a :: data) a.1 = 0 := by
        rw [below, List.length_eq_zero_iff, List.filter_eq_nil_iff]
        intro x hx
        rcases List.mem_cons.mp hx with rfl | hx
        · simp
        · have := hs.1 x hx; simp; omega
      unfold lhsList
      rw [if_pos (by simpa using h)]
      refine ⟨List.pairwise_cons.mpr ⟨fun e he => ?_, h1⟩, fun d o => ?_⟩
      · exact ((h2 e.1 e.2).mp he).1
      · rw [List.mem_cons, h2]
        constructor
        · rintro (g | ⟨g1, ⟨x, hx, g2⟩, g3⟩)
          · injection g with g1 g2
            subst g1 g2
            exact ⟨by omega, ⟨a, by simp, rfl⟩, by rw [h0]; omega⟩
          · refine ⟨by omega, ⟨x, by simp [hx], g2⟩, ?_⟩
            rw [g3, below, below, List.filter_cons, if_pos (by simp; omega), List.length_cons]; omega
        · rintro ⟨g1, ⟨x, hx, g2⟩, g3⟩
          by_cases hd : d = a.1
          · left; rw [g3, hd, h0]; congr 1; omega
          · right
            have hx' : x ∈ data := by
              rcases List.mem_cons.mp hx with rfl | hx
              · exact absurd g2.symm hd
              · exact hx
            have := hs.1 x hx'
            refine ⟨by omega, ⟨x, hx', g2⟩, ?_⟩
            rw [g3, below, below, List.filter_cons, if_pos (by simp; omega), List.length_cons]; omega

/-- The list of left hand sides of a whole relation. -/
theorem lhsList_start (data : List Pair) (hs : data.Pairwise fun a b => a.1 ≤ b.1) (hm : ∀ x ∈ data, x.1 < MAX_ID) :
    (lhsList data 0 MAX_ID).Pairwise (fun a b => a.1 < b.1) ∧
    ∀ d o, (d, o) ∈ lhsList data 0 MAX_ID ↔ (∃ x ∈ data, x.1 = d) ∧ o = 8 * below data d := by
  cases data with
  | nil => exact ⟨List.Pairwise.nil, fun d o => ⟨fun h => absurd h (by simp [lhsList]), fun h => by obtain ⟨⟨x, hx, _⟩, _⟩ := h; simp at hx⟩⟩
  | cons a data =>
    have ha := hm a (by simp)
    by_cases h0 : a.1 = 0
    · -- the list with the first row as the previous one differs only by the first entry
      have hs' := List.pairwise_cons.mp hs
      obtain ⟨h1, h2⟩ := lhsList_spec data hs'.2 1 a.1 hs'.1
      have hz : below (a :: data) a.1 = 0 := by
        rw [below, List.length_eq_zero_iff, List.filter_eq_nil_iff]; intro x _; simp; omega
      have e : lhsList (a :: data) 0 MAX_ID = (a.1, 0) :: lhsList data 1 a.1 := by
        rw [lhsList, if_pos (by omega)]
      rw [e]
      refine ⟨List.pairwise_cons.mpr ⟨fun e he => ((h2 e.1 e.2).mp he).1, h1⟩, fun d o => ?_⟩
      rw [List.mem_cons, h2]
      constructor
      · rintro (g | ⟨g1, ⟨x, hx, g2⟩, g3⟩)
        · injection g with g1 g2
          subst g1 g2
          exact ⟨⟨a, by simp, rfl⟩, by rw [hz]⟩
        · refine ⟨⟨x, by simp [hx], g2⟩, ?_⟩
          rw [g3, below, below, List.filter_cons, if_pos (by simp; omega), List.length_cons]; omega
      · rintro ⟨⟨x, hx, g2⟩, g3⟩
        by_cases hd : d = a.1
        · left; rw [g3, hd, hz]
        · right
          have hx' : x ∈ data := by
            rcases List.mem_cons.mp hx with rfl | hx
            · exact absurd g2.symm hd
            · exact hx
          have := hs'.1 x hx'
          refine ⟨by omega, ⟨x, hx', g2⟩, ?_⟩
          rw [g3, below, below, List.filter_cons, if_pos (by simp; omega), List.length_cons]; omega
    · have hall : ∀ x ∈ a :: data, a.1 - 1 ≤ x.1 := by
        intro x hx
        rcases List.mem_cons.mp hx with rfl | hx
        · omega
        · have := (List.pairwise_cons.mp hs).1 x hx; omega
      obtain ⟨h1, h2⟩ := lhsList_spec (a :: data) hs 0 (a.1 - 1) hall
      have e : lhsList (a :: data) 0 MAX_ID = lhsList (a :: data) 0 (a.1 - 1) := by
        rw [lhsList, lhsList, if_pos (by omega), if_pos (by omega)]
      rw [e]
      refine ⟨h1, fun d o => ?_⟩
      rw [h2, Nat.zero_add]
      constructor
      · rintro ⟨_, g⟩; exact g
      · rintro ⟨⟨x, hx, g2⟩, g3⟩
        refine ⟨?_, ⟨x, hx, g2⟩, g3⟩
        rcases List.mem_cons.mp hx with rfl | hx
        · omega
        · have := (List.pairwise_cons.mp hs).1 x hx; omega

end Verif.Permutation
