import Verif.Model.Filter
import Verif.Lemmas.Modifiers
import Mathlib.Order.Basic
import Mathlib.Order.Nat
/-
Lemmas about the model of FILTER.
-/
namespace Verif.Filter
open FilterSpec

/-! ### Partitioned lists -/

section part
variable {α : Type} {p : α → Bool}

/-- The elements with `p` come first. -/
def Part (p : α → Bool) (l : List α) : Prop := l.Pairwise fun a b => p b = true → p a = true

theorem partitionPoint_ok {l : List α} (h : Part p l) : partitionPoint p l = .ok (l.takeWhile p).length := if_pos h

theorem part_filter {l : List α} (h : Part p l) :
    l.take (l.takeWhile p).length = l.filter p ∧ l.drop (l.takeWhile p).length = l.filter fun x => !p x := by
  induction l with
  | nil => simp
  | cons a l ih =>
    rw [Part, List.pairwise_cons] at h
    by_cases hp : p a
    · simp [hp, ih h.2]
    · have h1 : l.filter p = [] := List.filter_eq_nil_iff.mpr fun b hb hpb => hp (h.1 b hb hpb)
      have h2 : l.filter (fun x => !p x) = l := List.filter_eq_self.mpr fun b hb => by
        by_cases hpb : p b
        · exact absurd (h.1 b hb hpb) hp
        · simpa using hpb
      simp [hp, h1, h2]

theorem takeWhile_length_le (l : List α) : (l.takeWhile p).length ≤ l.length := (List.takeWhile_sublist p).length_le

theorem takeWhile_map_length {β : Type} (f : β → α) (l : List β) :
    ((l.map f).takeWhile p).length = (l.takeWhile fun x => p (f x)).length := by
  induction l with
  | nil => rfl
  | cons a l ih => by_cases h : p (f a) <;> simp [h, ih]

theorem part_map {β : Type} {f : β → α} {l : List β} (h : Part (fun x => p (f x)) l) : Part p (l.map f) := by
  unfold Part at *; rw [List.pairwise_map]; exact h

theorem partitionPoint_map {β : Type} {f : β → α} {l : List β} (h : Part (fun x => p (f x)) l) :
    partitionPoint p (l.map f) = .ok (l.takeWhile fun x => p (f x)).length := by
  rw [partitionPoint_ok (part_map h), takeWhile_map_length]

end part

theorem insertRange_ok {res t : Table} {b e : Nat} (h : e ≤ t.length) :
    insertRange res t b e = .ok (res ++ (t.drop b).take (e - b)) := by
  unfold insertRange
  by_cases hb : b ≥ e
  · rw [if_pos hb, Nat.sub_eq_zero_of_le hb]; simp
  · rw [if_neg hb, if_pos h]

theorem mapM_some_option {α β : Type} (f : α → Option β) (g : α → β) : ∀ (l : List α), (∀ a ∈ l, f a = some (g a)) → l.mapM f = some (l.map g)
  | [], _ => rfl
  | a :: l, h => by
    rw [List.mapM_cons, h a List.mem_cons_self, mapM_some_option f g l fun b hb => h b (List.mem_cons_of_mem _ hb)]
    rfl

theorem column_ok {t : Table} {w c : Nat} (hw : t.WF w) (hc : c < w) : column t c = .ok (t.map fun r => r.getD c 0) := by
  unfold column
  rw [mapM_some_option (fun r : Row => r[c]?) (fun r => r.getD c 0)]
  intro r hr
  have : c < r.length := by rw [hw r hr]; exact hc
  simp [List.getD, this]

theorem read_getD {r : Row} {c : Nat} (h : c < r.length) : Outcome.read r c = .ok (r.getD c 0) := by
  rw [Outcome.read_lt _ _ h]; simp [List.getD, h]

theorem engineFilter_ok {comp : Row → Outcome Bool} {q : Row → Bool} : ∀ (t : Table), (∀ r ∈ t, comp r = .ok (q r)) →
    engineFilter comp t = .ok (t.filter q)
  | [], _ => rfl
  | r :: t, h => by
    rw [engineFilter, h r List.mem_cons_self, engineFilter_ok t fun r' hr => h r' (List.mem_cons_of_mem _ hr)]
    by_cases hq : q r <;> simp [Outcome.bind, Outcome.map, hq]

/-! ### Comparison with a fixed value -/

/-- The comparisons of the reader are those of a linear order. -/
structure Lawful {V : Type} [LinearOrder V] (rd : Reader V) : Prop where
  lt : ∀ a b, rd.lt a b = decide (a < b)
  le : ∀ a b, rd.le a b = decide (a ≤ b)
  eq : ∀ a b, rd.eq a b = decide (a = b)

theorem idReader_lawful : Lawful idReader := ⟨fun _ _ => rfl, fun _ _ => rfl, fun _ _ => rfl⟩

section fixed
variable {V : Type} [LinearOrder V]

theorem unsorted_ok {rd : Reader V} (hl : Lawful rd) {t : Table} {w lhs rhs : Nat} (c : Cmp) (hw : t.WF w) (hc : lhs < w)
    (hinj : c = .eq ∨ c = .ne → ∀ r ∈ t, rd.get (r.getD lhs 0) = rd.get rhs → r.getD lhs 0 = rhs) :
    computeFilterFixedValue rd c false lhs rhs t = .ok (keep c lhs rd.get (rd.get rhs) t) := by
  unfold computeFilterFixedValue keep
  simp only [Bool.false_eq_true, if_false]
  apply engineFilter_ok
  intro r hr
  rw [read_getD (by rw [hw r hr]; exact hc)]
  simp only [Outcome.bind, Outcome.ok.injEq]
  cases c <;> (try simp only [hl.lt, hl.le]) <;> rw [decide_eq_decide] <;> simp only [Holds]
  · exact ⟨fun h => by rw [h], hinj (.inl rfl) r hr⟩
  · exact not_congr ⟨fun h => by rw [h], hinj (.inr rfl) r hr⟩

theorem filter_filter_congr {α : Type} {l : List α} {p q s : α → Bool} (h : ∀ x ∈ l, (p x && q x) = s x) :
    (l.filter q).filter p = l.filter s := by
  rw [List.filter_filter]
  exact List.filter_congr h

theorem sorted_ok {rd : Reader V} (hl : Lawful rd) {t : Table} {w lhs rhs : Nat} (c : Cmp) (hw : t.WF w) (hc : lhs < w)
    (hs : Ascending lhs rd.get t)
    (hinj : c = .eq ∨ c = .ne → ∀ r ∈ t, rd.get (r.getD lhs 0) = rd.get rhs → r.getD lhs 0 = rhs) :
    computeFilterFixedValue rd c true lhs rhs t = .ok (keep c lhs rd.get (rd.get rhs) t) := by
  have hpl : Part (fun r : Row => rd.lt (rd.get (r.getD lhs 0)) (rd.get rhs)) t := by
    refine List.Pairwise.imp ?_ hs
    intro a b h
    simp only [hl.lt, decide_eq_true_eq]
    exact lt_of_le_of_lt h
  have hpu : ∀ l : Table, l.Sublist t → Part (fun r : Row => !rd.lt (rd.get rhs) (rd.get (r.getD lhs 0))) l := by
    intro l hlt
    refine List.Pairwise.imp ?_ (hs.sublist hlt)
    intro a b h
    simp only [hl.lt, Bool.not_eq_true', decide_eq_false_iff_not]
    exact fun h1 h2 => h1 (lt_of_lt_of_le h2 h)
  unfold computeFilterFixedValue
  simp only [if_true, column_ok hw hc, Outcome.bind]
  rw [partitionPoint_map hpl]
  generalize hlo : (t.takeWhile fun r => rd.lt (rd.get (r.getD lhs 0)) (rd.get rhs)).length = lo
  have hlo' : lo ≤ t.length := by rw [← hlo]; exact takeWhile_length_le t
  obtain ⟨ht, hd⟩ := part_filter hpl
  rw [hlo] at ht hd
  have hup : ∀ k, partitionPoint (fun x => !rd.lt (rd.get rhs) (rd.get x)) ((t.map fun r => r.getD lhs 0).drop k)
      = .ok ((t.drop k).takeWhile fun r => !rd.lt (rd.get rhs) (rd.get (r.getD lhs 0))).length := by
    intro k
    rw [← List.map_drop]
    exact partitionPoint_map (hpu _ (List.drop_sublist _ _))
  have hupf := fun k => part_filter (hpu (t.drop k) (List.drop_sublist _ _))
  have hlen : ∀ k, k ≤ t.length → k + ((t.drop k).takeWhile fun r => !rd.lt (rd.get rhs) (rd.get (r.getD lhs 0))).length ≤ t.length := by
    intro k hk
    have := takeWhile_length_le (p := fun r : Row => !rd.lt (rd.get rhs) (rd.get (r.getD lhs 0))) (t.drop k)
    rw [List.length_drop] at this
    omega
  -- no row has the value unless the first row that is not smaller has the id
  have hnone : (c = .eq ∨ c = .ne) → ¬ (lo ≠ (t.map fun r => r.getD lhs 0).length ∧ (t.map fun r => r.getD lhs 0)[lo]? = some rhs) →
      ∀ r ∈ t, rd.get (r.getD lhs 0) ≠ rd.get rhs := by
    intro hcc hn r hr he
    have hrd : r ∈ t.drop lo := by
      rw [hd, List.mem_filter]
      refine ⟨hr, ?_⟩
      rw [hl.lt, he]; simp
    cases hdl : t.drop lo with
    | nil => rw [hdl] at hrd; simp at hrd
    | cons y ys =>
      have hlt : lo < t.length := by
        rcases Nat.lt_or_ge lo t.length with h | h
        · exact h
        · rw [List.drop_eq_nil_of_le h] at hdl; simp at hdl
      have hy : t[lo] = y := by
        have := List.drop_eq_getElem_cons hlt
        rw [hdl] at this
        exact (List.cons.inj this).1.symm
      have hyt : y ∈ t := by rw [← hy]; exact List.getElem_mem _
      have hyd : y ∈ t.filter fun x => !rd.lt (rd.get (x.getD lhs 0)) (rd.get rhs) := by
        rw [← hd, hdl]; exact List.mem_cons_self
      have h1 : rd.get rhs ≤ rd.get (y.getD lhs 0) := by
        have := (List.mem_filter.mp hyd).2
        rw [hl.lt] at this
        simpa using this
      have h2 : rd.get (y.getD lhs 0) ≤ rd.get rhs := by
        have hsd : (y :: ys).Pairwise fun a b => rd.get (a.getD lhs 0) ≤ rd.get (b.getD lhs 0) := by
          rw [← hdl]; exact hs.sublist (List.drop_sublist _ _)
        rw [hdl] at hrd
        rcases List.mem_cons.mp hrd with h | h
        · rw [← h, he]
        · rw [← he]; exact (List.pairwise_cons.mp hsd).1 r h
      have h3 := hinj hcc y hyt (le_antisymm h2 h1)
      apply hn
      refine ⟨by simp; omega, ?_⟩
      rw [List.getElem?_map, List.getElem?_eq_getElem hlt, hy]
      simp only [Option.map_some, h3]
  unfold keep
  cases c
  · -- eq
    simp only
    split
    · simp only [hup, Outcome.map]
      rw [insertRange_ok (hlen lo hlo')]
      simp only [List.nil_append, Nat.add_sub_cancel_left, Outcome.ok.injEq]
      rw [(hupf lo).1, hd]
      apply filter_filter_congr
      intro r _
      rw [Bool.eq_iff_iff]
      simp only [hl.lt, Bool.and_eq_true, Bool.not_eq_true', decide_eq_false_iff_not, decide_eq_true_eq, not_lt]
      simp only [Holds]
      exact ⟨fun h => le_antisymm h.1 h.2, fun h => ⟨le_of_eq h, le_of_eq h.symm⟩⟩
    · rename_i hn
      have := hnone (.inl rfl) hn
      simp only [Outcome.ok.injEq]
      symm
      rw [List.filter_eq_nil_iff]
      intro r hr
      simpa [Holds] using this r hr
  · -- ne
    simp only
    split
    · simp only [hup, Outcome.map]
      rw [insertRange_ok hlo']
      simp only
      rw [insertRange_ok (Nat.le_refl _)]
      simp only [List.nil_append, List.drop_zero, Nat.sub_zero, Outcome.ok.injEq]
      rw [ht, List.take_of_length_le (by rw [List.length_drop]), ← List.drop_drop, (hupf lo).2]
      conv => rhs; rw [← List.take_append_drop lo t]
      rw [List.filter_append, ← ht]
      congr 1
      · rw [ht]
        symm
        rw [filter_filter_congr (s := fun r => rd.lt (rd.get (r.getD lhs 0)) (rd.get rhs))]
        intro r _
        rw [Bool.eq_iff_iff]
        simp only [hl.lt, Bool.and_eq_true, decide_eq_true_eq]
        simp only [Holds]
        exact ⟨fun h => h.2, fun h => ⟨ne_of_lt h, h⟩⟩
      · apply List.filter_congr
        intro r hr
        have h1 : rd.get rhs ≤ rd.get (r.getD lhs 0) := by
          rw [hd] at hr
          have := (List.mem_filter.mp hr).2
          rw [hl.lt] at this
          simpa using this
        simp only [hl.lt, Bool.not_not]
        rw [decide_eq_decide]
        simp only [Holds]
        exact ⟨fun h => (ne_of_lt h).symm, fun h => lt_of_le_of_ne h1 (Ne.symm h)⟩
    · rename_i hn
      have := hnone (.inr rfl) hn
      rw [insertRange_ok (Nat.le_refl _)]
      simp only [List.nil_append, List.drop_zero, Nat.sub_zero, List.take_length, Outcome.ok.injEq]
      symm
      rw [List.filter_eq_self]
      intro r hr
      simpa [Holds] using this r hr
  · -- lt
    simp only
    rw [insertRange_ok hlo']
    simp only [List.nil_append, List.drop_zero, Nat.sub_zero, Outcome.ok.injEq, ht]
    apply List.filter_congr
    intro r _
    simp only [hl.lt, Holds]
  · -- le
    simp only [hup, Outcome.map]
    rw [insertRange_ok (hlen 0 (Nat.zero_le _))]
    have := (hupf 0).1
    simp only [List.drop_zero] at this
    simp only [List.nil_append, List.drop_zero, Nat.sub_zero, Nat.zero_add, Outcome.ok.injEq, this]
    apply List.filter_congr
    intro r _
    rw [Bool.eq_iff_iff]
    simp only [hl.lt, Bool.not_eq_true', decide_eq_false_iff_not, decide_eq_true_eq, not_lt]
    simp only [Holds]
  · -- gt
    simp only [hup, Outcome.map]
    rw [insertRange_ok (Nat.le_refl _)]
    have := (hupf 0).2
    simp only [List.drop_zero] at this
    simp only [List.nil_append, List.drop_zero, Nat.zero_add, Outcome.ok.injEq]
    rw [List.take_of_length_le (by rw [List.length_drop]), this]
    apply List.filter_congr
    intro r _
    rw [Bool.eq_iff_iff]
    simp only [hl.lt, Bool.not_not, decide_eq_true_eq]
    simp only [Holds]
  · -- ge
    simp only
    rw [insertRange_ok (Nat.le_refl _)]
    simp only [List.nil_append, Outcome.ok.injEq]
    rw [List.take_of_length_le (by rw [List.length_drop]), hd]
    apply List.filter_congr
    intro r _
    rw [Bool.eq_iff_iff]
    simp only [hl.lt, Bool.not_eq_true', decide_eq_false_iff_not, decide_eq_true_eq, not_lt]
    simp only [Holds]

theorem columns_ok {rd : Reader V} (hl : Lawful rd) {t : Table} {w lhs rhs : Nat} (c : Cmp) (hw : t.WF w) (hc : lhs < w) (hr : rhs < w) :
    computeFilter rd c lhs rhs t = .ok (keepColumns c lhs rhs rd.get t) := by
  unfold computeFilter keepColumns
  apply engineFilter_ok
  intro r hrt
  rw [read_getD (by rw [hw r hrt]; exact hc), read_getD (by rw [hw r hrt]; exact hr)]
  simp only [Outcome.bind, Outcome.ok.injEq]
  rw [Bool.eq_iff_iff]
  cases c <;> simp [hl.lt, hl.le, hl.eq, Holds]

end fixed

/-! ### Ranges -/

theorem range_parts {t : Table} {w lhs lower upper : Nat} (hw : t.WF w) (hc : lhs < w) (hs : Ascending lhs id t) :
    let lo := (t.takeWhile fun r => decide (r.getD lhs 0 < lower)).length
    ∃ up', column t lhs = .ok (t.map fun r => r.getD lhs 0) ∧
      partitionPoint (fun x => decide (x < lower)) (t.map fun r => r.getD lhs 0) = .ok lo ∧
      partitionPoint (fun x => decide (x < upper)) ((t.map fun r => r.getD lhs 0).drop lo) = .ok up' ∧ lo + up' ≤ t.length ∧
      t.take lo = t.filter (fun r => decide (r.getD lhs 0 < lower)) ∧
      (t.drop lo).take up' = t.filter (fun r => decide (r.getD lhs 0 ≥ lower) && decide (r.getD lhs 0 < upper)) := by
  intro lo
  have hp : ∀ v (l : Table), l.Sublist t → Part (fun r : Row => decide (r.getD lhs 0 < v)) l := by
    intro v l hlt
    refine List.Pairwise.imp ?_ (hs.sublist hlt)
    intro a b h
    simp only [decide_eq_true_eq]
    exact lt_of_le_of_lt h
  obtain ⟨ht, hd⟩ := part_filter (hp lower t (List.Sublist.refl _))
  obtain ⟨ht2, hd2⟩ := part_filter (hp upper (t.drop lo) (List.drop_sublist _ _))
  refine ⟨((t.drop lo).takeWhile fun r => decide (r.getD lhs 0 < upper)).length, column_ok hw hc,
    partitionPoint_map (hp lower t (List.Sublist.refl _)), ?_, ?_, ht, ?_⟩
  · rw [← List.map_drop]
    exact partitionPoint_map (hp upper _ (List.drop_sublist _ _))
  · have h1 := takeWhile_length_le (p := fun r : Row => decide (r.getD lhs 0 < upper)) (t.drop lo)
    have h2 : lo ≤ t.length := takeWhile_length_le (p := fun r : Row => decide (r.getD lhs 0 < lower)) t
    rw [List.length_drop] at h1
    omega
  · rw [ht2, hd]
    apply filter_filter_congr
    intro r _
    rw [Bool.eq_iff_iff]
    simp only [Bool.and_eq_true, Bool.not_eq_true', decide_eq_false_iff_not, decide_eq_true_eq]
    omega

theorem range_ok {t : Table} {w lhs lower upper : Nat} (sorted : Bool) (hw : t.WF w) (hc : lhs < w)
    (hs : sorted = true → Ascending lhs id t) :
    computeFilterRange false sorted lhs lower upper t = .ok (t.filter fun r => decide (r.getD lhs 0 ≥ lower) && decide (r.getD lhs 0 < upper)) := by
  unfold computeFilterRange
  cases sorted
  · simp only [Bool.false_eq_true, if_false]
    apply engineFilter_ok
    intro r hr
    rw [read_getD (by rw [hw r hr]; exact hc)]
    rfl
  · obtain ⟨up', h1, h2, h3, h4, h5, h6⟩ := range_parts (lower := lower) (upper := upper) hw hc (hs rfl)
    simp only [if_true, h1, Outcome.bind, h2, h3, Bool.not_false]
    rw [insertRange_ok h4]
    simp only [List.nil_append, Nat.add_sub_cancel_left, h6]

theorem range_inverse_unsorted {t : Table} {w lhs lower upper : Nat} (hw : t.WF w) (hc : lhs < w) :
    computeFilterRange true false lhs lower upper t
      = .ok (t.filter fun r => !(decide (r.getD lhs 0 ≥ lower) && decide (r.getD lhs 0 < upper))) := by
  unfold computeFilterRange
  simp only [Bool.false_eq_true, if_false, if_true]
  apply engineFilter_ok
  intro r hr
  rw [read_getD (by rw [hw r hr]; exact hc)]
  rfl

/-- The rows after the range are lost. -/
theorem range_inverse_sorted {t : Table} {w lhs lower upper : Nat} (hw : t.WF w) (hc : lhs < w)
    (hs : Ascending lhs id t) :
    computeFilterRange true true lhs lower upper t = .ok (t.filter fun r => decide (r.getD lhs 0 < lower)) := by
  unfold computeFilterRange
  obtain ⟨up', h1, h2, h3, h4, h5, h6⟩ := range_parts (lower := lower) (upper := upper) hw hc hs
  simp only [if_true, h1, Outcome.bind, h2, h3, Bool.not_true, Bool.false_eq_true, if_false]
  rw [insertRange_ok (by omega)]
  simp only [List.nil_append, List.drop_zero, Nat.sub_zero, h5]
  rw [show insertRange _ t _ _ = Outcome.ok (t.filter fun r => decide (r.getD lhs 0 < lower)) from ?_]
  unfold insertRange
  rw [if_pos]
  rw [← h5, List.length_take]
  omega

/-! ### Prefix conditions -/

/-- `x` is in one of the ranges. -/
def inAny (ranges : List (Nat × Nat)) (x : Nat) : Bool := ranges.any fun p => decide (p.1 ≤ x) && decide (x < p.2)

theorem inAny_cons (p : Nat × Nat) (rs : List (Nat × Nat)) (x : Nat) :
    inAny (p :: rs) x = ((decide (p.1 ≤ x) && decide (x < p.2)) || inAny rs x) := rfl

theorem inAny_iff {rs : List (Nat × Nat)} {x : Nat} : inAny rs x = true ↔ ∃ p ∈ rs, p.1 ≤ x ∧ x < p.2 := by
  simp [inAny]

theorem removeOverlap_start (prev : Nat) (l : List (Nat × Nat)) : ∀ p ∈ removeOverlap prev l, prev ≤ p.1 := by
  induction l generalizing prev with
  | nil => intro p hp; simp [removeOverlap] at hp
  | cons q l ih =>
    obtain ⟨f, s⟩ := q
    intro p hp
    rw [removeOverlap, List.mem_cons] at hp
    rcases hp with rfl | hp
    · exact Nat.le_max_left _ _
    · exact Nat.le_trans (Nat.le_trans (Nat.le_max_left _ _) (Nat.le_max_right _ _)) (ih _ p hp)

theorem removeOverlap_ge {a : Nat} (prev : Nat) {l : List (Nat × Nat)} (h : ∀ p ∈ l, a ≤ p.1) : ∀ p ∈ removeOverlap prev l, a ≤ p.1 := by
  induction l generalizing prev with
  | nil => intro p hp; simp [removeOverlap] at hp
  | cons q l ih =>
    obtain ⟨f, s⟩ := q
    intro p hp
    rw [removeOverlap, List.mem_cons] at hp
    rcases hp with rfl | hp
    · exact Nat.le_trans (h _ List.mem_cons_self) (Nat.le_max_right _ _)
    · exact ih _ (fun p hp => h p (List.mem_cons_of_mem _ hp)) p hp

/-- Each range starts where or after the ones before it start and end. -/
def Chain (l : List (Nat × Nat)) : Prop := l.Pairwise fun a b => a.1 ≤ b.1 ∧ a.2 ≤ b.1

theorem removeOverlap_chain (prev : Nat) (l : List (Nat × Nat)) : Chain (removeOverlap prev l) := by
  induction l generalizing prev with
  | nil => exact List.Pairwise.nil
  | cons q l ih =>
    obtain ⟨f, s⟩ := q
    rw [removeOverlap]
    refine List.Pairwise.cons ?_ (ih _)
    intro p hp
    have := removeOverlap_start _ l p hp
    exact ⟨Nat.le_trans (Nat.le_max_right _ _) this, this⟩

theorem disjointRanges_chain {l : List (Nat × Nat)} (h : l.Pairwise fun a b => ¬ b.1 < a.1) : Chain (disjointRanges l) := by
  cases l with
  | nil => exact List.Pairwise.nil
  | cons q l =>
    rw [disjointRanges]
    refine List.Pairwise.cons ?_ (removeOverlap_chain _ _)
    intro p hp
    exact ⟨removeOverlap_ge _ (fun p hp => Nat.le_of_not_lt ((List.pairwise_cons.mp h).1 p hp)) p hp, removeOverlap_start _ l p hp⟩

theorem removeOverlap_cover {x a : Nat} (prev : Nat) {l : List (Nat × Nat)} (h : l.Pairwise fun a b => ¬ b.1 < a.1)
    (ha : ∀ p ∈ l, a ≤ p.1) :
    (inAny (removeOverlap prev l) x = true ∨ (a ≤ x ∧ x < prev)) ↔ (inAny l x = true ∨ (a ≤ x ∧ x < prev)) := by
  induction l generalizing prev a with
  | nil => rfl
  | cons q l ih =>
    obtain ⟨f, s⟩ := q
    rw [List.pairwise_cons] at h
    have haf : a ≤ f := ha (f, s) List.mem_cons_self
    have hfl : ∀ p ∈ l, f ≤ p.1 := fun p hp => Nat.le_of_not_lt (h.1 p hp)
    have := ih (max s (max prev f)) h.2 hfl
    have hout := removeOverlap_start (max s (max prev f)) l
    rw [removeOverlap]
    simp only [inAny_cons, Bool.or_eq_true, Bool.and_eq_true, decide_eq_true_eq]
    by_cases h1 : x < f
    · have e1 : inAny (removeOverlap (max s (max prev f)) l) x ≠ true := by
        intro hh
        obtain ⟨p, hp, hp1, _⟩ := inAny_iff.mp hh
        have := hout p hp
        omega
      have e2 : inAny l x ≠ true := by
        intro hh
        obtain ⟨p, hp, hp1, _⟩ := inAny_iff.mp hh
        have := hfl p hp
        omega
      simp only [e1, e2, Bool.false_eq_true, or_false]
      omega
    · by_cases h2 : x < prev
      · have : a ≤ x ∧ x < prev := ⟨by omega, h2⟩
        simp only [this, and_self, or_true]
      · by_cases h3 : x < s
        · have h4 : max prev f ≤ x ∧ x < max s (max prev f) := by omega
          have h5 : f ≤ x ∧ x < s := by omega
          simp only [h4, h5, and_self, true_or]
        · have h4 : ¬ (max prev f ≤ x ∧ x < max s (max prev f)) := by omega
          have h5 : ¬ (f ≤ x ∧ x < s) := by omega
          have h6 : ¬ (f ≤ x ∧ x < max s (max prev f)) := by omega
          have h7 : ¬ (a ≤ x ∧ x < prev) := by omega
          simp only [h6, or_false] at this
          simp only [h4, h5, h7, false_or, or_false]
          exact this

theorem disjointRanges_cover {l : List (Nat × Nat)} (h : l.Pairwise fun a b => ¬ b.1 < a.1) (x : Nat) :
    inAny (disjointRanges l) x = inAny l x := by
  cases l with
  | nil => rfl
  | cons q l =>
    obtain ⟨f, s⟩ := q
    rw [List.pairwise_cons] at h
    have := removeOverlap_cover (x := x) s h.2 (fun p hp => Nat.le_of_not_lt (h.1 p hp))
    rw [Bool.eq_iff_iff, disjointRanges]
    simp only [inAny_cons, Bool.or_eq_true, Bool.and_eq_true, decide_eq_true_eq]
    rw [or_comm, this, or_comm]

theorem filter_or {t : Table} {lhs : Nat} (hs : Ascending lhs id t) {p q : Row → Bool}
    (h : ∀ a b, p a = true → q b = true → a.getD lhs 0 < b.getD lhs 0) : t.filter (fun r => p r || q r) = t.filter p ++ t.filter q := by
  induction t with
  | nil => rfl
  | cons a t ih =>
    rw [Ascending, List.pairwise_cons] at hs
    by_cases hp : p a
    · have hq : q a = false := by
        by_cases hq : q a
        · exact absurd (h a a hp hq) (Nat.lt_irrefl _)
        · simpa using hq
      simp [hp, hq, ih hs.2]
    · by_cases hq : q a
      · have he : t.filter p = [] := List.filter_eq_nil_iff.mpr fun b hb hpb => by
          have h1 := h b a hpb hq
          have h2 := hs.1 b hb
          exact absurd (Nat.lt_of_lt_of_le h1 h2) (Nat.lt_irrefl _)
        rw [List.filter_cons_of_pos (by simp [hq]), ih hs.2, List.filter_cons_of_neg hp, List.filter_cons_of_pos hq, he]
        rfl
      · simp [hp, hq, ih hs.2]

theorem rangeIterators_ok {t : Table} {w lhs : Nat} (hw : t.WF w) (hc : lhs < w) (hs : Ascending lhs id t) {ranges : List (Nat × Nat)}
    (hch : Chain ranges) : ∃ its, rangeIterators (t.map fun r => r.getD lhs 0) ranges = .ok its ∧
      ∀ res, insertAll t res its = .ok (res ++ t.filter fun r => inAny ranges (r.getD lhs 0)) := by
  induction ranges with
  | nil => exact ⟨[], rfl, fun res => by simp [insertAll, inAny]⟩
  | cons q rs ih =>
    obtain ⟨f, s⟩ := q
    rw [Chain, List.pairwise_cons] at hch
    obtain ⟨up', _, h2, h3, h4, h5, h6⟩ := range_parts (lower := f) (upper := s) hw hc hs
    obtain ⟨its, h7, h8⟩ := ih hch.2
    rw [rangeIterators, h2]
    simp only [Outcome.bind]
    split
    · rw [h3, h7]
      refine ⟨_, rfl, ?_⟩
      intro res
      rw [insertAll, insertRange_ok h4]
      simp only [Outcome.bind, Nat.add_sub_cancel_left]
      rw [h8, h6, List.append_assoc, ← filter_or hs]
      · simp only [inAny_cons, ge_iff_le]
      · intro a b h1 h2
        obtain ⟨p, hp, hp1, _⟩ := inAny_iff.mp h2
        have := (hch.1 p hp).2
        simp only [Bool.and_eq_true, decide_eq_true_eq] at h1 this
        omega
    · rename_i hl
      refine ⟨[], rfl, ?_⟩
      intro res
      have hl : (t.takeWhile fun r => decide (r.getD lhs 0 < f)).length = t.length := by simpa using hl
      rw [hl, List.take_length] at h5
      have he : t.filter (fun r => inAny ((f, s) :: rs) (r.getD lhs 0)) = [] := by
        rw [List.filter_eq_nil_iff]
        intro r hr hin
        rw [h5] at hr
        have h1 := (List.mem_filter.mp hr).2
        simp only [decide_eq_true_eq] at h1
        obtain ⟨p, hp, hp1, _⟩ := inAny_iff.mp hin
        rcases List.mem_cons.mp hp with rfl | hp
        · simp only at hp1; omega
        · have := (hch.1 p hp).1
          simp only at this; omega
      rw [he, insertAll, List.append_nil]

theorem inAnyRanges_ok {r : Row} {w : Nat} (hr : r.length = w) {ms : List (Nat × List (Nat × Nat))} (hm : ∀ m ∈ ms, m.1 < w) :
    inAnyRanges r ms = .ok (ms.any fun m => inAny m.2 (r.getD m.1 0)) := by
  induction ms with
  | nil => rfl
  | cons m ms ih =>
    obtain ⟨l, ranges⟩ := m
    rw [inAnyRanges, inRanges, read_getD (by rw [hr]; exact hm _ List.mem_cons_self)]
    simp only [Outcome.map, Outcome.bind, List.any_cons]
    rw [ih fun m hmm => hm m (List.mem_cons_of_mem _ hmm)]
    show (if inAny ranges (r.getD l 0) = true then _ else _) = _
    cases inAny ranges (r.getD l 0) <;> simp

/-! ### The vocabulary -/

theorem stoull_toDigits {n : Nat} (h : n < 2 ^ 64) : stoull (Nat.toDigits 10 n) = .ok n := by
  have hd : ∀ c ∈ Nat.toDigits 10 n, c.isDigit = true := fun c => Nat.isDigit_of_mem_toDigits (by omega) (by omega)
  have htw : (Nat.toDigits 10 n).takeWhile Char.isDigit = Nat.toDigits 10 n := Modifiers.takeWhile_all hd
  have hv : (Nat.toDigits 10 n).foldl (fun (acc : Nat) c => 10 * acc + (c.toNat - 48)) 0 = n := by
    have := Nat.ofDigitChars_ten_toDigits (n := n)
    rwa [Nat.ofDigitChars_eq_foldl] at this
  have hne : Nat.toDigits 10 n ≠ [] := List.length_pos_iff.mp Nat.length_toDigits_pos
  unfold stoull
  have hsplit : Modifiers.splitSign (Nat.toDigits 10 n) = (false, Nat.toDigits 10 n) := by
    unfold Modifiers.splitSign
    split
    · rename_i ds he; have := hd '-' (by rw [he]; simp); simp [Char.isDigit] at this
    · rename_i ds he; have := hd '+' (by rw [he]; simp); simp [Char.isDigit] at this
    · rfl
  simp only [hsplit, htw, hv, hne, Bool.false_eq_true, if_false]
  rw [if_neg (by omega)]

section vocab
variable {K : Type} [LinearOrder K] {W : Type} {rank : W → K} {words : List W}

/-- The comparison of the vocabulary by the rank of the words. -/
def byRank (rank : W → K) : W → W → Bool := fun a b => decide (rank a < rank b)

theorem lowerBound_ok (hs : words.Pairwise fun a b => rank a ≤ rank b) (v : W) :
    ∃ lo, lowerBound (byRank rank) words v = .ok lo ∧ lo ≤ words.length ∧
      ∀ i (h : i < words.length), i < lo ↔ rank words[i] < rank v := by
  have hp : Part (fun w => byRank rank w v) words := by
    refine List.Pairwise.imp ?_ hs
    intro a b h
    simp only [byRank, decide_eq_true_eq]
    exact lt_of_le_of_lt h
  refine ⟨_, partitionPoint_ok hp, takeWhile_length_le _, ?_⟩
  intro i h
  obtain ⟨ht, hd⟩ := part_filter hp
  generalize (words.takeWhile fun w => byRank rank w v).length = lo at *
  constructor
  · intro hi
    have : words[i] ∈ words.take lo := List.mem_take_iff_getElem.mpr ⟨i, by omega, rfl⟩
    rw [ht] at this
    simpa [byRank] using (List.mem_filter.mp this).2
  · intro hr
    apply Classical.byContradiction
    intro hi
    have : words[i] ∈ words.drop lo := List.mem_drop_iff_getElem.mpr ⟨i - lo, by omega, by congr 1; omega⟩
    rw [hd] at this
    have := (List.mem_filter.mp this).2
    simp only [byRank, Bool.not_eq_true', decide_eq_false_iff_not] at this
    exact this hr

theorem upperBound_ok (hs : words.Pairwise fun a b => rank a ≤ rank b) (v : W) :
    ∃ up, upperBound (byRank rank) words v = .ok up ∧ up ≤ words.length ∧
      ∀ i (h : i < words.length), i < up ↔ rank words[i] ≤ rank v := by
  have hp : Part (fun w => !byRank rank v w) words := by
    refine List.Pairwise.imp ?_ hs
    intro a b h
    simp only [byRank, Bool.not_eq_true', decide_eq_false_iff_not]
    exact fun h1 h2 => h1 (lt_of_lt_of_le h2 h)
  refine ⟨_, partitionPoint_ok hp, takeWhile_length_le _, ?_⟩
  intro i h
  obtain ⟨ht, hd⟩ := part_filter hp
  generalize (words.takeWhile fun w => !byRank rank v w).length = lo at *
  constructor
  · intro hi
    have : words[i] ∈ words.take lo := List.mem_take_iff_getElem.mpr ⟨i, by omega, rfl⟩
    rw [ht] at this
    simpa [byRank] using (List.mem_filter.mp this).2
  · intro hr
    apply Classical.byContradiction
    intro hi
    have : words[i] ∈ words.drop lo := List.mem_drop_iff_getElem.mpr ⟨i - lo, by omega, by congr 1; omega⟩
    rw [hd] at this
    have := (List.mem_filter.mp this).2
    simp only [byRank, Bool.not_not, decide_eq_true_eq] at this
    exact absurd hr (not_le_of_gt this)

end vocab

end Verif.Filter
