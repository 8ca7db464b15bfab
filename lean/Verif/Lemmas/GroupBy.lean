import Verif.Spec.GroupBy
import Verif.Lemmas.Modifiers
/-
Lemmas about the model of GROUP BY.
-/
namespace Verif.GroupBy
open Verif JoinSpec GroupBySpec ResultTable

variable {F : Type}

/-- The values of column `c` in `k` rows from `i` on. -/
def vals (t : Table) (c i k : Nat) : List Nat := ((t.drop i).take k).map fun r => r.getD c 0

theorem at_eq {t : Table} {w i c : Nat} (hw : t.WF w) (hc : c < w) (hi : i < t.length) : t.at i c = .ok (t[i].getD c 0) := by
  have hr : t[i].length = w := hw _ (List.getElem_mem hi)
  simp only [Table.at, Outcome.read_lt t i hi, Outcome.bind]
  rw [Outcome.read_lt _ c (by omega)]
  simp [List.getD, hr, hc]

theorem vals_succ {t : Table} {c i k : Nat} (hi : i < t.length) : vals t c i (k + 1) = t[i].getD c 0 :: vals t c (i + 1) k := by
  unfold vals
  rw [List.drop_eq_getElem_cons hi, List.take_succ_cons, List.map_cons]

theorem vals_snoc {t : Table} {c i k : Nat} (hi : i + k < t.length) :
    vals t c i (k + 1) = vals t c i k ++ [t[i + k].getD c 0] := by
  unfold vals
  rw [List.take_succ_eq_append_getElem (by simp; omega), List.map_append]
  simp

theorem vals_length {t : Table} {c i k : Nat} (hi : i + k ≤ t.length) : (vals t c i k).length = k := by
  simp [vals]; omega

theorem mapM_cons_option (f : α → Option β) (a : α) (l : List α) :
    (a :: l).mapM f = (f a).bind fun b => (l.mapM f).map (b :: ·) := by
  rw [List.mapM_cons]
  cases f a with
  | none => rfl
  | some b => cases h : l.mapM f <;> simp_all

theorem filter_cons_seen (l seen : List Nat) (v : Nat) :
    (l.filter fun x => !seen.contains x).filter (fun b => !b == v) = l.filter fun x => !(v :: seen).contains x := by
  rw [List.filter_filter]
  apply List.filter_congr
  intro x _
  simp only [List.contains_cons, Bool.not_or]

theorem sumLoop_eq {env : Env F} {type : RT} {d : Bool} {t : Table} {w c : Nat} (hw : t.WF w) (hc : c < w) :
    ∀ (k i : Nat) (seen : List Nat) (res : F), i + k ≤ t.length →
    sumLoop env type d t c i k seen res =
      match (if d then ((vals t c i k).filter fun x => !seen.contains x).eraseDups else vals t c i k).mapM (addend env type) with
      | some xs => .ok (xs.foldl env.add res)
      | none => .ok env.nan := by
  intro k
  induction k with
  | zero => intro i seen res _; cases d <;> simp [sumLoop, vals]
  | succ k ih =>
    intro i seen res hi
    rw [sumLoop, at_eq hw hc (by omega : i < t.length), vals_succ (by omega : i < t.length)]
    simp only [Outcome.bind]
    cases d with
    | false =>
      simp only [Bool.false_and, Bool.false_eq_true, if_false]
      rw [mapM_cons_option]
      cases h : addend env type (t[i].getD c 0) with
      | none => rfl
      | some x =>
        simp only [Option.bind]
        rw [ih (i + 1) seen (env.add res x) (by omega)]
        simp only [Bool.false_eq_true, if_false]
        cases (vals t c (i + 1) k).mapM (addend env type) <;> rfl
    | true =>
      simp only [Bool.true_and, if_true]
      cases hs : seen.contains (t[i].getD c 0) with
      | true =>
        simp only [if_true]
        rw [ih (i + 1) seen res (by omega), List.filter_cons_of_neg (by simp only [hs]; simp)]
        simp only [if_true]
      | false =>
        simp only [Bool.false_eq_true, if_false]
        rw [List.filter_cons_of_pos (by simp only [hs]; rfl), List.eraseDups_cons, mapM_cons_option]
        cases h : addend env type (t[i].getD c 0) with
        | none => rfl
        | some x =>
          simp only [Option.bind]
          rw [ih (i + 1) _ (env.add res x) (by omega), filter_cons_seen]
          simp only [if_true]
          cases List.mapM (addend env type) (List.filter (fun x => !(t[i].getD c 0 :: seen).contains x)
            (vals t c (i + 1) k)).eraseDups <;> rfl

theorem addend_eq (env : Env F) (type : RT) : addend env type = number env type := by
  funext v
  cases type <;> simp only [addend, number]
  cases env.isFloatWord (env.word v) <;> rfl

theorem number_none {env : Env F} {type : RT} (h : type = .text ∨ type = .localVocab) {l : List Nat} (hl : l ≠ []) :
    total env type l = env.nan := by
  unfold total
  cases l with
  | nil => exact absurd rfl hl
  | cons a l =>
    rw [mapM_cons_option]
    rcases h with rfl | rfl <;> rfl

theorem eraseDups_ne_nil {l : List Nat} (h : l ≠ []) : l.eraseDups ≠ [] := by
  cases l with
  | nil => exact absurd rfl h
  | cons a l => rw [List.eraseDups_cons]; exact List.cons_ne_nil _ _

theorem filter_nil_seen (l : List Nat) : (l.filter fun x => !([] : List Nat).contains x) = l :=
  List.filter_eq_self.mpr (by intro a _; rfl)

theorem sumOf_eq {env : Env F} {type : RT} {d : Bool} {t : Table} {w c i k : Nat} (hw : t.WF w) (hc : c < w) (hk : 0 < k)
    (hi : i + k ≤ t.length) :
    sumOf env type d t c i k = .ok (total env type (if d then (vals t c i k).eraseDups else vals t c i k)) := by
  have hne : vals t c i k ≠ [] := by
    intro h; have := vals_length (c := c) hi; rw [h] at this; simp at this; omega
  have hne' : (if d then (vals t c i k).eraseDups else vals t c i k) ≠ [] := by
    cases d
    · exact hne
    · exact eraseDups_ne_nil hne
  have main : sumLoop env type d t c i k [] env.zero =
      .ok (total env type (if d then (vals t c i k).eraseDups else vals t c i k)) := by
    rw [sumLoop_eq hw hc k i [] env.zero hi, filter_nil_seen, addend_eq, total]
    cases List.mapM (number env type) (if d = true then (vals t c i k).eraseDups else vals t c i k) <;> rfl
  unfold sumOf
  cases type with
  | text => simp only []; rw [number_none (.inl rfl) hne']
  | localVocab => simp only []; rw [number_none (.inr rfl) hne']
  | kb => exact main
  | verbatim => exact main
  | float => exact main

theorem countLoop_eq {t : Table} {w c : Nat} (hw : t.WF w) (hc : c < w) :
    ∀ (k i : Nat) (seen : List Nat) (n : Nat), i + k ≤ t.length →
    countLoop t c i k seen n = .ok (n + ((vals t c i k).filter fun x => !seen.contains x).eraseDups.length) := by
  intro k
  induction k with
  | zero => intro i seen res _; simp [countLoop, vals]
  | succ k ih =>
    intro i seen n hi
    rw [countLoop, at_eq hw hc (by omega : i < t.length), vals_succ (by omega : i < t.length)]
    simp only [Outcome.bind]
    cases hs : seen.contains (t[i].getD c 0) with
    | true =>
      simp only [if_true]
      rw [ih (i + 1) seen n (by omega), List.filter_cons_of_neg (by simp only [hs]; simp)]
    | false =>
      simp only [Bool.false_eq_true, if_false]
      rw [List.filter_cons_of_pos (by simp only [hs]; rfl), List.eraseDups_cons, ih (i + 1) _ (n + 1) (by omega), filter_cons_seen,
        List.length_cons]
      congr 1; omega

theorem render_eq (env : Env F) (type : RT) : render env type = text env type := by
  funext v; cases type <;> rfl

theorem concatLoop_eq {env : Env F} {type : RT} {delim : List Char} {t : Table} {w c : Nat} (hw : t.WF w) (hc : c < w) :
    ∀ (k i : Nat) (out : List Char), i + k ≤ t.length →
    concatLoop env type false delim t c i k [] out = .ok ([], out ++ ((vals t c i k).flatMap fun v => text env type v ++ delim)) := by
  intro k
  induction k with
  | zero => intro i out _; simp [concatLoop, vals]
  | succ k ih =>
    intro i out hi
    rw [concatLoop, at_eq hw hc (by omega : i < t.length), vals_succ (by omega : i < t.length)]
    simp only [Outcome.bind, Bool.false_and, Bool.false_eq_true, if_false]
    rw [ih (i + 1) _ (by omega), List.flatMap_cons, render_eq]
    simp only [List.append_assoc]

theorem intercalate_snoc (d x : List Char) (f : Nat → List Char) : ∀ l : List Nat,
    d.intercalate (l.map f ++ [x]) = (l.flatMap fun v => f v ++ d) ++ x := by
  intro l
  induction l with
  | nil => simp [List.intercalate]
  | cons a l ih =>
    rw [List.flatMap_cons, List.append_assoc, ← ih]
    cases l with
    | nil => simp [List.intercalate]
    | cons b l => simp [List.intercalate]

theorem concatOf_eq {env : Env F} {type : RT} {delim : List Char} {t : Table} {w c i e : Nat} (hw : t.WF w) (hc : c < w)
    (hie : i ≤ e) (he : e < t.length) :
    concatOf env type false delim t c i e = .ok (delim.intercalate ((vals t c i (e - i + 1)).map (text env type))) := by
  unfold concatOf
  rw [concatLoop_eq hw hc (e - i) i [] (by omega)]
  simp only [Outcome.bind]
  rw [at_eq hw hc he, vals_snoc (by omega : i + (e - i) < t.length), List.map_append, List.map_cons, List.map_nil,
    intercalate_snoc, render_eq]
  simp only [Bool.false_eq_true, if_false, List.nil_append]
  congr 2
  have : i + (e - i) = e := by omega
  simp only [this]

theorem pickLoop_eq {pick : Nat → Nat → Nat} {t : Table} {w c : Nat} (hw : t.WF w) (hc : c < w) :
    ∀ (k i res : Nat), i + k ≤ t.length → pickLoop pick t c i k res = .ok ((vals t c i k).foldl pick res) := by
  intro k
  induction k with
  | zero => intro i res _; simp [pickLoop, vals]
  | succ k ih =>
    intro i res hi
    rw [pickLoop, at_eq hw hc (by omega : i < t.length), vals_succ (by omega : i < t.length)]
    simp only [Outcome.bind]
    rw [ih (i + 1) _ (by omega), List.foldl_cons]

theorem pickLoopF_eq {env : Env F} {pick : F → F → F} {t : Table} {w c : Nat} (hw : t.WF w) (hc : c < w) :
    ∀ (k i : Nat) (res : F), i + k ≤ t.length →
      pickLoopF env pick t c i k res = .ok (((vals t c i k).map env.ofBits).foldl pick res) := by
  intro k
  induction k with
  | zero => intro i res _; simp [pickLoopF, vals]
  | succ k ih =>
    intro i res hi
    rw [pickLoopF, at_eq hw hc (by omega : i < t.length), vals_succ (by omega : i < t.length)]
    simp only [Outcome.bind]
    rw [ih (i + 1) _ (by omega), List.map_cons, List.foldl_cons]

/-- Folding with a function that returns the greater of its arguments yields a greatest element; `le` is a total preorder on the
elements in question (`ok`). -/
theorem fold_pick {α : Type} {le : α → α → Prop} {pick : α → α → α} (ok : α → Prop) (hrefl : ∀ x, ok x → le x x)
    (htr : ∀ x y z, ok x → ok y → ok z → le x y → le y z → le x z)
    (hp : ∀ x y, ok x → ok y → (pick x y = x ∧ le y x) ∨ (pick x y = y ∧ le x y)) :
    ∀ (l : List α) (a : α), ok a → (∀ x ∈ l, ok x) →
      (l.foldl pick a = a ∨ l.foldl pick a ∈ l) ∧ ok (l.foldl pick a) ∧ le a (l.foldl pick a) ∧ ∀ x ∈ l, le x (l.foldl pick a) := by
  intro l
  induction l with
  | nil => intro a ha _; exact ⟨.inl rfl, ha, hrefl a ha, by simp⟩
  | cons b l ih =>
    intro a ha hl
    have hb := hl b List.mem_cons_self
    have hpk : ok (pick a b) := by rcases hp a b ha hb with ⟨h, _⟩ | ⟨h, _⟩ <;> rw [h] <;> assumption
    obtain ⟨h1, h2, h3, h4⟩ := ih (pick a b) hpk fun x hx => hl x (List.mem_cons_of_mem _ hx)
    rw [List.foldl_cons]
    have hab : le a (pick a b) ∧ le b (pick a b) := by
      rcases hp a b ha hb with ⟨h, hle⟩ | ⟨h, hle⟩ <;> rw [h]
      · exact ⟨hrefl a ha, hle⟩
      · exact ⟨hle, hrefl b hb⟩
    refine ⟨?_, h2, htr _ _ _ ha hpk h2 hab.1 h3, ?_⟩
    · rcases h1 with h1 | h1
      · rw [h1]
        rcases hp a b ha hb with ⟨h, _⟩ | ⟨h, _⟩ <;> rw [h]
        · exact .inl rfl
        · exact .inr List.mem_cons_self
      · exact .inr (List.mem_cons_of_mem _ h1)
    · intro x hx
      rcases List.mem_cons.mp hx with rfl | hx
      · exact htr _ _ _ hb hpk h2 hab.2 h3
      · exact h4 x hx

theorem eraseDups_mem {l : List Nat} {x : Nat} : x ∈ l.eraseDups ↔ x ∈ l := List.mem_eraseDups

/-! ### Groups -/

theorem eraseDups_replicate (k : List Nat) (n : Nat) : (List.replicate (n + 1) k).eraseDups = [k] := by
  rw [List.replicate_succ, List.eraseDups_cons, List.filter_eq_nil_iff.mpr]
  · rfl
  · intro a ha
    rw [List.eq_of_mem_replicate ha]; simp

theorem groups_append {cols : List Nat} {t b : Table} {k : List Nat} (hb : b ≠ []) (hk : ∀ r ∈ b, key cols r = k)
    (ht : ∀ r ∈ t, key cols r ≠ k) : groups cols (t ++ b) = groups cols t ++ [b] := by
  have hbk : b.map (key cols) = List.replicate (b.length - 1 + 1) k := by
    rw [List.eq_replicate_iff]
    refine ⟨?_, ?_⟩
    · have := List.length_pos_iff.mpr hb
      rw [List.length_map]; omega
    · intro x hx
      obtain ⟨r, hr, rfl⟩ := List.mem_map.mp hx
      exact hk r hr
  have hrm : (List.replicate (b.length - 1 + 1) k).removeAll (t.map (key cols)) = List.replicate (b.length - 1 + 1) k := by
    unfold List.removeAll
    refine List.filter_eq_self.mpr fun x hx => ?_
    rw [List.eq_of_mem_replicate hx]
    have : k ∉ t.map (key cols) := by
      intro h
      obtain ⟨r, hr, he⟩ := List.mem_map.mp h
      exact ht r hr he
    simpa using this
  unfold groups
  rw [List.map_append, List.eraseDups_append, hbk, hrm, eraseDups_replicate, List.map_append]
  congr 1
  · apply List.map_congr_left
    intro x hx
    have hx' := List.mem_eraseDups.mp hx
    obtain ⟨r, hr, he⟩ := List.mem_map.mp hx'
    have hb0 : (b.filter fun r => decide (key cols r = x)) = [] := by
      refine List.filter_eq_nil_iff.mpr fun y hy => ?_
      have hne := ht r hr
      rw [he] at hne
      simp only [decide_eq_true_eq, hk y hy]
      exact fun h => hne h.symm
    rw [List.filter_append, hb0, List.append_nil]
  · have h1 : (t.filter fun r => decide (key cols r = k)) = [] :=
      List.filter_eq_nil_iff.mpr fun y hy => by simp [ht y hy]
    have h2 : (b.filter fun r => decide (key cols r = k)) = b := List.filter_eq_self.mpr fun y hy => by simp [hk y hy]
    rw [List.map_cons, List.map_nil, List.filter_append, h1, h2, List.nil_append]

theorem readKey_eq {t : Table} {w pos : Nat} (hw : t.WF w) (hp : pos < t.length) : ∀ {cols : List Nat}, (∀ c ∈ cols, c < w) →
    readKey t pos cols = .ok (key cols t[pos]) := by
  intro cols
  induction cols with
  | nil => intro _; rfl
  | cons c cs ih =>
    intro hc
    rw [readKey, at_eq hw (hc c List.mem_cons_self) hp]
    simp only [Outcome.bind]
    rw [ih fun c h => hc c (List.mem_cons_of_mem _ h)]
    rfl

theorem rowMatches_eq {t : Table} {w pos : Nat} (hw : t.WF w) (hp : pos < t.length) {r : Row} :
    ∀ {cols : List Nat}, (∀ c ∈ cols, c < w) →
    rowMatches t pos (cols.zip (key cols r)) = .ok (decide (key cols t[pos] = key cols r)) := by
  intro cols
  induction cols with
  | nil => intro _; simp [rowMatches, key]
  | cons c cs ih =>
    intro hc
    have h : (c :: cs).zip (key (c :: cs) r) = (c, r.getD c 0) :: cs.zip (key cs r) := rfl
    rw [h, rowMatches, at_eq hw (hc c List.mem_cons_self) hp]
    simp only [Outcome.bind]
    rw [ih fun c h => hc c (List.mem_cons_of_mem _ h)]
    have h2 : (key (c :: cs) t[pos] = key (c :: cs) r) ↔ (t[pos].getD c 0 = r.getD c 0 ∧ key cs t[pos] = key cs r) := by
      unfold key
      rw [List.map_cons, List.map_cons, List.cons.injEq]
    by_cases he : t[pos].getD c 0 = r.getD c 0
    · simp only [he, ne_eq, not_true_eq_false, if_false, h2, true_and]
    · simp only [he, ne_eq, not_false_eq_true, if_true, h2, false_and, decide_false]

theorem zip_key_fst (cols : List Nat) (r : Row) : (cols.zip (key cols r)).map (·.1) = cols := by
  rw [List.map_fst_zip]
  simp [key]

end Verif.GroupBy

namespace Verif.GroupBy
open Verif JoinSpec GroupBySpec ResultTable

variable {F : Type}

/-- The comparison of floats is a total preorder on the floats `fin` (those that are neither NaN nor infinite), `lowest` is the only
least and `highest` the only greatest of them. -/
structure FiniteFloats (env : Env F) (fin : F → Prop) : Prop where
  refl : ∀ x, fin x → env.lt x x = false
  trans : ∀ x y z, fin x → fin y → fin z → env.lt y x = false → env.lt z y = false → env.lt z x = false
  asymm : ∀ x y, fin x → fin y → env.lt x y = true → env.lt y x = false
  lowest : fin env.lowest ∧ ∀ x, fin x → env.lt env.lowest x = false → x = env.lowest
  highest : fin env.highest ∧ ∀ x, fin x → env.lt x env.highest = false → x = env.highest

/-- The aggregates that the code computes correctly: AVG and GROUP_CONCAT only without DISTINCT. -/
def Supported (a : Aggregate) : Prop := a.distinct = true → a.type ≠ .avg ∧ a.type ≠ .groupConcat

theorem aggregated_mono {env : Env F} {type : RT} {a : Aggregate} {l : List Nat} {vocab vocab' : List (List Char)} {v : Nat}
    (h : Aggregated env type a l vocab v) (hp : vocab <+: vocab') : Aggregated env type a l vocab' v := by
  unfold Aggregated at h ⊢
  cases ht : a.type with
  | groupConcat =>
    simp only [ht] at h ⊢
    obtain ⟨e, rfl⟩ := hp
    obtain ⟨hv, _⟩ := List.getElem?_eq_some_iff.mp h
    rw [List.getElem?_append_left hv, h]
  | count => simpa only [ht] using h
  | first => simpa only [ht] using h
  | last => simpa only [ht] using h
  | sample => simpa only [ht] using h
  | min => simpa only [ht] using h
  | max => simpa only [ht] using h
  | sum => simpa only [ht] using h
  | avg => simpa only [ht] using h

theorem rowFor_mono {env : Env F} {types : List RT} {aggs : List Aggregate} {vocab vocab' : List (List Char)} {g : Table} {row : Row}
    (h : RowFor env types aggs vocab g row) (hp : vocab <+: vocab') : RowFor env types aggs vocab' g row := by
  intro a ha
  obtain ⟨v, type, h1, h2, h3⟩ := h a ha
  exact ⟨v, type, h1, h2, aggregated_mono h3 hp⟩

theorem isMax_dedup {le : Nat → Nat → Prop} {l : List Nat} {d : Bool} {m : Nat} (h : IsMax le l m) :
    IsMax le (if d then l.eraseDups else l) m := by
  cases d
  · exact h
  · exact ⟨List.mem_eraseDups.mpr h.1, fun v hv => h.2 v (List.mem_eraseDups.mp hv)⟩

theorem isMax_map_dedup {f : Nat → F} {le : F → F → Prop} {l : List Nat} {d : Bool} {m : F} (h : IsMax le (l.map f) m) :
    IsMax le ((if d then l.eraseDups else l).map f) m := by
  cases d
  · exact h
  · obtain ⟨⟨x, hx, he⟩, h2⟩ : (∃ x ∈ l, f x = m) ∧ _ := ⟨List.mem_map.mp h.1, h.2⟩
    refine ⟨List.mem_map.mpr ⟨x, List.mem_eraseDups.mpr hx, he⟩, fun v hv => ?_⟩
    obtain ⟨y, hy, rfl⟩ := List.mem_map.mp hv
    exact h2 _ (List.mem_map.mpr ⟨y, List.mem_eraseDups.mp hy, rfl⟩)

theorem foldl_max {l : List Nat} (hl : l ≠ []) : IsMax (· ≤ ·) l (l.foldl Nat.max 0) := by
  obtain ⟨h1, _, _, h4⟩ := fold_pick (le := (· ≤ ·)) (pick := Nat.max) (fun _ => True) (fun x _ => Nat.le_refl x)
    (fun x y z _ _ _ h h' => Nat.le_trans h h')
    (fun x y _ _ => by
      rcases Nat.le_total y x with h | h
      · exact .inl ⟨Nat.max_eq_left h, h⟩
      · exact .inr ⟨Nat.max_eq_right h, h⟩) l 0 trivial (fun _ _ => trivial)
  refine ⟨?_, h4⟩
  rcases h1 with h1 | h1
  · obtain ⟨x, hx⟩ := List.exists_mem_of_ne_nil l hl
    have := h4 x hx
    rw [h1] at this ⊢
    rwa [← Nat.le_zero.mp this]
  · exact h1

theorem foldl_min {l : List Nat} (hl : l ≠ []) (hb : ∀ x ∈ l, x < 2 ^ 64) : IsMin (· ≤ ·) l (l.foldl Nat.min (2 ^ 64 - 1)) := by
  generalize hB : 2 ^ 64 - 1 = B at *
  have hb' : ∀ x ∈ l, x ≤ B := fun x hx => by have := hb x hx; omega
  clear hb hB
  obtain ⟨h1, _, _, h4⟩ := fold_pick (le := (· ≥ ·)) (pick := Nat.min) (fun _ => True) (fun x _ => Nat.le_refl x)
    (fun x y z _ _ _ h h' => Nat.le_trans h' h)
    (fun x y _ _ => by
      rcases Nat.le_total x y with h | h
      · exact .inl ⟨Nat.min_eq_left h, h⟩
      · exact .inr ⟨Nat.min_eq_right h, h⟩) l B trivial (fun _ _ => trivial)
  refine ⟨?_, h4⟩
  rcases h1 with h1 | h1
  · obtain ⟨x, hx⟩ := List.exists_mem_of_ne_nil l hl
    have h := h4 x hx
    have h' := hb' x hx
    rw [h1] at h ⊢
    rwa [Nat.le_antisymm h h']
  · exact h1

theorem foldl_fmax {env : Env F} {fin : F → Prop} (hf : FiniteFloats env fin) {l : List F} (hl : l ≠ []) (hfin : ∀ x ∈ l, fin x) :
    IsMax (fle env) l (l.foldl (fmax env) env.lowest) := by
  obtain ⟨h1, _, _, h4⟩ := fold_pick (le := fle env) (pick := fmax env) fin (fun x hx => hf.refl x hx)
    (fun x y z hx hy hz h h' => hf.trans x y z hx hy hz h h')
    (fun x y hx hy => by
      unfold fmax fle
      cases h : env.lt x y with
      | false => exact .inl ⟨by simp, rfl⟩
      | true => exact .inr ⟨by simp, hf.asymm x y hx hy h⟩) l env.lowest hf.lowest.1 hfin
  refine ⟨?_, h4⟩
  rcases h1 with h1 | h1
  · obtain ⟨x, hx⟩ := List.exists_mem_of_ne_nil l hl
    have := h4 x hx
    rw [h1] at this ⊢
    rwa [← hf.lowest.2 x (hfin x hx) this]
  · exact h1

theorem foldl_fmin {env : Env F} {fin : F → Prop} (hf : FiniteFloats env fin) {l : List F} (hl : l ≠ []) (hfin : ∀ x ∈ l, fin x) :
    IsMin (fle env) l (l.foldl (fmin env) env.highest) := by
  obtain ⟨h1, _, _, h4⟩ := fold_pick (le := fun x y => fle env y x) (pick := fmin env) fin (fun x hx => hf.refl x hx)
    (fun x y z hx hy hz h h' => hf.trans z y x hz hy hx h' h)
    (fun x y hx hy => by
      unfold fmin fle
      cases h : env.lt y x with
      | false => exact .inl ⟨by simp, rfl⟩
      | true => exact .inr ⟨by simp, hf.asymm y x hy hx h⟩) l env.highest hf.highest.1 hfin
  refine ⟨?_, h4⟩
  rcases h1 with h1 | h1
  · obtain ⟨x, hx⟩ := List.exists_mem_of_ne_nil l hl
    have := h4 x hx
    rw [h1] at this ⊢
    rwa [← hf.highest.2 x (hfin x hx) this]
  · exact h1

theorem eraseDups_head? (l : List Nat) : l.eraseDups.head? = l.head? := by
  cases l with
  | nil => rfl
  | cons a l => rw [List.eraseDups_cons]; rfl

/-- What is assumed of the table, its types and the aggregate. -/
structure AggOk (env : Env F) (fin : F → Prop) (w : Nat) (t : Table) (types : List RT) (a : Aggregate) : Prop where
  inCol : a.inCol < w
  supported : Supported a
  /-- the float values in the column of a MIN or MAX are finite -/
  finite : a.type = .min ∨ a.type = .max → types[a.inCol]? = some .float → ∀ r ∈ t, fin (env.ofBits (r.getD a.inCol 0))
  /-- the values in the column of a MIN are 64 bit numbers -/
  ids : a.type = .min → ∀ r ∈ t, r.getD a.inCol 0 < 2 ^ 64

theorem mem_vals {t : Table} {c i k x : Nat} (h : x ∈ vals t c i k) : ∃ r ∈ t, r.getD c 0 = x := by
  obtain ⟨r, hr, rfl⟩ := List.mem_map.mp h
  exact ⟨r, List.mem_of_mem_drop (List.mem_of_mem_take hr), rfl⟩

theorem getD_lt {t : Table} {w : Nat} (hw : t.WF w) (hids : ∀ r ∈ t, ∀ x ∈ r, x < 2 ^ 64) {c : Nat} (hc : c < w) {r : Row} (hr : r ∈ t) :
    r.getD c 0 < 2 ^ 64 := by
  have h := hw r hr
  have : r.getD c 0 = r[c]'(by omega) := by simp [List.getD, h, hc]
  rw [this]
  exact hids r hr _ (List.getElem_mem _)

theorem processGroup_spec {env : Env F} {fin : F → Prop} (hf : FiniteFloats env fin) {w : Nat} {t : Table} {types : List RT}
    (hw : t.WF w) (htypes : types.length = w) {a : Aggregate} (ha : AggOk env fin w t types a)
    {i e : Nat} (hie : i ≤ e) (he : e < t.length) (vocab : List (List Char)) :
    ∃ v vocab' type, processGroup env a i e t types vocab = .ok (v, vocab') ∧ vocab <+: vocab' ∧ types[a.inCol]? = some type ∧
      Aggregated env type a (vals t a.inCol i (e - i + 1)) vocab' v := by
  obtain ⟨hc, hsup, hfin, hids⟩ := ha
  have hty : types[a.inCol]? = some types[a.inCol] := List.getElem?_eq_getElem (by omega)
  have hread : Outcome.read types a.inCol = .ok types[a.inCol] := Outcome.read_lt _ _ (by omega)
  generalize types[a.inCol] = type at hty hread
  have hlen : (vals t a.inCol i (e - i + 1)).length = e - i + 1 := vals_length (by omega)
  have hne : vals t a.inCol i (e - i + 1) ≠ [] := by intro h; rw [h] at hlen; simp at hlen
  unfold processGroup
  cases hat : a.type with
  | avg =>
    have hd : a.distinct = false := by
      cases h : a.distinct with
      | false => rfl
      | true => exact absurd hat (hsup h).1
    simp only [hread, Outcome.bind]
    rw [sumOf_eq hw hc (by omega) (by omega)]
    refine ⟨_, _, type, rfl, List.prefix_rfl, hty, ?_⟩
    unfold Aggregated
    simp only [hat, hd, Bool.false_eq_true, if_false, hlen]
  | sum =>
    simp only [hread, Outcome.bind]
    rw [sumOf_eq hw hc (by omega) (by omega)]
    refine ⟨_, _, type, rfl, List.prefix_rfl, hty, ?_⟩
    unfold Aggregated
    simp only [hat]
  | count =>
    cases hd : a.distinct with
    | false =>
      refine ⟨_, _, type, rfl, List.prefix_rfl, hty, ?_⟩
      unfold Aggregated
      simp only [hat, hd, Bool.false_eq_true, if_false, hlen]
    | true =>
      simp only [if_true]
      rw [countLoop_eq hw hc _ _ _ _ (by omega), filter_nil_seen]
      refine ⟨_, _, type, rfl, List.prefix_rfl, hty, ?_⟩
      unfold Aggregated
      simp only [hat, hd, if_true, Nat.zero_add]
  | groupConcat =>
    have hd : a.distinct = false := by
      cases h : a.distinct with
      | false => rfl
      | true => exact absurd hat (hsup h).2
    simp only [hread, Outcome.bind]
    rw [hd, concatOf_eq hw hc hie he]
    refine ⟨_, _, type, rfl, List.prefix_append _ _, hty, ?_⟩
    unfold Aggregated
    simp only [hat, hd, Bool.false_eq_true, if_false]
    simp
  | sample =>
    simp only []
    rw [at_eq hw hc he]
    refine ⟨_, _, type, rfl, List.prefix_rfl, hty, ?_⟩
    unfold Aggregated
    simp only [hat]
    have hm : t[e].getD a.inCol 0 ∈ vals t a.inCol i (e - i + 1) := by
      rw [vals_snoc (by omega)]
      have : i + (e - i) = e := by omega
      simp only [this]
      simp
    split
    · exact List.mem_eraseDups.mpr hm
    · exact hm
  | last =>
    simp only []
    rw [at_eq hw hc he]
    refine ⟨_, _, type, rfl, List.prefix_rfl, hty, ?_⟩
    unfold Aggregated
    simp only [hat]
    rw [vals_snoc (by omega)]
    have : i + (e - i) = e := by omega
    simp only [this]
    simp
  | first =>
    simp only []
    rw [at_eq hw hc (by omega : i < t.length)]
    refine ⟨_, _, type, rfl, List.prefix_rfl, hty, ?_⟩
    unfold Aggregated
    simp only [hat]
    have : (vals t a.inCol i (e - i + 1)).head? = some (t[i].getD a.inCol 0) := by rw [vals_succ (by omega)]; rfl
    split
    · rw [eraseDups_head?, this]
    · exact this
  | max =>
    simp only [hread, Outcome.bind]
    have hid : ∀ m, m = (vals t a.inCol i (e - i + 1)).foldl Nat.max 0 → IsMax (· ≤ ·)
        (if a.distinct then (vals t a.inCol i (e - i + 1)).eraseDups else vals t a.inCol i (e - i + 1)) m := by
      intro m hm; rw [hm]; exact isMax_dedup (foldl_max hne)
    unfold Aggregated
    cases type with
    | text => exact ⟨_, _, .text, rfl, List.prefix_rfl, hty, by simp only [hat]⟩
    | localVocab => exact ⟨_, _, .localVocab, rfl, List.prefix_rfl, hty, by simp only [hat]⟩
    | float =>
      simp only []
      rw [pickLoopF_eq hw hc _ _ _ (by omega)]
      refine ⟨_, _, .float, rfl, List.prefix_rfl, hty, ?_⟩
      simp only [hat]
      refine ⟨_, rfl, isMax_map_dedup (foldl_fmax hf (by simpa using hne) fun x hx => ?_)⟩
      obtain ⟨y, hy, rfl⟩ := List.mem_map.mp hx
      obtain ⟨r, hr, rfl⟩ := mem_vals hy
      exact hfin (.inr hat) hty r hr
    | kb =>
      simp only []
      rw [pickLoop_eq hw hc _ _ _ (by omega)]
      exact ⟨_, _, .kb, rfl, List.prefix_rfl, hty, by simp only [hat]; exact hid _ rfl⟩
    | verbatim =>
      simp only []
      rw [pickLoop_eq hw hc _ _ _ (by omega)]
      exact ⟨_, _, .verbatim, rfl, List.prefix_rfl, hty, by simp only [hat]; exact hid _ rfl⟩
  | min =>
    simp only [hread, Outcome.bind]
    have hid : ∀ m, m = (vals t a.inCol i (e - i + 1)).foldl Nat.min (2 ^ 64 - 1) → IsMin (· ≤ ·)
        (if a.distinct then (vals t a.inCol i (e - i + 1)).eraseDups else vals t a.inCol i (e - i + 1)) m := by
      intro m hm; rw [hm]
      refine isMax_dedup (le := fun x y => y ≤ x) (foldl_min hne fun x hx => ?_)
      obtain ⟨r, hr, rfl⟩ := mem_vals hx
      exact hids hat r hr
    unfold Aggregated
    cases type with
    | text => exact ⟨_, _, .text, rfl, List.prefix_rfl, hty, by simp only [hat]⟩
    | localVocab => exact ⟨_, _, .localVocab, rfl, List.prefix_rfl, hty, by simp only [hat]⟩
    | float =>
      simp only []
      rw [pickLoopF_eq hw hc _ _ _ (by omega)]
      refine ⟨_, _, .float, rfl, List.prefix_rfl, hty, ?_⟩
      simp only [hat]
      refine ⟨_, rfl, isMax_map_dedup (le := fun x y => fle env y x) (foldl_fmin hf (by simpa using hne) fun x hx => ?_)⟩
      obtain ⟨y, hy, rfl⟩ := List.mem_map.mp hx
      obtain ⟨r, hr, rfl⟩ := mem_vals hy
      exact hfin (.inl hat) hty r hr
    | kb =>
      simp only []
      rw [pickLoop_eq hw hc _ _ _ (by omega)]
      exact ⟨_, _, .kb, rfl, List.prefix_rfl, hty, by simp only [hat]; exact hid _ rfl⟩
    | verbatim =>
      simp only []
      rw [pickLoop_eq hw hc _ _ _ (by omega)]
      exact ⟨_, _, .verbatim, rfl, List.prefix_rfl, hty, by simp only [hat]; exact hid _ rfl⟩

theorem processAll_spec {env : Env F} {fin : F → Prop} (hf : FiniteFloats env fin) {w : Nat} {t : Table} {types : List RT}
    (hw : t.WF w) (htypes : types.length = w) {i e : Nat} (hie : i ≤ e) (he : e < t.length) :
    ∀ (aggs : List Aggregate) (row : Row) (vocab : List (List Char)), (∀ a ∈ aggs, AggOk env fin w t types a) →
      (aggs.map (·.outCol)).Nodup → (∀ a ∈ aggs, a.outCol < row.length) →
      ∃ row' vocab', processAll env i e t types aggs row vocab = .ok (row', vocab') ∧ vocab <+: vocab' ∧
        row'.length = row.length ∧ (∀ c, c ∉ aggs.map (·.outCol) → row'[c]? = row[c]?) ∧
        RowFor env types aggs vocab' ((t.drop i).take (e - i + 1)) row' := by
  intro aggs
  induction aggs with
  | nil => intro row vocab _ _ _; exact ⟨row, vocab, rfl, List.prefix_rfl, rfl, fun _ _ => rfl, by simp [RowFor]⟩
  | cons a as ih =>
    intro row vocab hok hnd hout
    obtain ⟨v, vocab1, type, h1, h2, h3, h4⟩ := processGroup_spec hf hw htypes (hok a List.mem_cons_self) hie he vocab
    rw [List.map_cons, List.nodup_cons] at hnd
    obtain ⟨row', vocab', g1, g2, g3, g4, g5⟩ := ih (row.set a.outCol v) vocab1 (fun b hb => hok b (List.mem_cons_of_mem _ hb)) hnd.2
      (fun b hb => by rw [List.length_set]; exact hout b (List.mem_cons_of_mem _ hb))
    refine ⟨row', vocab', ?_, h2.trans g2, by rw [g3, List.length_set], ?_, ?_⟩
    · rw [processAll, h1]
      simp only [Outcome.bind, writeCell, if_pos (hout a List.mem_cons_self)]
      exact g1
    · intro c hc
      rw [List.map_cons, List.mem_cons, not_or] at hc
      rw [g4 c hc.2, List.getElem?_set_ne (fun h => hc.1 h.symm)]
    · intro b hb
      rcases List.mem_cons.mp hb with rfl | hb
      · refine ⟨v, type, ?_, h3, aggregated_mono h4 g2⟩
        rw [g4 _ hnd.1, List.getElem?_set_self (hout b List.mem_cons_self)]
      · exact g5 b hb

/-- The state before row `pos` is looked at. -/
def Inv (env : Env F) (types : List RT) (aggs : List Aggregate) (cols : List Nat) (wr : Nat) (t : Table) (pos : Nat) (s : St) : Prop :=
  s.blockStart < pos ∧ pos ≤ t.length ∧
  (∃ r, t[s.blockStart]? = some r ∧ s.current = cols.zip (key cols r) ∧
    (∀ j x, t[j]? = some x → s.blockStart ≤ j → j < pos → key cols x = key cols r) ∧
    (∀ j x, t[j]? = some x → j < s.blockStart → key cols x < key cols r)) ∧
  List.Forall₂ (RowFor env types aggs s.vocab) (groups cols (t.take s.blockStart)) s.result ∧ ∀ row ∈ s.result, row.length = wr

theorem forall₂_append {R : α → β → Prop} {l1 l2 : List α} {m1 m2 : List β} (h1 : List.Forall₂ R l1 m1) (h2 : List.Forall₂ R l2 m2) :
    List.Forall₂ R (l1 ++ l2) (m1 ++ m2) := by
  induction h1 with
  | nil => exact h2
  | cons h _ ih => exact .cons h ih

theorem forall₂_imp {R S : α → β → Prop} (h : ∀ a b, R a b → S a b) {l : List α} {m : List β} (h1 : List.Forall₂ R l m) :
    List.Forall₂ S l m := by
  induction h1 with
  | nil => exact .nil
  | cons h' _ ih => exact .cons (h _ _ h') ih

/-- The group that ends before `pos`. -/
theorem groups_take {cols : List Nat} {t : Table} {bs pos : Nat} {r : Row} (hbs : bs < pos) (hp : pos ≤ t.length)
    (heq : ∀ j x, t[j]? = some x → bs ≤ j → j < pos → key cols x = key cols r)
    (hlt : ∀ j x, t[j]? = some x → j < bs → key cols x < key cols r) :
    groups cols (t.take pos) = groups cols (t.take bs) ++ [(t.drop bs).take (pos - 1 - bs + 1)] := by
  have hs : t.take pos = t.take bs ++ (t.drop bs).take (pos - 1 - bs + 1) := by
    have : pos = bs + (pos - 1 - bs + 1) := by omega
    conv => lhs; rw [this, List.take_add]
  rw [hs]
  refine groups_append (k := key cols r) ?_ ?_ ?_
  · intro h
    have := congrArg List.length h
    simp at this
    omega
  · intro x hx
    obtain ⟨j, hj⟩ := List.getElem?_of_mem hx
    rw [List.getElem?_take] at hj
    split at hj
    · rename_i hjl
      rw [List.getElem?_drop] at hj
      exact heq _ x hj (by omega) (by omega)
    · cases hj
  · intro x hx
    obtain ⟨j, hj⟩ := List.getElem?_of_mem hx
    rw [List.getElem?_take] at hj
    split at hj
    · exact ne_of_lt (hlt _ x hj (by omega))
    · cases hj

theorem step_spec {env : Env F} {fin : F → Prop} (hf : FiniteFloats env fin) {w : Nat} {t : Table} {types : List RT}
    (hw : t.WF w) (htypes : types.length = w) {aggs : List Aggregate} {fresh : Row}
    (hok : ∀ a ∈ aggs, AggOk env fin w t types a) (hnd : (aggs.map (·.outCol)).Nodup) (hout : ∀ a ∈ aggs, a.outCol < fresh.length)
    {cols : List Nat} (hcols : ∀ c ∈ cols, c < w) (hsorted : SortedOnCols cols t) {pos : Nat} (hpos : pos < t.length) {s : St}
    (hI : Inv env types aggs cols fresh.length t pos s) :
    ∃ s', step env fresh t types aggs pos s = .ok s' ∧ Inv env types aggs cols fresh.length t (pos + 1) s' := by
  obtain ⟨h1, h2, ⟨r, hr, hcur, heq, hlt⟩, h4, h5⟩ := hI
  unfold step
  rw [hcur, rowMatches_eq hw hpos hcols]
  simp only [Outcome.bind]
  by_cases hk : key cols t[pos] = key cols r
  · refine ⟨s, by simp [hk], by omega, by omega, ⟨r, hr, hcur, ?_, hlt⟩, h4, h5⟩
    intro j x hx hj1 hj2
    by_cases hjp : j = pos
    · subst hjp
      rw [List.getElem?_eq_getElem hpos] at hx
      cases hx; exact hk
    · exact heq j x hx hj1 (by omega)
  · obtain ⟨row, vocab', g1, g2, g3, _, g5⟩ := processAll_spec hf hw htypes (by omega : s.blockStart ≤ pos - 1)
      (by omega : pos - 1 < t.length) aggs fresh s.vocab hok hnd hout
    have hlt' : key cols r < key cols t[pos] := by
      have hbsl : s.blockStart < t.length := by omega
      have hre : t[s.blockStart] = r := by rw [List.getElem?_eq_getElem hbsl] at hr; exact Option.some.inj hr
      have := List.pairwise_iff_getElem.mp hsorted s.blockStart pos hbsl hpos h1
      rw [hre] at this
      exact lt_of_le_of_ne (not_lt.mp this) fun h => hk h.symm
    refine ⟨⟨pos, cols.zip (key cols t[pos]), s.result ++ [row], vocab'⟩, ?_, ?_⟩
    · simp only [hk, decide_false, Bool.false_eq_true, if_false]
      rw [zip_key_fst, g1, readKey_eq hw hpos hcols]
    · refine ⟨by simp, by omega, ⟨t[pos], List.getElem?_eq_getElem hpos, rfl, ?_, ?_⟩, ?_, ?_⟩
      · intro j x hx hj1 hj2
        have hj : j = pos := by simp only [] at hj1; omega
        subst hj
        rw [List.getElem?_eq_getElem hpos] at hx
        cases hx; rfl
      · intro j x hx hj
        simp only [] at hj
        by_cases hjb : j < s.blockStart
        · exact lt_trans (hlt j x hx hjb) hlt'
        · rw [heq j x hx (by omega) hj]; exact hlt'
      · simp only []
        rw [groups_take h1 h2 heq hlt]
        exact forall₂_append (forall₂_imp (fun g row h => rowFor_mono h g2) h4) (.cons g5 .nil)
      · intro x hx
        rcases List.mem_append.mp hx with hx | hx
        · exact h5 x hx
        · rw [List.mem_singleton.mp hx, g3]

theorem rows_spec {env : Env F} {fin : F → Prop} (hf : FiniteFloats env fin) {w : Nat} {t : Table} {types : List RT}
    (hw : t.WF w) (htypes : types.length = w) {aggs : List Aggregate} {fresh : Row}
    (hok : ∀ a ∈ aggs, AggOk env fin w t types a) (hnd : (aggs.map (·.outCol)).Nodup) (hout : ∀ a ∈ aggs, a.outCol < fresh.length)
    {cols : List Nat} (hcols : ∀ c ∈ cols, c < w) (hsorted : SortedOnCols cols t) :
    ∀ (k pos : Nat) (s : St), pos + k = t.length → Inv env types aggs cols fresh.length t pos s →
      ∃ s', rows env fresh t types aggs pos k s = .ok s' ∧ Inv env types aggs cols fresh.length t t.length s' := by
  intro k
  induction k with
  | zero =>
    intro pos s hp hI
    have : pos = t.length := by omega
    subst this
    exact ⟨s, rfl, hI⟩
  | succ k ih =>
    intro pos s hp hI
    obtain ⟨s1, h1, hI1⟩ := step_spec hf hw htypes hok hnd hout hcols hsorted (by omega : pos < t.length) hI
    obtain ⟨s2, h2, hI2⟩ := ih (pos + 1) s1 (by omega) hI1
    exact ⟨s2, by rw [rows, h1]; exact h2, hI2⟩

theorem doGroupBy_spec {env : Env F} {fin : F → Prop} (hf : FiniteFloats env fin) {w : Nat} {t : Table} {types : List RT}
    (hw : t.WF w) (htypes : types.length = w) {aggs : List Aggregate} {fresh : Row}
    (hok : ∀ a ∈ aggs, AggOk env fin w t types a) (hnd : (aggs.map (·.outCol)).Nodup) (hout : ∀ a ∈ aggs, a.outCol < fresh.length)
    {cols : List Nat} (hne : cols ≠ []) (hcols : ∀ c ∈ cols, c < w) (hsorted : SortedOnCols cols t) :
    ∃ rows vocab, doGroupBy env fresh t types cols aggs = .ok (rows, vocab) ∧
      List.Forall₂ (RowFor env types aggs vocab) (groups cols t) rows ∧ ∀ row ∈ rows, row.length = fresh.length := by
  unfold doGroupBy
  by_cases h0 : t.length = 0
  · rw [if_pos h0]
    have : t = [] := List.length_eq_zero_iff.mp h0
    subst this
    exact ⟨[], [], rfl, .nil, by simp⟩
  · rw [if_neg h0, if_neg hne, readKey_eq hw (by omega : 0 < t.length) hcols]
    simp only [Outcome.bind]
    have hI0 : Inv env types aggs cols fresh.length t 1 ⟨0, cols.zip (key cols t[0]), [], []⟩ := by
      refine ⟨by simp, by omega, ⟨t[0], List.getElem?_eq_getElem _, rfl, ?_, ?_⟩, ?_, by simp⟩
      · intro j x hx _ hj
        have : j = 0 := by omega
        subst this
        rw [List.getElem?_eq_getElem (by omega)] at hx
        cases hx; rfl
      · intro j x _ hj; simp at hj
      · simp only [List.take_zero]; exact .nil
    obtain ⟨s, hs, h1, h2, ⟨r, hr, hcur, heq, hlt⟩, h4, h5⟩ :=
      rows_spec hf hw htypes hok hnd hout hcols hsorted (t.length - 1) 1 _ (by omega) hI0
    obtain ⟨row, vocab', g1, g2, g3, _, g5⟩ := processAll_spec hf hw htypes (by omega : s.blockStart ≤ t.length - 1)
      (by omega : t.length - 1 < t.length) aggs fresh s.vocab hok hnd hout
    refine ⟨s.result ++ [row], vocab', ?_, ?_, ?_⟩
    · rw [hs]
      simp only [g1, Outcome.map]
    · have := groups_take h1 h2 heq hlt
      rw [List.take_length] at this
      rw [this]
      exact forall₂_append (forall₂_imp (fun g row h => rowFor_mono h g2) h4) (.cons g5 .nil)
    · intro x hx
      rcases List.mem_append.mp hx with hx | hx
      · exact h5 x hx
      · rw [List.mem_singleton.mp hx, g3]

end Verif.GroupBy
