import Verif.Spec.Join
import Mathlib.Order.Defs.LinearOrder
/-
Lists of matching pairs, used for all merge-like joins.
-/
namespace Verif.Merge

variable {α β γ κ : Type}

/-- What one left row contributes. -/
def row [DecidableEq κ] (ka : α → κ) (kb : β → κ) (pair : α → β → γ) (padA : α → List γ) (bs : List β) (x : α) : List γ :=
  match bs.filter fun y => kb y = ka x with
  | [] => padA x
  | m => m.map (pair x)

/-- All left rows. -/
def left [DecidableEq κ] (ka : α → κ) (kb : β → κ) (pair : α → β → γ) (padA : α → List γ) (as : List α) (bs : List β) :
    List γ :=
  as.flatMap (row ka kb pair padA bs)

/-- What the right rows without partner contribute. -/
def right [DecidableEq κ] (ka : α → κ) (kb : β → κ) (padB : β → List γ) (as : List α) (bs : List β) : List γ :=
  bs.flatMap fun y => if ∃ x ∈ as, ka x = kb y then [] else padB y

section
variable [DecidableEq κ] {ka : α → κ} {kb : β → κ} {pair : α → β → γ} {padA : α → List γ} {padB : β → List γ}

theorem row_none {bs : List β} {x : α} (h : ∀ y ∈ bs, kb y ≠ ka x) : row ka kb pair padA bs x = padA x := by
  have : bs.filter (fun y => kb y = ka x) = [] := by simpa [List.filter_eq_nil_iff] using h
  simp [row, this]

theorem row_eq {bs m : List β} {x : α} (h : bs.filter (fun y => kb y = ka x) = m) (hm : m ≠ []) :
    row ka kb pair padA bs x = m.map (pair x) := by
  cases m with
  | nil => exact absurd rfl hm
  | cons y m => simp only [row, h]

theorem left_nil (bs : List β) : left ka kb pair padA [] bs = [] := rfl

theorem left_cons (x : α) (as : List α) (bs : List β) :
    left ka kb pair padA (x :: as) bs = row ka kb pair padA bs x ++ left ka kb pair padA as bs := by
  simp [left]

theorem left_append (xs as : List α) (bs : List β) :
    left ka kb pair padA (xs ++ as) bs = left ka kb pair padA xs bs ++ left ka kb pair padA as bs := by
  simp [left]

theorem left_nil_right (as : List α) : left ka kb pair padA as [] = as.flatMap padA := by
  have : row ka kb pair padA [] = padA := by funext x; rfl
  simp only [left, this]

theorem left_skip_right {as : List α} {ys bs : List β} (h : ∀ x ∈ as, ∀ y ∈ ys, kb y ≠ ka x) :
    left ka kb pair padA as (ys ++ bs) = left ka kb pair padA as bs := by
  induction as with
  | nil => rfl
  | cons x as ih =>
    rw [left_cons, left_cons, ih (fun x hx => h x (List.mem_cons_of_mem _ hx))]
    congr 1
    have : ys.filter (fun y => kb y = ka x) = [] := by
      simpa [List.filter_eq_nil_iff] using h x List.mem_cons_self
    simp [row, List.filter_append, this]

theorem right_nil (as : List α) : right ka kb padB as [] = [] := rfl

theorem right_cons (as : List α) (y : β) (bs : List β) :
    right ka kb padB as (y :: bs) = (if ∃ x ∈ as, ka x = kb y then [] else padB y) ++ right ka kb padB as bs := by
  simp [right]

theorem right_nil_left (bs : List β) : right ka kb padB [] bs = bs.flatMap padB := by
  simp [right]

theorem right_skip_left {xs as : List α} {bs : List β} (h : ∀ x ∈ xs, ∀ y ∈ bs, kb y ≠ ka x) :
    right ka kb padB (xs ++ as) bs = right ka kb padB as bs := by
  induction bs with
  | nil => rfl
  | cons y bs ih =>
    rw [right_cons, right_cons, ih (fun x hx y hy => h x hx y (List.mem_cons_of_mem _ hy))]
    congr 1
    have : (∃ x ∈ xs ++ as, ka x = kb y) ↔ ∃ x ∈ as, ka x = kb y := by
      constructor
      · rintro ⟨x, hx, he⟩
        rcases List.mem_append.mp hx with hx | hx
        · exact absurd he.symm (h x hx y List.mem_cons_self)
        · exact ⟨x, hx, he⟩
      · rintro ⟨x, hx, he⟩
        exact ⟨x, List.mem_append_right _ hx, he⟩
    simp only [this]

theorem left_noPad (as : List α) (bs : List β) :
    left ka kb pair (fun _ => []) as bs = as.flatMap fun x => (bs.filter fun y => kb y = ka x).map (pair x) := by
  unfold left
  congr 1
  funext x
  unfold row
  split <;> simp_all
end

theorem drop_eq {l : List α} {i : Nat} (h : i < l.length) : l.drop i = l[i] :: l.drop (i + 1) := by
  rw [List.getElem_cons_drop]

theorem mem_drop_of_le {l : List α} {i j : Nat} (h : i ≤ j) {x : α} (hx : x ∈ l.drop j) : x ∈ l.drop i := by
  obtain ⟨d, rfl⟩ := Nat.exists_eq_add_of_le h
  rw [← List.drop_drop] at hx
  exact List.mem_of_mem_drop hx

/-- In a list sorted by `k`, what comes later is not smaller. -/
theorem sorted_le [LinearOrder κ] {k : α → κ} {l : List α} (hs : l.Pairwise fun x y => k x ≤ k y) {i : Nat}
    (hi : i < l.length) {x : α} (hx : x ∈ l.drop i) : k l[i] ≤ k x := by
  rw [drop_eq hi] at hx
  rcases List.mem_cons.mp hx with rfl | hx
  · exact le_refl _
  · have hp : (l.drop i).Pairwise fun x y => k x ≤ k y := hs.sublist (List.drop_sublist _ _)
    rw [drop_eq hi] at hp
    exact (List.pairwise_cons.mp hp).1 x hx

theorem sorted_getElem_le [LinearOrder κ] {k : α → κ} {l : List α} (hs : l.Pairwise fun x y => k x ≤ k y) {i j : Nat}
    (hij : i ≤ j) (hj : j < l.length) : k (l[i]'(by omega)) ≤ k l[j] := by
  apply sorted_le hs
  rw [List.mem_drop_iff_getElem]
  exact ⟨j - i, by omega, by congr 1; omega⟩

/-- Split a suffix. -/
theorem drop_split {l : List α} {i j : Nat} (h : i ≤ j) : l.drop i = (l.drop i).take (j - i) ++ l.drop j := by
  have := List.take_append_drop (j - i) (l.drop i)
  rw [List.drop_drop, show i + (j - i) = j by omega] at this
  exact this.symm

theorem mem_slice {l : List α} {i j : Nat} {x : α} (h : x ∈ (l.drop i).take (j - i)) :
    ∃ t, ∃ ht : t < l.length, i ≤ t ∧ t < j ∧ x = l[t] := by
  obtain ⟨t, ht, rfl⟩ := List.mem_iff_getElem.mp h
  simp only [List.length_take, List.length_drop] at ht
  refine ⟨i + t, by omega, by omega, by omega, ?_⟩
  simp

theorem slice_succ {l : List α} {i j : Nat} (h : i ≤ j) (hj : j < l.length) :
    (l.drop i).take (j + 1 - i) = (l.drop i).take (j - i) ++ [l[j]] := by
  have : j + 1 - i = (j - i) + 1 := by omega
  rw [this, List.take_add_one]
  congr 1
  rw [List.getElem?_drop, show i + (j - i) = j by omega, List.getElem?_eq_getElem hj]
  rfl

/-- An interleaving of two lists. -/
inductive Shuffle : List γ → List γ → List γ → Prop where
  | nil : Shuffle [] [] []
  | snocL {xs ys zs : List γ} (x : γ) (h : Shuffle xs ys zs) : Shuffle (xs ++ [x]) ys (zs ++ [x])
  | snocR {xs ys zs : List γ} (y : γ) (h : Shuffle xs ys zs) : Shuffle xs (ys ++ [y]) (zs ++ [y])

theorem Shuffle.perm {xs ys zs : List γ} (h : Shuffle xs ys zs) : zs.Perm (xs ++ ys) := by
  induction h with
  | nil => exact .nil
  | snocL x h ih =>
    rename_i xs ys zs
    have : (xs ++ [x] ++ ys).Perm (xs ++ ys ++ [x]) := by
      rw [List.append_assoc, List.append_assoc]
      exact List.Perm.append_left xs List.perm_append_comm
    exact ((ih.append_right [x]).trans this.symm)
  | snocR y h ih => rw [← List.append_assoc]; exact ih.append_right [y]

theorem Shuffle.appendL {xs ys zs : List γ} (h : Shuffle xs ys zs) (l : List γ) : Shuffle (xs ++ l) ys (zs ++ l) := by
  induction l generalizing xs zs with
  | nil => simpa using h
  | cons x l ih =>
    have := ih (Shuffle.snocL x h)
    simpa [List.append_assoc] using this

theorem Shuffle.appendR {xs ys zs : List γ} (h : Shuffle xs ys zs) (l : List γ) : Shuffle xs (ys ++ l) (zs ++ l) := by
  induction l generalizing ys zs with
  | nil => simpa using h
  | cons x l ih =>
    have := ih (Shuffle.snocR x h)
    simpa [List.append_assoc] using this

theorem Shuffle.eq_left {xs ys zs : List γ} (h : Shuffle xs ys zs) (hy : ys = []) : zs = xs := by
  induction h with
  | nil => rfl
  | snocL x h ih => rw [ih hy]
  | snocR y h ih => simp at hy

theorem Shuffle.eq_right {xs ys zs : List γ} (h : Shuffle xs ys zs) (hy : xs = []) : zs = ys := by
  induction h with
  | nil => rfl
  | snocR x h ih => rw [ih hy]
  | snocL y h ih => simp at hy

end Verif.Merge
