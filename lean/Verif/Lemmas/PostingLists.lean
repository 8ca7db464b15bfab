import Verif.Model.PostingLists
import Verif.Lemmas.Bytes
import Verif.Lemmas.Simple8b
namespace Verif.PostingLists
open Verif.Bytes Verif.Simple8b

theorem sumUp_gaps (last : Nat) (cs : List Nat) (hs : (last :: cs).Pairwise (· ≤ ·))
    (hc : ∀ c ∈ last :: cs, c < 2 ^ 64) : sumUp last (gaps last cs) = cs := by
  induction cs generalizing last with
  | nil => rfl
  | cons c cs ih =>
    have h1 : last ≤ c := (List.pairwise_cons.mp hs).1 c (by simp)
    have h2 : c < 2 ^ 64 := hc c (by simp)
    have h3 : last < 2 ^ 64 := hc last (by simp)
    have h4 : (last + (c + 2 ^ 64 - last) % 2 ^ 64) % 2 ^ 64 = c := by omega
    simp only [gaps, sumUp, h4]
    rw [ih c (List.pairwise_cons.mp hs).2 (fun x hx => hc x (by simp at hx ⊢; exact Or.inr hx))]

theorem gaps_lt (last : Nat) (cs : List Nat) (hs : (last :: cs).Pairwise (· ≤ ·))
    (hc : ∀ c ∈ last :: cs, c < 2 ^ 60) : ∀ g ∈ gaps last cs, g < 2 ^ 60 := by
  induction cs generalizing last with
  | nil => simp [gaps]
  | cons c cs ih =>
    have h1 : last ≤ c := (List.pairwise_cons.mp hs).1 c (by simp)
    have h2 : c < 2 ^ 60 := hc c (by simp)
    simp only [gaps, List.mem_cons]
    rintro g (rfl | hg)
    · omega
    · exact ih c (List.pairwise_cons.mp hs).2 (fun x hx => hc x (by simp at hx ⊢; exact Or.inr hx)) g hg

theorem length_gaps (last : Nat) (cs : List Nat) : (gaps last cs).length = cs.length := by
  induction cs generalizing last with
  | nil => rfl
  | cons c cs ih => simp [gaps, ih]

theorem contextList_spec (cs : List Nat) (hs : cs.Pairwise (· ≤ ·)) (hc : ∀ c ∈ cs, c < 2 ^ 60) :
    sumUp 0 (contextList cs) = cs ∧ (∀ g ∈ contextList cs, g < 2 ^ 60) ∧ (contextList cs).length = cs.length := by
  cases cs with
  | nil => simp [contextList, sumUp]
  | cons c cs =>
    have hc' : ∀ x ∈ c :: cs, x < 2 ^ 64 := fun x hx => by have := hc x hx; omega
    have h1 : c < 2 ^ 60 := hc c (by simp)
    refine ⟨?_, ?_, by simp [contextList, length_gaps]⟩
    · simp only [contextList, sumUp, Nat.zero_add]
      rw [Nat.mod_eq_of_lt (hc' c (by simp)), sumUp_gaps c cs hs hc']
    · simp only [contextList, List.mem_cons]
      rintro g (rfl | hg)
      · exact h1
      · exact gaps_lt c cs hs hc g hg

/-- What `writeList` writes is read back by `decodeInto`. -/
theorem writeList_spec (k : Nat) (xs : List Nat) (h60 : ∀ x ∈ xs, x < 2 ^ 60) (hk : ∀ x ∈ xs, x < 256 ^ k) :
    ∃ b, writeList xs = .ok b ∧ b.length % 8 = 0 ∧ b.length ≤ 8 * xs.length ∧
      decodeInto k (toArr 8 (b.length / 8) b) xs.length = .ok xs := by
  obtain ⟨ws, hws⟩ := encode_ok xs h60
  obtain ⟨hl, z, hz, hd⟩ := decodeLoop_encode xs ws hws
  have hlt := encode_ok_ws_lt xs ws hws
  refine ⟨ofArr 8 ws, by simp [writeList, hws], by simp, by simp; omega, ?_⟩
  have : toArr 8 ((ofArr 8 ws).length / 8) (ofArr 8 ws) = ws := by
    rw [length_ofArr, Nat.mul_div_cancel_left _ (by decide)]
    have := toArr_ofArr 8 ws [] (fun x hx => by have := hlt x hx; simpa using this)
    rwa [List.append_nil] at this
  rw [this, decodeInto, hd]
  simp only [Outcome.bind]
  rw [if_pos (by simp; omega)]
  congr 1
  rw [List.map_append, List.take_append_of_le_length (by simp)]
  rw [List.take_of_length_le (by simp)]
  conv => rhs; rw [← List.map_id xs]
  apply List.map_congr_left
  intro x hx
  exact Nat.mod_eq_of_lt (hk x hx)

theorem lookupAll_code (cb xs : List Nat) (h : ∀ x ∈ xs, x ∈ cb) :
    lookupAll cb (xs.map (code cb)) = .ok xs := by
  induction xs with
  | nil => rfl
  | cons x xs ih =>
    have hx := h x (by simp)
    have hlt : cb.idxOf x < cb.length := List.idxOf_lt_length_of_mem hx
    simp only [List.map_cons, lookupAll, code]
    rw [Outcome.read_lt cb _ hlt, List.getElem_idxOf hlt]
    simp only [Outcome.bind]
    have := ih (fun y hy => h y (by simp [hy]))
    rw [this]; rfl

theorem codebook_length (xs cb : List Nat) (h : IsCodebook xs cb) : cb.length ≤ xs.length := by
  have : cb ⊆ xs := fun x hx => (h.2 x).mp hx
  exact (List.subset_iff_nodup_length cb xs h.1 this)
where
  List.subset_iff_nodup_length (cb xs : List Nat) (hn : cb.Nodup) (hs : cb ⊆ xs) : cb.length ≤ xs.length := by
    induction cb generalizing xs with
    | nil => simp
    | cons c cb ih =>
      have hc : c ∈ xs := hs (by simp)
      have hn' := List.nodup_cons.mp hn
      have : cb ⊆ xs.erase c := by
        intro y hy
        have hyx : y ∈ xs := hs (by simp [hy])
        have hne : y ≠ c := fun e => hn'.1 (e ▸ hy)
        exact (List.mem_erase_of_ne hne).mpr hyx
      have := ih (xs.erase c) hn'.2 this
      rw [List.length_erase_of_mem hc] at this
      have : 0 < xs.length := List.length_pos_of_mem hc
      simp; omega

theorem code_lt (xs cb : List Nat) (h : IsCodebook xs cb) (x : Nat) (hx : x ∈ xs) : code cb x < cb.length :=
  List.idxOf_lt_length_of_mem ((h.2 x).mpr hx)

/-- Reading a frequency-encoded list that sits at `pre.length` in the file. -/
theorem readFreq_spec (k : Nat) (hk : 0 < k) (cb xs : List Nat) (pre post b : List Nat)
    (hmem : ∀ x ∈ xs, x ∈ cb) (hcb : ∀ x ∈ cb, x < 256 ^ k) (hlen : k * cb.length < 256 ^ 8)
    (hb8 : b.length ≤ 8 * xs.length)
    (hd : decodeInto k (toArr 8 (b.length / 8) b) xs.length = .ok (xs.map (code cb))) :
    readFreq k (pre ++ (writeCodebook k cb ++ b) ++ post) xs.length pre.length (writeCodebook k cb ++ b).length =
      .ok xs := by
  have e1 : pread (pre ++ (writeCodebook k cb ++ b) ++ post) pre.length 8 = toLE 8 (k * cb.length) :=
    pread_mid' _ pre _ (ofArr k cb ++ b ++ post) _ _ (by simp [writeCodebook]) rfl (by simp)
  have e2 : pread (pre ++ (writeCodebook k cb ++ b) ++ post) (pre.length + 8) (k * cb.length) = ofArr k cb :=
    pread_mid' _ (pre ++ toLE 8 (k * cb.length)) _ (b ++ post) _ _ (by simp [writeCodebook]) (by simp) (by simp)
  have hl : (writeCodebook k cb ++ b).length = 8 + k * cb.length + b.length := by
    simp [writeCodebook]; omega
  have e3 : pread (pre ++ (writeCodebook k cb ++ b) ++ post) (pre.length + 8 + k * cb.length) b.length = b :=
    pread_mid' _ (pre ++ toLE 8 (k * cb.length) ++ ofArr k cb) _ post _ _ (by simp [writeCodebook])
      (by simp; omega) rfl
  have hr : 8 + k * cb.length + b.length - (8 + k * cb.length) = b.length := by omega
  have ht : toArr k (k * cb.length / k) (ofArr k cb) = cb := by
    rw [Nat.mul_div_cancel_left _ hk]
    have := toArr_ofArr k cb [] hcb
    rwa [List.append_nil] at this
  simp only [readFreq, e1, ofLE_toLE 8 _ hlen, e2, length_toLE, length_ofArr, hl, hr, e3, ne_eq, not_true_eq_false,
    if_false, ht, hd, Outcome.bind, lookupAll_code cb xs hmem]
  rw [if_neg (by omega), if_neg (by omega)]

end Verif.PostingLists
