import Verif.Lemmas.FTSKWay
/- The main theorem about `intersectKWay`. -/
namespace Verif.FTS
open Outcome Verif.Spec.Text

theorem foldl_min_gt (l : List Nat) (a n : Nat) (ha : n < a) (h : ∀ x ∈ l, n < x) : n < l.foldl min a := by
  induction l generalizing a with
  | nil => exact ha
  | cons b l ih =>
    rw [List.foldl_cons]
    refine ih _ ?_ fun x hx => h x (List.mem_cons_of_mem _ hx)
    have := h b List.mem_cons_self
    omega

theorem getD_replicate (k i : Nat) : (List.replicate k 0).getD i 0 = 0 := by
  simp only [List.getD_eq_getElem?_getD, List.getElem?_replicate]
  split <;> rfl

theorem inv_start (ls : List (List Posting)) (ent : Bool) (hk : 2 ≤ ls.length) (hs : ∀ l ∈ ls, Sorted l)
    (h0 : 0 < (lastList ls).length) :
    Inv ls ent ⟨List.replicate ls.length 0, (lastList ls)[0].cid, ls.length - 1, 0, ⟨[], [], []⟩⟩ := by
  refine ⟨by simp, by dsimp only; omega, ?_, ?_, ?_, ?_⟩
  · intro i _
    dsimp only
    rw [getD_replicate]
    omega
  · intro i _ t _ h
    dsimp only at h
    rw [getD_replicate] at h
    omega
  · intro _ i hi
    dsimp only
    constructor
    · intro h
      unfold InStreak at h
      omega
    · intro _ t _ h
      rw [getD_replicate] at h
      omega
  · dsimp only
    have : upTo ls ent (lastList ls)[0].cid = [] := by
      unfold upTo
      rw [List.filter_eq_nil_iff]
      intro p hp
      obtain ⟨t, ht, rfl⟩ := List.getElem_of_mem (cand_mem hp)
      have : (lastList ls)[0].cid ≤ (lastList ls)[t].cid := by
        by_cases e : t = 0
        · subst e; exact Nat.le_refl _
        · exact (List.pairwise_iff_getElem.1 (hs _ (lst_mem ls (by omega)))) 0 t h0 ht (by omega)
      simp only [decide_eq_true_eq, not_and]
      omega
    have hb : bound ls ⟨List.replicate ls.length 0, (lastList ls)[0].cid, ls.length - 1, 0, ⟨[], [], []⟩⟩ =
        (lastList ls)[0].cid := by
      unfold bound
      dsimp only
      rw [if_pos (by omega)]
    rw [hb, this]
    cases ent <;> rfl

theorem kWay_spec (ls : List (List Posting)) (ent : Bool) (hk : 2 ≤ ls.length) (hs : ∀ l ∈ ls, Sorted l)
    (hsize : ∀ l ∈ ls, l.length < 2 ^ 64) (hne : lastList ls ≠ []) (hne' : ent = false → [] ∉ ls) (old : Triple)
    (fuel : Nat) (hf : ∀ l ∈ ls, l.length + 1 < fuel) (hf' : 2 * (ls.map List.length).sum + 2 < fuel) :
    intersectKWay fuel (ls.map fun l => l.map (·.cid)) (ls.map fun l => l.map (·.score))
        (if ent then some ((lastList ls).map (·.eid)) else none) old =
      .ok { emitted ls ent (final ls ent) with eids := if ent then (final ls ent).map (·.eid) else old.eids } := by
  have hkl : ls.length - 1 < ls.length := by omega
  have h0 : 0 < (lastList ls).length := List.length_pos_of_ne_nil hne
  have hstart := inv_start ls ent hk hs h0
  have hmeas : measure ls ⟨List.replicate ls.length 0, (lastList ls)[0].cid, ls.length - 1, 0, ⟨[], [], []⟩⟩ < fuel := by
    unfold measure
    dsimp only
    rw [if_pos (by omega)]
    have : rest ls ⟨List.replicate ls.length 0, (lastList ls)[0].cid, ls.length - 1, 0, ⟨[], [], []⟩⟩ =
        (ls.map List.length).sum := by
      unfold rest
      congr 1
      apply List.ext_getElem
      · simp
      · intro i h1 h2
        have hi : i < ls.length := by simpa using h2
        simp only [List.getElem_map, List.getElem_range, getD_replicate]
        rw [lst_eq ls hi]
        rfl
    omega
  unfold intersectKWay
  simp only [List.length_map, read_map ls hkl, Outcome.bind]
  rw [if_neg (by omega), if_neg (show ¬ (lst ls (ls.length - 1)).length = 0 from Nat.ne_of_gt h0)]
  rw [read_lt _ _ (by simpa using h0), List.getElem_map]
  cases ent with
  | true =>
    obtain ⟨r, hr, hQ⟩ := loop_spec (body := kBody fuel (lastList ls).length (ls.map fun l => l.map (·.cid))
        (ls.map fun l => l.map (·.score)) (some ((lastList ls).map (·.eid)))) (Inv ls true)
      (fun r => r = emitted ls true (final ls true)) (measure ls)
      (fun s hI => kBody_spec (ent := true) hk hs _ rfl fuel hf s hI) fuel _ hstart hmeas
    rw [if_neg (by simp)]
    simp only [if_true, List.length_map]
    rw [hr, hQ]
    rfl
  | false =>
    have hno : ¬ (([] : List Nat) ∈ ls.map fun l => l.map (·.cid)) := by
      intro h
      obtain ⟨l, hl, e⟩ := List.mem_map.1 h
      rw [List.map_eq_nil_iff] at e
      subst e
      exact hne' rfl hl
    rw [if_neg (by
      rintro ⟨_, h⟩
      exact hno h)]
    obtain ⟨r, hr, hQ⟩ := loop_spec (body := kBody fuel
        (((ls.map fun l => l.map (·.cid)).map List.length).foldl min (2 ^ 64 - 1)) (ls.map fun l => l.map (·.cid))
        (ls.map fun l => l.map (·.score)) none) (Inv ls false)
      (fun r => r = emitted ls false (final ls false)) (measure ls)
      (fun s hI => kBody_spec (ent := false) hk hs _ (by
        rw [if_neg (by simp)]
        intro n hn
        refine foldl_min_gt _ _ _ ?_ ?_
        · have h1 := hn _ (lst_mem ls hkl)
          have h2 := hsize _ (lst_mem ls hkl)
          omega
        · intro x hx
          obtain ⟨l', hl', rfl⟩ := List.mem_map.1 hx
          obtain ⟨l, hl, rfl⟩ := List.mem_map.1 hl'
          simpa using hn l hl) fuel hf s hI) fuel _ hstart hmeas
    simp only [if_neg (by simp : ¬ (false = true))]
    rw [hr, hQ]
    rfl

end Verif.FTS
