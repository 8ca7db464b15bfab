import Verif.Model.CompactStringVector
import Verif.Lemmas.Bytes
namespace Verif.CompactStringVector
open Verif.Bytes

/-- Prefix sums starting at `c` (without the final one). -/
def sums : Nat → List (List Nat) → List Nat
  | _, [] => []
  | c, l :: ls => c :: sums (c + l.length) ls

@[simp] theorem length_sums (c : Nat) (ls : List (List Nat)) : (sums c ls).length = ls.length := by
  induction ls generalizing c with
  | nil => rfl
  | cons l ls ih => simp [sums, ih]

theorem exists_append_length {α} (l : List α) (n m : Nat) (h : l.length = n + m) :
    ∃ a b, l = a ++ b ∧ a.length = n ∧ b.length = m :=
  ⟨l.take n, l.drop n, by simp, by simp; omega, by simp; omega⟩

theorem buildLoop_spec (iw dw indexEnd : Nat) (ls : List (List Nat)) (i cur : Nat)
    (idx idxU dat datU : List Nat) (hidx : idx.length = i * iw) (hidxU : idxU.length = (ls.length + 1) * iw)
    (hend : indexEnd = idx.length + idxU.length) (hdat : dat.length = dw * cur)
    (hdatU : datU.length = dw * (ls.map List.length).sum) (hmax : cur + (ls.map List.length).sum < 256 ^ iw) :
    ∃ u, u.length = iw ∧ buildLoop iw dw indexEnd ls i cur (idx ++ idxU ++ (dat ++ datU)) =
      .ok ((idx ++ ofArr iw (sums cur ls)) ++ u ++ (dat ++ ls.flatMap (ofArr dw)), i + ls.length,
        cur + (ls.map List.length).sum) := by
  induction ls generalizing i cur idx idxU dat datU with
  | nil =>
    simp at hdatU hidxU
    refine ⟨idxU, hidxU, ?_⟩
    simp [buildLoop, sums, ofArr, hdatU]
  | cons l ls ih =>
    simp only [List.map_cons, List.sum_cons] at hdatU hmax
    obtain ⟨u1, u2, rfl, hu1, hu2⟩ := exists_append_length idxU iw ((ls.length + 1) * iw)
      (by rw [hidxU, List.length_cons, Nat.succ_mul (ls.length + 1)]; omega)
    obtain ⟨d1, d2, rfl, hd1, hd2⟩ := exists_append_length datU (dw * l.length) (dw * (ls.map List.length).sum)
      (by rw [hdatU, Nat.mul_add])
    simp only [buildLoop]
    rw [blit_mid' _ idx u1 (u2 ++ (dat ++ (d1 ++ d2))) (toLE iw cur) (i * iw) (by simp) hidx.symm (by simp [hu1])]
    simp only [Outcome.bind]
    rw [blit_mid' _ (idx ++ toLE iw cur ++ u2 ++ dat) d1 d2 (ofArr dw l) (indexEnd + cur * dw) (by simp)
      (by simp [hend, hdat, hu1]; rw [Nat.mul_comm dw cur]; omega) (by simp [hd1])]
    simp only
    rw [Nat.mod_eq_of_lt (by omega)]
    obtain ⟨u, hu, hrec⟩ := ih (i + 1) (cur + l.length) (idx ++ toLE iw cur) u2 (dat ++ ofArr dw l) d2
      (by simp [hidx, Nat.succ_mul]) hu2 (by rw [hend]; simp [hu1]; omega) (by simp [hdat, Nat.mul_add]) hd2
      (by omega)
    refine ⟨u, hu, ?_⟩
    have e1 : idx ++ toLE iw cur ++ u2 ++ dat ++ ofArr dw l ++ d2 =
        idx ++ toLE iw cur ++ u2 ++ (dat ++ ofArr dw l ++ d2) := by simp
    rw [e1, hrec]
    simp [sums, ofArr_cons, Nat.add_assoc, Nat.add_comm, Nat.add_left_comm]

/-- The block that `build` produces. -/
theorem build_spec (iw dw : Nat) (ls : List (List Nat)) (init : Nat → List Nat) (hinit : ∀ n, (init n).length = n)
    (hd : (ls.map List.length).sum < 256 ^ iw) (hs : ls.length < 256 ^ iw) :
    build iw dw ls init = .ok ⟨ofArr iw (sums 0 ls ++ [(ls.map List.length).sum]) ++ ls.flatMap (ofArr dw), ls.length,
      (ls.length + 1) * iw, (ls.length + 1) * iw + dw * (ls.map List.length).sum⟩ := by
  unfold build
  simp only
  rw [if_neg (by omega), if_neg (by omega)]
  obtain ⟨a, b, hab, ha, hb⟩ := exists_append_length (init ((ls.length + 1) * iw + dw * (ls.map List.length).sum))
    ((ls.length + 1) * iw) (dw * (ls.map List.length).sum) (hinit _)
  obtain ⟨u, hu, hrec⟩ := buildLoop_spec iw dw ((ls.length + 1) * iw) ls 0 0 [] a [] b (by simp) ha (by simp [ha])
    (by simp) hb (by omega)
  simp only [List.nil_append] at hrec
  rw [hab, hrec]
  simp only [Outcome.bind, Nat.zero_add]
  rw [blit_mid' _ (ofArr iw (sums 0 ls)) u (ls.flatMap (ofArr dw)) (toLE iw (ls.map List.length).sum)
    (ls.length * iw) rfl (by simp [Nat.mul_comm]) (by simp [hu])]
  simp [Outcome.map, ofArr]

/-- The offset of list `i`. -/
theorem sums_getElem (c : Nat) (ls : List (List Nat)) (t : Nat) (i : Nat) (h : i < ls.length)
    (ht : t = c + (ls.map List.length).sum) :
    (sums c ls ++ [t])[i]? = some (c + ((ls.take i).map List.length).sum) ∧
    (sums c ls ++ [t])[i + 1]? = some (c + ((ls.take (i + 1)).map List.length).sum) := by
  subst ht
  induction ls generalizing c i with
  | nil => simp at h
  | cons l ls ih =>
    cases i with
    | zero =>
      constructor
      · simp [sums]
      · cases ls with
        | nil => simp [sums]
        | cons l' ls => simp [sums]
    | succ i =>
      have := ih (c + l.length) i (by simpa using h)
      simp [sums, ← Nat.add_assoc] at this ⊢
      exact this

theorem peek_arr (k : Nat) (xs rest : List Nat) (i x : Nat) (h : xs[i]? = some x) :
    peek (ofArr k xs ++ rest) (i * k) k = .ok (toLE k x) := by
  have hi : i < xs.length := by
    rcases Nat.lt_or_ge i xs.length with h' | h'
    · exact h'
    · rw [List.getElem?_eq_none h'] at h; cases h
  have hx : xs[i] = x := by rw [List.getElem?_eq_getElem hi] at h; exact Option.some.inj h
  have hsplit : xs = xs.take i ++ (x :: xs.drop (i + 1)) := by
    rw [← hx, List.getElem_cons_drop, List.take_append_drop]
  apply peek_mid' _ (ofArr k (xs.take i)) (toLE k x) (ofArr k (xs.drop (i + 1)) ++ rest)
  · conv => lhs; rw [hsplit]
    simp [ofArr_append, ofArr_cons]
  · simp [Nat.mul_comm]; rw [Nat.min_eq_left (by omega)]
  · simp

theorem get_build (iw dw : Nat) (ls : List (List Nat)) (hd : (ls.map List.length).sum < 256 ^ iw)
    (hx : ∀ l ∈ ls, ∀ x ∈ l, x < 256 ^ dw) (i : Nat) (h : i < ls.length) (s e d : Nat)
    (he : e = (ls.length + 1) * iw) :
    get iw dw ⟨ofArr iw (sums 0 ls ++ [(ls.map List.length).sum]) ++ ls.flatMap (ofArr dw), s, e, d⟩ i = .ok ls[i] := by
  obtain ⟨h1, h2⟩ := sums_getElem 0 ls _ i h (Nat.zero_add _).symm
  have hle : ((ls.take (i + 1)).map List.length).sum ≤ (ls.map List.length).sum := by
    conv => rhs; rw [← List.take_append_drop (i + 1) ls]
    rw [List.map_append, List.sum_append]; exact Nat.le_add_right _ _
  have hsucc : ((ls.take (i + 1)).map List.length).sum = ((ls.take i).map List.length).sum + ls[i].length := by
    rw [List.take_succ_eq_append_getElem h, List.map_append, List.sum_append]
    simp only [List.map_cons, List.map_nil, List.sum_cons, List.sum_nil, Nat.add_zero]
  simp only [get, peek_arr iw _ _ i _ h1, peek_arr iw _ _ (i + 1) _ h2, Outcome.bind, Nat.zero_add]
  rw [ofLE_toLE iw _ (by omega), ofLE_toLE iw _ (by omega)]
  have hn : (((ls.take (i + 1)).map List.length).sum + 256 ^ iw - ((ls.take i).map List.length).sum) % 256 ^ iw =
      ls[i].length := by
    rw [hsucc, show ∀ a b c : Nat, a + b + c - a = b + c by omega, Nat.add_mod_right, Nat.mod_eq_of_lt (by omega)]
  rw [hn]
  have hsplit : ls.flatMap (ofArr dw) = (ls.take i).flatMap (ofArr dw) ++ ofArr dw ls[i] ++
      (ls.drop (i + 1)).flatMap (ofArr dw) := by
    conv => lhs; rw [← List.take_append_drop i ls, ← List.getElem_cons_drop h]
    rw [List.flatMap_append, List.flatMap_cons, List.append_assoc]
  have hlenfm : ∀ (ks : List (List Nat)), (ks.flatMap (ofArr dw)).length = dw * (ks.map List.length).sum := by
    intro ks
    induction ks with
    | nil => simp
    | cons k ks ih => simp [ih, Nat.mul_add]
  rw [peek_mid' _ (ofArr iw (sums 0 ls ++ [(ls.map List.length).sum]) ++ (ls.take i).flatMap (ofArr dw))
    (ofArr dw ls[i]) ((ls.drop (i + 1)).flatMap (ofArr dw))]
  · simp only [Outcome.map]
    have := toArr_ofArr dw ls[i] [] (hx _ (List.getElem_mem h))
    rw [List.append_nil] at this
    rw [this]
  · rw [hsplit]; simp
  · rw [he, List.length_append, length_ofArr, hlenfm]
    simp [Nat.mul_comm]
  · simp

end Verif.CompactStringVector
