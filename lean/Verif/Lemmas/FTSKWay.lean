import Verif.Lemmas.FTSIntersect
import Mathlib.Data.List.Perm.Subperm
/- Lemmas about `intersectKWay`. -/
namespace Verif.FTS
open Outcome Verif.Spec.Text

/-- `t` is the position of the first posting of context `c`. -/
def FirstAt (l : List Posting) (c t : Nat) : Prop :=
  ∃ h : t < l.length, l[t].cid = c ∧ ∀ u (hu : u < l.length), u < t → l[u].cid < c

theorem scoreIn_first {l : List Posting} {c t : Nat} (h : FirstAt l c t) : ∃ ht : t < l.length, l[t].score = scoreIn l c := by
  obtain ⟨ht, hc, hb⟩ := h
  refine ⟨ht, ?_⟩
  have : l.find? (·.cid = c) = some l[t] := by
    rw [List.find?_eq_some_iff_getElem]
    refine ⟨by simpa using hc, t, ht, rfl, ?_⟩
    intro u hu
    have := hb u (by omega) hu
    simp only [Bool.not_eq_true', decide_eq_false_iff_not]
    omega
  simp [scoreIn, this]

theorem kSkip_spec (l : List Nat) (x i : Nat) (hi : i < l.length) (fuel : Nat) (hf : l.length < fuel) :
    (loop fuel (kSkipBody l x) i = .ok none ∧ ∀ t (h : t < l.length), i ≤ t → l[t] < x) ∨
    (∃ i', loop fuel (kSkipBody l x) i = .ok (some i') ∧ i ≤ i' ∧ (∃ h : i' < l.length, x ≤ l[i']) ∧
      ∀ t (h : t < l.length), i ≤ t → t < i' → l[t] < x) := by
  obtain ⟨r, hr, hQ⟩ := loop_spec (body := kSkipBody l x)
    (fun j => i ≤ j ∧ j < l.length ∧ ∀ t (h : t < l.length), i ≤ t → t < j → l[t] < x)
    (fun r => (r = none ∧ ∀ t (h : t < l.length), i ≤ t → l[t] < x) ∨
      (∃ i', r = some i' ∧ i ≤ i' ∧ (∃ h : i' < l.length, x ≤ l[i']) ∧
        ∀ t (h : t < l.length), i ≤ t → t < i' → l[t] < x))
    (fun j => l.length - j) (by
      intro j ⟨h1, h2, h3⟩
      by_cases hx : l[j] < x
      · have h4 : ∀ t (h : t < l.length), i ≤ t → t < j + 1 → l[t] < x := by
          intro t ht hit htj
          by_cases e : t = j
          · subst e; exact hx
          · exact h3 t ht hit (by omega)
        by_cases he : j + 1 = l.length
        · right
          exact ⟨none, by simp only [kSkipBody, read_lt l j h2, Outcome.bind, if_pos hx, if_pos he],
            .inl ⟨rfl, fun t ht hit => h4 t ht hit (by omega)⟩⟩
        · left
          exact ⟨j + 1, by simp only [kSkipBody, read_lt l j h2, Outcome.bind, if_pos hx, if_neg he],
            ⟨by omega, by omega, h4⟩, by omega⟩
      · right
        exact ⟨some j, by simp [kSkipBody, h2, hx], .inr ⟨j, rfl, h1, ⟨h2, by omega⟩, h3⟩⟩) fuel i
    ⟨Nat.le_refl _, hi, fun t _ h1 h2 => by omega⟩ (by omega)
  rw [hr]
  rcases hQ with ⟨rfl, h⟩ | ⟨i', rfl, h⟩
  · exact .inl ⟨rfl, h⟩
  · exact .inr ⟨i', rfl, h⟩

/-- The first posting of each context. -/
def firsts : List Posting → List Posting
  | [] => []
  | p :: l => p :: (firsts l).filter (·.cid ≠ p.cid)

theorem firsts_mem {l : List Posting} {p : Posting} (h : p ∈ firsts l) : p ∈ l ∧ p.score = scoreIn l p.cid := by
  induction l with
  | nil => simp [firsts] at h
  | cons q l ih =>
    rcases List.mem_cons.1 h with rfl | h
    · exact ⟨List.mem_cons_self, by simp [scoreIn]⟩
    · obtain ⟨h1, h2⟩ := List.mem_filter.1 h
      obtain ⟨h3, h4⟩ := ih h1
      refine ⟨List.mem_cons_of_mem _ h3, ?_⟩
      have : q.cid ≠ p.cid := by
        intro e
        simp [e] at h2
      rw [h4]
      simp [scoreIn, this]

theorem firsts_occurs {l : List Posting} {c : Nat} (h : Occurs l c) : ∃ p ∈ firsts l, p.cid = c := by
  induction l with
  | nil => simp [Occurs] at h
  | cons q l ih =>
    by_cases hq : q.cid = c
    · exact ⟨q, List.mem_cons_self, hq⟩
    · obtain ⟨p, hp, e⟩ := h
      rcases List.mem_cons.1 hp with rfl | hp
      · exact absurd e hq
      · obtain ⟨p', h1, h2⟩ := ih ⟨p, hp, e⟩
        refine ⟨p', List.mem_cons_of_mem _ (List.mem_filter.2 ⟨h1, ?_⟩), h2⟩
        simp only [ne_eq, decide_eq_true_eq]
        omega

theorem firsts_strict {l : List Posting} (h : Sorted l) : StrictSorted (firsts l) := by
  induction l with
  | nil => simp [firsts, StrictSorted]
  | cons q l ih =>
    obtain ⟨h1, h2⟩ := List.pairwise_cons.1 h
    refine List.pairwise_cons.2 ⟨?_, (ih h2).filter _⟩
    intro p hp
    obtain ⟨h3, h4⟩ := List.mem_filter.1 hp
    have := h1 p (firsts_mem h3).1
    simp only [ne_eq, decide_eq_true_eq] at h4
    omega

/-- The postings of the last list that may lead to an output: with entities all of them, otherwise the first posting of
each context. -/
def cand (ent : Bool) (last : List Posting) : List Posting := if ent then last else firsts last

theorem cand_mem {ent : Bool} {last : List Posting} {p : Posting} (h : p ∈ cand ent last) : p ∈ last := by
  cases ent with
  | true => exact h
  | false => exact (firsts_mem h).1

theorem cand_sorted (ent : Bool) {last : List Posting} (h : Sorted last) : Sorted (cand ent last) := by
  cases ent with
  | true => exact h
  | false => exact (firsts_strict h).imp fun h => Nat.le_of_lt h

def InAll (ls : List (List Posting)) (c : Nat) : Prop := ∀ l ∈ ls, Occurs l c

instance (ls : List (List Posting)) (c : Nat) : Decidable (InAll ls c) :=
  inferInstanceAs (Decidable (∀ l ∈ ls, Occurs l c))

section
variable (ls : List (List Posting)) (ent : Bool)

abbrev lastList : List Posting := ls.getD (ls.length - 1) []

/-- The postings that have to be in the output for contexts below `b`. -/
def upTo (b : Nat) : List Posting := (cand ent (lastList ls)).filter fun p => p.cid < b ∧ InAll ls p.cid

/-- The output for a list of postings. -/
def emitted (l : List Posting) : Triple :=
  ⟨l.map (·.cid), if ent then l.map (·.eid) else [],
    l.map fun p => toScore (sumIn (ls.take (ls.length - 1)) p.cid + p.score)⟩

theorem upTo_same {b b' : Nat} (h : b ≤ b') (hn : ∀ c, b ≤ c → c < b' → ¬ InAll ls c) : upTo ls ent b = upTo ls ent b' := by
  apply List.filter_congr
  intro p _
  by_cases hc : InAll ls p.cid
  · have : p.cid < b ↔ p.cid < b' := by
      constructor
      · omega
      · intro h'
        by_cases hb : b ≤ p.cid
        · exact absurd hc (hn _ hb h')
        · omega
    simp [hc, this]
  · simp [hc]

theorem filter_succ (l : List Posting) (h : Sorted l) (q : Nat → Prop) [DecidablePred q] (c : Nat) (hc : q c) :
    l.filter (fun p => p.cid < c + 1 ∧ q p.cid) =
      l.filter (fun p => p.cid < c ∧ q p.cid) ++ l.filter (fun p => p.cid = c) := by
  induction l with
  | nil => rfl
  | cons p l ih =>
    obtain ⟨h1, h2⟩ := List.pairwise_cons.1 h
    have ih := ih h2
    rcases Nat.lt_trichotomy p.cid c with hlt | heq | hgt
    · have e1 : p.cid < c + 1 := by omega
      have e2 : p.cid ≠ c := by omega
      by_cases hq : q p.cid
      · simp only [List.filter_cons, hlt, e1, e2, hq, and_self, decide_true, if_true, decide_false, if_false, ih,
          List.cons_append, Bool.false_eq_true]
      · simp only [List.filter_cons, hlt, e1, e2, hq, and_false, decide_false, if_false, ih,
          Bool.false_eq_true]
    · have : l.filter (fun p => p.cid < c ∧ q p.cid) = [] := by
        rw [List.filter_eq_nil_iff]
        intro p' hp'
        have := h1 p' hp'
        simp only [decide_eq_true_eq, not_and]
        omega
      rw [this, List.nil_append] at ih
      rw [List.filter_cons_of_pos (by simp [heq, hc]), List.filter_cons_of_neg (by simp [heq]),
        List.filter_cons_of_pos (by simp [heq]), this, ih, List.nil_append]
    · have e1 : ¬ p.cid < c + 1 := by omega
      have e2 : ¬ p.cid < c := by omega
      have e3 : p.cid ≠ c := by omega
      simp only [List.filter_cons, e1, e2, e3, false_and, decide_false, if_false, ih, Bool.false_eq_true]

theorem upTo_succ (hs : Sorted (lastList ls)) {c : Nat} (hc : InAll ls c) :
    upTo ls ent (c + 1) = upTo ls ent c ++ (cand ent (lastList ls)).filter (fun p => p.cid = c) :=
  filter_succ _ (cand_sorted ent hs) (InAll ls) c hc

end

/-- The postings of a context in a sorted list. -/
theorem run_eq {l : List Posting} (hs : Sorted l) {c m m' : Nat} (hm : FirstAt l c m) (hmm : m ≤ m') (hm' : m' ≤ l.length)
    (hrun : ∀ t (h : t < l.length), m ≤ t → t < m' → l[t].cid = c) (hend : ∀ h : m' < l.length, l[m'].cid ≠ c)
    (hlt : m < m') : l.filter (fun p => p.cid = c) = (l.take m').drop m := by
  obtain ⟨h0, hc, hb⟩ := hm
  have hl : l = l.take m ++ ((l.take m').drop m ++ l.drop m') := by
    have e : l.take m = (l.take m').take m := by rw [List.take_take, Nat.min_eq_left hmm]
    rw [← List.append_assoc, e, List.take_append_drop, List.take_append_drop]
  have h1 : (l.take m).filter (fun p => p.cid = c) = [] := by
    rw [List.filter_eq_nil_iff]
    intro p hp
    obtain ⟨t, ht, rfl⟩ := List.getElem_of_mem hp
    rw [List.length_take] at ht
    rw [List.getElem_take]
    have := hb t (by omega) (by omega)
    simp only [decide_eq_true_eq]
    omega
  have h2 : ((l.take m').drop m).filter (fun p => p.cid = c) = (l.take m').drop m := by
    rw [List.filter_eq_self]
    intro p hp
    obtain ⟨t, ht, rfl⟩ := List.getElem_of_mem hp
    simp only [List.length_drop, List.length_take] at ht
    rw [List.getElem_drop, List.getElem_take]
    simpa using hrun (m + t) (by omega) (by omega) (by omega)
  have h3 : (l.drop m').filter (fun p => p.cid = c) = [] := by
    rw [List.filter_eq_nil_iff]
    intro p hp
    obtain ⟨t, ht, rfl⟩ := List.getElem_of_mem hp
    rw [List.length_drop] at ht
    rw [List.getElem_drop]
    have hlt' : m' < l.length := by omega
    have e1 := hend hlt'
    have e2 : l[m].cid ≤ l[m'].cid := (List.pairwise_iff_getElem.1 hs) m m' h0 hlt' hlt
    have e3 : l[m'].cid ≤ l[m' + t].cid := by
      by_cases ht0 : t = 0
      · subst ht0; exact Nat.le_refl _
      · exact (List.pairwise_iff_getElem.1 hs) m' (m' + t) hlt' (by omega) (by omega)
    simp only [decide_eq_true_eq]
    omega
  conv => lhs; rw [hl]
  rw [List.filter_append, List.filter_append, h1, h2, h3, List.nil_append, List.append_nil]

section
variable (ls : List (List Posting)) (ent : Bool)

/-- List number `i`. -/
abbrev lst (i : Nat) : List Posting := ls.getD i []

/-- List `i` has been seen to contain the current context. -/
def InStreak (k list streak i : Nat) : Prop :=
  (i < list ∧ list - i ≤ streak) ∨ (list ≤ i ∧ list + k - i ≤ streak)

/-- All contexts below this one have been dealt with. -/
def bound (s : KState) : Nat := if s.streak < ls.length then s.cur else s.cur + 1

structure Inv (s : KState) : Prop where
  len : s.next.length = ls.length
  list : s.list < ls.length
  le : ∀ i, i < ls.length → s.next.getD i 0 ≤ (lst ls i).length
  before : ∀ i, i < ls.length → ∀ t (h : t < (lst ls i).length), t < s.next.getD i 0 → (lst ls i)[t].cid ≤ s.cur
  streak : s.streak < ls.length → ∀ i, i < ls.length →
    (InStreak ls.length s.list s.streak i → 1 ≤ s.next.getD i 0 ∧ FirstAt (lst ls i) s.cur (s.next.getD i 0 - 1)) ∧
    (¬ InStreak ls.length s.list s.streak i →
      ∀ t (h : t < (lst ls i).length), t < s.next.getD i 0 → (lst ls i)[t].cid < s.cur)
  res : s.res = emitted ls ent (upTo ls ent (bound ls s))

theorem getD_set (l : List Nat) (i j v : Nat) (h : i < l.length) :
    (l.set i v).getD j 0 = if i = j then v else l.getD j 0 := by
  simp only [List.getD_eq_getElem?_getD, List.getElem?_set, h, if_true]
  split <;> rfl

theorem read_getD (l : List Nat) (i : Nat) (h : i < l.length) : read l i = .ok (l.getD i 0) := by
  rw [read_lt l i h, List.getD_eq_getElem?_getD, List.getElem?_eq_getElem h]
  rfl

theorem lst_eq {i : Nat} (h : i < ls.length) : lst ls i = ls[i] := by
  simp [lst, List.getD_eq_getElem?_getD, h]

theorem lst_mem {i : Nat} (h : i < ls.length) : lst ls i ∈ ls := by
  rw [lst_eq ls h]; exact List.getElem_mem h

theorem read_map {i : Nat} (h : i < ls.length) (f : Posting → Nat) :
    read (ls.map fun l => l.map f) i = .ok ((lst ls i).map f) := by
  rw [read_lt _ _ (by simpa using h), List.getElem_map, lst_eq ls h]

theorem kScore_spec (next : List Nat) (list c : Nat) (hn : next.length = ls.length)
    (h1 : ∀ i, i < ls.length → i ≠ list → 1 ≤ next.getD i 0 ∧ FirstAt (lst ls i) c (next.getD i 0 - 1))
    (h2 : list < ls.length → FirstAt (lst ls list) c (next.getD list 0)) (i : Nat) (hi : i ≤ ls.length) :
    kScore (ls.map fun l => l.map (·.score)) next list i = .ok (toScore (sumIn (ls.take i) c)) := by
  induction i with
  | zero => rfl
  | succ i ih =>
    have hlt : i < ls.length := hi
    have ht : ls.take (i + 1) = ls.take i ++ [lst ls i] := by
      rw [lst_eq ls hlt, List.take_succ_eq_append_getElem hlt]
    have hsum : sumIn (ls.take (i + 1)) c = sumIn (ls.take i) c + scoreIn (lst ls i) c := by
      rw [ht]; simp [sumIn]
    rw [kScore, ih (by omega), hsum]
    simp only [Outcome.bind, read_map ls hlt, read_getD next i (by omega)]
    by_cases hil : i = list
    · subst hil
      obtain ⟨hx, he⟩ := scoreIn_first (h2 hlt)
      rw [if_neg (by simp), if_pos rfl, read_lt _ _ (by simpa using hx), List.getElem_map, he]
      simp [toScore]
    · obtain ⟨hp, hfa⟩ := h1 i hlt hil
      obtain ⟨hx, he⟩ := scoreIn_first hfa
      rw [if_neg (by omega), if_neg hil, read_lt _ _ (by simpa using hx), List.getElem_map, he]
      simp [toScore]

theorem toScore_add (a b : Nat) : toScore (toScore a + b) = toScore (a + b) := by
  simp [toScore]

theorem emitted_append (a b : List Posting) : emitted ls ent (a ++ b) =
    ⟨(emitted ls ent a).cids ++ (emitted ls ent b).cids, (emitted ls ent a).eids ++ (emitted ls ent b).eids,
      (emitted ls ent a).scores ++ (emitted ls ent b).scores⟩ := by
  cases ent <;> simp [emitted]

theorem upTo_length_le (hs : Sorted (lastList ls)) {c m : Nat} (hm : FirstAt (lastList ls) c m) :
    (upTo ls true c).length ≤ m := by
  obtain ⟨h0, hc, hb⟩ := hm
  have : upTo ls true c = ((lastList ls).take m).filter fun p => p.cid < c ∧ InAll ls p.cid := by
    unfold upTo cand
    rw [if_pos rfl]
    conv => lhs; rw [← List.take_append_drop m (lastList ls)]
    rw [List.filter_append]
    have : ((lastList ls).drop m).filter (fun p => p.cid < c ∧ InAll ls p.cid) = [] := by
      rw [List.filter_eq_nil_iff]
      intro p hp
      obtain ⟨t, ht, rfl⟩ := List.getElem_of_mem hp
      rw [List.length_drop] at ht
      rw [List.getElem_drop]
      have : (lastList ls)[m].cid ≤ (lastList ls)[m + t].cid := by
        by_cases ht0 : t = 0
        · subst ht0; exact Nat.le_refl _
        · exact (List.pairwise_iff_getElem.1 hs) m (m + t) h0 (by omega) (by omega)
      simp only [decide_eq_true_eq, not_and]
      omega
    rw [this, List.append_nil]
  rw [this]
  calc _ ≤ ((lastList ls).take m).length := List.length_filter_le _ _
    _ ≤ m := by rw [List.length_take]; omega

theorem kEmit_spec (hs : Sorted (lastList ls)) {c m : Nat} (hm : FirstAt (lastList ls) c m) (hc : InAll ls c)
    (fuel : Nat) (hf : (lastList ls).length + 1 < fuel) :
    ∃ m', loop fuel (kEmitBody (lastList ls).length c (toScore (sumIn (ls.take (ls.length - 1)) c))
        ((lastList ls).map (·.cid)) ((lastList ls).map (·.eid)) ((lastList ls).map (·.score)))
        (m, emitted ls true (upTo ls true c)) = .ok (m', emitted ls true (upTo ls true (c + 1))) ∧
      m < m' ∧ m' ≤ (lastList ls).length ∧ ∀ t (h : t < (lastList ls).length), t < m' → (lastList ls)[t].cid ≤ c := by
  have hlen := upTo_length_le ls hs hm
  have hm0 := hm
  obtain ⟨h0, hmc, hb⟩ := hm0
  obtain ⟨r, hr, hQ⟩ := loop_spec (body := kEmitBody (lastList ls).length c
      (toScore (sumIn (ls.take (ls.length - 1)) c))
      ((lastList ls).map (·.cid)) ((lastList ls).map (·.eid)) ((lastList ls).map (·.score)))
    (fun s => m ≤ s.1 ∧ s.1 ≤ (lastList ls).length ∧
      (∀ t (h : t < (lastList ls).length), m ≤ t → t < s.1 → (lastList ls)[t].cid = c) ∧
      s.2 = emitted ls true (upTo ls true c ++ ((lastList ls).take s.1).drop m))
    (fun r => m ≤ r.1 ∧ r.1 ≤ (lastList ls).length ∧
      (∀ t (h : t < (lastList ls).length), m ≤ t → t < r.1 → (lastList ls)[t].cid = c) ∧
      r.2 = emitted ls true (upTo ls true c ++ ((lastList ls).take r.1).drop m) ∧
      ∀ h : r.1 < (lastList ls).length, (lastList ls)[r.1].cid ≠ c)
    (fun s => (lastList ls).length - s.1) (by
      rintro ⟨i, res⟩ ⟨h1, h2, h3, h4⟩
      dsimp only at h1 h2 h3 h4
      subst h4
      by_cases hi : i < (lastList ls).length
      · have hi' : i < ((lastList ls).map (·.cid)).length := by simpa using hi
        by_cases hx : (lastList ls)[i].cid = c
        · left
          have hcap : (emitted ls true (upTo ls true c ++ ((lastList ls).take i).drop m)).cids.length <
              (lastList ls).length := by
            simp only [emitted, List.length_map, List.length_append, List.length_drop, List.length_take]
            omega
          have htk : ((lastList ls).take (i + 1)).drop m = ((lastList ls).take i).drop m ++ [(lastList ls)[i]] := by
            rw [List.take_succ_eq_append_getElem hi, List.drop_append_of_le_length (by rw [List.length_take]; omega)]
          refine ⟨(i + 1, emitted ls true (upTo ls true c ++ ((lastList ls).take (i + 1)).drop m)), ?_,
            ⟨by dsimp only; omega, by dsimp only; omega, ?_, rfl⟩, by dsimp only; omega⟩
          · simp only [kEmitBody, if_pos hi', read_lt _ _ hi', Outcome.bind, List.getElem_map, hx, if_true, if_pos hcap]
            rw [read_lt _ _ (by simpa using hi), read_lt _ _ (by simpa using hi)]
            simp only [List.getElem_map, htk, ← List.append_assoc, emitted_append ls true _ [(lastList ls)[i]]]
            simp only [emitted, List.map_cons, List.map_nil, hx, toScore_add, if_true]
          · intro t ht h5 h6
            by_cases e : t = i
            · subst e; exact hx
            · exact h3 t ht h5 (by dsimp only at h6; omega)
        · right
          refine ⟨(i, emitted ls true (upTo ls true c ++ ((lastList ls).take i).drop m)), ?_, h1, h2, h3, rfl, fun _ => hx⟩
          simp only [kEmitBody, if_pos hi', read_lt _ _ hi', Outcome.bind, List.getElem_map, if_neg hx]
      · right
        refine ⟨(i, emitted ls true (upTo ls true c ++ ((lastList ls).take i).drop m)), ?_, h1, h2, h3, rfl, fun h => absurd h hi⟩
        simp only [kEmitBody, List.length_map, if_neg hi])
    fuel (m, emitted ls true (upTo ls true c)) ⟨Nat.le_refl _, by dsimp only; omega, fun t _ h1 h2 => by
        dsimp only at h2; omega, by
        rw [List.drop_eq_nil_of_le (by rw [List.length_take]; dsimp only; omega), List.append_nil]⟩
    (by dsimp only; omega)
  obtain ⟨m', res⟩ := r
  obtain ⟨h1, h2, h3, h4, h5⟩ := hQ
  dsimp only at h1 h2 h3 h4 h5
  have hlt : m < m' := by
    rcases Nat.lt_or_ge m m' with h | h
    · exact h
    · have : m' = m := by omega
      subst this
      exact absurd hmc (h5 h0)
  refine ⟨m', ?_, hlt, h2, ?_⟩
  · rw [hr, h4, upTo_succ ls true hs hc]
    simp only [cand, if_true]
    rw [run_eq hs hm h1 h2 h3 h5 hlt]
  · intro t ht htm
    by_cases htm' : t < m
    · have := hb t ht htm'; omega
    · have := h3 t ht (by omega) htm; omega

/-- Number of postings that have not been visited. -/
def rest (s : KState) : Nat := ((List.range ls.length).map fun i => (lst ls i).length - s.next.getD i 0).sum

theorem sum_le (l : List Nat) (f g : Nat → Nat) (h : ∀ i ∈ l, f i ≤ g i) : (l.map f).sum ≤ (l.map g).sum := by
  induction l with
  | nil => simp
  | cons a l ih =>
    have h1 := h a List.mem_cons_self
    have h2 := ih fun i hi => h i (List.mem_cons_of_mem _ hi)
    simp only [List.map_cons, List.sum_cons]
    omega

theorem sum_lt (l : List Nat) (f g : Nat → Nat) (h : ∀ i ∈ l, f i ≤ g i) (j : Nat) (hj : j ∈ l) (hlt : f j < g j) :
    (l.map f).sum < (l.map g).sum := by
  induction l with
  | nil => simp at hj
  | cons a l ih =>
    have h1 := h a List.mem_cons_self
    have h2 := fun i hi => h i (List.mem_cons_of_mem a hi)
    simp only [List.map_cons, List.sum_cons]
    rcases List.mem_cons.1 hj with rfl | hj
    · have := sum_le l f g h2; omega
    · have := ih h2 hj; omega

theorem rest_lt (s s' : KState) (h : ∀ i, i < ls.length → s.next.getD i 0 ≤ s'.next.getD i 0) (j : Nat)
    (hj : j < ls.length) (h1 : s.next.getD j 0 < s'.next.getD j 0) (h2 : s.next.getD j 0 < (lst ls j).length) :
    rest ls s' < rest ls s := by
  refine sum_lt _ _ _ ?_ j (List.mem_range.2 hj) (by omega)
  intro i hi
  have := h i (List.mem_range.1 hi)
  omega

theorem rest_le (s s' : KState) (h : ∀ i, i < ls.length → s.next.getD i 0 ≤ s'.next.getD i 0) :
    rest ls s' ≤ rest ls s := by
  refine sum_le _ _ _ ?_
  intro i hi
  have := h i (List.mem_range.1 hi)
  omega

/-- The measure of the main loop. -/
def measure (s : KState) : Nat := 2 * rest ls s + if s.streak < ls.length then 1 else 0

theorem measure_lt {s s' : KState} (h : rest ls s' < rest ls s) : measure ls s' < measure ls s := by
  unfold measure
  have : (if s'.streak < ls.length then 1 else 0) ≤ 1 := by split <;> omega
  omega

/-- The result of the intersection. -/
def final : List Posting := (cand ent (lastList ls)).filter fun p => InAll ls p.cid

theorem upTo_final {b : Nat} (h : ∀ c, b ≤ c → ¬ InAll ls c) : upTo ls ent b = final ls ent := by
  apply List.filter_congr
  intro p _
  by_cases hc : InAll ls p.cid
  · have : p.cid < b := by
      rcases Nat.lt_or_ge p.cid b with h' | h'
      · exact h'
      · exact absurd hc (h _ h')
    simp [hc, this]
  · simp [hc]

theorem not_inAll {j c : Nat} (hj : j < ls.length) (h : ∀ t (ht : t < (lst ls j).length), (lst ls j)[t].cid ≠ c) :
    ¬ InAll ls c := by
  intro ha
  obtain ⟨p, hp, e⟩ := ha _ (lst_mem ls hj)
  obtain ⟨t, ht, rfl⟩ := List.getElem_of_mem hp
  exact h t ht e

/-- In the list that is looked at, everything before the current position is below `bound`. -/
theorem Inv.before_lt {s : KState} (hI : Inv ls ent s) (t : Nat) (h : t < (lst ls s.list).length)
    (ht : t < s.next.getD s.list 0) : (lst ls s.list)[t].cid < bound ls s := by
  unfold bound
  by_cases hk : s.streak < ls.length
  · rw [if_pos hk]
    refine ((hI.streak hk) s.list hI.list).2 ?_ t h ht
    unfold InStreak
    omega
  · rw [if_neg hk]
    have := hI.before s.list hI.list t h ht
    omega

theorem cur_le_bound (s : KState) : s.cur ≤ bound ls s := by
  unfold bound; split <;> omega

variable {ls ent}

/-- One list has no further posting: the result is complete. -/
theorem done_spec {s : KState} (hI : Inv ls ent s)
    (h : ∀ t (ht : t < (lst ls s.list).length), s.next.getD s.list 0 ≤ t → (lst ls s.list)[t].cid < s.cur) :
    s.res = emitted ls ent (final ls ent) := by
  rw [hI.res, upTo_final]
  intro c hc
  refine not_inAll ls hI.list fun t ht => ?_
  have := cur_le_bound ls s
  rcases Nat.lt_or_ge t (s.next.getD s.list 0) with h1 | h1
  · have := hI.before_lt ls ent t ht h1
    omega
  · have := h t ht h1
    omega

/-- Another context becomes the current one. -/
theorem reset_spec (hk : 2 ≤ ls.length) (hs : ∀ l ∈ ls, Sorted l) {s : KState} (hI : Inv ls ent s) {ix : Nat}
    (h1 : s.next.getD s.list 0 ≤ ix) (h2 : ix < (lst ls s.list).length) (h3 : s.cur < (lst ls s.list)[ix].cid)
    (h4 : ∀ t (ht : t < (lst ls s.list).length), s.next.getD s.list 0 ≤ t → t < ix → (lst ls s.list)[t].cid < s.cur) :
    Inv ls ent { s with
      next := s.next.set s.list (ix + 1), list := if s.list + 1 = ls.length then 0 else s.list + 1, streak := 1,
      cur := (lst ls s.list)[ix].cid } := by
  have hl := hI.list
  have hn := hI.len
  have hg : ∀ i, (s.next.set s.list (ix + 1)).getD i 0 = if s.list = i then ix + 1 else s.next.getD i 0 :=
    fun i => getD_set _ _ _ _ (by omega)
  have hbe : ∀ t (ht : t < (lst ls s.list).length), t < ix → (lst ls s.list)[t].cid < (lst ls s.list)[ix].cid := by
    intro t ht hti
    rcases Nat.lt_or_ge t (s.next.getD s.list 0) with h | h
    · have := hI.before s.list hl t ht h; omega
    · have := h4 t ht h hti; omega
  refine ⟨by simpa using hn, ?_, ?_, ?_, ?_, ?_⟩
  · dsimp only; split <;> omega
  · intro i hi
    dsimp only
    rw [hg]
    split
    · next e => subst e; omega
    · exact hI.le i hi
  · intro i hi t ht
    dsimp only
    rw [hg]
    split
    · next e =>
      subst e
      intro htx
      by_cases e : t = ix
      · subst e; exact Nat.le_refl _
      · exact Nat.le_of_lt (hbe t ht (by omega))
    · intro htx
      have := hI.before i hi t ht htx
      omega
  · intro _ i hi
    dsimp only
    rw [hg]
    constructor
    · intro hin
      have : s.list = i := by
        unfold InStreak at hin
        split at hin <;> omega
      subst this
      rw [if_pos rfl]
      exact ⟨by omega, h2, rfl, fun u hu hux => hbe u hu (by omega)⟩
    · intro hin
      have : s.list ≠ i := by
        rintro rfl
        apply hin
        unfold InStreak
        split <;> omega
      rw [if_neg this]
      intro t ht htx
      have := hI.before i hi t ht htx
      omega
  · dsimp only
    refine hI.res.trans (congrArg _ ?_)
    have hb : bound ls { s with
      next := s.next.set s.list (ix + 1), list := if s.list + 1 = ls.length then 0 else s.list + 1, streak := 1,
      cur := (lst ls s.list)[ix].cid } = (lst ls s.list)[ix].cid := by
      unfold bound; dsimp only; rw [if_pos (by omega)]
    rw [hb]
    apply upTo_same
    · unfold bound; split <;> omega
    · intro c hc1 hc2
      refine not_inAll ls hl fun t ht => ?_
      rcases Nat.lt_or_ge t (s.next.getD s.list 0) with h | h
      · have := hI.before_lt ls ent t ht h
        omega
      · rcases Nat.lt_or_ge t ix with h' | h'
        · have := h4 t ht h h'
          have := cur_le_bound ls s
          omega
        · have : (lst ls s.list)[ix].cid ≤ (lst ls s.list)[t].cid := by
            by_cases e : t = ix
            · subst e; exact Nat.le_refl _
            · exact (List.pairwise_iff_getElem.1 (hs _ (lst_mem ls hl))) ix t h2 ht (by omega)
          omega

/-- The current context has been found in one more list, but not in all of them for the first time. -/
theorem again_spec {s : KState} (hI : Inv ls ent s) {ix : Nat}
    (h1 : s.next.getD s.list 0 ≤ ix) (h2 : ix < (lst ls s.list).length) (h3 : s.cur = (lst ls s.list)[ix].cid)
    (h4 : ∀ t (ht : t < (lst ls s.list).length), s.next.getD s.list 0 ≤ t → t < ix → (lst ls s.list)[t].cid < s.cur)
    (h5 : s.streak + 1 ≠ ls.length) :
    Inv ls ent { s with
      next := s.next.set s.list (ix + 1), list := if s.list + 1 = ls.length then 0 else s.list + 1,
      streak := s.streak + 1 } := by
  have hl := hI.list
  have hn := hI.len
  have hg : ∀ i, (s.next.set s.list (ix + 1)).getD i 0 = if s.list = i then ix + 1 else s.next.getD i 0 :=
    fun i => getD_set _ _ _ _ (by omega)
  refine ⟨by simpa using hn, ?_, ?_, ?_, ?_, ?_⟩
  · dsimp only; split <;> omega
  · intro i hi
    dsimp only
    rw [hg]
    split
    · next e => subst e; omega
    · exact hI.le i hi
  · intro i hi t ht
    dsimp only
    rw [hg]
    split
    · next e =>
      subst e
      intro htx
      by_cases e : t = ix
      · subst e; omega
      · rcases Nat.lt_or_ge t (s.next.getD s.list 0) with h | h
        · exact hI.before s.list hl t ht h
        · have := h4 t ht h (by omega); omega
    · intro htx
      exact hI.before i hi t ht htx
  · intro hst i hi
    dsimp only at hst ⊢
    have hst' : s.streak < ls.length := by omega
    rw [hg]
    constructor
    · intro hin
      by_cases e : s.list = i
      · subst e
        rw [if_pos rfl]
        refine ⟨by omega, h2, h3.symm, fun u hu hux => ?_⟩
        rcases Nat.lt_or_ge u (s.next.getD s.list 0) with h | h
        · refine ((hI.streak hst') s.list hl).2 ?_ u hu h
          unfold InStreak
          omega
        · exact h4 u hu h (by omega)
      · rw [if_neg e]
        refine ((hI.streak hst') i hi).1 ?_
        unfold InStreak at hin ⊢
        split at hin <;> omega
    · intro hin
      have e : s.list ≠ i := by
        rintro rfl
        apply hin
        unfold InStreak
        split <;> omega
      rw [if_neg e]
      refine ((hI.streak hst') i hi).2 ?_
      intro hc
      apply hin
      unfold InStreak at hc ⊢
      split <;> omega
  · dsimp only
    refine hI.res.trans (congrArg _ (congrArg _ ?_))
    unfold bound
    dsimp only
    have : s.streak < ls.length ↔ s.streak + 1 < ls.length := by omega
    simp only [this]

theorem upTo_length_lt (hs : Sorted (lastList ls)) {c : Nat} (hc : InAll ls c) {l : List Posting} (hl : l ∈ ls) :
    (upTo ls false c).length < l.length := by
  have hst : StrictSorted (upTo ls false c) := (firsts_strict hs).filter _
  have hnd : ((upTo ls false c).map (·.cid) ++ [c]).Nodup := by
    rw [List.nodup_append]
    refine ⟨?_, by simp, ?_⟩
    · refine (List.pairwise_map.2 (hst.imp ?_))
      intro a b h
      omega
    · intro a ha b hb
      simp only [List.mem_singleton] at hb
      subst hb
      obtain ⟨p, hp, rfl⟩ := List.mem_map.1 ha
      have := (List.mem_filter.1 hp).2
      simp only [decide_eq_true_eq] at this
      omega
  have hsub : ((upTo ls false c).map (·.cid) ++ [c]) ⊆ l.map (·.cid) := by
    intro a ha
    have key : InAll ls a := by
      rcases List.mem_append.1 ha with ha | ha
      · obtain ⟨p, hp, rfl⟩ := List.mem_map.1 ha
        have := (List.mem_filter.1 hp).2
        simp only [decide_eq_true_eq] at this
        exact this.2
      · simp only [List.mem_singleton] at ha
        subst ha
        exact hc
    obtain ⟨p, hp, e⟩ := key l hl
    exact List.mem_map.2 ⟨p, hp, e⟩
  have := (List.subperm_of_subset hnd hsub).length_le
  simp only [List.length_append, List.length_map, List.length_cons, List.length_nil] at this
  omega

theorem firsts_run {l : List Posting} (hs : Sorted l) {c m : Nat} (hm : FirstAt l c m) :
    ∃ h : m < l.length, (firsts l).filter (fun p => p.cid = c) = [l[m]] := by
  obtain ⟨h0, hc, hb⟩ := hm
  refine ⟨h0, ?_⟩
  induction l generalizing m with
  | nil => simp at h0
  | cons q l ih =>
    obtain ⟨hq, hs'⟩ := List.pairwise_cons.1 hs
    cases m with
    | zero =>
      simp only [List.getElem_cons_zero] at hc ⊢
      rw [firsts, List.filter_cons_of_pos (by simpa using hc), List.filter_filter]
      have : (firsts l).filter (fun a => decide (a.cid = c) && decide (a.cid ≠ q.cid)) = [] := by
        rw [List.filter_eq_nil_iff]
        intro a _
        simp only [Bool.and_eq_true, decide_eq_true_eq, not_and]
        omega
      rw [this]
    | succ m =>
      have hqc : q.cid < c := by
        have := hb 0 (by simp) (by omega)
        simpa using this
      simp only [List.getElem_cons_succ] at hc ⊢
      have h0' : m < l.length := by simpa using h0
      have := ih hs' h0' hc (by
        intro u hu hum
        have := hb (u + 1) (by simpa using hu) (by omega)
        simpa using this)
      rw [firsts, List.filter_cons_of_neg (by simp; omega), List.filter_filter, ← this]
      apply List.filter_congr
      intro a _
      by_cases e : a.cid = c
      · have : a.cid ≠ q.cid := by omega
        simp [e]
        omega
      · simp [e]

/-- The current context has been found in all lists. -/
theorem found_spec (hs : ∀ l ∈ ls, Sorted l) {s : KState} (hI : Inv ls ent s) {ix : Nat}
    (h1 : s.next.getD s.list 0 ≤ ix) (h2 : ix < (lst ls s.list).length) (h3 : s.cur = (lst ls s.list)[ix].cid)
    (h4 : ∀ t (ht : t < (lst ls s.list).length), s.next.getD s.list 0 ≤ t → t < ix → (lst ls s.list)[t].cid < s.cur)
    (h5 : s.streak + 1 = ls.length) (cap : Nat)
    (hcap : if ent then cap = (lastList ls).length else ∀ n, (∀ l ∈ ls, n < l.length) → n < cap)
    (fuel : Nat) (hf : (lastList ls).length + 1 < fuel) :
    ∃ s', kFound fuel cap (ls.map fun l => l.map (·.cid)) (ls.map fun l => l.map (·.score))
        (if ent then some ((lastList ls).map (·.eid)) else none)
        { s with next := s.next.set s.list ix, streak := s.streak + 1 } = .ok s' ∧ Inv ls ent s' ∧
      s'.streak = ls.length ∧ ∀ i, i < ls.length → s.next.getD i 0 ≤ s'.next.getD i 0 := by
  have hl := hI.list
  have hn := hI.len
  have hst : s.streak < ls.length := by omega
  have hg : ∀ i, (s.next.set s.list ix).getD i 0 = if s.list = i then ix else s.next.getD i 0 :=
    fun i => getD_set _ _ _ _ (by omega)
  have hfl : FirstAt (lst ls s.list) s.cur ix := by
    refine ⟨h2, h3.symm, fun u hu hux => ?_⟩
    rcases Nat.lt_or_ge u (s.next.getD s.list 0) with h | h
    · refine ((hI.streak hst) s.list hl).2 ?_ u hu h
      unfold InStreak
      omega
    · exact h4 u hu h (by omega)
  have hfo : ∀ i, i < ls.length → i ≠ s.list → 1 ≤ s.next.getD i 0 ∧ FirstAt (lst ls i) s.cur (s.next.getD i 0 - 1) := by
    intro i hi hne
    refine ((hI.streak hst) i hi).1 ?_
    unfold InStreak
    omega
  have hall : InAll ls s.cur := by
    intro l hl'
    obtain ⟨i, hi, rfl⟩ := List.getElem_of_mem hl'
    rw [← lst_eq ls hi]
    by_cases e : i = s.list
    · subst e
      exact ⟨_, List.getElem_mem h2, h3.symm⟩
    · obtain ⟨_, h, hc, _⟩ := hfo i hi e
      exact ⟨_, List.getElem_mem h, hc⟩
  have hkl : ls.length - 1 < ls.length := by omega
  have hsl : Sorted (lastList ls) := hs _ (lst_mem ls hkl)
  have hsc := kScore_spec ls (s.next.set s.list ix) s.list s.cur (by simpa using hn) (by
      intro i hi hne
      rw [hg, if_neg (Ne.symm hne)]
      exact hfo i hi hne) (by
      intro _
      rw [hg, if_pos rfl]
      exact hfl) (ls.length - 1) (by omega)
  obtain ⟨m, hm, hfm, hmn, hmle⟩ : ∃ m, kMatch ls.length { s with next := s.next.set s.list ix, streak := s.streak + 1 } =
      .ok m ∧ FirstAt (lastList ls) s.cur m ∧ s.next.getD (ls.length - 1) 0 ≤ m + 1 ∧
      (s.next.set s.list ix).getD (ls.length - 1) 0 ≤ m + 1 := by
    unfold kMatch
    dsimp only
    rw [read_getD _ _ (by simpa [hn] using hkl)]
    simp only [Outcome.bind, hg]
    by_cases e : ls.length - 1 = s.list
    · refine ⟨ix, by rw [if_pos e, if_pos e.symm], ?_, ?_, ?_⟩
      · show FirstAt (lst ls (ls.length - 1)) s.cur ix
        rw [e]; exact hfl
      · rw [e]; omega
      · rw [if_pos e.symm]; omega
    · obtain ⟨hp, hfa⟩ := hfo _ hkl e
      refine ⟨s.next.getD (ls.length - 1) 0 - 1, ?_, hfa, by omega, ?_⟩
      · rw [if_neg e, if_neg (Ne.symm e), if_neg (by omega)]
      · rw [if_neg (Ne.symm e)]; omega
  have hbound : bound ls s = s.cur := by unfold bound; rw [if_pos hst]
  have hres := hI.res
  rw [hbound] at hres
  have hbefore : ∀ i, i < ls.length → ∀ t (h : t < (lst ls i).length), t < (s.next.set s.list ix).getD i 0 →
      (lst ls i)[t].cid ≤ s.cur := by
    intro i hi t ht htx
    rw [hg] at htx
    by_cases e : s.list = i
    · subst e
      rw [if_pos rfl] at htx
      exact Nat.le_of_lt (hfl.2.2 t ht htx)
    · rw [if_neg e] at htx
      exact hI.before i hi t ht htx
  have hle : ∀ i, i < ls.length → (s.next.set s.list ix).getD i 0 ≤ (lst ls i).length := by
    intro i hi
    rw [hg]
    split
    · next e => subst e; omega
    · exact hI.le i hi
  have hmono : ∀ i, i < ls.length → s.next.getD i 0 ≤ (s.next.set s.list ix).getD i 0 := by
    intro i hi
    rw [hg]
    split
    · next e => subst e; omega
    · exact Nat.le_refl _
  unfold kFound
  simp only [List.length_map, hsc, Outcome.bind, hm, read_map ls hkl]
  cases ent with
  | true =>
    simp only [if_true] at hcap ⊢
    subst hcap
    obtain ⟨m', hloop, hmm', hm'len, hbm⟩ := kEmit_spec ls hsl hfm hall fuel hf
    rw [hres]
    rw [hloop]
    have hg2 : ∀ i, ((s.next.set s.list ix).set (ls.length - 1) m').getD i 0 =
        if ls.length - 1 = i then m' else (s.next.set s.list ix).getD i 0 :=
      fun i => getD_set _ _ _ _ (by simpa [hn] using hkl)
    refine ⟨_, rfl, ⟨by simpa using hn, hkl, ?_, ?_, ?_, ?_⟩, h5, ?_⟩
    · intro i hi
      dsimp only
      rw [hg2]
      split
      · next e => subst e; exact hm'len
      · exact hle i hi
    · intro i hi t ht
      dsimp only
      rw [hg2]
      split
      · next e => subst e; exact hbm t ht
      · exact hbefore i hi t ht
    · intro h
      dsimp only at h
      omega
    · dsimp only
      unfold bound
      dsimp only
      rw [if_neg (by omega)]
    · intro i hi
      dsimp only
      rw [hg2]
      split
      · next e => subst e; omega
      · exact hmono i hi
  | false =>
    have hlt : s.res.cids.length < cap := by
      rw [hres]
      simp only [emitted, List.length_map]
      exact hcap _ fun l hl' => upTo_length_lt hsl hall hl'
    obtain ⟨h0, hrun⟩ := firsts_run hsl hfm
    simp only [if_neg (by simp : ¬ (false = true)), if_pos hlt]
    rw [read_lt _ _ (by simpa using h0), List.getElem_map]
    refine ⟨_, rfl, ⟨by simpa using hn, hkl, hle, hbefore, ?_, ?_⟩, h5, hmono⟩
    · intro h
      dsimp only at h
      omega
    · dsimp only
      unfold bound
      dsimp only
      rw [if_neg (by omega), upTo_succ ls false hsl hall, emitted_append, hres]
      simp only [cand, if_neg (by simp : ¬ (false = true))]
      rw [hrun]
      simp only [emitted, List.map_cons, List.map_nil, hfm.2.1, toScore_add, if_neg (by simp : ¬ (false = true)),
        List.append_nil]

theorem kBody_spec (hk : 2 ≤ ls.length) (hs : ∀ l ∈ ls, Sorted l) (cap : Nat)
    (hcap : if ent then cap = (lastList ls).length else ∀ n, (∀ l ∈ ls, n < l.length) → n < cap)
    (fuel : Nat) (hf : ∀ l ∈ ls, l.length + 1 < fuel) (s : KState) (hI : Inv ls ent s) :
    (∃ s', kBody fuel cap (ls.map fun l => l.map (·.cid)) (ls.map fun l => l.map (·.score))
        (if ent then some ((lastList ls).map (·.eid)) else none) s = .ok (.inl s') ∧ Inv ls ent s' ∧
        measure ls s' < measure ls s) ∨
    (∃ r, kBody fuel cap (ls.map fun l => l.map (·.cid)) (ls.map fun l => l.map (·.score))
        (if ent then some ((lastList ls).map (·.eid)) else none) s = .ok (.inr r) ∧
        r = emitted ls ent (final ls ent)) := by
  have hl := hI.list
  have hn := hI.len
  unfold kBody
  simp only [read_map ls hl, Outcome.bind, read_getD s.next s.list (by omega), List.length_map]
  by_cases hend : s.next.getD s.list 0 = (lst ls s.list).length
  · right
    rw [if_pos hend]
    exact ⟨s.res, rfl, done_spec hI fun t ht h => by omega⟩
  · have hlt : s.next.getD s.list 0 < (lst ls s.list).length := by
      have := hI.le s.list hl
      omega
    rw [if_neg hend]
    rcases kSkip_spec ((lst ls s.list).map (·.cid)) s.cur (s.next.getD s.list 0) (by simpa using hlt) fuel (by
        have := hf _ (lst_mem ls hl)
        simp only [List.length_map]
        omega) with ⟨hk1, hall⟩ | ⟨ix, hk1, hle, ⟨hix, hge⟩, hbet⟩
    · right
      rw [hk1]
      refine ⟨s.res, rfl, done_spec hI fun t ht h => ?_⟩
      have := hall t (by simpa using ht) h
      simpa using this
    · left
      rw [hk1]
      have hix' : ix < (lst ls s.list).length := by simpa using hix
      have h4 : ∀ t (ht : t < (lst ls s.list).length), s.next.getD s.list 0 ≤ t → t < ix →
          (lst ls s.list)[t].cid < s.cur := by
        intro t ht h h'
        have := hbet t (by simpa using ht) h h'
        simpa using this
      rw [List.getElem_map] at hge
      simp only [read_lt _ _ hix, List.getElem_map, List.set_set]
      have hgr : ∀ i, i < ls.length → s.next.getD i 0 ≤ (s.next.set s.list (ix + 1)).getD i 0 := by
        intro i hi
        rw [getD_set _ _ _ _ (by omega)]
        split
        · next e => subst e; omega
        · exact Nat.le_refl _
      have hgl : (s.next.set s.list (ix + 1)).getD s.list 0 = ix + 1 := by
        rw [getD_set _ _ _ _ (by omega), if_pos rfl]
      by_cases heq : (lst ls s.list)[ix].cid = s.cur
      · rw [if_pos heq]
        by_cases hst : s.streak + 1 = ls.length
        · rw [if_pos hst]
          obtain ⟨s', hfd, hI', hst', hmono⟩ := found_spec hs hI hle hix' heq.symm h4 hst cap hcap fuel
            (hf _ (lst_mem ls (by omega)))
          rw [hfd]
          refine ⟨s', rfl, hI', ?_⟩
          have := rest_le ls s s' hmono
          unfold measure
          rw [if_neg (by omega : ¬ s'.streak < ls.length), if_pos (by omega : s.streak < ls.length)]
          omega
        · rw [if_neg hst]
          refine ⟨_, rfl, again_spec hI hle hix' heq.symm h4 hst, ?_⟩
          exact measure_lt ls (rest_lt ls s _ hgr s.list hl (by dsimp only; omega) hlt)
      · rw [if_neg heq]
        refine ⟨_, rfl, reset_spec hk hs hI hle hix' (by omega) h4, ?_⟩
        exact measure_lt ls (rest_lt ls s _ hgr s.list hl (by dsimp only; omega) hlt)

end

end Verif.FTS
