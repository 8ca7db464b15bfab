import Verif.Model.TextAggregate
import Verif.Spec.Text
import Mathlib.Data.List.Perm.Basic
import Mathlib.Data.List.Nodup
namespace Verif.FTS
open Outcome Verif.Spec.Text

/-! ### Hash maps -/

section HMap
variable {κ α : Type} [DecidableEq κ]

theorem hget_some_iff {m : HMap κ α} (hn : (m.map Prod.fst).Nodup) (k : κ) (v : α) :
    m.get k = some v ↔ (k, v) ∈ m := by
  induction m with
  | nil => simp [HMap.get]
  | cons e m ih =>
    have hn' : e.1 ∉ m.map Prod.fst ∧ (m.map Prod.fst).Nodup := List.nodup_cons.mp hn
    have ih := ih hn'.2
    unfold HMap.get at ih ⊢
    by_cases h : e.1 = k
    · rw [List.find?_cons_of_pos (by simpa using h)]
      simp only [Option.map_some, Option.some.injEq, List.mem_cons]
      constructor
      · intro hv; left; rw [← h, ← hv]
      · rintro (hv | hv)
        · rw [← hv]
        · exact absurd (List.mem_map.mpr ⟨_, hv, rfl⟩) (h ▸ hn'.1)
    · rw [List.find?_cons_of_neg (by simpa using h), ih, List.mem_cons]
      constructor
      · exact Or.inr
      · rintro (hv | hv)
        · exact absurd (by rw [← hv]) h
        · exact hv

theorem hget_set (m : HMap κ α) (k : κ) (v : α) (k' : κ) : (m.set k v).get k' = if k = k' then some v else m.get k' := by
  unfold HMap.set HMap.get
  by_cases h : k = k'
  · simp [h]
  · rw [List.find?_cons_of_neg (by simpa using h), if_neg h, List.find?_filter]
    congr 1
    have : (fun e : κ × α => decide (decide (e.1 ≠ k) = true ∧ decide (e.1 = k') = true)) = fun e => decide (e.1 = k') := by
      funext e
      by_cases he : e.1 = k'
      · simp [he, Ne.symm h]
      · simp [he]
    rw [this]

theorem hnodup_set {m : HMap κ α} (hn : (m.map Prod.fst).Nodup) (k : κ) (v : α) :
    ((m.set k v).map Prod.fst).Nodup := by
  unfold HMap.set
  rw [List.map_cons, List.nodup_cons]
  constructor
  · simp only [List.mem_map, List.mem_filter, not_exists, not_and, and_imp]
    intro e _ he h; simp at he; exact he h
  · exact hn.sublist ((List.filter_sublist (l := m)).map Prod.fst)

end HMap

/-! ### The loop over the items -/

/-- Contexts and scores of the items with a key. -/
def occ [DecidableEq κ] (items : List (κ × Nat × Nat)) (key : κ) : List (Nat × Nat) :=
  (items.filter fun i => i.1 = key).map Prod.snd

theorem occ_append [DecidableEq κ] (a b : List (κ × Nat × Nat)) (key : κ) : occ (a ++ b) key = occ a key ++ occ b key := by
  simp [occ]

theorem aggregate_spec {κ α : Type} [DecidableEq κ] (first : Nat → Nat → α) (next : α → Nat → Nat → Outcome α)
    (P : List (Nat × Nat) → Prop) (Inv : α → List (Nat × Nat) → Prop) (hP : ∀ l l', P (l ++ l') → P l)
    (hfirst : ∀ c s, Inv (first c s) [(c, s)])
    (hnext : ∀ v l c s, P (l ++ [(c, s)]) → l ≠ [] → Inv v l → ∃ v', next v c s = .ok v' ∧ Inv v' (l ++ [(c, s)])) :
    ∀ (items done : List (κ × Nat × Nat)) (m : HMap κ α), (m.map Prod.fst).Nodup →
      (∀ key, P (occ (done ++ items) key)) →
      (∀ key, (m.get key = none ∧ occ done key = []) ∨ ∃ v, m.get key = some v ∧ Inv v (occ done key) ∧ occ done key ≠ []) →
      ∃ m', aggregate first next m items = .ok m' ∧ (m'.map Prod.fst).Nodup ∧
        ∀ key, (m'.get key = none ∧ occ (done ++ items) key = []) ∨
          ∃ v, m'.get key = some v ∧ Inv v (occ (done ++ items) key) ∧ occ (done ++ items) key ≠ [] := by
  intro items
  induction items with
  | nil =>
    intro done m hn _ hI
    exact ⟨m, rfl, hn, by simpa using hI⟩
  | cons i items ih =>
    intro done m hn hPi hI
    obtain ⟨key, c, s⟩ := i
    have happ : done ++ (key, c, s) :: items = (done ++ [(key, c, s)]) ++ items := by simp
    have hone : occ [(key, c, s)] key = [(c, s)] := by simp [occ]
    have hother : ∀ key', key ≠ key' → occ (done ++ [(key, c, s)]) key' = occ done key' := by
      intro key' h; rw [occ_append]; simp [occ, h]
    unfold aggregate
    rcases hI key with ⟨hg, ho⟩ | ⟨v, hg, hv, ho⟩
    · rw [hg]
      simp only
      rw [happ]
      apply ih _ _ (hnodup_set hn _ _) (by rwa [← happ])
      intro key'
      rw [hget_set]
      by_cases h : key = key'
      · subst h
        right
        refine ⟨_, if_pos rfl, ?_, ?_⟩ <;> rw [occ_append, ho, hone]
        · exact hfirst c s
        · simp
      · rw [if_neg h, hother _ h]; exact hI key'
    · rw [hg]
      simp only
      have hp : P (occ done key ++ [(c, s)]) := by
        apply hP _ (occ items key)
        have := hPi key
        rwa [happ, occ_append, occ_append, hone] at this
      obtain ⟨v', hv', hi'⟩ := hnext v _ c s hp ho hv
      rw [hv']
      simp only [Outcome.bind]
      rw [happ]
      apply ih _ _ (hnodup_set hn _ _) (by rwa [← happ])
      intro key'
      rw [hget_set]
      by_cases h : key = key'
      · subst h
        right
        refine ⟨_, if_pos rfl, ?_, ?_⟩ <;> rw [occ_append, hone]
        · exact hi'
        · simp
      · rw [if_neg h, hother _ h]; exact hI key'

/-- From the map to the rows. -/
theorem rows_spec {κ α ρ : Type} [DecidableEq κ] (k : Nat) (items : List (κ × Nat × Nat)) (m m' : HMap κ α)
    (hn : (m.map Prod.fst).Nodup) (hp : m'.Perm m) (Inv : α → List (Nat × Nat) → Prop)
    (bests : α → List (Nat × Nat)) (count : α → Nat)
    (hb : ∀ v l, Inv v l → BestK k l (bests v) ∧ count v = l.length % 65536)
    (hI : ∀ key, (m.get key = none ∧ occ items key = []) ∨ ∃ v, m.get key = some v ∧ Inv v (occ items key) ∧ occ items key ≠ [])
    (rows : Nat → Nat → κ → List ρ) :
    IsTopK k (occ items) rows (m'.flatMap fun e => (bests e.2).flatMap fun c => rows c.1 (count e.2) e.1) := by
  have hn' : (m'.map Prod.fst).Nodup := (hp.map Prod.fst).nodup_iff.mpr hn
  refine ⟨m'.map Prod.fst, hn', ?_, fun key => (m.get key).elim [] bests, ?_, ?_⟩
  · intro key
    rcases hI key with ⟨hg, ho⟩ | ⟨v, hg, _, ho⟩
    · simp only [ho, ne_eq, not_true, iff_false]
      intro h
      obtain ⟨e, he, rfl⟩ := List.mem_map.mp h
      rw [(hget_some_iff hn e.1 e.2).mpr (hp.mem_iff.mp he)] at hg
      cases hg
    · simp only [ho, ne_eq, not_false_eq_true, iff_true]
      exact List.mem_map.mpr ⟨(key, v), hp.mem_iff.mpr ((hget_some_iff hn _ _).mp hg), rfl⟩
  · intro key
    rcases hI key with ⟨hg, ho⟩ | ⟨v, hg, hv, ho⟩
    · dsimp only; rw [hg, ho]; exact ⟨[], by simp⟩
    · dsimp only; rw [hg]; exact (hb _ _ hv).1
  · rw [List.flatMap_map]
    apply List.flatMap_congr
    intro e he
    have hg := (hget_some_iff hn e.1 e.2).mpr (hp.mem_iff.mp he)
    rcases hI e.1 with ⟨hg', _⟩ | ⟨v, hg', hv, _⟩
    · rw [hg] at hg'; cases hg'
    · dsimp only
      rw [hg] at hg' ⊢
      cases hg'
      simp only [Option.elim]
      rw [(hb _ _ hv).2]

/-! ### The sets -/

theorem pairLt_iff (a b : Nat × Nat) : pairLt a b = true ↔ a.1 < b.1 ∨ (a.1 = b.1 ∧ a.2 < b.2) := by
  simp [pairLt]

theorem setInsert_perm {x : Nat × Nat} {l : List (Nat × Nat)} (h : x ∉ l) : (setInsert x l).Perm (x :: l) := by
  induction l with
  | nil => exact List.Perm.refl _
  | cons y ys ih =>
    unfold setInsert
    rw [List.mem_cons, not_or] at h
    rw [if_neg h.1]
    split
    · exact List.Perm.refl _
    · exact ((ih h.2).cons y).trans (List.Perm.swap x y ys)

theorem setInsert_sorted {x : Nat × Nat} {l : List (Nat × Nat)} (h : l.Pairwise fun a b => pairLt a b = true)
    (hx : x ∉ l) : (setInsert x l).Pairwise fun a b => pairLt a b = true := by
  induction l with
  | nil => simp [setInsert]
  | cons y ys ih =>
    unfold setInsert
    rw [List.mem_cons, not_or] at hx
    rw [if_neg hx.1]
    obtain ⟨h1, h2⟩ := List.pairwise_cons.mp h
    split
    · rename_i hlt
      refine List.pairwise_cons.mpr ⟨?_, h⟩
      intro z hz
      rcases List.mem_cons.mp hz with rfl | hz
      · exact hlt
      · have := h1 z hz
        rw [pairLt_iff] at *
        omega
    · rename_i hlt
      refine List.pairwise_cons.mpr ⟨?_, ih h2 hx.2⟩
      intro z hz
      rcases List.mem_cons.mp ((setInsert_perm hx.2).mem_iff.mp hz) with rfl | hz
      · rw [pairLt_iff] at *
        have : z.1 ≠ y.1 ∨ z.2 ≠ y.2 := by
          by_contra hh
          push Not at hh
          exact hx.1 (Prod.ext hh.1 hh.2)
        omega
      · exact h1 z hz

/-- What the set of a key contains. -/
def TopKInv (k : Nat) (v : Nat × List (Nat × Nat)) (l : List (Nat × Nat)) : Prop :=
  v.1 = l.length % 65536 ∧ v.2.Pairwise (fun a b => pairLt a b = true) ∧
  ∃ rest, l.Perm (v.2.map Prod.swap ++ rest) ∧ v.2.length = min k l.length ∧ ∀ x ∈ v.2, ∀ y ∈ rest, y.2 ≤ x.1

theorem topKFirst_inv {k : Nat} (hk : 1 ≤ k) (c s : Nat) : TopKInv k (topKFirst c s) [(c, s)] := by
  refine ⟨rfl, by simp [topKFirst], [], ?_, ?_, by simp⟩
  · simp [topKFirst]
  · simp [topKFirst]; omega

theorem topKNext_inv {k : Nat} (hk : 1 ≤ k) (v : Nat × List (Nat × Nat)) (l : List (Nat × Nat)) (c s : Nat)
    (hP : ((l ++ [(c, s)]).map Prod.fst).Nodup) (hI : TopKInv k v l) :
    ∃ v', topKNext k v c s = .ok v' ∧ TopKInv k v' (l ++ [(c, s)]) := by
  obtain ⟨h1, h2, rest, h3, h4, h5⟩ := hI
  have hnew : ∀ a, (a, c) ∉ v.2 := by
    intro a ha
    have : (c, a) ∈ l := h3.mem_iff.mpr (List.mem_append_left _ (List.mem_map.mpr ⟨_, ha, rfl⟩))
    simp only [List.map_append, List.map_cons, List.map_nil, List.nodup_append, List.mem_map, List.mem_singleton] at hP
    exact hP.2.2 c ⟨_, this, rfl⟩ c rfl rfl
  have hlen : l.length = v.2.length + rest.length := by
    have := h3.length_eq; simpa using this
  have hcount : toScore (v.1 + 1) = (l ++ [(c, s)]).length % 65536 := by
    simp only [toScore, List.length_append, List.length_singleton]; omega
  unfold topKNext
  simp only
  split
  · rename_i hlt
    refine ⟨_, rfl, hcount, setInsert_sorted h2 (hnew s), [], ?_, ?_, by simp⟩
    · have hr : rest = [] := List.length_eq_zero_iff.mp (by omega)
      subst hr
      simp only [List.append_nil] at h3 ⊢
      refine (List.perm_append_comm.trans ?_).trans ((setInsert_perm (hnew s)).map Prod.swap).symm
      simpa using h3
    · rw [(setInsert_perm (hnew s)).length_eq]
      simp only [List.length_cons, List.length_append, List.length_nil]
      omega
  · rename_i hlt
    obtain ⟨n, set⟩ := v
    dsimp only at *
    cases set with
    | nil => simp at hlt; omega
    | cons b r =>
      dsimp only
      obtain ⟨hb, hr⟩ := List.pairwise_cons.mp h2
      have hlk : (b :: r).length = k := by omega
      have hbr : ∀ x ∈ b :: r, b.1 ≤ x.1 := by
        intro x hx
        rcases List.mem_cons.mp hx with rfl | hx
        · exact Nat.le_refl _
        · have := hb x hx; rw [pairLt_iff] at this; omega
      by_cases hs : b.1 < s
      · rw [if_pos hs, if_pos hlk]
        have hnr : (s, c) ∉ r := fun h => hnew s (List.mem_cons_of_mem _ h)
        refine ⟨_, rfl, hcount, setInsert_sorted hr hnr, b.swap :: rest, ?_, ?_, ?_⟩
        · refine List.perm_append_comm.trans ?_
          have hp := ((setInsert_perm hnr).map Prod.swap).append_right (b.swap :: rest)
          refine List.Perm.trans ?_ hp.symm
          simp only [List.map_cons, List.cons_append, Prod.swap_prod_mk]
          refine List.Perm.cons _ (h3.trans ?_)
          simp only [List.map_cons, List.cons_append]
          exact List.perm_middle.symm
        · rw [(setInsert_perm hnr).length_eq]
          simp only [List.length_cons, List.length_append, List.length_nil] at hlk ⊢
          omega
        · intro x hx y hy
          have hxb : b.1 ≤ x.1 := by
            rcases List.mem_cons.mp ((setInsert_perm hnr).mem_iff.mp hx) with rfl | hx
            · dsimp only; omega
            · exact hbr x (List.mem_cons_of_mem _ hx)
          rcases List.mem_cons.mp hy with rfl | hy
          · simpa using hxb
          · exact Nat.le_trans (h5 b (by simp) y hy) hxb
      · rw [if_neg hs]
        refine ⟨_, rfl, hcount, h2, rest ++ [(c, s)], ?_, ?_, ?_⟩
        · rw [← List.append_assoc]; exact h3.append_right _
        · simp only [List.length_append, List.length_singleton]; omega
        · intro x hx y hy
          rcases List.mem_append.mp hy with hy | hy
          · exact h5 x hx y hy
          · rw [List.mem_singleton] at hy
            subst hy
            have := hbr x hx
            dsimp only
            omega

theorem topKInv_best {k : Nat} {v : Nat × List (Nat × Nat)} {l : List (Nat × Nat)} (h : TopKInv k v l) :
    BestK k l (v.2.reverse.map Prod.swap) ∧ v.1 = l.length % 65536 := by
  obtain ⟨h1, h2, rest, h3, h4, h5⟩ := h
  refine ⟨⟨rest, ?_, ?_, ?_, ?_⟩, h1⟩
  · refine h3.trans (List.Perm.append_right _ ?_)
    exact ((List.reverse_perm _).map _).symm
  · simpa using h4
  · rw [List.pairwise_map, List.pairwise_reverse]
    refine h2.imp ?_
    intro a b hab
    rw [pairLt_iff] at hab
    simp only [Prod.snd_swap]; omega
  · intro x hx y hy
    obtain ⟨z, hz, rfl⟩ := List.mem_map.mp hx
    simpa using h5 z (List.mem_reverse.mp hz) y hy

theorem aggTopK_spec {κ ρ : Type} [DecidableEq κ]
    (order : HMap κ (Nat × List (Nat × Nat)) → HMap κ (Nat × List (Nat × Nat))) (ho : ∀ m, (order m).Perm m)
    (rows : Nat → Nat → κ → List ρ) (k : Nat) (hk : 1 ≤ k) (items : List (κ × Nat × Nat))
    (hd : ∀ key, ((occ items key).map Prod.fst).Nodup) :
    ∃ out, aggTopK order rows k items = .ok out ∧ IsTopK k (occ items) rows out := by
  obtain ⟨m, h1, h2, h3⟩ := aggregate_spec topKFirst (topKNext k) (fun l => (l.map Prod.fst).Nodup) (TopKInv k)
    (fun l l' h => by rw [List.map_append] at h; exact (List.nodup_append.mp h).1)
    (topKFirst_inv hk) (fun v l c s hP _ hI => topKNext_inv hk v l c s hP hI) items [] [] (by simp)
    (by simpa using hd) (fun key => Or.inl ⟨rfl, rfl⟩)
  refine ⟨_, by unfold aggTopK; rw [h1]; rfl, ?_⟩
  have := rows_spec k items m (order m) h2 (ho m) (TopKInv k) (fun v => v.2.reverse.map Prod.swap) (fun v => v.1)
    (fun v l h => topKInv_best h) h3 rows
  unfold topKRows
  simpa only [List.flatMap_map, Prod.fst_swap] using this

/-! ### One context for each key -/

def Top1Inv (v : Nat × Nat × Nat) (l : List (Nat × Nat)) : Prop :=
  v.1 = l.length % 65536 ∧ v.2 ∈ l ∧ ∀ y ∈ l, y.2 ≤ v.2.2

theorem aggTop1_spec {κ ρ : Type} [DecidableEq κ] (order : HMap κ (Nat × Nat × Nat) → HMap κ (Nat × Nat × Nat))
    (ho : ∀ m, (order m).Perm m) (rows : Nat → Nat → κ → List ρ) (items : List (κ × Nat × Nat)) :
    ∃ out, aggTop1 order rows items = .ok out ∧ IsTopK 1 (occ items) rows out := by
  obtain ⟨m, h1, h2, h3⟩ := aggregate_spec top1First top1Next (fun _ => True) Top1Inv (fun _ _ _ => trivial)
    (fun c s => ⟨rfl, by simp [top1First], by simp [top1First]⟩)
    (fun v l c s _ _ hI => by
      obtain ⟨h1, h2, h3⟩ := hI
      refine ⟨_, rfl, ?_, ?_, ?_⟩
      · simp only [toScore, List.length_append, List.length_singleton]; omega
      · dsimp only; split
        · simp
        · exact List.mem_append_left _ h2
      · intro y hy
        dsimp only
        rcases List.mem_append.mp hy with hy | hy
        · have := h3 y hy
          split <;> (try dsimp only) <;> omega
        · rw [List.mem_singleton] at hy; subst hy
          split <;> (try dsimp only) <;> omega)
    items [] [] (by simp) (fun _ => trivial) (fun key => Or.inl ⟨rfl, rfl⟩)
  refine ⟨_, by unfold aggTop1; rw [h1]; rfl, ?_⟩
  have := rows_spec 1 items m (order m) h2 (ho m) Top1Inv (fun v => [v.2]) (fun v => v.1)
    (fun v l h => by
      obtain ⟨h1, h2, h3⟩ := h
      obtain ⟨a, b, rfl⟩ := List.append_of_mem h2
      refine ⟨⟨a ++ b, List.perm_middle, by simp; omega, by simp, ?_⟩, h1⟩
      intro x hx y hy
      rw [List.mem_singleton] at hx; subst hx
      apply h3
      simp only [List.mem_append, List.mem_cons] at hy ⊢
      tauto) h3 rows
  unfold top1Rows
  simpa only [List.flatMap_cons, List.flatMap_nil, List.append_nil] using this

end Verif.FTS
