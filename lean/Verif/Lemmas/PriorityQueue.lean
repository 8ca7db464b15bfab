import Verif.Model.PriorityQueue
/-
Simulation proofs for the two priority queues.
-/
namespace Verif.PQ
open PQSpec

theorem filter_ne_length {V : Type} (l : List (Entry V)) (hn : (l.map (·.id)).Nodup) (id : Nat)
    (h : ∃ e ∈ l, e.id = id) : (l.filter (fun e => e.id ≠ id)).length + 1 = l.length := by
  induction l with
  | nil => simp at h
  | cons x xs ih =>
    rw [List.map_cons, List.nodup_cons] at hn
    by_cases hx : x.id = id
    · have : xs.filter (fun e => e.id ≠ id) = xs := by
        rw [List.filter_eq_self]
        intro y hy
        simp only [ne_eq, decide_eq_true_eq]
        intro hyid
        exact hn.1 (List.mem_map.mpr ⟨y, hy, by rw [hyid, hx]⟩)
      rw [List.filter_cons_of_neg (by simp [hx]), this]
      rfl
    · obtain ⟨e, he, hid⟩ := h
      have : ∃ e ∈ xs, e.id = id := by
        rcases List.mem_cons.mp he with rfl | he
        · exact absurd hid hx
        · exact ⟨e, he, hid⟩
      rw [List.filter_cons_of_pos (by simp [hx])]
      simp only [List.length_cons]
      have := ih hn.2 this
      omega

theorem ids_filter_nodup {V : Type} {l : List (Entry V)} (hn : (l.map (·.id)).Nodup) (p : Entry V → Bool) :
    ((l.filter p).map (·.id)).Nodup :=
  (List.filter_sublist.map _).nodup hn

theorem entry_unique {V : Type} {l : List (Entry V)} (hn : (l.map (·.id)).Nodup) {x y : Entry V} (hx : x ∈ l)
    (hy : y ∈ l) (h : x.id = y.id) : x = y := by
  induction l with
  | nil => simp at hx
  | cons z zs ih =>
    rw [List.map_cons, List.nodup_cons] at hn
    rcases List.mem_cons.mp hx with rfl | hx' <;> rcases List.mem_cons.mp hy with rfl | hy'
    · rfl
    · exact absurd (List.mem_map.mpr ⟨y, hy', h.symm⟩) hn.1
    · exact absurd (List.mem_map.mpr ⟨x, hx', h⟩) hn.1
    · exact ih hn.2 hx' hy'

theorem map_update_ids {V : Type} (l : List (Entry V)) (id s : Nat) :
    (l.map (fun e => if e.id = id then { e with score := s } else e)).map (·.id) = l.map (·.id) := by
  rw [List.map_map]
  apply List.map_congr_left
  intro e _
  by_cases h : e.id = id <;> simp [h]

theorem modify_self {α : Type} (l : List α) (i : Nat) (f : α → α) : (l.modify i f)[i]? = l[i]?.map f := by
  rw [List.getElem?_modify]; cases l[i]? <;> simp

theorem modify_ne {α : Type} (l : List α) {i j : Nat} (f : α → α) (h : i ≠ j) : (l.modify i f)[j]? = l[j]? := by
  rw [List.getElem?_modify]; cases l[j]? <;> simp [h]

namespace Heap
variable {V : Type}

/-- Simulation relation between the heap-based queue and the specification. -/
structure R (h : Heap.State V) (a : PQSpec.State V) : Prop where
  len : h.nodes.length = a.next
  lives : ∀ e ∈ a.live, h.nodes[e.id]? = some ⟨some e.score, e.value, true⟩ ∧ (e.score, e.id) ∈ h.heap
  inpq : ∀ id n, h.nodes[id]? = some n → n.inPQ = true → isLive a id ∨ id ∈ a.cleared
  ids : (a.live.map (·.id)).Nodup
  nodup : h.heap.Nodup
  heapLt : ∀ x ∈ h.heap, x.2 < h.nodes.length
  held : ∀ x ∈ h.heap, (x.2, x.1) ∈ a.held
  utd : ∀ x ∈ h.heap, upToDate h x → isLive a x.2
  size : h.size = a.live.length

theorem R_init : R ({} : Heap.State V) {} :=
  ⟨rfl, by simp, by simp, by simp, by simp, by simp, by simp, by simp, rfl⟩

theorem R_prune {h h' : Heap.State V} {a} (hp : Prune h h') (r : R h a) : R h' a := by
  induction hp with
  | empty => exact r
  | stop => exact r
  | @skip h h' e ht hv _ ih =>
    apply ih
    refine ⟨r.len, ?_, r.inpq, r.ids, r.nodup.erase _, ?_, ?_, ?_, r.size⟩
    · intro x hx
      obtain ⟨h1, h2⟩ := r.lives x hx
      refine ⟨h1, ?_⟩
      have hne : (x.score, x.id) ≠ e := by
        rintro rfl
        exact hv ⟨_, h1, rfl⟩
      exact (List.mem_erase_of_ne hne).mpr h2
    · intro x hx; exact r.heapLt x (List.mem_of_mem_erase hx)
    · intro x hx; exact r.held x (List.mem_of_mem_erase hx)
    · intro x hx hu; exact r.utd x (List.mem_of_mem_erase hx) hu

/-- Which events the caller may perform: score updates never return to an earlier score of the same handle, and handles
are not used any more once the queue was cleared. -/
def Legal (a : PQSpec.State V) : Ev V → Prop
  | .update id s => id ∉ a.cleared ∧ ((∃ e ∈ a.live, e.id = id ∧ e.score = s) ∨ (id, s) ∉ a.held)
  | .updateRefused id _ => id ∉ a.cleared
  | .erase id => id ∉ a.cleared
  | .eraseRefused id => id ∉ a.cleared
  | _ => True

theorem sim [Inhabited V] [DecidableEq V] {h h' : Heap.State V} {a} {e : Ev V} (r : R h a) (hs : Step h e h')
    (hl : Legal a e) : ∃ a', specNext a e = some a' ∧ R h' a' := by
  cases hs with
  | insert s v =>
    refine ⟨{ a with
        live := ⟨h.nodes.length, s, v⟩ :: a.live, next := a.next + 1, held := (h.nodes.length, s) :: a.held },
      by simp only [specNext]; rw [if_pos r.len], ?_⟩
    have hnew : (s, h.nodes.length) ∉ h.heap := fun hm => by have := r.heapLt _ hm; simp at this
    refine ⟨by simp [r.len], ?_, ?_, ?_, ?_, ?_, ?_, ?_, by simp [r.size]⟩
    · intro e he
      rcases List.mem_cons.mp he with rfl | he
      · simp
      · obtain ⟨h1, h2⟩ := r.lives e he
        refine ⟨?_, List.mem_cons_of_mem _ h2⟩
        have : e.id < h.nodes.length := (List.getElem?_eq_some_iff.mp h1).1
        rw [List.getElem?_append_left this]; exact h1
    · intro id n hn hi
      by_cases hlt : id < h.nodes.length
      · rw [List.getElem?_append_left hlt] at hn
        rcases r.inpq id n hn hi with ⟨e, he, hid⟩ | hc
        · exact .inl ⟨e, List.mem_cons_of_mem _ he, hid⟩
        · exact .inr hc
      · have : id < (h.nodes ++ [(⟨some s, v, true⟩ : Node V)]).length := (List.getElem?_eq_some_iff.mp hn).1
        simp at this
        exact .inl ⟨⟨h.nodes.length, s, v⟩, List.mem_cons_self, by simp; omega⟩
    · simp only [List.map_cons, List.nodup_cons]
      refine ⟨?_, r.ids⟩
      intro hm
      obtain ⟨e, he, hid⟩ := List.mem_map.mp hm
      have := (List.getElem?_eq_some_iff.mp (r.lives e he).1).1
      omega
    · exact List.nodup_cons.mpr ⟨hnew, r.nodup⟩
    · intro x hx
      simp only [List.length_append, List.length_singleton]
      rcases List.mem_cons.mp hx with rfl | hx
      · simp
      · have := r.heapLt x hx; omega
    · intro x hx
      rcases List.mem_cons.mp hx with rfl | hx
      · simp
      · exact List.mem_cons_of_mem _ (r.held x hx)
    · intro x hx hu
      rcases List.mem_cons.mp hx with rfl | hx
      · exact ⟨_, List.mem_cons_self, rfl⟩
      · obtain ⟨n, hn, hsc⟩ := hu
        rw [List.getElem?_append_left (r.heapLt x hx)] at hn
        obtain ⟨e, he, hid⟩ := r.utd x hx ⟨n, hn, hsc⟩
        exact ⟨e, List.mem_cons_of_mem _ he, hid⟩
  | @pop h1 x n hp ht hn hu =>
    have r1 := R_prune hp r
    obtain ⟨e, he, hid⟩ := r1.utd x ht.1 hu
    obtain ⟨he1, he2⟩ := r1.lives e he
    obtain ⟨n', hn', hsc⟩ := hu
    rw [hid, hn] at he1
    rw [hn] at hn'
    cases hn'
    have hscore : e.score = x.1 := by
      have := Option.some.inj he1
      rw [this] at hsc
      simpa using hsc
    have hval : e.value = n.value := by rw [Option.some.inj he1]
    have hmin : ∀ e' ∈ a.live, e.score ≤ e'.score := by
      intro e' he'
      have := ht.2 _ (r1.lives e' he').2
      simpa [hscore] using this
    have hxe : x ∉ h1.heap.erase x := by
      intro hm
      have := List.Nodup.not_mem_erase r1.nodup hm
      exact this
    refine ⟨{ a with live := a.live.filter (fun e => e.id ≠ x.2) }, ?_, ?_⟩
    · simp only [specNext]
      rw [if_pos ⟨e, he, hid, hval, hmin⟩]
    refine ⟨by simpa [markErased] using r1.len, ?_, ?_, ids_filter_nodup r1.ids _, r1.nodup.erase _, ?_, ?_, ?_, ?_⟩
    · intro y hy
      rw [List.mem_filter] at hy
      have hne : y.id ≠ x.2 := by simpa using hy.2
      obtain ⟨h3, h4⟩ := r1.lives y hy.1
      refine ⟨?_, ?_⟩
      · simp only [markErased]
        rw [modify_ne _ _ (Ne.symm hne)]
        simpa using h3
      · simp only [markErased]
        apply (List.mem_erase_of_ne _).mpr h4
        rintro rfl
        exact hne rfl
    · intro id m hm hi
      simp only [markErased] at hm
      by_cases hx : x.2 = id
      · rw [hx, modify_self] at hm
        cases hq : h1.nodes[id]? with
        | none => rw [hq] at hm; simp at hm
        | some q => rw [hq] at hm; simp at hm; rw [← hm] at hi; simp at hi
      · rw [modify_ne _ _ hx] at hm
        rcases r1.inpq id m (by simpa using hm) hi with ⟨y, hy, hyid⟩ | hc
        · refine .inl ⟨y, ?_, hyid⟩
          rw [List.mem_filter]
          exact ⟨hy, by simp; omega⟩
        · exact .inr hc
    · intro y hy
      simp only [markErased, List.length_modify]
      exact r1.heapLt y (List.mem_of_mem_erase hy)
    · intro y hy
      exact r1.held y (List.mem_of_mem_erase hy)
    · intro y hy hyu
      simp only [markErased] at hy
      have hyh := List.mem_of_mem_erase hy
      obtain ⟨m, hm, hms⟩ := hyu
      simp only [markErased] at hm
      by_cases hx : x.2 = y.2
      · exfalso
        rw [← hx, modify_self, hn] at hm
        simp at hm
        rw [← hm] at hms
        simp only at hms
        rw [hsc] at hms
        have : y = x := Prod.ext (Option.some.inj hms).symm hx.symm
        rw [this] at hy
        exact hxe hy
      · rw [modify_ne _ _ hx] at hm
        obtain ⟨z, hz, hzid⟩ := r1.utd y hyh ⟨m, by simpa using hm, hms⟩
        refine ⟨z, ?_, hzid⟩
        rw [List.mem_filter]
        exact ⟨hz, by simp; omega⟩
    · have := filter_ne_length a.live r1.ids x.2 ⟨e, he, hid⟩
      simp only [markErased, dec]
      rw [r1.size]
      split <;> omega
  | popEmpty hp hemp =>
    have r1 := R_prune hp r
    refine ⟨a, ?_, r1⟩
    simp only [specNext]
    rw [if_pos]
    cases hlv : a.live with
    | nil => rfl
    | cons e es =>
      have := (r1.lives e (by rw [hlv]; exact List.mem_cons_self)).2
      rw [hemp] at this
      simp at this
  | updateSame id s n hn hi hsc =>
    rcases r.inpq id n hn hi with hlv | hc
    · refine ⟨_, by simp only [specNext]; rw [if_pos hlv], ?_⟩
      have heq : a.live.map (fun e => if e.id = id then { e with score := s } else e) = a.live := by
        conv => rhs; rw [← List.map_id a.live]
        apply List.map_congr_left
        intro e he
        by_cases hid : e.id = id
        · have h1 := (r.lives e he).1
          rw [hid, hn] at h1
          rw [Option.some.inj h1] at hsc
          simp only [Option.some.injEq] at hsc
          rw [if_pos hid, ← hsc]; rfl
        · rw [if_neg hid]; rfl
      refine ⟨r.len, ?_, ?_, ?_, r.nodup, r.heapLt, ?_, ?_, ?_⟩
      · intro e he; rw [heq] at he; exact r.lives e he
      · intro i m h1 h2
        rcases r.inpq i m h1 h2 with h | h
        · left; simpa only [isLive, heq] using h
        · exact .inr h
      · rw [heq]; exact r.ids
      · intro x hx; exact List.mem_cons_of_mem _ (r.held x hx)
      · intro x hx hu; simpa only [isLive, heq] using r.utd x hx hu
      · simpa using r.size
    · exact absurd hc hl.1
  | update id s n hn hi hsc =>
    rcases r.inpq id n hn hi with hlv | hc
    · refine ⟨_, by simp only [specNext]; rw [if_pos hlv], ?_⟩
      have hfresh : (id, s) ∉ a.held := by
        rcases hl.2 with ⟨e, he, hid, hes⟩ | h
        · exfalso
          have h1 := (r.lives e he).1
          rw [hid, hn] at h1
          apply hsc
          rw [Option.some.inj h1, hes]
        · exact h
      have hlive' : ∀ j, isLive a j → ∃ e ∈ a.live.map (fun e => if e.id = id then { e with score := s } else e),
          e.id = j := by
        rintro j ⟨e, he, hid⟩
        refine ⟨_, List.mem_map.mpr ⟨e, he, rfl⟩, ?_⟩
        split <;> simp [hid]
      refine ⟨by simpa using r.len, ?_, ?_, ?_, ?_, ?_, ?_, ?_, by simpa using r.size⟩
      · intro e he
        simp only [List.mem_map] at he
        obtain ⟨y, hy, rfl⟩ := he
        obtain ⟨h1, h2⟩ := r.lives y hy
        by_cases hid : y.id = id
        · simp only [if_pos hid]
          rw [← hid, modify_self, h1]
          simp [hid]
        · simp only [if_neg hid]
          rw [modify_ne _ _ (Ne.symm hid)]
          refine ⟨by simpa using h1, List.mem_cons_of_mem _ h2⟩
      · intro j m hm hji
        simp only at hm
        have : ∃ q, h.nodes[j]? = some q ∧ q.inPQ = true := by
          by_cases hj : id = j
          · rw [← hj]; exact ⟨n, hn, hi⟩
          · rw [modify_ne _ _ hj] at hm; exact ⟨m, by simpa using hm, hji⟩
        obtain ⟨q, hq, hqi⟩ := this
        rcases r.inpq j q hq hqi with h | h
        · exact .inl (hlive' j h)
        · exact .inr h
      · simp only; rw [map_update_ids]; exact r.ids
      · refine List.nodup_cons.mpr ⟨fun hm => hfresh (r.held _ hm), r.nodup⟩
      · intro x hx
        simp only [List.length_modify]
        rcases List.mem_cons.mp hx with rfl | hx
        · exact (List.getElem?_eq_some_iff.mp hn).1
        · exact r.heapLt x hx
      · intro x hx
        rcases List.mem_cons.mp hx with rfl | hx
        · exact List.mem_cons_self
        · exact List.mem_cons_of_mem _ (r.held x hx)
      · intro x hx hu
        by_cases hid : x.2 = id
        · rw [hid]; exact hlive' id hlv
        · rcases List.mem_cons.mp hx with rfl | hx
          · exact absurd rfl hid
          · obtain ⟨m, hm, hms⟩ := hu
            simp only at hm
            rw [modify_ne _ _ (Ne.symm hid)] at hm
            exact hlive' _ (r.utd x hx ⟨m, by simpa using hm, hms⟩)
    · exact absurd hc hl.1
  | updateRefused id s n hn hi =>
    refine ⟨a, ?_, r⟩
    simp only [specNext]
    rw [if_neg]
    rintro ⟨e, he, hid⟩
    have h1 := (r.lives e he).1
    rw [hid, hn] at h1
    rw [Option.some.inj h1] at hi
    simp at hi
  | erase id n hn hi =>
    rcases r.inpq id n hn hi with hlv | hc
    · refine ⟨{ a with live := a.live.filter (fun e => e.id ≠ id) }, by simp only [specNext]; rw [if_pos hlv], ?_⟩
      have hlen := (List.getElem?_eq_some_iff.mp hn).1
      refine ⟨by simpa using r.len, ?_, ?_, ids_filter_nodup r.ids _, r.nodup, ?_, r.held, ?_, ?_⟩
      · intro e he
        rw [List.mem_filter] at he
        have hne : e.id ≠ id := by simpa using he.2
        obtain ⟨h1, h2⟩ := r.lives e he.1
        simp only
        rw [List.getElem?_set_ne (Ne.symm hne)]
        exact ⟨h1, h2⟩
      · intro j m hm hji
        by_cases hj : id = j
        · simp only at hm
          rw [hj, List.getElem?_set_self (by omega)] at hm
          rw [← Option.some.inj hm] at hji
          simp at hji
        · simp only at hm
          rw [List.getElem?_set_ne hj] at hm
          rcases r.inpq j m hm hji with ⟨y, hy, hyid⟩ | hc
          · refine .inl ⟨y, ?_, hyid⟩
            rw [List.mem_filter]
            exact ⟨hy, by simp; omega⟩
          · exact .inr hc
      · intro x hx; simpa using r.heapLt x hx
      · intro x hx hu
        obtain ⟨m, hm, hms⟩ := hu
        simp only at hm
        by_cases hj : id = x.2
        · rw [hj, List.getElem?_set_self (by omega)] at hm
          rw [← Option.some.inj hm] at hms
          simp at hms
        · rw [List.getElem?_set_ne hj] at hm
          obtain ⟨y, hy, hyid⟩ := r.utd x hx ⟨m, hm, hms⟩
          refine ⟨y, ?_, hyid⟩
          rw [List.mem_filter]
          exact ⟨hy, by simp; omega⟩
      · have := filter_ne_length a.live r.ids id hlv
        simp only [dec]
        rw [r.size]
        split <;> omega
    · exact absurd hc hl
  | eraseRefused id n hn hi =>
    refine ⟨a, ?_, r⟩
    simp only [specNext]
    rw [if_neg]
    rintro ⟨e, he, hid⟩
    have h1 := (r.lives e he).1
    rw [hid, hn] at h1
    rw [Option.some.inj h1] at hi
    simp at hi
  | clear =>
    refine ⟨_, rfl, ?_⟩
    refine ⟨r.len, by simp, ?_, by simp, by simp, by simp, by simp, by simp, rfl⟩
    intro id n hn hi
    rcases r.inpq id n hn hi with ⟨e, he, hid⟩ | hc
    · right
      simp only [List.mem_append, List.mem_map]
      exact .inl ⟨e, he, hid⟩
    · right
      exact List.mem_append_right _ hc
  | size =>
    exact ⟨a, by simp only [specNext]; rw [if_pos r.size], r⟩

/-- The whole history is legal (judged along the specification). -/
def LegalRun [DecidableEq V] (a : PQSpec.State V) : List (Ev V) → Prop
  | [] => True
  | e :: es => Legal a e ∧ ∀ a', specNext a e = some a' → LegalRun a' es

theorem sim_run [Inhabited V] [DecidableEq V] {h h' : Heap.State V} {es : List (Ev V)} (hr : Run h es h') :
    ∀ {a}, R h a → LegalRun a es → ∃ a', specRun a es = some a' ∧ R h' a' := by
  induction hr with
  | nil => intro a r _; exact ⟨a, rfl, r⟩
  | cons hs _ ih =>
    intro a r hl
    obtain ⟨a1, h1, r1⟩ := sim r hs hl.1
    obtain ⟨a2, h2, r2⟩ := ih r1 (hl.2 a1 h1)
    exact ⟨a2, by simp [specRun, h1, h2], r2⟩

/-- `pop` always does something: it terminates with a result or the exception. -/
theorem prune_total (h : Heap.State V) (n : Nat) (hn : h.heap.length = n) : ∃ h', Prune h h' ∧
    (h'.heap = [] ∨ ∃ e, IsTop e h'.heap ∧ upToDate h' e) := by
  induction n generalizing h with
  | zero => exact ⟨h, .empty (List.length_eq_zero_iff.mp hn), .inl (List.length_eq_zero_iff.mp hn)⟩
  | succ n ih =>
    have hmin : ∀ l : List (Nat × Nat), l ≠ [] → ∃ e, IsTop e l := by
      intro l
      induction l with
      | nil => simp
      | cons x xs ihl =>
        intro _
        by_cases hx : xs = []
        · subst hx; exact ⟨x, by simp [IsTop]⟩
        · obtain ⟨e, he1, he2⟩ := ihl hx
          by_cases hle : x.1 ≤ e.1
          · refine ⟨x, List.mem_cons_self, ?_⟩
            intro y hy
            rcases List.mem_cons.mp hy with rfl | hy
            · exact Nat.le_refl _
            · exact Nat.le_trans hle (he2 y hy)
          · refine ⟨e, List.mem_cons_of_mem _ he1, ?_⟩
            intro y hy
            rcases List.mem_cons.mp hy with rfl | hy
            · omega
            · exact he2 y hy
    obtain ⟨e, he⟩ := hmin h.heap (by intro h0; rw [h0] at hn; simp at hn)
    by_cases hu : upToDate h e
    · exact ⟨h, .stop e he hu, .inr ⟨e, he, hu⟩⟩
    · obtain ⟨h', hp, hc⟩ := ih { h with heap := h.heap.erase e } (by
        simp only; rw [List.length_erase_of_mem he.1]; omega)
      exact ⟨h', .skip e he hu hp, hc⟩

end Heap

/-! ### Draining -/

theorem drain_spec {V : Type} [DecidableEq V] {popped : List (Nat × V)} :
    ∀ {a a' : PQSpec.State V}, (a.live.map (·.id)).Nodup →
    specRun a (popped.map (fun p => Ev.pop p.1 p.2) ++ [.popEmpty]) = some a' →
    ∃ es : List (Entry V), es.Perm a.live ∧ es.map (fun e => (e.id, e.value)) = popped ∧
      es.Pairwise (fun x y => x.score ≤ y.score) := by
  induction popped with
  | nil =>
    intro a a' _ h
    by_cases hl : a.live = []
    · exact ⟨[], by simp [hl], rfl, .nil⟩
    · simp [specRun, specNext, hl] at h
  | cons p ps ih =>
    intro a a' hn h
    simp only [List.map_cons, List.cons_append, specRun, specNext] at h
    by_cases hc : ∃ e ∈ a.live, e.id = p.1 ∧ e.value = p.2 ∧ ∀ e' ∈ a.live, e.score ≤ e'.score
    · rw [if_pos hc] at h
      obtain ⟨e, he, hid, hv, hmin⟩ := hc
      obtain ⟨es, hp, hm, hs⟩ := ih (a := { a with live := a.live.filter (fun e => e.id ≠ p.1) })
        (ids_filter_nodup hn _) h
      have hperm : (e :: a.live.filter (fun e => e.id ≠ p.1)).Perm a.live := by
        have h1 : a.live.filter (fun x => x.id ≠ p.1) = a.live.filter (fun x => x ≠ e) := by
          apply List.filter_congr
          intro x hx
          simp only [decide_eq_decide, ← hid]
          constructor
          · rintro h rfl; exact h rfl
          · intro h hh; exact h (entry_unique hn hx he hh)
        have hnd : a.live.Nodup := by
          have := hn
          rw [List.Nodup, List.pairwise_map] at this
          exact this.imp (fun h => fun heq => h (by rw [heq]))
        rw [h1]
        have h2 : a.live.filter (fun x => x ≠ e) = a.live.erase e := by
          rw [hnd.erase_eq_filter]
          apply List.filter_congr
          intro x _
          simp [bne, BEq.beq]
        rw [h2]
        exact (List.perm_cons_erase he).symm
      refine ⟨e :: es, (hp.cons e).trans hperm, by simp [hm, hid, hv], ?_⟩
      refine List.pairwise_cons.mpr ⟨?_, hs⟩
      intro y hy
      have := hp.mem_iff.mp hy
      exact hmin y (List.mem_filter.mp this).1
    · rw [if_neg hc] at h
      simp at h

namespace Tree
variable {V : Type}

structure R (t : Tree.State V) (a : PQSpec.State V) : Prop where
  len : t.values.length = a.next
  vals : ∀ e ∈ a.live, t.values[e.id]? = some e.value
  map : t.map.Perm (a.live.map (fun e => (e.score, e.id)))
  ids : (a.live.map (·.id)).Nodup

theorem R_init : R ({} : Tree.State V) {} := ⟨rfl, by simp, by simp, by simp⟩

theorem mem_map_iff {t : Tree.State V} {a} (r : R t a) (s id : Nat) :
    (s, id) ∈ t.map ↔ ∃ e ∈ a.live, e.score = s ∧ e.id = id := by
  rw [r.map.mem_iff]
  simp

theorem erase_perm {t : Tree.State V} {a : PQSpec.State V} (r : R t a) {s id : Nat} (h : (s, id) ∈ t.map) :
    (t.map.erase (s, id)).Perm ((a.live.filter (fun e => e.id ≠ id)).map (fun e => (e.score, e.id))) := by
  have hnodup : (a.live.map (fun e => (e.score, e.id))).Nodup := by
    have := r.ids
    rw [List.Nodup, List.pairwise_map] at this ⊢
    exact this.imp (fun h heq => h (by simp at heq; exact heq.2))
  refine (r.map.erase (s, id)).trans ?_
  rw [hnodup.erase_eq_filter, List.filter_map]
  obtain ⟨e, he, hes, hid⟩ := (mem_map_iff r s id).mp h
  have : a.live.filter ((fun x => x != (s, id)) ∘ fun e => (e.score, e.id)) = a.live.filter (fun e => e.id ≠ id) := by
    apply List.filter_congr
    intro x hx
    by_cases hxi : x.id = id
    · have := entry_unique r.ids hx he (by rw [hxi, hid])
      subst this
      simp [hes, hid]
    · simp [hxi]
  rw [this]

theorem isLive_iff {t : Tree.State V} {a} (r : R t a) (id : Nat) : isLive a id ↔ ∃ x ∈ t.map, x.2 = id := by
  constructor
  · rintro ⟨e, he, hid⟩
    exact ⟨(e.score, e.id), (mem_map_iff r _ _).mpr ⟨e, he, rfl, rfl⟩, hid⟩
  · rintro ⟨⟨s, i⟩, hx, rfl⟩
    obtain ⟨e, he, _, hid⟩ := (mem_map_iff r _ _).mp hx
    exact ⟨e, he, hid⟩

theorem sim [DecidableEq V] {t t' : Tree.State V} {a} {e : Ev V} (r : R t a) (hs : Step t e t') :
    ∃ a', specNext a e = some a' ∧ R t' a' := by
  cases hs with
  | insert s v =>
    refine ⟨{ a with
        live := ⟨t.values.length, s, v⟩ :: a.live, next := a.next + 1, held := (t.values.length, s) :: a.held },
      by simp only [specNext]; rw [if_pos r.len], ?_⟩
    refine ⟨by simp [r.len], ?_, by simpa using r.map, ?_⟩
    · intro e he
      rcases List.mem_cons.mp he with rfl | he
      · simp
      · have h1 := r.vals e he
        have : e.id < t.values.length := (List.getElem?_eq_some_iff.mp h1).1
        simp only
        rw [List.getElem?_append_left this]; exact h1
    · simp only [List.map_cons, List.nodup_cons]
      refine ⟨?_, r.ids⟩
      intro hm
      obtain ⟨e, he, hid⟩ := List.mem_map.mp hm
      have := (List.getElem?_eq_some_iff.mp (r.vals e he)).1
      omega
  | pop x v ht hv =>
    obtain ⟨e, he, hes, hid⟩ := (mem_map_iff r x.1 x.2).mp ht.1
    have hval : e.value = v := by
      have := r.vals e he
      rw [hid, hv] at this
      exact (Option.some.inj this).symm
    refine ⟨{ a with live := a.live.filter (fun e => e.id ≠ x.2) }, ?_, ?_⟩
    · simp only [specNext]
      have hmin : ∀ e' ∈ a.live, e.score ≤ e'.score := by
        intro e' he'
        have := ht.2 (e'.score, e'.id) ((mem_map_iff r _ _).mpr ⟨e', he', rfl, rfl⟩)
        simpa [hes] using this
      rw [if_pos ⟨e, he, hid, hval, hmin⟩]
    · exact ⟨r.len, fun y hy => r.vals y (List.mem_filter.mp hy).1, erase_perm r ht.1, ids_filter_nodup r.ids _⟩
  | popEmpty he =>
    refine ⟨a, ?_, r⟩
    simp only [specNext]
    rw [if_pos]
    have := r.map
    rw [he] at this
    simpa using this.symm.eq_nil
  | update old id s hf =>
    have hlv : isLive a id := (isLive_iff r id).mpr ⟨_, hf, rfl⟩
    refine ⟨_, by simp only [specNext]; rw [if_pos hlv], ?_⟩
    refine ⟨r.len, ?_, ?_, ?_⟩
    · intro e he
      simp only [List.mem_map] at he
      obtain ⟨y, hy, rfl⟩ := he
      have := r.vals y hy
      by_cases hid : y.id = id <;> simpa [hid] using this
    · simp only
      refine ((erase_perm r hf).cons (s, id)).trans ?_
      obtain ⟨e, he, hes, hid⟩ := (mem_map_iff r old id).mp hf
      -- pull the updated entry to the front
      have key : ∀ l : List (Entry V), (l.map (·.id)).Nodup → e ∈ l →
          ((s, id) :: (l.filter (fun e => e.id ≠ id)).map (fun e => (e.score, e.id))).Perm
            ((l.map (fun e => if e.id = id then { e with score := s } else e)).map (fun e => (e.score, e.id))) := by
        intro l
        induction l with
        | nil => simp
        | cons z zs ih =>
          intro hn hm
          rw [List.map_cons, List.nodup_cons] at hn
          by_cases hz : z.id = id
          · have hrest : zs.map (fun e => if e.id = id then { e with score := s } else e) = zs := by
              conv => rhs; rw [← List.map_id zs]
              apply List.map_congr_left
              intro y hy
              rw [if_neg]
              · rfl
              · intro hyid
                exact hn.1 (List.mem_map.mpr ⟨y, hy, by rw [hyid, hz]⟩)
            have hfil : zs.filter (fun e => e.id ≠ id) = zs := by
              rw [List.filter_eq_self]
              intro y hy
              simp only [ne_eq, decide_eq_true_eq]
              intro hyid
              exact hn.1 (List.mem_map.mpr ⟨y, hy, by rw [hyid, hz]⟩)
            rw [List.filter_cons_of_neg (by simp [hz]), hfil, List.map_cons, if_pos hz, hrest]
            simp [hz]
          · have hm' : e ∈ zs := by
              rcases List.mem_cons.mp hm with rfl | h
              · exact absurd hid hz
              · exact h
            rw [List.filter_cons_of_pos (by simp [hz]), List.map_cons, List.map_cons, if_neg hz, List.map_cons]
            exact (List.Perm.swap _ _ _).trans ((ih hn.2 hm').cons _)
      exact key a.live r.ids he
    · simp only; rw [map_update_ids]; exact r.ids
  | updateRefused id s hid hf =>
    refine ⟨a, ?_, r⟩
    simp only [specNext]
    rw [if_neg]
    rw [isLive_iff r]
    rintro ⟨x, hx, hh⟩
    exact hf x hx hh
  | erase old id hf =>
    have hlv : isLive a id := (isLive_iff r id).mpr ⟨_, hf, rfl⟩
    refine ⟨{ a with live := a.live.filter (fun e => e.id ≠ id) }, by simp only [specNext]; rw [if_pos hlv], ?_⟩
    exact ⟨r.len, fun y hy => r.vals y (List.mem_filter.mp hy).1, erase_perm r hf, ids_filter_nodup r.ids _⟩
  | eraseRefused id hid hf =>
    refine ⟨a, ?_, r⟩
    simp only [specNext]
    rw [if_neg]
    rw [isLive_iff r]
    rintro ⟨x, hx, hh⟩
    exact hf x hx hh
  | clear => exact ⟨_, rfl, r.len, by simp, by simp, by simp⟩
  | size => exact ⟨a, by simp only [specNext]; rw [if_pos (by simpa using r.map.length_eq)], r⟩

theorem sim_run [DecidableEq V] {t t' : Tree.State V} {es : List (Ev V)} (hr : Run t es t') :
    ∀ {a}, R t a → ∃ a', specRun a es = some a' ∧ R t' a' := by
  induction hr with
  | nil => intro a r; exact ⟨a, rfl, r⟩
  | cons hs _ ih =>
    intro a r
    obtain ⟨a1, h1, r1⟩ := sim r hs
    obtain ⟨a2, h2, r2⟩ := ih r1
    exact ⟨a2, by simp [specRun, h1, h2], r2⟩

end Tree
end Verif.PQ
