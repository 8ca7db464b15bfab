import Verif.Lemmas.PriorityQueue
/-
C11: the eviction queue yields entries in score order, each once.
-/
namespace Verif.PQ
open PQSpec

/-- **C11** (tree-based queue, all histories).  Every result of every operation is the one the specification demands:
`pop` returns a live entry of minimal score (or reports emptiness exactly when there is none), `size` is the number of
live entries, updates and removals succeed exactly on live handles. -/
theorem C11_tree {V : Type} [DecidableEq V] {es : List (Ev V)} {t : Tree.State V} (h : Tree.Run {} es t) :
    ∃ a, specRun {} es = some a := by
  obtain ⟨a, ha, _⟩ := Tree.sim_run h Tree.R_init
  exact ⟨a, ha⟩

/-- **C11** (heap-based queue).  Same statement for `HeapBasedPQ`, for all histories in which a score update never
returns to a score the same handle had before, and in which no handle is used after the queue was cleared.  The LRU
cache satisfies this: its scores are time points that never decrease, and an update with an unchanged score is a no-op.
Without the two restrictions the statement is false: `C11_heap_double_pop`, `C11_heap_after_clear`. -/
theorem C11_heap_partial {V : Type} [Inhabited V] [DecidableEq V] {es : List (Ev V)} {h : Heap.State V}
    (hr : Heap.Run {} es h) (hl : Heap.LegalRun {} es) : ∃ a, specRun {} es = some a := by
  obtain ⟨a, ha, _⟩ := Heap.sim_run hr Heap.R_init hl
  exact ⟨a, ha⟩

/-- What a history leaves live never contains a handle twice. -/
theorem ids_of_specRun {V : Type} [DecidableEq V] {es : List (Ev V)} :
    ∀ {a a' : PQSpec.State V}, (a.live.map (·.id)).Nodup → (∀ e ∈ a.live, e.id < a.next) →
      specRun a es = some a' → (a'.live.map (·.id)).Nodup := by
  induction es with
  | nil => intro a a' hn _ h; simp [specRun] at h; rw [← h]; exact hn
  | cons e es ih =>
    intro a a' hn hlt h
    rw [specRun] at h
    cases hs : specNext a e with
    | none => rw [hs] at h; simp at h
    | some b =>
      rw [hs] at h
      have hb : (b.live.map (·.id)).Nodup ∧ ∀ e ∈ b.live, e.id < b.next := by
        cases e <;> simp only [specNext] at hs
        case insert s v id =>
          split at hs
          · cases hs
            subst_vars
            refine ⟨?_, ?_⟩
            · simp only [List.map_cons, List.nodup_cons]
              refine ⟨?_, hn⟩
              intro hm
              obtain ⟨e, he, hid⟩ := List.mem_map.mp hm
              have := hlt e he
              omega
            · intro e he
              rcases List.mem_cons.mp he with rfl | he
              · simp
              · have := hlt e he; simp; omega
          · simp at hs
        case pop id v =>
          split at hs
          · cases hs; exact ⟨ids_filter_nodup hn _, fun e he => hlt e (List.mem_filter.mp he).1⟩
          · simp at hs
        case popEmpty => split at hs <;> simp at hs; rw [← hs]; exact ⟨hn, hlt⟩
        case update id s =>
          split at hs
          · cases hs
            refine ⟨by simp only; rw [map_update_ids]; exact hn, ?_⟩
            intro e he
            simp only [List.mem_map] at he
            obtain ⟨y, hy, rfl⟩ := he
            have := hlt y hy
            split <;> exact this
          · simp at hs
        case updateRefused => split at hs <;> simp at hs; rw [← hs]; exact ⟨hn, hlt⟩
        case erase id =>
          split at hs
          · cases hs; exact ⟨ids_filter_nodup hn _, fun e he => hlt e (List.mem_filter.mp he).1⟩
          · simp at hs
        case eraseRefused => split at hs <;> simp at hs; rw [← hs]; exact ⟨hn, hlt⟩
        case clear => cases hs; simp
        case size => split at hs <;> simp at hs; rw [← hs]; exact ⟨hn, hlt⟩
      exact ih hb.1 hb.2 h

theorem specRun_append {V : Type} [DecidableEq V] (es fs : List (Ev V)) : ∀ (a : PQSpec.State V),
    specRun a (es ++ fs) = (specRun a es).bind (fun b => specRun b fs) := by
  induction es with
  | nil => intro a; rfl
  | cons e es ih =>
    intro a
    simp only [List.cons_append, specRun]
    cases specNext a e with
    | none => rfl
    | some b => exact ih b

/-- **C11** (draining).  After any history, popping until the queue reports empty returns every live entry exactly once,
with its value, in non-decreasing order of the scores.  (Stated for the heap-based queue; `popped` are the results of
the final pops.) -/
theorem C11_heap_drain_partial {V : Type} [Inhabited V] [DecidableEq V] {es : List (Ev V)} {popped : List (Nat × V)}
    {h : Heap.State V}
    (hr : Heap.Run {} (es ++ (popped.map (fun p => Ev.pop p.1 p.2) ++ [.popEmpty])) h)
    (hl : Heap.LegalRun {} (es ++ (popped.map (fun p => Ev.pop p.1 p.2) ++ [.popEmpty]))) :
    ∃ (a : PQSpec.State V) (sorted : List (Entry V)), specRun {} es = some a ∧ sorted.Perm a.live ∧
      sorted.map (fun e => (e.id, e.value)) = popped ∧ sorted.Pairwise (fun x y => x.score ≤ y.score) := by
  obtain ⟨b, hb⟩ := C11_heap_partial hr hl
  rw [specRun_append] at hb
  cases ha : specRun ({} : PQSpec.State V) es with
  | none => rw [ha] at hb; simp at hb
  | some a =>
    rw [ha] at hb
    obtain ⟨s, h1, h2, h3⟩ := drain_spec (ids_of_specRun (by simp) (by simp) ha) hb
    exact ⟨a, s, rfl, h1, h2, h3⟩

/-- **C11** (draining, tree-based queue). -/
theorem C11_tree_drain {V : Type} [DecidableEq V] {es : List (Ev V)} {popped : List (Nat × V)}
    {t : Tree.State V}
    (hr : Tree.Run {} (es ++ (popped.map (fun p => Ev.pop p.1 p.2) ++ [.popEmpty])) t) :
    ∃ (a : PQSpec.State V) (sorted : List (Entry V)), specRun {} es = some a ∧ sorted.Perm a.live ∧
      sorted.map (fun e => (e.id, e.value)) = popped ∧ sorted.Pairwise (fun x y => x.score ≤ y.score) := by
  obtain ⟨b, hb⟩ := C11_tree hr
  rw [specRun_append] at hb
  cases ha : specRun ({} : PQSpec.State V) es with
  | none => rw [ha] at hb; simp at hb
  | some a =>
    rw [ha] at hb
    obtain ⟨s, h1, h2, h3⟩ := drain_spec (ids_of_specRun (by simp) (by simp) ha) hb
    exact ⟨a, s, rfl, h1, h2, h3⟩

/-- **C11** (progress).  `pop` on the heap-based queue always returns or throws: in every state some pop step exists. -/
theorem C11_heap_pop_total {V : Type} [Inhabited V] (h : Heap.State V) :
    (∃ id v h', Heap.Step h (.pop id v) h') ∨ (∃ h', Heap.Step h .popEmpty h') := by
  obtain ⟨h', hp, hc⟩ := Heap.prune_total h _ rfl
  rcases hc with he | ⟨e, ht, hu⟩
  · exact .inr ⟨h', .popEmpty hp he⟩
  · obtain ⟨n, hn, hs⟩ := hu
    exact .inl ⟨_, _, _, .pop e n hp ht hn ⟨n, hn, hs⟩⟩

/-! ### Where the heap-based queue disagrees with the property -/

/-- One entry whose score goes 1 → 2 → 1 is returned by two pops (PriorityQueue.h:382 leaves the old heap entry, and
line 405 takes it for valid again), after which `size()` is 2^64-1. -/
theorem C11_heap_double_pop : ∃ h : Heap.State Nat,
    Heap.Run {} [.insert 1 7 0, .update 0 2, .update 0 1, .pop 0 7, .size 0, .pop 0 7, .size (2 ^ 64 - 1)] h := by
  refine ⟨_, .cons (.insert 1 7) (.cons (.update 0 2 ⟨some 1, 7, true⟩ rfl rfl (by simp))
    (.cons (.update 0 1 ⟨some 2, 7, true⟩ rfl rfl (by simp))
    (.cons (.pop (1, 0) ⟨some 1, 7, true⟩ (.stop (1, 0) ?_ ?_) ?_ rfl ?_)
    (.cons .size (.cons (.pop (1, 0) ⟨some 1, 7, false⟩ (.stop (1, 0) ?_ ?_) ?_ rfl ?_)
    (.cons .size .nil))))))⟩ <;> simp [IsTop, Heap.upToDate, Heap.markErased]

/-- The specification rejects that history (so the hypothesis of `C11_heap_partial` cannot be dropped). -/
theorem C11_heap_double_pop_wrong : specRun ({} : PQSpec.State Nat)
    [.insert 1 7 0, .update 0 2, .update 0 1, .pop 0 7, .size 0, .pop 0 7, .size (2 ^ 64 - 1)] = none := by
  decide

/-- After `clear()`, a removal through an old handle is accepted and makes `size()` 2^64-1. -/
theorem C11_heap_after_clear : ∃ h : Heap.State Nat,
    Heap.Run {} [.insert 1 7 0, .clear, .erase 0, .size (2 ^ 64 - 1)] h := by
  exact ⟨_, .cons (.insert 1 7) (.cons .clear (.cons (.erase 0 ⟨some 1, 7, true⟩ rfl rfl) (.cons .size .nil)))⟩

theorem C11_heap_after_clear_wrong : specRun ({} : PQSpec.State Nat)
    [.insert 1 7 0, .clear, .erase 0, .size (2 ^ 64 - 1)] = none := by decide

/-! ### Non-vacuity -/

/-- A legal history with an update that overtakes, an erase and draining pops. -/
def sampleHistory : List (Ev Nat) :=
  [.insert 5 50 0, .insert 3 30 1, .insert 4 40 2, .update 1 9, .erase 2, .size 2] ++
    ([(0, 50), (1, 30)].map (fun p => Ev.pop p.1 p.2) ++ [.popEmpty])

example : Heap.LegalRun ({} : PQSpec.State Nat) sampleHistory := by
  simp [sampleHistory, Heap.LegalRun, Heap.Legal, specNext, isLive]

example : ∃ h, Heap.Run ({} : Heap.State Nat) sampleHistory h := by
  refine ⟨_, .cons (.insert 5 50) (.cons (.insert 3 30) (.cons (.insert 4 40)
    (.cons (.update 1 9 ⟨some 3, 30, true⟩ rfl rfl (by simp)) (.cons (.erase 2 ⟨some 4, 40, true⟩ rfl rfl)
    (.cons .size
    (.cons (.pop (5, 0) ⟨some 5, 50, true⟩
      (.skip (3, 1) ?_ ?_ (.skip (4, 2) ?_ ?_ (.stop (5, 0) ?_ ?_))) ?_ rfl ?_)
    (.cons (.pop (9, 1) ⟨some 9, 30, true⟩ (.stop (9, 1) ?_ ?_) ?_ rfl ?_)
    (.cons (.popEmpty (.empty ?_) ?_) .nil))))))))⟩ <;> simp [IsTop, Heap.upToDate, Heap.markErased]

end Verif.PQ
