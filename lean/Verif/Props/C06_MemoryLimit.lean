import Verif.Model.Allocator
/-
C06: the memory limit is never exceeded, for every schedule of allocations, failures and deallocations.
-/
namespace Verif.Allocator

/-! ### Specification: read off the history alone -/

/-- Bytes of a request as a mathematical number. -/
def Req.bytes (r : Req) : Nat := r.n * r.size

/-- Bytes currently in the hands of the callers, according to the history: every successful heap allocation adds,
every release subtracts. -/
def handedOut : List Event → Int
  | [] => 0
  | .obtain r :: es => r.bytes + handedOut es
  | .release r :: es => handedOut es - r.bytes
  | _ :: es => handedOut es

/-- No heap allocation failed after its request was granted. -/
def noBadAlloc (es : List Event) : Prop := ∀ r, Event.badAlloc r ∉ es

/-- No thread is inside `allocate` or `deallocate`. -/
def quiescent (s : State) : Prop := s.charged = [] ∧ s.freed = []

/-! ### Lemmas -/

def total (f : Req → Nat) (l : List Req) : Nat := (l.map f).sum

theorem total_cons (f : Req → Nat) (r : Req) (l : List Req) : total f (r :: l) = f r + total f l := by
  simp [total]

theorem total_erase (f : Req → Nat) (r : Req) (l : List Req) (h : r ∈ l) :
    f r + total f (l.erase r) = total f l := by
  rw [← total_cons]
  have hp : (r :: l.erase r).Perm l := (List.perm_cons_erase h).symm
  simpa [total] using (hp.map f).sum_nat

theorem handedOut_append (a b : List Event) : handedOut (a ++ b) = handedOut a + handedOut b := by
  induction a with
  | nil => simp [handedOut]
  | cons e es ih => cases e <;> simp [handedOut, ih] <;> omega

/-- The invariant that is kept by every step. -/
structure Inv (limit : Nat) (es : List Event) (s : State) : Prop where
  balance : s.free + total Req.charge s.charged + total Req.charge s.live + total Req.charge s.freed
    + total Req.charge s.failed = limit
  repr : ∀ r ∈ s.live, r.representable
  hist : handedOut es = total Req.bytes s.live
  failed : noBadAlloc es → s.failed = []

theorem charge_eq_bytes (r : Req) (h : r.representable) : r.charge = r.bytes := by
  unfold Req.charge Req.bytes
  unfold Req.representable at h
  omega

theorem total_congr (l : List Req) (h : ∀ r ∈ l, r.representable) :
    total Req.charge l = total Req.bytes l := by
  induction l with
  | nil => rfl
  | cons r l ih =>
    rw [total_cons, total_cons, ih (fun x hx => h x (List.mem_cons_of_mem _ hx)),
      charge_eq_bytes r (h r List.mem_cons_self)]

theorem inv_exec {limit : Nat} (hl : limit < 2 ^ 64) {es s} (h : Exec limit es s) : Inv limit es s := by
  induction h with
  | nil => exact ⟨by simp [init, total], by simp [init], by simp [init, total, handedOut], fun _ => rfl⟩
  | @snoc es s e h he ih =>
    obtain ⟨hb, hr, hh, hf⟩ := ih
    have hnb : noBadAlloc (es ++ [e]) → noBadAlloc es := fun h r hm => h r (List.mem_append_left _ hm)
    cases e with
    | request r =>
      have hh' : handedOut (es ++ [Event.request r]) = handedOut es := by simp [handedOut_append, handedOut]
      by_cases hle : r.charge ≤ s.free
      · have : next s (.request r) = { s with free := s.free - r.charge, charged := r :: s.charged } := by
          simp [next, step, decreaseIfEnoughLeft, hle]
        rw [this]
        refine ⟨?_, hr, by rw [hh']; exact hh, fun h => hf (hnb h)⟩
        simp only [total_cons]
        omega
      · have : next s (.request r) = s := by simp [next, step, decreaseIfEnoughLeft, hle]
        rw [this]
        exact ⟨hb, hr, by rw [hh']; exact hh, fun h => hf (hnb h)⟩
    | obtain r =>
      obtain ⟨hm, hrep⟩ := he
      have := total_erase Req.charge r s.charged hm
      refine ⟨?_, ?_, ?_, fun h => hf (hnb h)⟩
      · simp only [next, step, total_cons]; omega
      · intro x hx
        simp only [next, step, List.mem_cons] at hx
        rcases hx with rfl | hx
        · exact hrep
        · exact hr x hx
      · simp only [next, step, total_cons, handedOut_append, handedOut]; omega
    | badAlloc r =>
      have := total_erase Req.charge r s.charged he
      refine ⟨?_, hr, ?_, fun h => absurd (h r) (by simp)⟩
      · simp only [next, step, total_cons]; omega
      · simp only [next, step, handedOut_append, handedOut]; omega
    | release r =>
      have := total_erase Req.charge r s.live he
      have hB := total_erase Req.bytes r s.live he
      refine ⟨?_, ?_, ?_, fun h => hf (hnb h)⟩
      · simp only [next, step, total_cons]; omega
      · intro x hx
        exact hr x (List.mem_of_mem_erase hx)
      · simp only [next, step, handedOut_append, handedOut]; omega
    | credit r =>
      have := total_erase Req.charge r s.freed he
      refine ⟨?_, hr, ?_, fun h => hf (hnb h)⟩
      · simp only [next, step, increase]; omega
      · simp only [next, step, handedOut_append, handedOut]; omega

/-! ### Property theorems -/

/-- **C06** (limit).  In every schedule, at every moment, the bytes in the hands of callers and the bytes reported as
free together do not exceed the limit.  In particular the limit is never exceeded. -/
theorem C06_limit {limit : Nat} (hl : limit < 2 ^ 64) {es s} (h : Exec limit es s) :
    handedOut es + s.free ≤ limit := by
  have hi := inv_exec hl h
  have := hi.hist
  have := hi.balance
  have := total_congr _ hi.repr
  omega

/-- **C06** (balance).  Whenever no thread is inside an allocator call, and no heap allocation failed so far, the bytes
in use plus the bytes reported as free are exactly the limit. -/
theorem C06_balance {limit : Nat} (hl : limit < 2 ^ 64) {es s} (h : Exec limit es s) (hq : quiescent s)
    (hb : noBadAlloc es) : handedOut es + s.free = limit := by
  have hi := inv_exec hl h
  have h1 := hi.hist
  have h2 := hi.balance
  have h3 := total_congr _ hi.repr
  rw [hq.1, hq.2, hi.failed hb] at h2
  have h0 : total Req.charge [] = 0 := rfl
  omega

/-- **C06** (refusal).  A request for `n` elements (no overflow of the byte count) at a moment when no other thread is
inside an allocator call is refused exactly when granting it would exceed the limit, and a refusal changes nothing. -/
theorem C06_refused_iff {limit : Nat} (hl : limit < 2 ^ 64) {es s} (h : Exec limit es s) (hq : quiescent s)
    (hb : noBadAlloc es) (r : Req) (hr : r.bytes < 2 ^ 64) :
    (step s (.request r) = .throw ↔ handedOut es + r.bytes > limit) ∧
    (step s (.request r) = .throw → next s (.request r) = s) := by
  have hbal := C06_balance hl h hq hb
  have hc : r.charge = r.bytes := by unfold Req.charge; unfold Req.bytes at *; omega
  constructor
  · by_cases hle : r.charge ≤ s.free <;> simp [step, decreaseIfEnoughLeft, hle] <;> omega
  · intro ht; simp [next, ht]

/-- **C06** (no lost memory).  If everything handed out was given back, the full limit is available again. -/
theorem C06_all_returned {limit : Nat} (hl : limit < 2 ^ 64) {es s} (h : Exec limit es s) (hq : quiescent s)
    (hb : noBadAlloc es) (hz : handedOut es = 0) : s.free = limit := by
  have := C06_balance hl h hq hb
  omega

/-- The hypothesis `noBadAlloc` in `C06_balance` is needed: when the heap allocation itself throws `std::bad_alloc`
(AllocatorWithLimit.h:145) the decrease of line 143 is not undone, so the bytes are lost for good although nobody
holds them.  Disagreement with the property as stated ("bytes handed out plus bytes available equal the limit"). -/
theorem C06_bad_alloc_leaks : ∃ es s, Exec 100 es s ∧ quiescent s ∧ handedOut es = 0 ∧ s.free = 92 := by
  let r : Req := ⟨1, 8⟩
  refine ⟨[] ++ [.request r] ++ [.badAlloc r], _, .snoc _ (.snoc _ .nil ?_) ?_, ?_, ?_, ?_⟩ <;>
    simp [enabled, next, step, init, decreaseIfEnoughLeft, Req.charge, r, quiescent, handedOut]

/-- Same for a request whose byte count overflows: `2^61` elements of 8 bytes are charged 0 bytes and then refused by
the heap.  It never hands out memory (`C06_limit`). -/
example : (⟨2 ^ 61, 8⟩ : Req).charge = 0 ∧ ¬ (⟨2 ^ 61, 8⟩ : Req).representable := by decide

/-- Non-vacuity: two interleaved allocations, one refused request, one release; 24 of 100 bytes in use at the end. -/
example : ∃ es s, Exec 100 es s ∧ quiescent s ∧ noBadAlloc es ∧ handedOut es = 24 ∧ s.free = 76 := by
  let a : Req := ⟨3, 8⟩
  let b : Req := ⟨5, 8⟩
  let c : Req := ⟨10, 8⟩
  refine ⟨[] ++ [.request a] ++ [.request b] ++ [.obtain b] ++ [.request c] ++ [.obtain a] ++ [.release b]
    ++ [.credit b], _, .snoc _ (.snoc _ (.snoc _ (.snoc _ (.snoc _ (.snoc _ (.snoc _ .nil ?_) ?_) ?_) ?_) ?_) ?_) ?_,
    ?_, ?_, ?_, ?_⟩ <;>
    simp [enabled, next, step, init, decreaseIfEnoughLeft, Req.charge, Req.representable, increase, a, b, c,
      quiescent, handedOut, noBadAlloc, Req.bytes]

end Verif.Allocator
