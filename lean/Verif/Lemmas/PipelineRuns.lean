import Verif.Lemmas.Pipeline
import Mathlib.Data.List.Forall2
/- Helper lemmas for `Props/C41_Pipeline.lean`: progress, and the state of the creator. -/
namespace Verif.Pipeline
open PipelineSpec

variable {Q S V : Type}

/-! No deadlock -/

theorem step_or_pickup (creator : Creator Q V) (B : Nat) : ∀ p : Pipe Q S V,
    (∃ p', Step creator B p p') ∨ ∃ b p', Pickup p b p' := by
  intro p
  induction p with
  | batcher q task =>
    cases task with
    | filling content =>
      left
      by_cases h : content.length < B
      · rcases hc : creator.call q with ⟨o, q'⟩
        cases o with
        | none => exact ⟨_, .exhausted h hc⟩
        | some v => exact ⟨_, .value h hc⟩
      · exact ⟨_, .full h⟩
    | ready b => exact .inr ⟨_, _, .batcher⟩
  | stage p kind task ih =>
    cases task with
    | waiting σ =>
      left
      rcases ih with ⟨p', h⟩ | ⟨b, p', h⟩
      · exact ⟨_, .previous h⟩
      · exact ⟨_, .arrive h⟩
    | working g th =>
      left
      by_cases h : ∃ k, k < kind.parallelism ∧ (th k).todo ≠ []
      · obtain ⟨k, h1, h2⟩ := h
        exact ⟨_, .thread k h1 h2⟩
      · refine ⟨_, .merged ?_⟩
        intro k hk
        by_cases ht : (th k).todo = []
        · exact ht
        · exact absurd ⟨k, hk, ht⟩ h
    | ready b σ => exact .inr ⟨_, _, .stage⟩

/-! The tasks come to an end -/

def depth : Pipe Q S V → Nat
  | .batcher _ _ => 0
  | .stage p _ _ => depth p + 1

theorem depth_pickup {p p' : Pipe Q S V} {b : Batch V} (h : Pickup p b p') : depth p' = depth p := by
  cases h <;> rfl

theorem depth_step {creator : Creator Q V} {B : Nat} {p p' : Pipe Q S V} (h : Step creator B p p') : depth p' = depth p := by
  induction h with
  | value => rfl
  | exhausted => rfl
  | full => rfl
  | previous _ ih => simp only [depth, ih]
  | arrive hp => simp only [depth, depth_pickup hp]
  | thread => rfl
  | merged => rfl

/-- The steps backwards. -/
def back (creator : Creator Q V) (B : Nat) (p' p : Pipe Q S V) : Prop := Step creator B p p'

def sumTo (f : Nat → Nat) : Nat → Nat
  | 0 => 0
  | n + 1 => sumTo f n + f n

theorem sumTo_lt {f g : Nat → Nat} {k : Nat} (hk : f k < g k) (ho : ∀ i, i ≠ k → f i = g i) : ∀ n, k < n → sumTo f n < sumTo g n := by
  have heq : ∀ n, n ≤ k → sumTo f n = sumTo g n := by
    intro n
    induction n with
    | zero => intro _; rfl
    | succ n ih => intro h; rw [sumTo, sumTo, ih (by omega), ho n (by omega)]
  intro n
  induction n with
  | zero => intro h; omega
  | succ n ih =>
    intro h
    rw [sumTo, sumTo]
    by_cases hn : n = k
    · subst hn; rw [heq n (Nat.le_refl _)]; omega
    · have := ih (by omega)
      rw [ho n hn]; omega

theorem acc_batcher_ready (creator : Creator Q V) (B : Nat) (q : Q) (b : Batch V) :
    Acc (back (S := S) creator B) (.batcher q (.ready b)) := by
  constructor
  intro p' h
  cases h

theorem acc_batcher (creator : Creator Q V) (B : Nat) : ∀ n q (c : List V), B - c.length ≤ n →
    Acc (back (S := S) creator B) (.batcher q (.filling c)) := by
  intro n
  induction n with
  | zero =>
    intro q c hn
    constructor
    intro p' h
    cases h with
    | value hl _ => omega
    | exhausted hl _ => omega
    | full _ => exact acc_batcher_ready _ _ _ _
  | succ n ih =>
    intro q c hn
    constructor
    intro p' h
    cases h with
    | value hl _ => exact ih _ _ (by simp; omega)
    | exhausted hl _ => exact acc_batcher_ready _ _ _ _
    | full _ => exact acc_batcher_ready _ _ _ _

theorem acc_all (creator : Creator Q V) (B : Nat) : ∀ n (p : Pipe Q S V), depth p = n → Acc (back creator B) p := by
  intro n
  induction n with
  | zero =>
    intro p hp
    cases p with
    | batcher q task =>
      cases task with
      | filling c => exact acc_batcher creator B _ q c (Nat.le_refl _)
      | ready b => exact acc_batcher_ready _ _ _ _
    | stage p kind task => simp [depth] at hp
  | succ n ih =>
    have hready : ∀ p : Pipe Q S V, Acc (back creator B) p → ∀ kind b σ, Acc (back creator B) (.stage p kind (.ready b σ)) := by
      intro p hacc
      induction hacc with
      | intro p _ ihp =>
        intro kind b σ
        constructor
        intro p' h
        cases h with
        | previous hs => exact ihp _ hs kind b σ
    have hworking : ∀ m (p : Pipe Q S V), Acc (back creator B) p → ∀ kind g th,
        sumTo (fun k => (th k).todo.length) kind.parallelism ≤ m → Acc (back creator B) (.stage p kind (.working g th)) := by
      intro m
      induction m with
      | zero =>
        intro p hacc
        induction hacc with
        | intro p hp ihp =>
          intro kind g th hm
          constructor
          intro p' h
          cases h with
          | previous hs => exact ihp _ hs kind g th hm
          | thread k hk ht =>
            exfalso
            have := sumTo_lt (f := fun i => if i = k then 0 else (th i).todo.length) (g := fun i => (th i).todo.length) (k := k)
              (by simp only [if_true]; exact List.length_pos_iff.mpr ht) (by intro i hi; simp only [if_neg hi]) _ hk
            omega
          | merged _ => exact hready p ⟨p, hp⟩ kind _ _
      | succ m ihm =>
        intro p hacc
        induction hacc with
        | intro p hp ihp =>
          intro kind g th hm
          constructor
          intro p' h
          cases h with
          | previous hs => exact ihp _ hs kind g th hm
          | thread k hk ht =>
            refine ihm p ⟨p, hp⟩ kind g _ ?_
            have := sumTo_lt (f := fun i => (if i = k then (th k).step (kind.transformer k) else th i).todo.length)
              (g := fun i => (th i).todo.length) (k := k) (by
                simp only [if_true]
                rw [Thread.step]
                cases h : (th k).todo with
                | nil => exact absurd h ht
                | cons v vs => simp) (by intro i hi; simp only [if_neg hi]) _ hk
            omega
          | merged _ => exact hready p ⟨p, hp⟩ kind _ _
    have hwaiting : ∀ p : Pipe Q S V, depth p = n → Acc (back creator B) p → ∀ kind σ, Acc (back creator B) (.stage p kind (.waiting σ)) := by
      intro p hd hacc
      induction hacc with
      | intro p _ ihp =>
        intro kind σ
        constructor
        intro p' h
        cases h with
        | previous hs => exact ihp _ hs (by rw [depth_step hs, hd]) kind σ
        | arrive hp => exact hworking _ _ (ih _ (by rw [depth_pickup hp, hd])) kind _ _ (Nat.le_refl _)
    intro p hp
    cases p with
    | batcher q task => simp [depth] at hp
    | stage p kind task =>
      have hd : depth p = n := by simpa [depth] using hp
      cases task with
      | waiting σ => exact hwaiting p hd (ih p hd) kind σ
      | working g th => exact hworking _ p (ih p hd) kind g th (Nat.le_refl _)
      | ready b σ => exact hready p (ih p hd) kind b σ

theorem internal_cases {creator : Creator Q V} {B : Nat} {s t : System Q S V} (h : Internal creator B s t) :
    (Step creator B s.extractor.pipe t.extractor.pipe ∧ t.extractor.future = s.extractor.future) ∨
    (s.extractor.future = .running ∧ ∃ b, t.extractor.future = .ready b) := by
  obtain ⟨hs, hr⟩ := h
  cases hs with
  | inside h => exact .inl ⟨h, rfl⟩
  | pickup hf hp => exact .inr ⟨hf, _, rfl⟩
  | next _ => simp at hr
  | refill _ _ _ => simp at hr

theorem acc_internal (creator : Creator Q V) (B : Nat) (s : System Q S V) : Acc (fun t s => Internal creator B s t) s := by
  have h1 : ∀ p : Pipe Q S V, ∀ s : System Q S V, s.extractor.pipe = p → s.extractor.future ≠ .running →
      Acc (fun t s => Internal creator B s t) s := by
    intro p
    have hp := acc_all creator B _ p rfl
    induction hp with
    | intro p _ ih =>
      intro s hs hf
      constructor
      intro t ht
      rcases internal_cases ht with ⟨h, he⟩ | ⟨h, _⟩
      · rw [hs] at h
        exact ih _ h t rfl (by rw [he]; exact hf)
      · exact absurd h hf
  have h2 : ∀ p : Pipe Q S V, ∀ s : System Q S V, s.extractor.pipe = p → Acc (fun t s => Internal creator B s t) s := by
    intro p
    have hp := acc_all creator B _ p rfl
    induction hp with
    | intro p _ ih =>
      intro s hs
      constructor
      intro t ht
      rcases internal_cases ht with ⟨h, he⟩ | ⟨_, b, hb⟩
      · rw [hs] at h
        exact ih _ h t rfl
      · exact h1 _ t rfl (by rw [hb]; simp)
  exact h2 _ s rfl

/-! The state of the creator -/

def badFilling : Filling V → Bool
  | .filling _ => false
  | .ready b => !b.1

def badTask : Task S V → Bool
  | .waiting _ => false
  | .working g _ => !g
  | .ready b _ => !b.1

def bad : Pipe Q S V → Bool
  | .batcher _ t => badFilling t
  | .stage p _ t => bad p || badTask t

def badSystem (s : System Q S V) : Bool :=
  bad s.extractor.pipe || !s.extractor.valid || (match s.extractor.future with | .ready b => !b.1 | _ => false)

theorem stateAfter_succ (creator : Creator Q V) : ∀ m q, stateAfter creator q (m + 1) = (creator.call (stateAfter creator q m)).2 := by
  intro m
  induction m with
  | zero => intro q; rfl
  | succ m ih => intro q; rw [stateAfter, ih, ← stateAfter]

theorem calls_eq (creator : Creator Q V) : ∀ m q, calls creator q m = (creator.call (stateAfter creator q m)).1 := by
  intro m
  induction m with
  | zero => intro q; rfl
  | succ m ih => intro q; rw [calls, ih, ← stateAfter]

theorem pickup_state {p p' : Pipe Q S V} {b : Batch V} (h : Pickup p b p') :
    p'.creatorState = p.creatorState ∧ bad p = (bad p' || !b.1) := by
  cases h with
  | batcher => exact ⟨rfl, by simp [bad, badFilling]⟩
  | stage => exact ⟨rfl, by simp [bad, badTask]⟩

def StateInv (creator : Creator Q V) (q q' : Q) (b : Bool) : Prop :=
  ∃ m, q' = stateAfter creator q m ∧ (b = true → ∃ i < m, calls creator q i = none)

theorem StateInv.mono {creator : Creator Q V} {q q' : Q} {b b' : Bool} (h : StateInv creator q q' b) (hb : b' = true → b = true) :
    StateInv creator q q' b' := by
  obtain ⟨m, h1, h2⟩ := h
  exact ⟨m, h1, fun h => h2 (hb h)⟩

theorem step_state {creator : Creator Q V} {B : Nat} {p p' : Pipe Q S V} (h : Step creator B p p') (q : Q) :
    ∀ extra, StateInv creator q p.creatorState (bad p || extra) → StateInv creator q p'.creatorState (bad p' || extra) := by
  induction h with
  | @value q1 content v q' hl hc =>
    intro extra hi
    obtain ⟨m, h1, h2⟩ := hi
    simp only [Pipe.creatorState] at h1
    refine ⟨m + 1, ?_, ?_⟩
    · rw [stateAfter_succ, ← h1, hc]; rfl
    · intro hb
      obtain ⟨i, h3, h4⟩ := h2 (by simpa [bad, badFilling] using hb)
      exact ⟨i, by omega, h4⟩
  | @exhausted q1 content q' hl hc =>
    intro extra hi
    obtain ⟨m, h1, h2⟩ := hi
    simp only [Pipe.creatorState] at h1
    refine ⟨m + 1, ?_, ?_⟩
    · rw [stateAfter_succ, ← h1, hc]; rfl
    · intro _
      exact ⟨m, by omega, by rw [calls_eq, ← h1, hc]⟩
  | full _ =>
    intro extra hi
    exact hi.mono (by simp [bad, badFilling])
  | @previous p p' kind task _ ih =>
    intro extra hi
    have := ih (badTask task || extra) (hi.mono (by simp [bad, Bool.or_assoc]))
    exact this.mono (by simp [bad, Bool.or_assoc])
  | @arrive p p' kind states b hp =>
    intro extra hi
    obtain ⟨h1, h2⟩ := pickup_state hp
    have : StateInv creator q p'.creatorState (bad p || extra) := by
      rw [h1]
      exact hi.mono (by simp [bad, badTask])
    refine this.mono ?_
    rw [h2]
    simp [bad, badTask]
  | thread => intro extra hi; exact hi.mono (by simp [bad, badTask])
  | merged => intro extra hi; exact hi.mono (by simp [bad, badTask])

theorem deliver_pipe (e : Extractor Q S V) :
    (deliver e).2.pipe = e.pipe ∧ (deliver e).2.valid = e.valid ∧ (deliver e).2.future = e.future := by
  simp only [deliver]
  cases e.buffer[e.position]? <;> exact ⟨rfl, rfl, rfl⟩

theorem sys_state {creator : Creator Q V} {B : Nat} {s t : System Q S V} (h : Sys creator B s t) (q : Q)
    (hi : StateInv creator q s.extractor.pipe.creatorState (badSystem s)) :
    StateInv creator q t.extractor.pipe.creatorState (badSystem t) := by
  cases h with
  | @inside e p' r hstep =>
    have := step_state hstep q (!e.valid || (match e.future with | .ready b => !b.1 | _ => false))
      (hi.mono (by simp [badSystem, Bool.or_assoc]))
    exact this.mono (by simp [badSystem, Bool.or_assoc])
  | @pickup e p' b r hf hp =>
    obtain ⟨h1, h2⟩ := pickup_state hp
    dsimp only
    rw [h1]
    refine hi.mono ?_
    simp only [badSystem, hf, h2]
    cases bad p' <;> cases b.1 <;> cases e.valid <;> simp
  | @next e r hn =>
    obtain ⟨h1, h2, h3⟩ := deliver_pipe e
    refine StateInv.mono (b := badSystem ⟨e, r⟩) (by dsimp only; rw [h1]; exact hi) ?_
    simp only [badSystem, h1, h2, h3]
    exact id
  | @refill e b r heq hv hf =>
    dsimp only
    refine StateInv.mono (b := badSystem ⟨e, r⟩) (by rw [(deliver_pipe _).1]; exact hi) ?_
    simp only [badSystem, (deliver_pipe _).1, (deliver_pipe _).2.1, (deliver_pipe _).2.2, hf, hv]
    cases b.1 <;> simp

theorem setup_state (q : Q) (stages : List (Kind S V × (Nat → S))) :
    (setup q stages).creatorState = q ∧ bad (setup q stages : Pipe Q S V) = false := by
  induction stages with
  | nil => exact ⟨rfl, rfl⟩
  | cons s rest ih =>
    refine ⟨ih.1, ?_⟩
    simp [setup, bad, ih.2, badTask]

theorem reach_state {creator : Creator Q V} {B : Nat} {q : Q} {stages : List (Kind S V × (Nat → S))} {t : System Q S V}
    (h : Reach creator B (start q stages) t) : StateInv creator q t.extractor.pipe.creatorState (badSystem t) := by
  induction h with
  | refl =>
    refine ⟨0, (setup_state q stages.reverse).1, ?_⟩
    simp [badSystem, start, (setup_state q stages.reverse).2]
  | step _ hs ih => exact sys_state hs q ih

/-! The parser -/

variable {R : Type}

theorem pb_after (getLine : R → Option V × R) (max : Nat) : ∀ m r n fl, n ≤ max →
    (∀ i < m, n + i < max → (calls ⟨getLine⟩ r i).isSome) →
    stateAfter (parserBatcher getLine max) (r, n, fl) m =
      (stateAfter ⟨getLine⟩ r (min m (max - n)), n + min m (max - n), fl) := by
  intro m
  induction m with
  | zero => intro r n fl hn _; simp [stateAfter]
  | succ m ih =>
    intro r n fl hn h
    by_cases hlt : n < max
    · have h0 := h 0 (by omega) (by omega)
      simp only [calls] at h0
      rcases hg : getLine r with ⟨o, r'⟩
      rw [hg] at h0
      cases o with
      | none => cases h0
      | some v =>
        have hc : (parserBatcher getLine max).call (r, n, fl) = (some v, (r', n + 1, fl)) := by
          simp only [parserBatcher]
          rw [if_neg (by omega), hg]
        rw [stateAfter, hc, ih r' (n + 1) fl (by omega) ?_]
        · rw [show min (m + 1) (max - n) = min m (max - (n + 1)) + 1 by omega, stateAfter]
          dsimp only
          rw [hg, show n + 1 + min m (max - (n + 1)) = n + (min m (max - (n + 1)) + 1) by omega]
        · intro i hi hlt'
          have := h (i + 1) (by omega) (by omega)
          simpa only [calls, hg] using this
    · have hc : (parserBatcher getLine max).call (r, n, fl) = (none, (r, n, fl)) := by
        simp only [parserBatcher]
        rw [if_pos (by omega)]
      rw [stateAfter, hc, ih r n fl hn ?_]
      · rw [show min (m + 1) (max - n) = min m (max - n) by omega]
      · intro i _ _; omega

theorem pb_flag_mono (getLine : R → Option V × R) (max : Nat) : ∀ m r n,
    (stateAfter (parserBatcher getLine max) (r, n, true) m).2.2 = true := by
  intro m
  induction m with
  | zero => intro r n; rfl
  | succ m ih =>
    intro r n
    rw [stateAfter]
    simp only [parserBatcher]
    by_cases h : n ≥ max
    · rw [if_pos h]; exact ih r n
    · rw [if_neg h]
      rcases getLine r with ⟨o, r'⟩
      cases o with
      | none => exact ih r' n
      | some v => exact ih r' (n + 1)

theorem pb_flag (getLine : R → Option V × R) (max : Nat) : ∀ i m r n fl, i < m → n + i < max → calls ⟨getLine⟩ r i = none →
    (stateAfter (parserBatcher getLine max) (r, n, fl) m).2.2 = true := by
  intro i
  induction i with
  | zero =>
    intro m r n fl hm hn h
    obtain ⟨m, rfl⟩ : ∃ m', m = m' + 1 := ⟨m - 1, by omega⟩
    simp only [calls] at h
    rcases hg : getLine r with ⟨o, r'⟩
    rw [hg] at h
    dsimp only at h
    subst h
    rw [stateAfter]
    have hc : (parserBatcher getLine max).call (r, n, fl) = (none, (r', n, true)) := by
      simp only [parserBatcher]
      rw [if_neg (by omega), hg]
    rw [hc]
    exact pb_flag_mono _ _ _ _ _
  | succ i ih =>
    intro m r n fl hm hn h
    obtain ⟨m, rfl⟩ : ∃ m', m = m' + 1 := ⟨m - 1, by omega⟩
    simp only [calls] at h
    rcases hg : getLine r with ⟨o, r'⟩
    rw [hg] at h
    rw [stateAfter]
    cases o with
    | none =>
      have hc : (parserBatcher getLine max).call (r, n, fl) = (none, (r', n, true)) := by
        simp only [parserBatcher]
        rw [if_neg (by omega), hg]
      rw [hc]
      exact pb_flag_mono _ _ _ _ _
    | some v =>
      have hc : (parserBatcher getLine max).call (r, n, fl) = (some v, (r', n + 1, fl)) := by
        simp only [parserBatcher]
        rw [if_neg (by omega), hg]
      rw [hc]
      exact ih m r' (n + 1) fl (by omega) (by omega) h

/-- As long as the parser returned lines, the batcher returns the lines up to the limit. -/
theorem pb_calls (getLine : R → Option V × R) (max : Nat) (r : R) (i : Nat) (h : ∀ j < i, j < max → (calls ⟨getLine⟩ r j).isSome) :
    calls (parserBatcher getLine max) (r, 0, false) i = if i < max then calls ⟨getLine⟩ r i else none := by
  rw [calls_eq, pb_after getLine max i r 0 false (by omega) (by intro j hj hm; exact h j hj (by omega))]
  simp only [Nat.sub_zero, Nat.zero_add]
  by_cases hi : i < max
  · rw [if_pos hi, Nat.min_eq_left (by omega), calls_eq]
    simp only [parserBatcher]
    rw [if_neg (by omega)]
    rcases getLine (stateAfter ⟨getLine⟩ r i) with ⟨o, r'⟩
    cases o <;> rfl
  · rw [if_neg hi, Nat.min_eq_right (by omega)]
    simp only [parserBatcher]
    rw [if_pos (by omega)]

theorem ended_pb (getLine : R → Option V × R) (max : Nat) (r : R) :
    ended (calls (parserBatcher getLine max) (r, 0, false)) = fun i => if i < max then linesOf getLine r i else none := by
  have key : ∀ n, n ≤ max → ((firstVals (calls (parserBatcher getLine max) (r, 0, false)) n).isSome ↔
      (firstVals (calls ⟨getLine⟩ r) n).isSome) := by
    intro n
    induction n with
    | zero => intro _; simp [firstVals]
    | succ n ih =>
      intro hn
      have h1 := ih (by omega)
      rw [firstVals_isSome, firstVals_isSome] at h1 ⊢
      constructor
      · intro h i hi
        by_cases hin : i < n
        · exact h1.mp (fun j hj => h j (by omega)) i hin
        · have := h i hi
          rw [pb_calls getLine max r i ?_, if_pos (by omega)] at this
          · exact this
          · intro j hj _
            exact h1.mp (fun j hj => h j (by omega)) j (by omega)
      · intro h i hi
        rw [pb_calls getLine max r i (fun j hj _ => h j (by omega)), if_pos (by omega)]
        exact h i hi
  funext i
  by_cases hi : i < max
  · rw [if_pos hi]
    simp only [linesOf, ended]
    by_cases h : (firstVals (calls ⟨getLine⟩ r) (i + 1)).isSome = true
    · have h' := (key (i + 1) (by omega)).mpr h
      rw [if_pos h, if_pos h', pb_calls getLine max r i, if_pos hi]
      intro j hj _
      exact firstVals_isSome.mp h j (by omega)
    · have h' : ¬ (firstVals (calls (parserBatcher getLine max) (r, 0, false)) (i + 1)).isSome = true := by
        rw [key (i + 1) (by omega)]; exact h
      rw [if_neg h, if_neg h']
  · rw [if_neg hi, ended]
    by_cases h : (firstVals (calls (parserBatcher getLine max) (r, 0, false)) (i + 1)).isSome = true
    · exfalso
      have h1 := firstVals_isSome.mp h
      have h2 : (firstVals (calls ⟨getLine⟩ r) max).isSome := by
        rw [← key max (Nat.le_refl _), firstVals_isSome]
        intro j hj
        exact h1 j (by omega)
      have := h1 max (by omega)
      rw [pb_calls getLine max r max (fun j hj _ => firstVals_isSome.mp h2 j hj), if_neg (by omega)] at this
      cases this
    · rw [if_neg h]

theorem calls_after (creator : Creator Q V) : ∀ m q i, calls creator (stateAfter creator q m) i = calls creator q (m + i) := by
  intro m
  induction m with
  | zero => intro q i; simp [stateAfter]
  | succ m ih => intro q i; rw [stateAfter, ih, show m + 1 + i = (m + i) + 1 by omega, calls]

theorem linesOf_after (getLine : R → Option V × R) (r : R) (m : Nat) (h : (firstVals (calls ⟨getLine⟩ r) m).isSome) (i : Nat) :
    linesOf getLine (stateAfter ⟨getLine⟩ r m) i = linesOf getLine r (m + i) := by
  simp only [linesOf, ended, calls_after]
  have : (firstVals (calls ⟨getLine⟩ (stateAfter ⟨getLine⟩ r m)) (i + 1)).isSome ↔
      (firstVals (calls ⟨getLine⟩ r) (m + i + 1)).isSome := by
    rw [firstVals_isSome, firstVals_isSome] at *
    constructor
    · intro h1 j hj
      by_cases hjm : j < m
      · exact h j hjm
      · have := h1 (j - m) (by omega)
        rwa [calls_after, show m + (j - m) = j by omega] at this
    · intro h1 j hj
      rw [calls_after]
      exact h1 _ (by omega)
  by_cases h1 : (firstVals (calls ⟨getLine⟩ (stateAfter ⟨getLine⟩ r m)) (i + 1)).isSome = true
  · rw [if_pos h1, if_pos (this.mp h1)]
  · rw [if_neg h1, if_neg (fun h => h1 (this.mpr h))]

/-- The parser after a pipeline has returned none. -/
theorem parser_end {B : Nat} (hB : 0 < B) {getLine : R → Option V × R} {max : Nat} {r : R} {stages : List (Kind S V × (Nat → S))}
    (hP : ∀ s ∈ stages, 0 < s.1.parallelism) {t : System (R × Nat × Bool) S V}
    (h : Reach (parserBatcher getLine max) B (start (r, 0, false) stages) t) (hn : none ∈ t.results) :
    (t.extractor.pipe.creatorState.2.2 = true ∧ ∃ i < max, linesOf getLine r i = none) ∨
    (t.extractor.pipe.creatorState.2.2 = false ∧ (∀ i < max, (linesOf getLine r i).isSome) ∧
      t.extractor.pipe.creatorState.1 = stateAfter ⟨getLine⟩ r max) := by
  have hinv := inv_reach hB hP h
  have hvalid : t.extractor.valid = false := by
    cases hv : t.extractor.valid with
    | false => rfl
    | true =>
      obtain ⟨k, h1, h2, _⟩ := hinv.valid hv
      obtain ⟨i, hi, he⟩ := List.mem_iff_getElem.mp hn
      have := hinv.results i hi
      rw [List.getElem?_eq_getElem hi, he, Option.some.injEq] at this
      have h3 := h1 i (by omega)
      rw [← this] at h3
      cases h3
  obtain ⟨m, hm, hb⟩ := reach_state h
  obtain ⟨i, him, hi⟩ := hb (by simp [badSystem, hvalid])
  by_cases hall : (firstVals (calls ⟨getLine⟩ r) max).isSome
  · right
    have hall' := firstVals_isSome.mp hall
    have hmax : max ≤ i := by
      by_cases h' : i < max
      · rw [pb_calls getLine max r i (fun j _ hj => hall' j hj), if_pos h'] at hi
        have := hall' i h'
        rw [hi] at this; cases this
      · omega
    rw [hm, pb_after getLine max m r 0 false (by omega) (by intro j _ hj; exact hall' j (by omega))]
    refine ⟨rfl, ?_, ?_⟩
    · intro j hj
      rw [linesOf, ended_isSome, firstVals_isSome]
      intro j' hj'
      exact hall' j' (by omega)
    · rw [show min m (max - 0) = max by omega]
  · left
    have : ∃ j < max, calls ⟨getLine⟩ r j = none := by
      rw [firstVals_isSome] at hall
      by_cases hex : ∃ j < max, calls ⟨getLine⟩ r j = none
      · exact hex
      · exfalso
        apply hall
        intro j hj
        cases hc : calls ⟨getLine⟩ r j with
        | none => exact absurd ⟨j, hj, hc⟩ hex
        | some v => rfl
    obtain ⟨j, hj, hjn⟩ := this
    refine ⟨?_, j, hj, ?_⟩
    · by_cases hjm : j < m
      · rw [hm]; exact pb_flag getLine max j m r 0 false hjm (by omega) hjn
      · have hil : i < max := by omega
        have hex : ∃ i' ≤ i, calls ⟨getLine⟩ r i' = none := by
          by_cases hex : ∃ i' ≤ i, calls ⟨getLine⟩ r i' = none
          · exact hex
          · have hs : ∀ j < i, j < max → (calls ⟨getLine⟩ r j).isSome := by
              intro j' hj' _
              cases hc : calls ⟨getLine⟩ r j' with
              | none => exact absurd ⟨j', by omega, hc⟩ hex
              | some v => rfl
            rw [pb_calls getLine max r i hs, if_pos hil] at hi
            exact ⟨i, Nat.le_refl _, hi⟩
        obtain ⟨i', hi', hn'⟩ := hex
        rw [hm]
        exact pb_flag getLine max i' m r 0 false (by omega) (by omega) hn'
    · rw [linesOf, ended, firstVals_none hjn (by omega)]
      rfl

/-! Stateless stages -/

theorem seqRun_computes {f : V → V} {st : Kind S V × (Nat → S)} (h : Computes f st) (ln : Nat → Nat) : ∀ (l : List V) j σ,
    (seqRun st.1.transformer ln j σ l).1 = l.map f := by
  intro l
  induction l with
  | nil => intro j σ; rfl
  | cons v l ih => intro j σ; simp only [seqRun, List.map_cons, ih]; rw [h]

theorem stageSrc_computes {f : V → V} {st : Kind S V × (Nat → S)} (h : Computes f st) (B : Nat) {src : Nat → Option V} (hc : Cut src) :
    stageSrc B st src = fun i => (src i).map f := by
  funext i
  simp only [stageSrc]
  cases hl : firstVals src (i + 1) with
  | none =>
    cases hv : src i with
    | none => rfl
    | some v =>
      have := hc i (by rw [hv]; rfl)
      rw [hl] at this; cases this
  | some l =>
    dsimp only
    rw [seqRun_computes h, List.getElem?_map, (firstVals_some hl).2 i (by omega)]

theorem cut_map {src : Nat → Option V} (hc : Cut src) (f : V → V) : Cut (fun i => (src i).map f) := by
  intro i hi
  rw [firstVals_isSome]
  intro j hj
  have := firstVals_isSome.mp (hc i (by simpa using hi)) j hj
  simpa using this

theorem foldl_computes (B : Nat) : ∀ (stages : List (Kind S V × (Nat → S))) (fs : List (V → V)),
    List.Forall₂ Computes fs stages → ∀ src : Nat → Option V, Cut src →
    stages.foldl (fun src s => stageSrc B s src) src = fun i => (src i).map fun v => fs.foldl (fun v f => f v) v := by
  intro stages fs h
  induction h with
  | nil => intro src _; funext i; simp
  | @cons f st fs stages hf _ ih =>
    intro src hc
    rw [List.foldl_cons, stageSrc_computes hf B hc, ih _ (cut_map hc f)]
    funext i
    rw [Option.map_map]
    rfl

/-! `ParallelParseBuffer` -/

theorem parseBatch_eq (getLine : R → Option V × R) : ∀ n buf r,
    parseBatch getLine n buf r = (((collect ⟨getLine⟩ n r).1.1, buf ++ (collect ⟨getLine⟩ n r).1.2), (collect ⟨getLine⟩ n r).2) := by
  intro n
  induction n with
  | zero => intro buf r; simp [parseBatch, collect]
  | succ n ih =>
    intro buf r
    rw [parseBatch, collect]
    dsimp only
    rcases getLine r with ⟨o, r'⟩
    cases o with
    | none => simp
    | some v => dsimp only; rw [ih]; simp

/-- The buffer when the next triple is the one with number `n`. -/
structure BufInv (getLine : R → Option V × R) (B : Nat) (src : Nat → Option V) (n : Nat) (b : ParseBuffer R V) : Prop where
  position : b.position ≤ b.buffer.length
  content : ∀ i, b.position + i < b.buffer.length → ended src (n + i) = b.buffer[b.position + i]?
  valid : b.valid = true → ∃ k, n + (b.buffer.length - b.position) = k ∧ (∀ i < k, (src i).isSome) ∧ b.future = some (chunk src B k) ∧
      ((chunk src B k).1 = true → ∀ i, calls ⟨getLine⟩ b.parser i = src (k + B + i))
  invalid : b.valid = false → ∀ i, b.buffer.length ≤ b.position + i → ended src (n + i) = none

def takeTriple (b : ParseBuffer R V) : Option V × ParseBuffer R V :=
  match b.buffer[b.position]? with
  | some t => (some t, { b with position := b.position + 1 })
  | none => (none, b)

theorem take_inv {getLine : R → Option V × R} {B n : Nat} {src : Nat → Option V} {b : ParseBuffer R V}
    (hi : BufInv getLine B src n b) (h : b.position < b.buffer.length ∨ b.valid = false) :
    (takeTriple b).1 = ended src n ∧ BufInv getLine B src (n + 1) (takeTriple b).2 := by
  by_cases hb : b.position < b.buffer.length
  · have hd : takeTriple b = (some b.buffer[b.position], { b with position := b.position + 1 }) := by
      simp only [takeTriple, List.getElem?_eq_getElem hb]
    rw [hd]
    have h0 := hi.content 0 (by omega)
    simp only [Nat.add_zero] at h0
    refine ⟨by rw [h0, List.getElem?_eq_getElem hb], by dsimp only; omega, ?_, ?_, ?_⟩
    · intro i hlt
      dsimp only at hlt ⊢
      rw [show n + 1 + i = n + (i + 1) by omega, hi.content (i + 1) (by omega)]
      congr 1; omega
    · intro hv
      obtain ⟨k, h1, h2⟩ := hi.valid hv
      exact ⟨k, by dsimp only; omega, h2⟩
    · intro hv i hle
      dsimp only at hle
      rw [show n + 1 + i = n + (i + 1) by omega]
      exact hi.invalid hv (i + 1) (by omega)
  · have hv : b.valid = false := h.resolve_left hb
    have hd : takeTriple b = (none, b) := by
      simp only [takeTriple, List.getElem?_eq_none (show b.buffer.length ≤ b.position by omega)]
    rw [hd]
    refine ⟨(hi.invalid hv 0 (by omega)).symm, hi.position, ?_, ?_, ?_⟩
    · intro i hlt; dsimp only at hlt; omega
    · intro hv'; rw [hv] at hv'; cases hv'
    · intro _ i _
      rw [show n + 1 + i = n + (i + 1) by omega]
      exact hi.invalid hv (i + 1) (by omega)

theorem ended_eq {src : Nat → Option V} {i : Nat} (h : ∀ j < i, (src j).isSome) : ended src i = src i := by
  simp only [ended]
  by_cases hs : (firstVals src (i + 1)).isSome = true
  · rw [if_pos hs]
  · rw [if_neg hs]
    cases hv : src i with
    | none => rfl
    | some v =>
      exfalso
      apply hs
      rw [firstVals_isSome]
      intro j hj
      by_cases hji : j < i
      · exact h j hji
      · have : j = i := by omega
        subst this; rw [hv]; rfl

/-- A batch that begins with number `k`. -/
theorem batch_inv {getLine : R → Option V × R} {B k : Nat} {src : Nat → Option V} (hk : ∀ i < k, (src i).isSome) {p : R}
    {v : Bool} {future : Option (Batch V)} (hv : v = (chunk src B k).1)
    (hf : v = true → future = some (chunk src B (k + B)) ∧
      ((chunk src B (k + B)).1 = true → ∀ i, calls ⟨getLine⟩ p i = src (k + B + B + i))) :
    BufInv getLine B src k ⟨p, v, (chunk src B k).2, 0, future⟩ := by
  obtain ⟨c1, c2, c3⟩ := chunk_length (src := src) B k
  have c4 := chunk_get (src := src) B k
  have hsome : ∀ i < (chunk src B k).2.length, (src (k + i)).isSome := by
    intro i hi
    rw [← c4 i hi, List.getElem?_eq_getElem hi]; rfl
  have hall : ∀ j < k + (chunk src B k).2.length, (src j).isSome := by
    intro j hj
    by_cases hjk : j < k
    · exact hk j hjk
    · have := hsome (j - k) (by omega)
      rwa [show k + (j - k) = j by omega] at this
  refine ⟨by simp, ?_, ?_, ?_⟩
  · intro i hi
    dsimp only at hi ⊢
    rw [Nat.zero_add] at hi ⊢
    rw [c4 i hi, ended_eq]
    intro j hj
    exact hall j (by omega)
  · intro hvt
    dsimp only at hvt ⊢
    obtain ⟨h1, h2⟩ := hf hvt
    rw [hv] at hvt
    rw [c2 hvt] at hall
    exact ⟨k + B, by rw [c2 hvt]; omega, hall, h1, h2⟩
  · intro hvf i hle
    dsimp only at hvf hle
    rw [hv] at hvf
    rw [ended, firstVals_none (c3 hvf) (by omega)]
    rfl

theorem calls_collect {getLine : R → Option V × R} {B k : Nat} {src : Nat → Option V} {p : R}
    (h : ∀ i, calls ⟨getLine⟩ p i = src (k + i)) :
    (collect ⟨getLine⟩ B p).1 = chunk src B k ∧
    ((chunk src B k).1 = true → ∀ i, calls ⟨getLine⟩ (collect ⟨getLine⟩ B p).2 i = src (k + B + i)) := by
  have h' : calls ⟨getLine⟩ p = fun i => src (k + i) := funext h
  have h1 : (collect ⟨getLine⟩ B p).1 = chunk src B k := by
    rw [collect_chunk, h', chunk_shift, Nat.add_zero]
  refine ⟨h1, ?_⟩
  intro hg i
  rw [collect_calls _ _ _ (by rw [h1]; exact hg)]
  dsimp only
  rw [h, Nat.add_assoc]

theorem make_inv (getLine : R → Option V × R) (B : Nat) (r : R) :
    BufInv getLine B (calls ⟨getLine⟩ r) 0 (ParseBuffer.make getLine B r) := by
  obtain ⟨h1, h2⟩ := calls_collect (getLine := getLine) (B := B) (k := 0) (src := calls ⟨getLine⟩ r) (p := r)
    (by intro i; rw [Nat.zero_add])
  simp only [ParseBuffer.make, parseBatch_eq, List.nil_append]
  rw [h1]
  cases hg : (chunk (calls ⟨getLine⟩ r) B 0).1 with
  | true =>
    rw [if_pos rfl]
    obtain ⟨h3, h4⟩ := calls_collect (getLine := getLine) (B := B) (k := 0 + B) (src := calls ⟨getLine⟩ r)
      (p := (collect ⟨getLine⟩ B r).2) (h2 hg)
    refine batch_inv (by omega) hg.symm ?_
    intro _
    rw [h3]
    exact ⟨rfl, h4⟩
  | false =>
    rw [if_neg (by simp)]
    exact batch_inv (by omega) hg.symm (by simp)

theorem getTriple_inv {getLine : R → Option V × R} {B n : Nat} (hB : 0 < B) {src : Nat → Option V} {b : ParseBuffer R V}
    (hi : BufInv getLine B src n b) :
    ∃ b', b.getTriple getLine B = some (ended src n, b') ∧ BufInv getLine B src (n + 1) b' := by
  simp only [ParseBuffer.getTriple]
  by_cases hc : b.buffer.length = b.position ∧ b.valid = true
  · rw [if_pos hc]
    obtain ⟨k, h1, h2, h3, h4⟩ := hi.valid hc.2
    have hnk : n = k := by omega
    subst hnk
    rw [h3]
    dsimp only
    simp only [parseBatch_eq, List.nil_append]
    cases hg : (chunk src B n).1 with
    | true =>
      rw [if_pos rfl]
      obtain ⟨h5, h6⟩ := calls_collect (h4 hg)
      have hinv := batch_inv (getLine := getLine) (p := (collect ⟨getLine⟩ B b.parser).2) h2 hg.symm
        (future := some (collect ⟨getLine⟩ B b.parser).1) (fun _ => ⟨by rw [h5], h6⟩)
      have ht := take_inv hinv (.inl (by
        dsimp only
        rw [(chunk_length B n).2.1 hg]
        exact hB))
      exact ⟨_, by rw [← ht.1]; rfl, ht.2⟩
    | false =>
      rw [if_neg (by simp)]
      have hinv := batch_inv (getLine := getLine) (p := b.parser) h2 hg.symm (future := none) (by simp)
      have ht := take_inv hinv (.inr rfl)
      exact ⟨_, by rw [← ht.1]; rfl, ht.2⟩
  · rw [if_neg hc]
    have hpos := hi.position
    have ht := take_inv hi (by
      by_cases hlt : b.position < b.buffer.length
      · exact .inl hlt
      · right
        cases hv : b.valid with
        | true => exact absurd ⟨by omega, hv⟩ hc
        | false => rfl)
    exact ⟨_, by rw [← ht.1]; rfl, ht.2⟩

theorem getTriples_eq {getLine : R → Option V × R} {B : Nat} (hB : 0 < B) {src : Nat → Option V} : ∀ m n (b : ParseBuffer R V),
    BufInv getLine B src n b → b.getTriples getLine B m = some ((List.range m).map fun i => ended src (n + i)) := by
  intro m
  induction m with
  | zero => intro n b _; rfl
  | succ m ih =>
    intro n b hi
    obtain ⟨b', h1, h2⟩ := getTriple_inv hB hi
    rw [ParseBuffer.getTriples, h1]
    dsimp only
    rw [ih (n + 1) b' h2, List.range_succ_eq_map]
    simp only [Option.map_some, List.map_cons, List.map_map, Nat.add_zero]
    congr 2
    apply List.map_congr_left
    intro i _
    simp only [Function.comp]
    congr 1; omega

end Verif.Pipeline
