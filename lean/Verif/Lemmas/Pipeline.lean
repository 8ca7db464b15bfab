import Verif.Spec.Pipeline
/- Helper lemmas for `Props/C41_Pipeline.lean`. -/
namespace Verif.Pipeline
open PipelineSpec

variable {Q S V : Type}

theorem flatMap_congr' {α β : Type} {l : List α} {f g : α → List β} (h : ∀ a ∈ l, f a = g a) : l.flatMap f = l.flatMap g := by
  induction l with
  | nil => rfl
  | cons a l ih =>
    rw [List.flatMap_cons, List.flatMap_cons, h a (by simp), ih fun b hb => h b (by simp [hb])]

/-! The batches that a pipeline delivers from a state on. -/

def consS (b : Batch V) (s : Nat → Batch V) : Nat → Batch V
  | 0 => b
  | n + 1 => s n

def collect (creator : Creator Q V) : Nat → Q → Batch V × Q
  | 0, q => ((true, []), q)
  | b + 1, q =>
    match creator.call q with
    | (none, q') => ((false, []), q')
    | (some v, q') => (((collect creator b q').1.1, v :: (collect creator b q').1.2), (collect creator b q').2)

def batches (creator : Creator Q V) (B : Nat) : Q → Nat → Batch V
  | q, 0 => (collect creator B q).1
  | q, n + 1 => batches creator B (collect creator B q).2 n

def finish (f : S → V → S × V) : List V → List V → S → List V × S
  | [], done, st => (done, st)
  | v :: vs, done, st => finish f vs (done ++ [(f st v).2]) (f st v).1

def finished (kind : Kind S V) (threads : Nat → Thread S V) : List V × (Nat → S) :=
  ((List.range kind.parallelism).flatMap fun k => (finish (kind.transformer k) (threads k).todo (threads k).done (threads k).st).1,
   fun k => if k < kind.parallelism then (finish (kind.transformer k) (threads k).todo (threads k).done (threads k).st).2
    else (threads k).st)

def runBatch (kind : Kind S V) (B : Nat) (σ : Nat → S) (c : List V) : List V × (Nat → S) := finished kind (startThreads kind B σ c)

def trans (kind : Kind S V) (B : Nat) : (Nat → S) → (Nat → Batch V) → Nat → Batch V
  | σ, s, 0 => ((s 0).1, (runBatch kind B σ (s 0).2).1)
  | σ, s, n + 1 => trans kind B (runBatch kind B σ (s 0).2).2 (fun i => s (i + 1)) n

def stream (creator : Creator Q V) (B : Nat) : Pipe Q S V → Nat → Batch V
  | .batcher q (.filling c) =>
    let r := collect creator (B - c.length) q
    consS (r.1.1, c ++ r.1.2) (batches creator B r.2)
  | .batcher q (.ready b) => consS b (batches creator B q)
  | .stage p kind (.waiting σ) => trans kind B σ (stream creator B p)
  | .stage p kind (.working g th) => consS (g, (finished kind th).1) (trans kind B (finished kind th).2 (stream creator B p))
  | .stage p kind (.ready b σ) => consS b (trans kind B σ (stream creator B p))

theorem consS_batches (creator : Creator Q V) (B : Nat) (q : Q) :
    consS (collect creator B q).1 (batches creator B (collect creator B q).2) = batches creator B q := by
  funext n
  cases n <;> rfl

theorem trans_consS (kind : Kind S V) (B : Nat) (σ : Nat → S) (b : Batch V) (s : Nat → Batch V) :
    trans kind B σ (consS b s) = consS (b.1, (runBatch kind B σ b.2).1) (trans kind B (runBatch kind B σ b.2).2 s) := by
  funext n
  cases n <;> rfl

theorem pickup_stream (creator : Creator Q V) (B : Nat) {p p' : Pipe Q S V} {b : Batch V} (h : Pickup p b p') :
    stream creator B p = consS b (stream creator B p') := by
  cases h with
  | @batcher q b =>
    simp only [stream, List.length_nil, Nat.sub_zero, List.nil_append]
    rw [show (((collect creator B q).1.1, (collect creator B q).1.2) : Batch V) = (collect creator B q).1 from rfl, consS_batches]
  | stage => rfl

theorem finish_step (f : S → V → S × V) (t : Thread S V) :
    finish f (t.step f).todo (t.step f).done (t.step f).st = finish f t.todo t.done t.st := by
  rcases t with ⟨todo, done, st⟩
  cases todo <;> rfl

theorem step_stream {creator : Creator Q V} {B : Nat} {p p' : Pipe Q S V} (h : Step creator B p p') :
    stream creator B p' = stream creator B p := by
  induction h with
  | @value q content v q' hl hc =>
    have : B - content.length = (B - (content ++ [v]).length) + 1 := by simp; omega
    simp only [stream]
    rw [this]
    simp only [collect, hc, List.append_assoc, List.singleton_append]
  | @exhausted q content q' hl hc =>
    have : B - content.length = (B - content.length - 1) + 1 := by omega
    simp only [stream]
    rw [this]
    simp only [collect, hc, List.append_nil]
  | @full q content hl =>
    simp only [stream, show B - content.length = 0 by omega, collect, List.append_nil]
  | @previous p p' kind task _ ih =>
    cases task <;> simp only [stream, ih]
  | @arrive p p' kind states b hp =>
    simp only [stream]
    rw [pickup_stream creator B hp, trans_consS]
    rfl
  | @thread p kind good threads k hk ht =>
    simp only [stream]
    have : finished kind (fun i => if i = k then (threads k).step (kind.transformer k) else threads i) = finished kind threads := by
      have h1 : ∀ j, finish (kind.transformer j) (if j = k then (threads k).step (kind.transformer k) else threads j).todo
          (if j = k then (threads k).step (kind.transformer k) else threads j).done
          (if j = k then (threads k).step (kind.transformer k) else threads j).st =
          finish (kind.transformer j) (threads j).todo (threads j).done (threads j).st := by
        intro j
        by_cases hj : j = k
        · subst hj
          simp only [if_true]
          exact finish_step _ _
        · simp only [if_neg hj]
      simp only [finished, h1]
      congr 1
      funext j
      by_cases hj : j < kind.parallelism
      · simp only [if_pos hj]
      · have : ¬ j = k := by omega
        simp only [if_neg hj, if_neg this]
    rw [this]
  | @merged p kind good threads ht =>
    simp only [stream]
    have h1 : (finished kind threads).1 = merge kind.parallelism threads := by
      simp only [finished, merge]
      apply flatMap_congr'
      intro k hk
      rw [ht k (List.mem_range.mp hk)]
      rfl
    have h2 : (finished kind threads).2 = fun k => (threads k).st := by
      simp only [finished]
      funext k
      by_cases hk : k < kind.parallelism
      · rw [if_pos hk, ht k hk]; rfl
      · rw [if_neg hk]
    rw [h1, h2]

/-! Batches as pieces of sequences. -/

def chunk (src : Nat → Option V) : Nat → Nat → Batch V
  | 0, _ => (true, [])
  | b + 1, m =>
    match src m with
    | none => (false, [])
    | some v => ((chunk src b (m + 1)).1, v :: (chunk src b (m + 1)).2)

/-- The batches `s` are the pieces of length `B` of `src`, up to the first piece with an end. -/
def Chunks (B : Nat) (s : Nat → Batch V) (src : Nat → Option V) : Prop :=
  ∀ n, (firstVals src (n * B)).isSome → s n = chunk src B (n * B)

theorem firstVals_some {src : Nat → Option V} {n : Nat} {l : List V} (h : firstVals src n = some l) :
    l.length = n ∧ ∀ i < n, src i = l[i]? := by
  induction n generalizing l with
  | zero => simp only [firstVals, Option.some.injEq] at h; subst h; simp
  | succ n ih =>
    simp only [firstVals] at h
    cases h1 : firstVals src n with
    | none => rw [h1] at h; simp at h
    | some l' =>
      cases h2 : src n with
      | none => rw [h1, h2] at h; simp at h
      | some v =>
        rw [h1, h2] at h
        simp only [Option.some.injEq] at h
        subst h
        obtain ⟨h3, h4⟩ := ih h1
        refine ⟨by simp [h3], ?_⟩
        intro i hi
        by_cases hin : i < n
        · rw [h4 i hin, List.getElem?_append_left (by omega)]
        · have : i = n := by omega
          subst this
          rw [h2, List.getElem?_append_right (by omega)]
          simp [h3]

theorem firstVals_isSome {src : Nat → Option V} {n : Nat} : (firstVals src n).isSome ↔ ∀ i < n, (src i).isSome := by
  induction n with
  | zero => simp [firstVals]
  | succ n ih =>
    simp only [firstVals]
    constructor
    · intro h i hi
      cases h1 : firstVals src n with
      | none => rw [h1] at h; simp at h
      | some l =>
        cases h2 : src n with
        | none => rw [h1, h2] at h; simp at h
        | some v =>
          by_cases hin : i < n
          · exact ih.mp (by rw [h1]; rfl) i hin
          · have : i = n := by omega
            subst this; rw [h2]; rfl
    · intro h
      have h1 := ih.mpr fun i hi => h i (by omega)
      have h2 := h n (by omega)
      obtain ⟨l, hl⟩ := Option.isSome_iff_exists.mp h1
      obtain ⟨v, hv⟩ := Option.isSome_iff_exists.mp h2
      rw [hl, hv]; rfl

theorem firstVals_succ {src : Nat → Option V} {n : Nat} {l : List V} {v : V} (h : firstVals src n = some l) (hv : src n = some v) :
    firstVals src (n + 1) = some (l ++ [v]) := by
  simp only [firstVals, h, hv]

theorem firstVals_none {src : Nat → Option V} {n m : Nat} (h : src n = none) (hm : n < m) : firstVals src m = none := by
  cases h1 : firstVals src m with
  | none => rfl
  | some l =>
    have := firstVals_isSome.mp (by rw [h1]; rfl) n hm
    rw [h] at this; cases this

theorem chunk_shift (src : Nat → Option V) (k : Nat) : ∀ b m, chunk (fun i => src (k + i)) b m = chunk src b (k + m) := by
  intro b
  induction b with
  | zero => intro m; rfl
  | succ b ih =>
    intro m
    simp only [chunk]
    rw [ih (m + 1), Nat.add_assoc]

theorem chunk_good {src : Nat → Option V} : ∀ b m, (chunk src b m).1 = true ↔ ∀ i < b, (src (m + i)).isSome := by
  intro b
  induction b with
  | zero => intro m; simp [chunk]
  | succ b ih =>
    intro m
    simp only [chunk]
    cases h : src m with
    | none =>
      refine ⟨by simp, ?_⟩
      intro hs
      have := hs 0 (by omega)
      rw [Nat.add_zero, h] at this
      cases this
    | some v =>
      dsimp only
      rw [ih (m + 1)]
      constructor
      · intro hs i hi
        cases i with
        | zero => rw [Nat.add_zero, h]; rfl
        | succ i =>
          have := hs i (by omega)
          rwa [show m + 1 + i = m + (i + 1) by omega] at this
      · intro hs i hi
        rw [show m + 1 + i = m + (i + 1) by omega]
        exact hs (i + 1) (by omega)

theorem chunk_get {src : Nat → Option V} : ∀ b m i, i < (chunk src b m).2.length → (chunk src b m).2[i]? = src (m + i) := by
  intro b
  induction b with
  | zero => intro m i hi; simp [chunk] at hi
  | succ b ih =>
    intro m i hi
    simp only [chunk] at hi ⊢
    cases h : src m with
    | none => rw [h] at hi; simp at hi
    | some v =>
      rw [h] at hi
      dsimp only at hi ⊢
      cases i with
      | zero => simp [h]
      | succ i =>
        simp only [List.length_cons, Nat.add_lt_add_iff_right] at hi
        rw [List.getElem?_cons_succ, ih (m + 1) i hi, show m + 1 + i = m + (i + 1) by omega]

theorem chunk_length {src : Nat → Option V} : ∀ b m, (chunk src b m).2.length ≤ b ∧
    ((chunk src b m).1 = true → (chunk src b m).2.length = b) ∧
    ((chunk src b m).1 = false → src (m + (chunk src b m).2.length) = none) := by
  intro b
  induction b with
  | zero => intro m; simp [chunk]
  | succ b ih =>
    intro m
    simp only [chunk]
    cases h : src m with
    | none => simp [h]
    | some v =>
      obtain ⟨h1, h2, h3⟩ := ih (m + 1)
      dsimp only
      refine ⟨by simp; omega, ?_, ?_⟩
      · intro hg; simp [h2 hg]
      · intro hg
        have := h3 hg
        rw [List.length_cons]
        rwa [show m + ((chunk src b (m + 1)).2.length + 1) = m + 1 + (chunk src b (m + 1)).2.length by omega]

theorem collect_chunk (creator : Creator Q V) : ∀ b q, (collect creator b q).1 = chunk (calls creator q) b 0 := by
  intro b
  induction b with
  | zero => intro q; rfl
  | succ b ih =>
    intro q
    simp only [collect, chunk]
    have h0 : calls creator q 0 = (creator.call q).1 := rfl
    rw [h0]
    rcases h : creator.call q with ⟨o, q'⟩
    cases o with
    | none => rfl
    | some v =>
      have hs : (fun i => calls creator q (1 + i)) = calls creator q' := by
        funext i
        rw [Nat.add_comm, calls, h]
      dsimp only
      rw [ih q', ← hs, chunk_shift]

theorem collect_calls (creator : Creator Q V) : ∀ b q, (collect creator b q).1.1 = true →
    calls creator (collect creator b q).2 = fun i => calls creator q (b + i) := by
  intro b
  induction b with
  | zero => intro q _; funext i; simp [collect]
  | succ b ih =>
    intro q hg
    simp only [collect] at hg ⊢
    rcases h : creator.call q with ⟨o, q'⟩
    rw [h] at hg
    cases o with
    | none => simp at hg
    | some v =>
      dsimp only at hg ⊢
      rw [ih q' hg]
      funext i
      rw [show b + 1 + i = (b + i) + 1 by omega, calls, h]

theorem batches_chunks (creator : Creator Q V) (B : Nat) : ∀ n q, (firstVals (calls creator q) (n * B)).isSome →
    batches creator B q n = chunk (calls creator q) B (n * B) := by
  intro n
  induction n with
  | zero => intro q _; simp only [batches, Nat.zero_mul]; exact collect_chunk creator B q
  | succ n ih =>
    intro q hs
    have hs' := firstVals_isSome.mp hs
    have hg : (collect creator B q).1.1 = true := by
      rw [collect_chunk, chunk_good]
      intro i hi
      refine hs' _ ?_
      rw [Nat.succ_mul]; omega
    have hc := collect_calls creator B q hg
    rw [batches, ih _ ?_, hc, chunk_shift]
    · congr 1; rw [Nat.succ_mul]; omega
    · rw [firstVals_isSome, hc]
      intro i hi
      refine hs' _ ?_
      rw [Nat.succ_mul]; omega

/-! A stage -/

theorem seqRun_append (f : Nat → S → V → S × V) (ln : Nat → Nat) : ∀ (a b : List V) (j : Nat) (σ : Nat → S),
    seqRun f ln j σ (a ++ b) = ((seqRun f ln j σ a).1 ++ (seqRun f ln (j + a.length) (seqRun f ln j σ a).2 b).1,
      (seqRun f ln (j + a.length) (seqRun f ln j σ a).2 b).2) := by
  intro a
  induction a with
  | nil => intro b j σ; simp [seqRun]
  | cons v a ih =>
    intro b j σ
    simp only [List.cons_append, seqRun, ih, List.length_cons]
    rw [show j + 1 + a.length = j + (a.length + 1) by omega]

theorem seqRun_length (f : Nat → S → V → S × V) (ln : Nat → Nat) : ∀ (a : List V) (j : Nat) (σ : Nat → S),
    (seqRun f ln j σ a).1.length = a.length := by
  intro a
  induction a with
  | nil => intro j σ; rfl
  | cons v a ih => intro j σ; simp only [seqRun, List.length_cons, ih]

theorem seqRun_congr (f : Nat → S → V → S × V) (ln ln' : Nat → Nat) : ∀ (a : List V) (j j' : Nat) (σ : Nat → S),
    (∀ i < a.length, ln (j + i) = ln' (j' + i)) → seqRun f ln j σ a = seqRun f ln' j' σ a := by
  intro a
  induction a with
  | nil => intro j j' σ _; rfl
  | cons v a ih =>
    intro j j' σ h
    have h0 := h 0 (by simp)
    simp only [Nat.add_zero] at h0
    simp only [seqRun, h0]
    rw [ih (j + 1) (j' + 1) _ ?_]
    intro i hi
    have := h (i + 1) (by simp; omega)
    rwa [show j + 1 + i = j + (i + 1) by omega, show j' + 1 + i = j' + (i + 1) by omega]

theorem finish_done (f : S → V → S × V) : ∀ (l done : List V) (st : S),
    finish f l done st = (done ++ (finish f l [] st).1, (finish f l [] st).2) := by
  intro l
  induction l with
  | nil => intro done st; simp [finish]
  | cons v l ih =>
    intro done st
    simp only [finish]
    rw [ih (done ++ _), ih ([] ++ _)]
    simp

/-- A part of a batch for one transformer. -/
theorem seqRun_const (f : Nat → S → V → S × V) (k : Nat) : ∀ (l : List V) (j : Nat) (σ : Nat → S),
    seqRun f (fun _ => k) j σ l = ((finish (f k) l [] (σ k)).1, fun i => if i = k then (finish (f k) l [] (σ k)).2 else σ i) := by
  intro l
  induction l with
  | nil =>
    intro j σ
    simp only [seqRun, finish]
    congr 1
    funext i
    by_cases h : i = k
    · rw [if_pos h, h]
    · rw [if_neg h]
  | cons v l ih =>
    intro j σ
    simp only [seqRun, ih, if_true]
    rw [finish, finish_done (f k) l ([] ++ _)]
    simp only [List.nil_append, List.singleton_append]
    congr 1
    funext i
    by_cases h : i = k
    · rw [if_pos h, if_pos h]
    · rw [if_neg h, if_neg h, if_neg h]

/-- The beginning of the part of thread `k`. -/
def bound (P bs n k : Nat) : Nat := if k < P then min (k * bs) n else n

theorem batchRange_eq {P bs : Nat} {c : List V} {k : Nat} (hk : k < P) :
    batchRange P bs c k = (c.drop (bound P bs c.length k)).take (bound P bs c.length (k + 1) - bound P bs c.length k) := by
  simp only [batchRange, bound, if_pos hk]
  by_cases h : k < P - 1
  · rw [if_pos h, if_pos (by omega)]
  · rw [if_neg h, if_neg (by omega)]

theorem bound_mono {P bs n k : Nat} (hk : k < P) : bound P bs n k ≤ bound P bs n (k + 1) := by
  simp only [bound, if_pos hk]
  by_cases h : k + 1 < P
  · rw [if_pos h]
    have : k * bs ≤ (k + 1) * bs := Nat.mul_le_mul_right _ (by omega)
    omega
  · rw [if_neg h]; omega

theorem bound_le (P bs n k : Nat) : bound P bs n k ≤ n := by
  simp only [bound]
  by_cases h : k < P
  · rw [if_pos h]; omega
  · rw [if_neg h]; omega

theorem lane_part {B P n k i : Nat} (hn : n ≤ B) (hk : k < P) (h1 : bound P (B / P) n k ≤ i)
    (h2 : i < bound P (B / P) n (k + 1)) : lane B P i = k := by
  have hin : i < n := Nat.lt_of_lt_of_le h2 (bound_le _ _ _ _)
  have hmod : i % B = i := Nat.mod_eq_of_lt (by omega)
  simp only [bound, if_pos hk] at h1 h2
  by_cases hBP : B < P
  · have h0 : B / P = 0 := Nat.div_eq_of_lt hBP
    rw [lane, if_pos hBP]
    rw [h0] at h2
    by_cases h : k + 1 < P
    · rw [if_pos h] at h2; omega
    · omega
  · rw [lane, if_neg hBP, hmod]
    have hpos : 0 < B / P := Nat.div_pos (by omega) (by omega)
    by_cases h : k + 1 < P
    · rw [if_pos h] at h2
      have h3 : k * (B / P) ≤ i := by omega
      have h4 : i < (k + 1) * (B / P) := by omega
      have : i / (B / P) = k := by
        rw [Nat.div_eq_iff hpos]
        rw [Nat.succ_mul] at h4
        omega
      rw [this]; omega
    · have h3 : k * (B / P) ≤ i := by omega
      have : k ≤ i / (B / P) := (Nat.le_div_iff_mul_le hpos).mpr h3
      omega

/-- The threads of a batch compute what the sequential run computes. -/
theorem runBatch_eq (kind : Kind S V) (hP : 0 < kind.parallelism) (B : Nat) (σ : Nat → S) (c : List V) (hc : c.length ≤ B) :
    runBatch kind B σ c = seqRun kind.transformer (lane B kind.parallelism) 0 σ c := by
  have key : ∀ k ≤ kind.parallelism,
      seqRun kind.transformer (lane B kind.parallelism) 0 σ (c.take (bound kind.parallelism (B / kind.parallelism) c.length k)) =
        ((List.range k).flatMap fun i => (finish (kind.transformer i)
            (batchRange kind.parallelism (B / kind.parallelism) c i) [] (σ i)).1,
         fun i => if i < k then (finish (kind.transformer i) (batchRange kind.parallelism (B / kind.parallelism) c i) [] (σ i)).2
            else σ i) := by
    intro k
    induction k with
    | zero =>
      intro _
      have : bound kind.parallelism (B / kind.parallelism) c.length 0 = 0 := by simp [bound, hP]
      rw [this]
      simp [seqRun]
    | succ k ih =>
      intro hk
      have hkP : k < kind.parallelism := by omega
      have hm := bound_mono (bs := B / kind.parallelism) (n := c.length) hkP
      have hle := bound_le kind.parallelism (B / kind.parallelism) c.length k
      have hle2 := bound_le kind.parallelism (B / kind.parallelism) c.length (k + 1)
      have hsplit : c.take (bound kind.parallelism (B / kind.parallelism) c.length (k + 1)) =
          c.take (bound kind.parallelism (B / kind.parallelism) c.length k) ++
            batchRange kind.parallelism (B / kind.parallelism) c k := by
        rw [batchRange_eq hkP]
        conv => lhs; rw [show bound kind.parallelism (B / kind.parallelism) c.length (k + 1) =
          bound kind.parallelism (B / kind.parallelism) c.length k + (bound kind.parallelism (B / kind.parallelism) c.length (k + 1) -
            bound kind.parallelism (B / kind.parallelism) c.length k) by omega, List.take_add]
      rw [hsplit, seqRun_append, ih (by omega)]
      dsimp only
      have hl : (c.take (bound kind.parallelism (B / kind.parallelism) c.length k)).length =
          bound kind.parallelism (B / kind.parallelism) c.length k := by rw [List.length_take]; omega
      rw [seqRun_congr _ (lane B kind.parallelism) (fun _ => k) _ _ 0 _ ?_, seqRun_const]
      · rw [if_neg (by omega), List.range_succ, List.flatMap_append]
        congr 1
        · simp
        · funext i
          dsimp only
          by_cases h1 : i = k
          · subst h1; rw [if_pos rfl, if_pos (by omega)]
          · by_cases h2 : i < k
            · rw [if_neg h1, if_pos h2, if_pos (by omega)]
            · rw [if_neg h1, if_neg h2, if_neg (by omega)]
      · intro i hi
        rw [hl]
        rw [batchRange_eq hkP, List.length_take, List.length_drop] at hi
        exact lane_part hc hkP (by omega) (by omega)
  have hend : bound kind.parallelism (B / kind.parallelism) c.length kind.parallelism = c.length := by
    simp [bound]
  have hk := key kind.parallelism (Nat.le_refl _)
  rw [hend, List.take_length] at hk
  rw [hk]
  simp only [runBatch, finished, startThreads]
  congr 1
  · apply flatMap_congr'
    intro k hk
    rw [if_pos (List.mem_range.mp hk)]
  · funext k
    by_cases h : k < kind.parallelism
    · rw [if_pos h, if_pos h, if_pos h]
    · rw [if_neg h, if_neg h]

def states (kind : Kind S V) (B : Nat) (σ : Nat → S) (s : Nat → Batch V) : Nat → (Nat → S)
  | 0 => σ
  | n + 1 => (runBatch kind B (states kind B σ s n) (s n).2).2

theorem states_shift (kind : Kind S V) (B : Nat) : ∀ n (σ : Nat → S) (s : Nat → Batch V),
    states kind B (runBatch kind B σ (s 0).2).2 (fun i => s (i + 1)) n = states kind B σ s (n + 1) := by
  intro n
  induction n with
  | zero => intro σ s; rfl
  | succ n ih =>
    intro σ s
    rw [states, ih σ s]
    rfl

theorem trans_eq (kind : Kind S V) (B : Nat) : ∀ n (σ : Nat → S) (s : Nat → Batch V),
    trans kind B σ s n = ((s n).1, (runBatch kind B (states kind B σ s n) (s n).2).1) := by
  intro n
  induction n with
  | zero => intro σ s; rfl
  | succ n ih =>
    intro σ s
    rw [trans, ih, states_shift]

theorem lane_mod (B P i n : Nat) : lane B P (n * B + i) = lane B P (0 + i) := by
  simp only [lane, Nat.zero_add]
  rw [Nat.mul_comm, Nat.mul_add_mod]

theorem chunk_firstVals {src : Nat → Option V} : ∀ b m l, firstVals src m = some l → (chunk src b m).1 = true →
    firstVals src (m + b) = some (l ++ (chunk src b m).2) := by
  intro b
  induction b with
  | zero => intro m l h _; simpa [chunk] using h
  | succ b ih =>
    intro m l h hg
    simp only [chunk] at hg ⊢
    cases hv : src m with
    | none => rw [hv] at hg; simp at hg
    | some v =>
      rw [hv] at hg
      dsimp only at hg ⊢
      have := ih (m + 1) (l ++ [v]) (firstVals_succ h hv) hg
      rw [show m + (b + 1) = m + 1 + b by omega, this]
      simp

theorem states_eq (kind : Kind S V) (hP : 0 < kind.parallelism) (B : Nat) (σ : Nat → S) {s : Nat → Batch V} {src : Nat → Option V}
    (hs : Chunks B s src) : ∀ n l, firstVals src (n * B) = some l →
    states kind B σ s n = (seqRun kind.transformer (lane B kind.parallelism) 0 σ l).2 := by
  intro n
  induction n with
  | zero =>
    intro l h
    rw [Nat.zero_mul, firstVals, Option.some.injEq] at h
    subst h; rfl
  | succ n ih =>
    intro l h
    have hall := firstVals_isSome.mp (show (firstVals src ((n + 1) * B)).isSome by rw [h]; rfl)
    have h1 : (firstVals src (n * B)).isSome := by
      rw [firstVals_isSome]
      intro i hi
      exact hall i (by rw [Nat.succ_mul]; omega)
    obtain ⟨l', hl'⟩ := Option.isSome_iff_exists.mp h1
    have hg : (chunk src B (n * B)).1 = true := by
      rw [chunk_good]
      intro i hi
      exact hall _ (by rw [Nat.succ_mul]; omega)
    have h2 := chunk_firstVals B (n * B) l' hl' hg
    rw [← Nat.succ_mul, h, Option.some.injEq] at h2
    rw [states, ih l' hl', hs n h1, runBatch_eq kind hP B _ _ (chunk_length _ _).1, h2, seqRun_append]
    dsimp only
    rw [(firstVals_some hl').1, seqRun_congr _ _ (lane B kind.parallelism) _ (0 + n * B) 0]
    intro i _
    rw [Nat.zero_add]
    exact lane_mod _ _ _ _

theorem stageSrc_chunk (B : Nat) (st : Kind S V × (Nat → S)) {src : Nat → Option V} : ∀ b m l, firstVals src m = some l →
    chunk (stageSrc B st src) b m = ((chunk src b m).1,
      (seqRun st.1.transformer (lane B st.1.parallelism) m
        (seqRun st.1.transformer (lane B st.1.parallelism) 0 st.2 l).2 (chunk src b m).2).1) := by
  intro b
  induction b with
  | zero => intro m l _; rfl
  | succ b ih =>
    intro m l h
    simp only [chunk]
    cases hv : src m with
    | none =>
      have : stageSrc B st src m = none := by
        rw [stageSrc, firstVals_none hv (by omega)]
      rw [this]; rfl
    | some v =>
      have h1 := firstVals_succ h hv
      have hl := (firstVals_some h).1
      have hstage : stageSrc B st src m = some (st.1.transformer (lane B st.1.parallelism m)
          ((seqRun st.1.transformer (lane B st.1.parallelism) 0 st.2 l).2 (lane B st.1.parallelism m)) v).2 := by
        rw [stageSrc, h1]
        dsimp only
        rw [seqRun_append]
        dsimp only
        rw [List.getElem?_append_right (by rw [seqRun_length]; omega), seqRun_length, hl]
        simp [seqRun]
      rw [hstage]
      dsimp only
      rw [ih (m + 1) (l ++ [v]) h1, seqRun_append]
      simp only [seqRun, hl, Nat.zero_add]

theorem stageSrc_isSome (B : Nat) (st : Kind S V × (Nat → S)) (src : Nat → Option V) (i : Nat) :
    (stageSrc B st src i).isSome ↔ (firstVals src (i + 1)).isSome := by
  simp only [stageSrc]
  cases h : firstVals src (i + 1) with
  | none => simp
  | some l =>
    have := (firstVals_some h).1
    simp only [Option.isSome_some, iff_true, Option.isSome_iff_exists]
    exact ⟨_, List.getElem?_eq_getElem (by rw [seqRun_length]; omega)⟩

theorem stage_chunks {B : Nat} (kind : Kind S V) (hP : 0 < kind.parallelism) (σ : Nat → S) {s : Nat → Batch V} {src : Nat → Option V}
    (hs : Chunks B s src) : Chunks B (trans kind B σ s) (stageSrc B (kind, σ) src) := by
  intro n h
  have hall : (firstVals src (n * B)).isSome := by
    rw [firstVals_isSome] at h ⊢
    intro i hi
    have := (stageSrc_isSome B (kind, σ) src i).mp (h i hi)
    exact firstVals_isSome.mp this i (by omega)
  obtain ⟨l, hl⟩ := Option.isSome_iff_exists.mp hall
  rw [trans_eq, stageSrc_chunk B (kind, σ) B (n * B) l hl, hs n hall, states_eq kind hP B σ hs n l hl,
    runBatch_eq kind hP B _ _ (chunk_length _ _).1]
  dsimp only
  rw [seqRun_congr _ _ (lane B kind.parallelism) _ 0 (n * B)]
  intro i _
  exact (lane_mod _ _ _ _).symm

theorem ended_isSome (src : Nat → Option V) (n : Nat) : (ended src n).isSome ↔ (firstVals src (n + 1)).isSome := by
  simp only [ended]
  by_cases h : (firstVals src (n + 1)).isSome = true
  · rw [if_pos h]
    exact iff_of_true (firstVals_isSome.mp h n (by omega)) h
  · rw [if_neg h]; simp [h]

theorem ended_chunks {B : Nat} {s : Nat → Batch V} {src : Nat → Option V} (hs : Chunks B s src) : Chunks B s (ended src) := by
  intro n h
  have hall : (firstVals src (n * B)).isSome := by
    rw [firstVals_isSome] at h ⊢
    intro i hi
    have := (ended_isSome src i).mp (h i hi)
    exact firstVals_isSome.mp this i (by omega)
  rw [hs n hall]
  obtain ⟨l, hl⟩ := Option.isSome_iff_exists.mp hall
  have : ∀ b m l, firstVals src m = some l → chunk src b m = chunk (ended src) b m := by
    intro b
    induction b with
    | zero => intro m l _; rfl
    | succ b ih =>
      intro m l hl
      simp only [chunk]
      cases hv : src m with
      | none =>
        have : ended src m = none := by
          rw [ended, firstVals_none hv (by omega)]; rfl
        rw [this]
      | some v =>
        have h1 := firstVals_succ hl hv
        have : ended src m = some v := by
          rw [ended, h1]; simpa using hv
        rw [this]
        dsimp only
        rw [ih (m + 1) _ h1]
  exact this B _ l hl

/-- The pipeline at its start delivers the pieces of the specified sequence. -/
theorem setup_chunks (creator : Creator Q V) (B : Nat) (q : Q) : ∀ (stages : List (Kind S V × (Nat → S))),
    (∀ s ∈ stages, 0 < s.1.parallelism) →
    Chunks B (stream creator B (setup q stages)) (stages.foldr (fun s src => stageSrc B s src) (ended (calls creator q))) := by
  intro stages
  induction stages with
  | nil =>
    intro _
    apply ended_chunks
    intro n h
    simp only [setup, stream, List.length_nil, Nat.sub_zero, List.nil_append]
    rw [show (((collect creator B q).1.1, (collect creator B q).1.2) : Batch V) = (collect creator B q).1 from rfl, consS_batches]
    exact batches_chunks creator B n q h
  | cons s rest ih =>
    intro hP
    exact stage_chunks s.1 (hP s (by simp)) s.2 (ih fun t ht => hP t (by simp [ht]))

/-- A sequence that has no values behind its end. -/
def Cut (src : Nat → Option V) : Prop := ∀ i, (src i).isSome → (firstVals src (i + 1)).isSome

theorem cut_ended (src : Nat → Option V) : Cut (ended src) := by
  intro i h
  rw [ended_isSome] at h
  rw [firstVals_isSome] at h ⊢
  intro j hj
  rw [ended_isSome, firstVals_isSome]
  intro k hk
  exact h k (by omega)

theorem cut_stage (B : Nat) (st : Kind S V × (Nat → S)) (src : Nat → Option V) : Cut (stageSrc B st src) := by
  intro i h
  rw [stageSrc_isSome, firstVals_isSome] at h
  rw [firstVals_isSome]
  intro j hj
  rw [stageSrc_isSome, firstVals_isSome]
  intro k hk
  exact h k (by omega)

theorem cut_stages (B : Nat) (src : Nat → Option V) (stages : List (Kind S V × (Nat → S))) :
    Cut (stages.foldr (fun s src => stageSrc B s src) (ended src)) := by
  cases stages with
  | nil => exact cut_ended src
  | cons s rest => exact cut_stage B s _

/-! The extractor -/

structure Inv (creator : Creator Q V) (B : Nat) (s0 : Nat → Batch V) (src : Nat → Option V) (s : System Q S V) : Prop where
  results : ∀ i < s.results.length, s.results[i]? = some (src i)
  position : s.extractor.position ≤ s.extractor.buffer.length
  valid : s.extractor.valid = true → ∃ k, (∀ i < k * B, (src i).isSome) ∧
    s.results.length + (s.extractor.buffer.length - s.extractor.position) = k * B ∧
    (∀ i, s.extractor.position + i < s.extractor.buffer.length →
      src (s.results.length + i) = s.extractor.buffer[s.extractor.position + i]?) ∧
    ((s.extractor.future = .running ∧ ∀ n, stream creator B s.extractor.pipe n = s0 (k + n)) ∨
     ∃ b, s.extractor.future = .ready b ∧ b = s0 k ∧ ∀ n, stream creator B s.extractor.pipe n = s0 (k + 1 + n))
  invalid : s.extractor.valid = false → s.extractor.future = .invalid ∧
    ∀ i, src (s.results.length + i) = s.extractor.buffer[s.extractor.position + i]?

theorem results_snoc {r : List (Option V)} {src : Nat → Option V} {o : Option V} (h : ∀ i < r.length, r[i]? = some (src i))
    (ho : o = src r.length) : ∀ i < (r ++ [o]).length, (r ++ [o])[i]? = some (src i) := by
  intro i hi
  simp only [List.length_append, List.length_singleton] at hi
  by_cases h1 : i < r.length
  · rw [List.getElem?_append_left h1]; exact h i h1
  · have : i = r.length := by omega
    subst this
    rw [List.getElem?_append_right (by omega), ho]
    simp

theorem inv_step {creator : Creator Q V} {B : Nat} (hB : 0 < B) {s0 : Nat → Batch V} {src : Nat → Option V} (hs : Chunks B s0 src)
    (hcut : Cut src) {s t : System Q S V} (hi : Inv creator B s0 src s) (h : Sys creator B s t) : Inv creator B s0 src t := by
  cases h with
  | @inside e p' r hstep =>
    refine ⟨hi.results, hi.position, ?_, hi.invalid⟩
    intro hv
    obtain ⟨k, h1, h2, h3, h4⟩ := hi.valid hv
    refine ⟨k, h1, h2, h3, ?_⟩
    dsimp only at h4 ⊢
    rw [step_stream hstep]
    exact h4
  | @pickup e p' b r hf hp =>
    refine ⟨hi.results, hi.position, ?_, ?_⟩
    · intro hv
      obtain ⟨k, h1, h2, h3, h4⟩ := hi.valid hv
      refine ⟨k, h1, h2, h3, .inr ?_⟩
      dsimp only at h4 ⊢
      rcases h4 with ⟨_, h4⟩ | ⟨b', h4, _⟩
      · rw [pickup_stream creator B hp] at h4
        refine ⟨b, rfl, h4 0, ?_⟩
        intro n
        have := h4 (n + 1)
        rw [show k + 1 + n = k + (n + 1) by omega, ← this]
        rfl
      · rw [hf] at h4; cases h4
    · intro hv
      have := (hi.invalid hv).1
      dsimp only at this
      rw [hf] at this; cases this
  | @next e r hn =>
    by_cases hb : e.position < e.buffer.length
    · have hd : deliver e = (some e.buffer[e.position], { e with position := e.position + 1 }) := by
        simp only [deliver, List.getElem?_eq_getElem hb]
      rw [hd]
      dsimp only
      have hval : some e.buffer[e.position] = src r.length := by
        cases hv : e.valid with
        | true =>
          obtain ⟨k, h1, h2, h3, h4⟩ := hi.valid hv
          have := h3 0 (by dsimp only; omega)
          simp only [Nat.add_zero] at this
          rw [this, List.getElem?_eq_getElem hb]
        | false =>
          have := (hi.invalid hv).2 0
          simp only [Nat.add_zero] at this
          rw [this, List.getElem?_eq_getElem hb]
      refine ⟨results_snoc hi.results hval, by dsimp only; omega, ?_, ?_⟩
      · intro hv
        obtain ⟨k, h1, h2, h3, h4⟩ := hi.valid hv
        refine ⟨k, h1, ?_, ?_, h4⟩
        · dsimp only at h2 ⊢
          rw [List.length_append, List.length_singleton]; omega
        · intro i hlt
          dsimp only at hlt h3 ⊢
          rw [List.length_append, List.length_singleton, show r.length + 1 + i = r.length + (i + 1) by omega,
            show e.position + 1 + i = e.position + (i + 1) by omega]
          exact h3 (i + 1) (by omega)
      · intro hv
        obtain ⟨h1, h2⟩ := hi.invalid hv
        refine ⟨h1, ?_⟩
        intro i
        dsimp only at h2 ⊢
        rw [List.length_append, List.length_singleton, show r.length + 1 + i = r.length + (i + 1) by omega,
            show e.position + 1 + i = e.position + (i + 1) by omega]
        exact h2 (i + 1)
    · have hpos := hi.position
      dsimp only at hpos
      have heq : e.buffer.length = e.position := by omega
      have hd : deliver e = (none, e) := by
        simp only [deliver, List.getElem?_eq_none (show e.buffer.length ≤ e.position by omega)]
      rw [hd]
      dsimp only
      have hv : e.valid = false := by
        cases hv : e.valid with
        | true => exact absurd ⟨heq, hv⟩ hn
        | false => rfl
      obtain ⟨h1, h2⟩ := hi.invalid hv
      dsimp only at h1 h2
      refine ⟨results_snoc hi.results ?_, hi.position, ?_, ?_⟩
      · have := h2 0
        simp only [Nat.add_zero] at this
        rw [this, List.getElem?_eq_none (by omega)]
      · intro hv'
        dsimp only at hv'
        rw [hv] at hv'; cases hv'
      · intro _
        refine ⟨h1, ?_⟩
        intro i
        dsimp only
        rw [List.length_append, List.length_singleton, show r.length + 1 + i = r.length + (i + 1) by omega, h2 (i + 1),
          List.getElem?_eq_none (by omega), List.getElem?_eq_none (by omega)]
  | @refill e b r heq hv hf =>
    obtain ⟨k, h1, h2, h3, h4⟩ := hi.valid hv
    dsimp only at h2 h4
    rw [heq, Nat.sub_self, Nat.add_zero] at h2
    rcases h4 with ⟨h4, _⟩ | ⟨b', h4, hb, hst⟩
    · rw [hf] at h4; cases h4
    · rw [hf, Future.ready.injEq] at h4
      subst h4
      have hck := hs k (by rw [firstVals_isSome]; exact h1)
      rw [← hb] at hck
      have hr := hi.results
      dsimp only at hr
      obtain ⟨c1, c2, c3⟩ := chunk_length (src := src) B (k * B)
      have c4 := chunk_get (src := src) B (k * B)
      rw [← hck] at c1 c2 c3 c4
      rcases b with ⟨good, content⟩
      dsimp only at c1 c2 c3 c4 ⊢
      cases content with
      | nil =>
        have hg : good = false := by
          cases good with
          | true => have := c2 rfl; simp at this; omega
          | false => rfl
        subst hg
        have hnone := c3 rfl
        simp only [List.length_nil, Nat.add_zero] at hnone
        have hall : ∀ i, src (k * B + i) = none := by
          intro i
          cases h : src (k * B + i) with
          | none => rfl
          | some v =>
            have := firstVals_isSome.mp (hcut (k * B + i) (by rw [h]; rfl)) (k * B) (by omega)
            rw [hnone] at this; cases this
        simp only [deliver, List.getElem?_nil]
        refine ⟨results_snoc hr (by rw [h2, hnone]), by simp, by simp, ?_⟩
        intro _
        refine ⟨by simp, ?_⟩
        intro i
        dsimp only
        rw [List.length_append, List.length_singleton, h2, Nat.add_assoc, hall]
        simp
      | cons v vs =>
        have hv0 : some v = src r.length := by
          have := c4 0 (by simp)
          simp only [List.getElem?_cons_zero, Nat.add_zero] at this
          rw [h2, this]
        simp only [deliver, List.getElem?_cons_zero]
        refine ⟨results_snoc hr hv0, by simp, ?_, ?_⟩
        · intro hg
          dsimp only at hg
          subst hg
          have hlen := c2 rfl
          have hgood : (chunk src B (k * B)).1 = true := by rw [← hck]
          rw [chunk_good] at hgood
          refine ⟨k + 1, ?_, ?_, ?_, .inl ⟨by simp, ?_⟩⟩
          · intro i hilt
            by_cases hik : i < k * B
            · exact h1 i hik
            · have := hgood (i - k * B) (by rw [Nat.succ_mul] at hilt; omega)
              rwa [show k * B + (i - k * B) = i by omega] at this
          · simp only [List.length_append, List.length_cons, List.length_nil, Nat.succ_mul] at hlen ⊢
            omega
          · intro i hilt
            simp only [List.length_cons] at hilt
            have := c4 (0 + 1 + i) (by simp only [List.length_cons]; omega)
            simp only [List.length_append, List.length_singleton]
            rw [this, h2, show k * B + (0 + 1 + i) = k * B + 1 + i by omega]
          · intro n
            dsimp only
            rw [hst n]
        · intro hg
          dsimp only at hg
          subst hg
          refine ⟨by simp, ?_⟩
          intro i
          simp only [List.length_append, List.length_singleton]
          by_cases hilt : 0 + 1 + i < (v :: vs).length
          · rw [c4 (0 + 1 + i) hilt, h2, show k * B + (0 + 1 + i) = k * B + 1 + i by omega]
          · rw [List.getElem?_eq_none (by omega), h2]
            have hnone := c3 rfl
            cases h : src (k * B + 1 + i) with
            | none => rfl
            | some w =>
              have := firstVals_isSome.mp (hcut (k * B + 1 + i) (by rw [h]; rfl)) (k * B + (v :: vs).length) (by omega)
              rw [hnone] at this; cases this

theorem inv_reach {creator : Creator Q V} {B : Nat} (hB : 0 < B) {q : Q} {stages : List (Kind S V × (Nat → S))}
    (hP : ∀ s ∈ stages, 0 < s.1.parallelism) {t : System Q S V} (h : Reach creator B (start q stages) t) :
    Inv creator B (stream creator B (setup q stages.reverse)) (stagesSrc B stages (calls creator q)) t := by
  have hfold : stagesSrc B stages (calls creator q) =
      stages.reverse.foldr (fun s src => stageSrc B s src) (ended (calls creator q)) := by
    rw [List.foldr_reverse]; rfl
  have hs := setup_chunks creator B q stages.reverse (by intro s hs; exact hP s (List.mem_reverse.mp hs))
  have hcut := cut_stages B (calls creator q) stages.reverse
  rw [hfold]
  induction h with
  | refl =>
    refine ⟨by simp [start], by simp [start], ?_, by simp [start]⟩
    intro _
    refine ⟨0, by simp, by simp [start], by simp [start], .inl ⟨rfl, ?_⟩⟩
    intro n
    rw [Nat.zero_add]
    rfl
  | step _ hstep ih => exact inv_step hB hs hcut ih hstep

end Verif.Pipeline
