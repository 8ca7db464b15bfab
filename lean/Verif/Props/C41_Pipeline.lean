import Verif.Lemmas.PipelineRuns
/-
C41: the parsing pipeline loses, duplicates and reorders nothing.
-/
namespace Verif.Pipeline
open PipelineSpec

variable {Q R S V : Type}

/-- A stage with two threads that adds up the values it has seen. -/
def sums : Kind Nat Nat := ⟨2, fun _ s v => (s + v, s + v)⟩

/-- A stage with three threads that doubles. -/
def doubles : Kind Nat Nat := ⟨3, fun _ s v => (s, 2 * v)⟩

/-- A source: a list that is taken apart. -/
def listCreator : Creator (List Nat) Nat := ⟨fun l => match l with | [] => (none, []) | v :: l => (some v, l)⟩

/-- C41: whatever the schedule of the tasks and threads, the calls of `getNextValue` return, one after the other, the values of the source
after all transformers, in the order of the source, and none from the end of the source on. With transformers that have a state, the
`i`-th value of the source is transformed by the transformer that `lane` names, after exactly the earlier values of this transformer. -/
theorem C41_results {creator : Creator Q V} {B : Nat} (hB : 0 < B) {q : Q} {stages : List (Kind S V × (Nat → S))}
    (hP : ∀ s ∈ stages, 0 < s.1.parallelism) {t : System Q S V} (h : Reach creator B (start q stages) t) :
    t.results = (List.range t.results.length).map (stagesSrc B stages (calls creator q)) := by
  have hi := inv_reach hB hP h
  apply List.ext_getElem?
  intro i
  by_cases hlt : i < t.results.length
  · rw [hi.results i hlt, List.getElem?_map, List.getElem?_range hlt]; rfl
  · rw [List.getElem?_eq_none (by omega), List.getElem?_eq_none (by simp; omega)]

/-- What the specification gives for a concrete source, two stages and batches of four values. -/
example : (List.range 7).map (stagesSrc 4 [(doubles, fun _ => 0), (sums, fun _ => 0)] (calls listCreator [1, 2, 3, 4, 5])) =
    [some 2, some 6, some 6, some 14, some 16, none, none] := by decide

/-- The source is a sequence of values that ends: a none from the creator is the end, also if a later call would return a value. -/
theorem C41_source {creator : Creator Q V} {q : Q} {n : Nat} (hs : ∀ i < n, (calls creator q i).isSome) (hn : calls creator q n = none)
    {B : Nat} (hB : 0 < B) {t : System Q S V} (h : Reach creator B (start q ([] : List (Kind S V × (Nat → S)))) t) (i : Nat)
    (hi : i < t.results.length) : t.results[i]? = some (if i < n then calls creator q i else none) := by
  rw [C41_results hB (by simp) h, List.getElem?_map, List.getElem?_range hi]
  simp only [Option.map_some, stagesSrc, List.foldl_nil, Option.some.injEq]
  by_cases hlt : i < n
  · rw [if_pos hlt, ended_eq]
    intro j hj
    exact hs j (by omega)
  · rw [if_neg hlt, ended, firstVals_none hn (by omega)]
    rfl

example : (∀ i < 2, (calls listCreator [7, 8] i).isSome) ∧ calls listCreator [7, 8] 2 = none := by decide

/-- C41 for transformers without state: the delivered values are the images of the source's values under the composition of the
transformers, in order, each once. -/
theorem C41_stateless {creator : Creator Q V} {B : Nat} (hB : 0 < B) {q : Q} {stages : List (Kind S V × (Nat → S))}
    (hP : ∀ s ∈ stages, 0 < s.1.parallelism) {fs : List (V → V)} (hf : List.Forall₂ Computes fs stages) {t : System Q S V}
    (h : Reach creator B (start q stages) t) :
    t.results = (List.range t.results.length).map fun i => (ended (calls creator q) i).map fun v => fs.foldl (fun v f => f v) v := by
  conv => lhs; rw [C41_results hB hP h]
  rw [stagesSrc, foldl_computes B stages fs hf _ (cut_ended _)]

example : List.Forall₂ Computes [(fun v => 2 * v), (fun v => 2 * v)] [(doubles, fun _ => 0), (doubles, fun _ => 0)] :=
  .cons (fun _ _ _ => rfl) (.cons (fun _ _ _ => rfl) .nil)

/-- Every value of the source is transformed at most once and no value is transformed out of order in a stage: the states of the
transformers change as in the sequential run, batch after batch. (This is part of `C41_results`; here for one batch and one stage, whatever
the interleaving of the threads.) -/
theorem C41_batch (kind : Kind S V) (hP : 0 < kind.parallelism) (B : Nat) (σ : Nat → S) (c : List V) (hc : c.length ≤ B)
    {creator : Creator Q V} {p p' : Pipe Q S V} {b : Batch V} {σ' : Nat → S} (h : Reach creator B
      ⟨⟨.stage p kind (.working true (startThreads kind B σ c)), .invalid, [], 0, false⟩, []⟩
      ⟨⟨.stage p' kind (.ready b σ'), .invalid, [], 0, false⟩, []⟩) :
    b = (true, (seqRun kind.transformer (lane B kind.parallelism) 0 σ c).1) ∧
    σ' = (seqRun kind.transformer (lane B kind.parallelism) 0 σ c).2 := by
  have key : ∀ t : System Q S V, Reach creator B
      ⟨⟨.stage p kind (.working true (startThreads kind B σ c)), .invalid, [], 0, false⟩, []⟩ t →
      t.results = [] → t.extractor.future = .invalid →
      (∃ p' th, t.extractor.pipe = .stage p' kind (.working true th) ∧ finished kind th = runBatch kind B σ c) ∨
      (∃ p', t.extractor.pipe = .stage p' kind (.ready (true, (runBatch kind B σ c).1) (runBatch kind B σ c).2)) := by
    intro t ht
    induction ht with
    | refl => intro _ _; exact .inl ⟨_, _, rfl, rfl⟩
    | @step t u _ hs ih =>
      intro hr hf
      cases hs with
      | @inside e p2 r hstep =>
        dsimp only at hr hf ih ⊢
        rcases ih hr hf with ⟨p1, th, he, hfin⟩ | ⟨p1, he⟩
        · rw [he] at hstep
          cases hstep with
          | previous _ => exact .inl ⟨_, _, rfl, hfin⟩
          | thread k hk htd =>
            refine .inl ⟨_, _, rfl, ?_⟩
            rw [← hfin]
            have h1 : ∀ j, finish (kind.transformer j) (if j = k then (th k).step (kind.transformer k) else th j).todo
                (if j = k then (th k).step (kind.transformer k) else th j).done
                (if j = k then (th k).step (kind.transformer k) else th j).st =
                finish (kind.transformer j) (th j).todo (th j).done (th j).st := by
              intro j
              by_cases hj : j = k
              · subst hj
                simp only [if_true]
                exact finish_step _ _
              · simp only [if_neg hj]
            simp only [finished, h1]
            congr 1
            funext j
            by_cases hj : j < kind.parallelism
            · simp only [if_pos hj]
            · have : ¬ j = k := by omega
              simp only [if_neg hj, if_neg this]
          | merged htd =>
            refine .inr ⟨p1, ?_⟩
            have h1 : (finished kind th).1 = merge kind.parallelism th := by
              simp only [finished, merge]
              apply flatMap_congr'
              intro k hk
              rw [htd k (List.mem_range.mp hk)]
              rfl
            have h2 : (finished kind th).2 = fun k => (th k).st := by
              simp only [finished]
              funext k
              by_cases hk : k < kind.parallelism
              · rw [if_pos hk, htd k hk]; rfl
              · rw [if_neg hk]
            rw [← hfin, h1, h2]
        · rw [he] at hstep
          cases hstep with
          | previous _ => exact .inr ⟨_, rfl⟩
      | pickup _ _ => simp at hf
      | next _ => simp at hr
      | refill _ _ _ => simp at hr
  rcases key _ h rfl rfl with ⟨p1, th, he, _⟩ | ⟨p1, he⟩
  · simp at he
  · simp only [Pipe.stage.injEq, true_and, Task.ready.injEq] at he
    obtain ⟨_, h1, h2⟩ := he
    rw [h1, h2, runBatch_eq kind hP B σ c hc]
    exact ⟨rfl, rfl⟩

/-- No deadlock: in every reachable state a call of `getNextValue` can return, or some task of the pipeline can make a step. -/
theorem C41_no_deadlock {creator : Creator Q V} {B : Nat} (hB : 0 < B) {q : Q} {stages : List (Kind S V × (Nat → S))}
    (hP : ∀ s ∈ stages, 0 < s.1.parallelism) {t : System Q S V} (h : Reach creator B (start q stages) t) :
    (∃ u, Internal creator B t u) ∨ ∃ u o, Sys creator B t u ∧ u.results = t.results ++ [o] := by
  have hi := inv_reach hB hP h
  rcases t with ⟨e, r⟩
  by_cases hn : e.buffer.length = e.position ∧ e.valid = true
  · obtain ⟨k, _, _, _, h4⟩ := hi.valid hn.2
    rcases h4 with ⟨hf, _⟩ | ⟨b, hf, _⟩
    · left
      rcases step_or_pickup creator B e.pipe with ⟨p', hs⟩ | ⟨b, p', hp⟩
      · exact ⟨_, .inside hs, rfl⟩
      · exact ⟨_, .pickup hf hp, rfl⟩
    · right
      exact ⟨_, _, .refill hn.1 hn.2 hf, rfl⟩
  · right
    exact ⟨_, _, .next hn, rfl⟩

/-- The tasks cannot go on forever between two calls of `getNextValue`: with `C41_no_deadlock`, every call returns under every schedule
that lets the tasks run. -/
theorem C41_terminates (creator : Creator Q V) (B : Nat) (t : System Q S V) : Acc (fun u t => Internal creator B t u) t :=
  acc_internal creator B t

/-- Some run with a result exists for every source: the hypotheses of the theorems above are met by runs with any number of calls. -/
theorem C41_runs_exist {creator : Creator Q V} {B : Nat} (hB : 0 < B) {q : Q} {stages : List (Kind S V × (Nat → S))}
    (hP : ∀ s ∈ stages, 0 < s.1.parallelism) (n : Nat) : ∃ t : System Q S V, Reach creator B (start q stages) t ∧ t.results.length = n := by
  induction n with
  | zero => exact ⟨_, .refl, rfl⟩
  | succ n ih =>
    obtain ⟨t, ht, hl⟩ := ih
    have : ∀ t : System Q S V, Reach creator B (start q stages) t → t.results.length = n →
        ∃ u, Reach creator B (start q stages) u ∧ u.results.length = n + 1 := by
      intro t
      have hacc := acc_internal creator B t
      induction hacc with
      | intro t _ ih =>
        intro ht hl
        rcases C41_no_deadlock hB hP ht with ⟨u, hu⟩ | ⟨u, o, hu, ho⟩
        · exact ih u hu (.step ht hu.1) (by rw [hu.2, hl])
        · exact ⟨u, .step ht hu, by rw [ho, List.length_append, hl]; rfl⟩
    exact this t ht hl

/-- Together: for every source with `n` values the pipeline can be run, and any run with more than `n` calls returns all the values and
then none. -/
example : ∃ t : System (List Nat) Nat Nat, Reach listCreator 4 (start [1, 2, 3, 4, 5] [(doubles, fun _ => 0), (sums, fun _ => 0)]) t ∧
    t.results = [some 2, some 6, some 6, some 14, some 16, none, none] := by
  obtain ⟨t, ht, hl⟩ := C41_runs_exist (creator := listCreator) (B := 4) (by omega) (q := [1, 2, 3, 4, 5])
    (stages := [(doubles, fun _ => 0), (sums, fun _ => 0)]) (by decide) 7
  refine ⟨t, ht, ?_⟩
  rw [C41_results (by omega) (by decide) ht, hl]
  decide

/-- The batch size must not be 0: then the first call returns none, whatever the source (with the stages left out here). -/
theorem C41_batch_size_zero (creator : Creator Q V) (q : Q) : ∃ t : System Q S V,
    Reach creator 0 (start q []) t ∧ t.results = [none] := by
  refine ⟨_, .step (.step (.step .refl (.inside (.full (by simp)))) (.pickup rfl .batcher)) (.refill rfl rfl rfl), rfl⟩

/-! The parser -/

/-- A partial vocabulary gets the next `maxNumTriples` lines of the parser, or what is left. -/
theorem C41_parser_lines {getLine : R → Option V × R} {max B : Nat} (hB : 0 < B) {r : R} {stages : List (Kind S V × (Nat → S))}
    (hP : ∀ s ∈ stages, 0 < s.1.parallelism) {t : System (R × Nat × Bool) S V}
    (h : Reach (parserBatcher getLine max) B (start (r, 0, false) stages) t) :
    t.results = (List.range t.results.length).map
      (stages.foldl (fun src s => stageSrc B s src) fun i => if i < max then linesOf getLine r i else none) := by
  conv => lhs; rw [C41_results hB hP h]
  rw [stagesSrc, ended_pb]

/-- When the pipeline has returned none, the flag says whether the parser was exhausted, and if not, the parser stands exactly behind the
last delivered line: the batches that are prefetched behind the limit do not touch it. -/
theorem C41_parser_end {getLine : R → Option V × R} {max B : Nat} (hB : 0 < B) {r : R} {stages : List (Kind S V × (Nat → S))}
    (hP : ∀ s ∈ stages, 0 < s.1.parallelism) {t : System (R × Nat × Bool) S V}
    (h : Reach (parserBatcher getLine max) B (start (r, 0, false) stages) t) (hn : none ∈ t.results) :
    (t.extractor.pipe.creatorState.2.2 = true ↔ ∃ i < max, linesOf getLine r i = none) ∧
    (t.extractor.pipe.creatorState.2.2 = false → t.extractor.pipe.creatorState.1 = stateAfter ⟨getLine⟩ r max) := by
  rcases parser_end hB hP h hn with ⟨h1, h2⟩ | ⟨h1, h2, h3⟩
  · exact ⟨⟨fun _ => h2, fun _ => h1⟩, by rw [h1]; simp⟩
  · refine ⟨⟨by rw [h1]; simp, ?_⟩, fun _ => h3⟩
    rintro ⟨i, hi, he⟩
    have := h2 i hi
    rw [he] at this; cases this

/-- The rounds of index building: round `k` writes the transformed lines `k * max`, ..., `k * max + max - 1` of the file; all rounds but the
last are full, and the last round ends with the end of the file. -/
theorem C41_partials {getLine : R → Option V × R} {max B : Nat} (hB : 0 < B) {stages : List (Kind S V × (Nat → S))}
    (hP : ∀ s ∈ stages, 0 < s.1.parallelism) {r : R} {outs : List (List V)} (h : Partials getLine max B stages r outs) :
    outs ≠ [] ∧
    (∀ i < (outs.length - 1) * max, (linesOf getLine r i).isSome) ∧
    (∃ i < outs.length * max, linesOf getLine r i = none) ∧
    ∀ k out, outs[k]? = some out → ∀ i, out[i]? =
      (stages.foldl (fun src s => stageSrc B s src) fun i => if i < max then linesOf getLine r (k * max + i) else none) i := by
  have hout : ∀ {r : R} {out : List V} {t : System (R × Nat × Bool) S V},
      Reach (parserBatcher getLine max) B (start (r, 0, false) stages) t → t.results = out.map some ++ [none] → ∀ i, out[i]? =
      (stages.foldl (fun src s => stageSrc B s src) fun i => if i < max then linesOf getLine r i else none) i := by
    intro r out t hr he i
    have hi := inv_reach hB hP hr
    have hcut : Cut (stagesSrc B stages (calls (parserBatcher getLine max) (r, 0, false))) := by
      have := cut_stages B (calls (parserBatcher getLine max) (r, 0, false)) stages.reverse
      rw [List.foldr_reverse] at this
      exact this
    have hsrc : stagesSrc B stages (calls (parserBatcher getLine max) (r, 0, false)) =
        (stages.foldl (fun src s => stageSrc B s src) fun i => if i < max then linesOf getLine r i else none) := by
      rw [stagesSrc, ended_pb]
    rw [← hsrc]
    have hres := hi.results
    rw [he] at hres
    simp only [List.length_append, List.length_map, List.length_singleton] at hres
    by_cases hlt : i < out.length
    · have := hres i (by omega)
      rw [List.getElem?_append_left (by simpa using hlt), List.getElem?_map, List.getElem?_eq_getElem hlt] at this
      simp only [Option.map_some, Option.some.injEq] at this
      rw [List.getElem?_eq_getElem hlt, this]
    · have hend := hres out.length (by omega)
      rw [List.getElem?_append_right (by simp)] at hend
      simp only [List.length_map, Nat.sub_self, List.getElem?_cons_zero, Option.some.injEq] at hend
      rw [List.getElem?_eq_none (by omega)]
      cases hv : stagesSrc B stages (calls (parserBatcher getLine max) (r, 0, false)) i with
      | none => rfl
      | some v =>
        have := firstVals_isSome.mp (hcut i (by rw [hv]; rfl)) out.length (by omega)
        rw [← hend] at this; cases this
  induction h with
  | @last r out t hr he hflag =>
    rcases parser_end hB hP hr (by rw [he]; simp) with ⟨_, i, hi, hn⟩ | ⟨h1, _⟩
    · refine ⟨by simp, by simp, ⟨i, by simpa using hi, hn⟩, ?_⟩
      intro k out' hk i
      cases k with
      | zero =>
        simp only [List.getElem?_cons_zero, Option.some.injEq] at hk
        subst hk
        simp only [Nat.zero_mul, Nat.zero_add]
        exact hout hr he i
      | succ k => simp at hk
    · rw [hflag] at h1; cases h1
  | @more r out outs t hr he hflag _ ih =>
    rcases parser_end hB hP hr (by rw [he]; simp) with ⟨h1, _⟩ | ⟨_, hall, hst⟩
    · rw [hflag] at h1; cases h1
    · obtain ⟨ih1, ih2, ⟨j, hj, hjn⟩, ih4⟩ := ih
      have hfirst : (firstVals (calls ⟨getLine⟩ r) max).isSome := by
        rw [firstVals_isSome]
        intro i hi
        have := hall i hi
        rw [linesOf, ended_isSome] at this
        exact firstVals_isSome.mp this i (by omega)
      rw [hst] at ih2 hjn ih4
      have hlines := linesOf_after getLine r max hfirst
      have hpos : 0 < outs.length := List.length_pos_iff.mpr ih1
      refine ⟨by simp, ?_, ⟨max + j, ?_, ?_⟩, ?_⟩
      · intro i hi
        by_cases him : i < max
        · exact hall i him
        · have := ih2 (i - max) (by
            rw [List.length_cons, Nat.add_sub_cancel] at hi
            rw [Nat.sub_mul]
            omega)
          rwa [hlines, show max + (i - max) = i by omega] at this
      · rw [List.length_cons, Nat.succ_mul]; omega
      · rw [← hlines]; exact hjn
      · intro k out' hk i
        cases k with
        | zero =>
          simp only [List.getElem?_cons_zero, Option.some.injEq] at hk
          subst hk
          simp only [Nat.zero_mul, Nat.zero_add]
          exact hout hr he i
        | succ k =>
          rw [List.getElem?_cons_succ] at hk
          rw [ih4 k out' hk i]
          refine congrFun (congrArg (fun src => stages.foldl (fun src s => stageSrc B s src) src) ?_) i
          funext i
          rw [hlines, show max + (k * max + i) = (k + 1) * max + i by rw [Nat.succ_mul]; omega]

/-- With transformers without state all rounds together write the transformed lines of the file, in order, each once. -/
theorem C41_whole_file {getLine : R → Option V × R} {max B : Nat} (hB : 0 < B) {stages : List (Kind S V × (Nat → S))}
    (hP : ∀ s ∈ stages, 0 < s.1.parallelism) {fs : List (V → V)} (hf : List.Forall₂ Computes fs stages) {r : R} {outs : List (List V)}
    (h : Partials getLine max B stages r outs) (i : Nat) :
    outs.flatten[i]? = (linesOf getLine r i).map fun v => fs.foldl (fun v f => f v) v := by
  have hcut : ∀ (r : R), Cut fun i => if i < max then linesOf getLine r i else none := by
    intro r
    have := cut_ended (calls (parserBatcher getLine max) (r, 0, false))
    rwa [ended_pb] at this
  induction h generalizing i with
  | @last r out t hr he hflag =>
    have hp := C41_partials hB hP (Partials.last hr he hflag)
    obtain ⟨_, _, ⟨j, hj, hjn⟩, h4⟩ := hp
    have := h4 0 out rfl i
    simp only [Nat.zero_mul, Nat.zero_add] at this
    rw [foldl_computes B stages fs hf _ (hcut r)] at this
    simp only [List.flatten_cons, List.flatten_nil, List.append_nil]
    rw [this]
    dsimp only
    simp only [List.length_singleton, Nat.one_mul] at hj
    by_cases hi : i < max
    · rw [if_pos hi]
    · rw [if_neg hi]
      have hn : linesOf getLine r i = none := by
        cases hv : linesOf getLine r i with
        | none => rfl
        | some v =>
          have := firstVals_isSome.mp (cut_ended (calls ⟨getLine⟩ r) i (by
            have : linesOf getLine r i = ended (calls ⟨getLine⟩ r) i := rfl
            rw [← this, hv]; rfl)) j (by omega)
          have h2 : linesOf getLine r j = ended (calls ⟨getLine⟩ r) j := rfl
          rw [← h2, hjn] at this; cases this
      rw [hn]
  | @more r out outs t hr he hflag hrest ih =>
    have hp := C41_partials hB hP (Partials.more hr he hflag hrest)
    have h4 := hp.2.2.2 0 out rfl
    simp only [Nat.zero_mul, Nat.zero_add] at h4
    rw [foldl_computes B stages fs hf _ (hcut r)] at h4
    rcases parser_end hB hP hr (by rw [he]; simp) with ⟨h1, _⟩ | ⟨_, hall, hst⟩
    · rw [hflag] at h1; cases h1
    · have hfirst : (firstVals (calls ⟨getLine⟩ r) max).isSome := by
        rw [firstVals_isSome]
        intro i hi
        have := hall i hi
        rw [linesOf, ended_isSome] at this
        exact firstVals_isSome.mp this i (by omega)
      have hlen : out.length = max := by
        by_cases hlt : out.length < max
        · exfalso
          have := h4 out.length
          rw [List.getElem?_eq_none (Nat.le_refl _)] at this
          dsimp only at this
          rw [if_pos hlt] at this
          have h5 := hall _ hlt
          cases hv : linesOf getLine r out.length with
          | none => rw [hv] at h5; cases h5
          | some v => rw [hv] at this; cases this
        · by_cases hgt : max < out.length
          · exfalso
            have := h4 max
            dsimp only at this
            rw [if_neg (by omega), List.getElem?_eq_getElem hgt] at this
            cases this
          · omega
      rw [List.flatten_cons]
      by_cases hi : i < max
      · rw [List.getElem?_append_left (by omega), h4 i]
        dsimp only
        rw [if_pos hi]
      · rw [List.getElem?_append_right (by omega), ih, hst, linesOf_after getLine r max hfirst, hlen,
          show max + (i - max) = i by omega]

/-- For every file with an end there are such rounds. -/
theorem C41_partials_exist {getLine : R → Option V × R} {max B : Nat} (hB : 0 < B) (hmax : 0 < max) {stages : List (Kind S V × (Nat → S))}
    (hP : ∀ s ∈ stages, 0 < s.1.parallelism) : ∀ (n : Nat) (r : R), linesOf getLine r n = none →
    ∃ outs, Partials getLine max B stages r outs := by
  intro n
  induction n using Nat.strongRecOn with
  | ind n ih =>
    intro r hn
    have hex : ∃ m, (∀ i < m, (stagesSrc B stages (calls (parserBatcher getLine max) (r, 0, false)) i).isSome) ∧
        stagesSrc B stages (calls (parserBatcher getLine max) (r, 0, false)) m = none := by
      have hsome : ∀ (stages : List (Kind S V × (Nat → S))) (src : Nat → Option V), src max = none → 
          (stages.foldl (fun src s => stageSrc B s src) src) max = none := by
        intro stages
        induction stages with
        | nil => intro src h; exact h
        | cons s rest ihs =>
          intro src h
          rw [List.foldl_cons]
          apply ihs
          rw [stageSrc, firstVals_none h (by omega)]
      have hmaxnone : stagesSrc B stages (calls (parserBatcher getLine max) (r, 0, false)) max = none := by
        rw [stagesSrc, ended_pb]
        exact hsome _ _ (by rw [if_neg (by omega)])
      have hleast : ∀ (f : Nat → Option V) n, f n = none → ∃ m, (∀ i < m, (f i).isSome) ∧ f m = none := by
        intro f n
        induction n using Nat.strongRecOn with
        | ind n ihn =>
          intro hf
          by_cases hall : ∃ i < n, f i = none
          · obtain ⟨i, hi, hfi⟩ := hall
            exact ihn i hi hfi
          · refine ⟨n, ?_, hf⟩
            intro i hi
            cases hv : f i with
            | none => exact absurd ⟨i, hi, hv⟩ hall
            | some v => rfl
      exact hleast _ _ hmaxnone
    obtain ⟨m, hm, hmn⟩ := hex
    obtain ⟨t, ht, hl⟩ := C41_runs_exist (creator := parserBatcher getLine max) hB (q := (r, 0, false)) hP (m + 1)
    obtain ⟨out, hout⟩ : ∃ out : List V, t.results = out.map some ++ [none] := by
      rw [C41_results hB hP ht, hl, List.range_succ, List.map_append]
      have : ∀ k ≤ m, ∃ out : List V, (List.range k).map (stagesSrc B stages (calls (parserBatcher getLine max) (r, 0, false))) =
          out.map some := by
        intro k
        induction k with
        | zero => intro _; exact ⟨[], rfl⟩
        | succ k ihk =>
          intro hk
          obtain ⟨out, ho⟩ := ihk (by omega)
          obtain ⟨v, hv⟩ := Option.isSome_iff_exists.mp (hm k (by omega))
          exact ⟨out ++ [v], by rw [List.range_succ, List.map_append, ho, List.map_append]; simp [hv]⟩
      obtain ⟨out, ho⟩ := this m (Nat.le_refl _)
      exact ⟨out, by rw [ho]; simp [hmn]⟩
    rcases parser_end hB hP ht (by rw [hout]; simp) with ⟨h1, _⟩ | ⟨h1, hall, hst⟩
    · exact ⟨_, .last ht hout h1⟩
    · have hfirst : (firstVals (calls ⟨getLine⟩ r) max).isSome := by
        rw [firstVals_isSome]
        intro i hi
        have := hall i hi
        rw [linesOf, ended_isSome] at this
        exact firstVals_isSome.mp this i (by omega)
      have hge : max ≤ n := by
        by_cases h' : n < max
        · have := hall n h'
          rw [hn] at this; cases this
        · omega
      obtain ⟨outs, ho⟩ := ih (n - max) (by omega) t.extractor.pipe.creatorState.1 (by
        rw [hst, linesOf_after getLine r max hfirst, show max + (n - max) = n by omega, hn])
      exact ⟨_, .more ht hout h1 ho⟩

example : ∃ outs, Partials listCreator.call 2 4 [(doubles, fun _ => 0), (sums, fun _ => 0)] [1, 2, 3] outs :=
  C41_partials_exist (by omega) (by omega) (by decide) 3 _ (by decide)

/-- `ParallelParseBuffer`: the calls of `getTriple` return the lines of the parser in order and none from its end on, and never wait for a
call that was not made. -/
theorem C41_parse_buffer (getLine : R → Option V × R) {B : Nat} (hB : 0 < B) (r : R) (n : Nat) :
    (ParseBuffer.make getLine B r).getTriples getLine B n = some ((List.range n).map (linesOf getLine r)) := by
  rw [getTriples_eq hB n 0 _ (make_inv getLine B r)]
  simp only [Nat.zero_add]
  rfl

example : (ParseBuffer.make listCreator.call 2 [1, 2, 3]).getTriples listCreator.call 2 5 =
    some [some 1, some 2, some 3, none, none] := by decide

end Verif.Pipeline
