/-
Model of the batched pipeline (`/repo/src/util/BatchedPipeline.h`) and of `ParserBatcher` (`/repo/src/parser/ParallelParseBuffer.h`) as a
transition system. Every task started with `std::async` is a piece of state that makes its steps at any time, in any order with respect to
the other tasks; `future::get` is a step that is possible when the task has finished.

Simplifications: all values have one type `V` and all states of transformers one type `S`. A transformer is a function of its own state,
which no other transformer shares (a transformer given once for several threads must be thread-safe; here this means that it has no
state). Exceptions in the creator or in a transformer are not modelled. Timers are left out.
-/
namespace Verif.Pipeline

/-- `Batch`, BatchedPipeline.h:23-29: the flag `m_isPipelineGood` and the content. -/
abbrev Batch (V : Type) := Bool × List V

/-- A creator: a state and what a call returns, BatchedPipeline.h:31-34. -/
structure Creator (Q V : Type) where
  call : Q → Option V × Q

/-- The kind of a `BatchedPipeline` stage: `Parallelism` and the transformers, BatchedPipeline.h:147-151. A transformer takes its state and
a value. -/
structure Kind (S V : Type) where
  parallelism : Nat
  transformer : Nat → S → V → S × V

/-- A thread of a stage, started by `createIthFuture`, BatchedPipeline.h:312-323: what is left of its part of the batch, its result, and
the state of its transformer. -/
structure Thread (S V : Type) where
  todo : List V
  done : List V
  st : S

/-- The task of a stage, `produceBatchInternal`, BatchedPipeline.h:225-250: waiting in `pickupBatch` of the previous stage, with
running threads, or finished. -/
inductive Task (S V : Type) where
  | waiting (states : Nat → S)
  | working (good : Bool) (threads : Nat → Thread S V)
  | ready (batch : Batch V) (states : Nat → S)

/-- The task of the batcher, `Batcher::produceBatchInternal`, BatchedPipeline.h:108-125. -/
inductive Filling (V : Type) where
  | filling (content : List V)
  | ready (batch : Batch V)

/-- A `Batcher` with stages on top, BatchedPipeline.h:41-126 and 147-336. -/
inductive Pipe (Q S V : Type) where
  | batcher (q : Q) (task : Filling V)
  | stage (previous : Pipe Q S V) (kind : Kind S V) (task : Task S V)

/-- `getBatchRange`, BatchedPipeline.h:258-266, applied to a batch: the part for thread `idx`. (The code forms an iterator behind the end
before it takes the minimum; here positions are numbers.) -/
def batchRange (parallelism batchSize : Nat) (content : List V) (idx : Nat) : List V :=
  let first := min (idx * batchSize) content.length
  let second := if idx < parallelism - 1 then min ((idx + 1) * batchSize) content.length else content.length
  (content.drop first).take (second - first)

/-- The threads that `setupParallelismImpl` starts, BatchedPipeline.h:236-239 and 298-310. -/
def startThreads (kind : Kind S V) (inBatchSize : Nat) (states : Nat → S) (content : List V) (k : Nat) : Thread S V :=
  ⟨if k < kind.parallelism then batchRange kind.parallelism (inBatchSize / kind.parallelism) content k else [], [], states k⟩

/-- One step of a thread: the next value is transformed, `moveAndTransform`, BatchedPipeline.h:271-279. -/
def Thread.step (f : S → V → S × V) (t : Thread S V) : Thread S V :=
  match t.todo with
  | [] => t
  | v :: vs => ⟨vs, t.done ++ [(f t.st v).2], (f t.st v).1⟩

/-- The merged results of the threads, BatchedPipeline.h:242-247. -/
def merge (parallelism : Nat) (threads : Nat → Thread S V) : List V :=
  (List.range parallelism).flatMap fun k => (threads k).done

/-- `pickupBatch`, BatchedPipeline.h:66-76 and 176-186: possible when the future is ready; orders the next batch. -/
inductive Pickup : Pipe Q S V → Batch V → Pipe Q S V → Prop
  | batcher {q b} : Pickup (.batcher q (.ready b)) b (.batcher q (.filling []))
  | stage {p kind b states} : Pickup (.stage p kind (.ready b states)) b (.stage p kind (.waiting states))

/-- The steps of the tasks of a pipeline with a given creator and batch size. -/
inductive Step (creator : Creator Q V) (batchSize : Nat) : Pipe Q S V → Pipe Q S V → Prop
  /-- a call of the creator that returns a value, BatchedPipeline.h:115-122 -/
  | value {q content v q'} : content.length < batchSize → creator.call q = (some v, q') →
      Step creator batchSize (.batcher q (.filling content)) (.batcher q' (.filling (content ++ [v])))
  /-- a call of the creator that returns no value, BatchedPipeline.h:115-120 -/
  | exhausted {q content q'} : content.length < batchSize → creator.call q = (none, q') →
      Step creator batchSize (.batcher q (.filling content)) (.batcher q' (.ready (false, content)))
  /-- the batch is full, BatchedPipeline.h:123-124 -/
  | full {q content} : ¬ content.length < batchSize →
      Step creator batchSize (.batcher q (.filling content)) (.batcher q (.ready (true, content)))
  /-- a step of a previous stage -/
  | previous {p p' kind task} : Step creator batchSize p p' → Step creator batchSize (.stage p kind task) (.stage p' kind task)
  /-- the batch of the previous stage arrives and the threads are started, BatchedPipeline.h:229-239 -/
  | arrive {p p' kind states b} : Pickup p b p' →
      Step creator batchSize (.stage p kind (.waiting states))
        (.stage p' kind (.working b.1 (startThreads kind batchSize states b.2)))
  /-- a thread makes a step -/
  | thread {p : Pipe Q S V} {kind : Kind S V} {good} {threads : Nat → Thread S V} (k : Nat) : k < kind.parallelism → (threads k).todo ≠ [] →
      Step creator batchSize (.stage p kind (.working good threads))
        (.stage p kind (.working good fun i => if i = k then (threads k).step (kind.transformer k) else threads i))
  /-- all threads have finished and the results are merged, BatchedPipeline.h:242-249 -/
  | merged {p : Pipe Q S V} {kind : Kind S V} {good} {threads : Nat → Thread S V} : (∀ k < kind.parallelism, (threads k).todo = []) →
      Step creator batchSize (.stage p kind (.working good threads))
        (.stage p kind (.ready (good, merge kind.parallelism threads) fun k => (threads k).st))

/-- The future of the `BatchExtractor`: a running call of `pickupBatch`, its result, or no call. -/
inductive Future (V : Type) where
  | running
  | ready (batch : Batch V)
  | invalid

/-- `BatchExtractor`, BatchedPipeline.h:445-515. -/
structure Extractor (Q S V : Type) where
  pipe : Pipe Q S V
  future : Future V
  buffer : List V
  position : Nat
  valid : Bool

/-- The whole system: the extractor and the results of the calls of `getNextValue` so far. -/
structure System (Q S V : Type) where
  extractor : Extractor Q S V
  results : List (Option V)

/-- The last part of `getNextValue`, BatchedPipeline.h:476-483. -/
def deliver (e : Extractor Q S V) : Option V × Extractor Q S V :=
  match e.buffer[e.position]? with
  | some v => (some v, { e with position := e.position + 1 })
  | none => (none, e)

/-- The steps of the whole system. -/
inductive Sys (creator : Creator Q V) (batchSize : Nat) : System Q S V → System Q S V → Prop
  /-- a step inside the pipeline -/
  | inside {e : Extractor Q S V} {p' r} : Step creator batchSize e.pipe p' →
      Sys creator batchSize ⟨e, r⟩ ⟨{ e with pipe := p' }, r⟩
  /-- the asynchronous call of `pickupBatch` returns, BatchedPipeline.h:471-473 and 511-512 -/
  | pickup {e : Extractor Q S V} {p' b r} : e.future = .running → Pickup e.pipe b p' →
      Sys creator batchSize ⟨e, r⟩ ⟨{ e with pipe := p', future := .ready b }, r⟩
  /-- a call of `getNextValue` that needs no new batch, BatchedPipeline.h:458, 476-483 -/
  | next {e : Extractor Q S V} {r} : ¬ (e.buffer.length = e.position ∧ e.valid = true) →
      Sys creator batchSize ⟨e, r⟩ ⟨(deliver e).2, r ++ [(deliver e).1]⟩
  /-- a call of `getNextValue` that takes a new batch, BatchedPipeline.h:458-483 -/
  | refill {e : Extractor Q S V} {b r} : e.buffer.length = e.position → e.valid = true → e.future = .ready b →
      Sys creator batchSize ⟨e, r⟩
        (let e' : Extractor Q S V := { e with future := if b.1 then .running else .invalid, buffer := b.2, position := 0, valid := b.1 }
         ⟨(deliver e').2, r ++ [(deliver e').1]⟩)

/-- `setupParallelPipeline`, BatchedPipeline.h:535-545 with 389-427: the pipeline at its start, built from the kinds of its stages and the
initial states of the transformers. -/
def setup (q : Q) : List (Kind S V × (Nat → S)) → Pipe Q S V
  | [] => .batcher q (.filling [])
  | s :: rest => .stage (setup q rest) s.1 (.waiting s.2)

/-- The extractor at its start, BatchedPipeline.h:509-513; the stages are given in their order. -/
def start (q : Q) (stages : List (Kind S V × (Nat → S))) : System Q S V :=
  ⟨⟨setup q stages.reverse, .running, [], 0, true⟩, []⟩

/-- The systems that can be reached. -/
inductive Reach (creator : Creator Q V) (batchSize : Nat) (s : System Q S V) : System Q S V → Prop
  | refl : Reach creator batchSize s s
  | step {t u} : Reach creator batchSize s t → Sys creator batchSize t u → Reach creator batchSize s u

/-- `ParserBatcher`, ParallelParseBuffer.h:25-61, for a parser with state `R`: the state is the parser, the number of triples that were
parsed, and whether the callback was called. `getLine` returns `none` for `false`. -/
def parserBatcher (getLine : R → Option V × R) (maxNumTriples : Nat) : Creator (R × Nat × Bool) V :=
  ⟨fun q =>
    if q.2.1 ≥ maxNumTriples then (none, q)
    else match getLine q.1 with
      | (some t, p) => (some t, (p, q.2.1 + 1, q.2.2))
      | (none, p) => (none, (p, q.2.1, true))⟩

/-- The state of the creator that the `Batcher` at the bottom of a pipeline owns, BatchedPipeline.h:87. -/
def Pipe.creatorState : Pipe Q S V → Q
  | .batcher q _ => q
  | .stage p _ _ => p.creatorState

/-- The loop over the partial vocabularies, Index.cpp:155-201: while the parser is not exhausted, a new pipeline is set up with a
`ParserBatcher` on the same parser, and values are taken from it until it returns none. What is written in each round. When the pipeline
is destroyed its tasks still run to their end, so any state of the creator at or after the last value is possible. -/
inductive Partials (getLine : R → Option V × R) (maxNumTriples batchSize : Nat) (stages : List (Kind S V × (Nat → S))) :
    R → List (List V) → Prop
  | last {r out} {t : System (R × Nat × Bool) S V} :
      Reach (parserBatcher getLine maxNumTriples) batchSize (start (r, 0, false) stages) t → t.results = out.map some ++ [none] →
      t.extractor.pipe.creatorState.2.2 = true → Partials getLine maxNumTriples batchSize stages r [out]
  | more {r out outs} {t : System (R × Nat × Bool) S V} :
      Reach (parserBatcher getLine maxNumTriples) batchSize (start (r, 0, false) stages) t → t.results = out.map some ++ [none] →
      t.extractor.pipe.creatorState.2.2 = false →
      Partials getLine maxNumTriples batchSize stages t.extractor.pipe.creatorState.1 outs →
      Partials getLine maxNumTriples batchSize stages r (out :: outs)

/-- `ParallelParseBuffer`, ParallelParseBuffer.h:68-154. There is at most one asynchronous call of `parseBatch`, and nobody else uses the
parser while it runs: `future` is the batch that it returns, if there is a call. -/
structure ParseBuffer (R V : Type) where
  parser : R
  valid : Bool
  buffer : List V
  position : Nat
  future : Option (Batch V)

/-- `parseBatch`, ParallelParseBuffer.h:131-153; the argument is the number of triples that still fit. -/
def parseBatch (getLine : R → Option V × R) : Nat → List V → R → Batch V × R
  | 0, buf, r => ((true, buf), r)
  | n + 1, buf, r =>
    match getLine r with
    | (none, r') => ((false, buf), r')
    | (some t, r') => parseBatch getLine n (buf ++ [t]) r'

/-- The constructor, ParallelParseBuffer.h:74-84. -/
def ParseBuffer.make (getLine : R → Option V × R) (bufferSize : Nat) (r : R) : ParseBuffer R V :=
  let first := parseBatch getLine bufferSize [] r
  if first.1.1 then
    let second := parseBatch getLine bufferSize [] first.2
    ⟨second.2, true, first.1.2, 0, some second.1⟩
  else ⟨first.2, false, first.1.2, 0, none⟩

/-- `getTriple`, ParallelParseBuffer.h:90-112; `none` outside stands for `get` on a future without a call (undefined behaviour). -/
def ParseBuffer.getTriple (getLine : R → Option V × R) (bufferSize : Nat) (b : ParseBuffer R V) :
    Option (Option V × ParseBuffer R V) :=
  let take := fun b : ParseBuffer R V =>
    match b.buffer[b.position]? with
    | some t => (some t, { b with position := b.position + 1 })
    | none => (none, b)
  if b.buffer.length = b.position ∧ b.valid = true then
    match b.future with
    | none => none
    | some batch =>
      if batch.1 then
        let next := parseBatch getLine bufferSize [] b.parser
        some (take ⟨next.2, true, batch.2, 0, some next.1⟩)
      else some (take ⟨b.parser, false, batch.2, 0, none⟩)
  else some (take b)

/-- `n` calls of `getTriple`: their results. -/
def ParseBuffer.getTriples (getLine : R → Option V × R) (bufferSize : Nat) : Nat → ParseBuffer R V → Option (List (Option V))
  | 0, _ => some []
  | n + 1, b =>
    match b.getTriple getLine bufferSize with
    | none => none
    | some (t, b') => (getTriples getLine bufferSize n b').map (t :: ·)

end Verif.Pipeline
