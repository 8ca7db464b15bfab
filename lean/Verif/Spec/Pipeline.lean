import Verif.Model.Pipeline
/-
Specification of the pipeline: the values of the source, transformed one after the other in the order of the source, without batches,
threads and queues.
-/
namespace Verif.PipelineSpec
open Verif.Pipeline

/-- What the calls of a creator return, one after the other. -/
def calls (creator : Creator Q V) : Q → Nat → Option V
  | q, 0 => (creator.call q).1
  | q, n + 1 => calls creator (creator.call q).2 n

/-- The state after `n` calls. -/
def stateAfter (creator : Creator Q V) : Q → Nat → Q
  | q, 0 => q
  | q, n + 1 => stateAfter creator (creator.call q).2 n

/-- The first `n` values of a sequence, if there are so many. -/
def firstVals (src : Nat → Option V) : Nat → Option (List V)
  | 0 => some []
  | n + 1 =>
    match firstVals src n, src n with
    | some l, some v => some (l ++ [v])
    | _, _ => none

/-- A sequence that ends with the first `none`. -/
def ended (src : Nat → Option V) (n : Nat) : Option V := if (firstVals src (n + 1)).isSome then src n else none

/-- The transformer that is responsible for the value number `j`: the values of a batch are divided into parts of equal size, the last
transformer gets what is left over. -/
def lane (batchSize parallelism j : Nat) : Nat :=
  if batchSize < parallelism then parallelism - 1 else min (j % batchSize / (batchSize / parallelism)) (parallelism - 1)

/-- The values from number `j` on are transformed one after the other; value `j` by transformer `lane j`, whose state changes. -/
def seqRun (f : Nat → S → V → S × V) (lane : Nat → Nat) : Nat → (Nat → S) → List V → List V × (Nat → S)
  | _, σ, [] => ([], σ)
  | j, σ, v :: vs =>
    let r := f (lane j) (σ (lane j)) v
    let rest := seqRun f lane (j + 1) (fun k => if k = lane j then r.1 else σ k) vs
    (r.2 :: rest.1, rest.2)

/-- A stage as a function of sequences. -/
def stageSrc (batchSize : Nat) (stage : Kind S V × (Nat → S)) (src : Nat → Option V) (j : Nat) : Option V :=
  match firstVals src (j + 1) with
  | none => none
  | some l => (seqRun stage.1.transformer (lane batchSize stage.1.parallelism) 0 stage.2 l).1[j]?

/-- All stages, in their order. -/
def stagesSrc (batchSize : Nat) (stages : List (Kind S V × (Nat → S))) (src : Nat → Option V) : Nat → Option V :=
  stages.foldl (fun src s => stageSrc batchSize s src) (ended src)

/-- A step that is not a call of `getNextValue`: no result is added. -/
def Internal (creator : Creator Q V) (batchSize : Nat) (s t : System Q S V) : Prop :=
  Sys creator batchSize s t ∧ t.results = s.results

/-- A stage whose transformers all compute `f` on the values, whatever their state. -/
def Computes (f : V → V) (stage : Kind S V × (Nat → S)) : Prop := ∀ k s v, (stage.1.transformer k s v).2 = f v

/-- The lines that a parser delivers before it returns `false`. -/
def linesOf (getLine : R → Option V × R) (r : R) : Nat → Option V := ended (calls ⟨getLine⟩ r)

end Verif.PipelineSpec
