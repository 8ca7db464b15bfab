import Verif.Model.VocabularyMerger
import Verif.Model.Collation
import Verif.Model.Conversions
import Verif.Model.TriplePlan
import Verif.Spec.TermAnswers
import Verif.Spec.Planner
/-
How the parts of the index work together: the first phase of the index builder gives the triples for the permutations and the
vocabulary (`createFromFile`, Index.cpp:64-92), index scans look up the constants of a query in the vocabulary (Index.h:341-447), and
the ids of a result are shown as words.
-/
namespace Verif.Answers
open Verif.Collation Verif.VocabularyMerger
open Verif.ExternalVocabulary (Word)
open PlannerSpec (Sol)
open TermSpec (TermSol)

/-- The triples given to `createPermutationPair` (Index.cpp:86-92). -/
def triplesOf (r : Result) : List Permutation.Triple := r.data.map fun x => ⟨x.1, x.2.1, x.2.2⟩

/-- The vocabulary after loading, with the settings. -/
def vocabOf (l : Loaded) (prefixes langs : List Word) : Collation.Vocab := ⟨l.words, l.ext, prefixes, langs⟩

/-- What `_vocab.getId(key, &id)` gives in the scans of an index (Index.h:341, 403, 432).  Simplification: a lookup that is not defined (C30)
finds nothing here; the theorems exclude it. -/
def lookup (c : Collator) (fuel : Nat) (v : Collation.Vocab) (w : String) : Option Nat :=
  match getId (triple c) fuel v w.toList with
  | .ok (i, true) => some i
  | _ => none

/-- The word shown for an id of a result (`idToOptionalString`, called in QueryExecutionTree.cpp:228 and 280). -/
def showId (l : Loaded) (i : Nat) : Option Word :=
  match idToOptionalString l i with
  | .ok w => w
  | _ => none

/-- A solution as it is shown. -/
def showSol (l : Loaded) (sol : Sol) : TermSol := fun v => (sol v).bind (showId l)

/-! ### From the parser to the item maps -/

/-- The vocabulary while the index is built: only its settings matter (Index.cpp:1423-1500). -/
def settings (prefixes langs : List Word) : Collation.Vocab := ⟨[], ⟨[], 0, 0⟩, prefixes, langs⟩

/-- `tripleToInternalRepresentation` (Index.cpp:1393-1418).  Simplification: the words are marked one after the other in the order of the
code, but a failure of the normalisation of a later word is not modelled. -/
def toItem (nfc : Word → Word) (onDisk : Bool) (v : Collation.Vocab) (t : VocabularySpec.Words) : Outcome Item :=
  let o := nfc t.2.2
  if Conversions.isXsdValue o then
    (Conversions.valueWord o).bind fun o' =>
    (internalWord nfc onDisk v t.1).bind fun s => (internalWord nfc onDisk v t.2.1).map fun p => ⟨[], s, p, o'⟩
  else
    (internalWord nfc onDisk v t.1).bind fun s => (internalWord nfc onDisk v t.2.1).bind fun p =>
    (internalWord nfc onDisk v t.2.2).map fun o' => ⟨if o.head? = some '"' then getLanguage o else [], s, p, o'⟩

/-- The loop of `passFileForVocabulary` (Index.cpp:155-222) with the `ParserBatcher` (ParallelParseBuffer.h:26-61): each round takes up to
`n` triples from the parser; the loop ends after the round in which the parser was found exhausted, so after a last round with fewer than
`n` triples. -/
def passBatches (n : Nat) {α : Type} : Nat → List α → Outcome (List (List α))
  | 0, _ => .diverge
  | fuel + 1, ts => if ts.length < n then .ok [ts] else (passBatches n fuel (ts.drop n)).map fun bs => ts.take n :: bs

end Verif.Answers
