import Verif.Model.TextIndex
/-
Model of text queries with any number of terms (src/index/Index.Text.cpp:533-570, 637-694, 1155-1202).
-/
namespace Verif.TextIndex
open Verif.TextMetaData

/-- What `getIndexOfBestSuitedElTerm` notes for a term (Index.Text.cpp:1167-1191): whether its block has one word, and the
number of entity postings; nothing if the term is not in the vocabulary, in which case its index is returned at once.  A
prefix without words has a range whose last element is the first minus one in 64 bits (Vocabulary.cpp:318-320);
`getBlockInfoByWordRange` throws for it (TextMetaData.cpp:12, 30-34). -/
def weighTerm (t : TextMeta) (C : Collation.Comparator) (vocab : List Str) (kb : Str → Option Nat) (term : Str) :
    Outcome (Option (Bool × Nat)) :=
  (resolve C vocab kb term).bind fun
  | .nothing => if term.getLast? = some '*' then .throw else .ok none
  | .words lo hi => (t.blockByWordRange lo hi).map fun b => some (decide (b.firstWordId = b.lastWordId), b.entityCl.nofElements)
  | .entity e => (t.blockByEntityId e).map fun b => some (decide (b.firstWordId = b.lastWordId), b.entityCl.nofElements)

/-- The loop of `getIndexOfBestSuitedElTerm` (Index.Text.cpp:1167-1191): the index that is returned at once, or the
elements of `toBeSorted`. -/
def weighTerms (t : TextMeta) (C : Collation.Comparator) (vocab : List Str) (kb : Str → Option Nat) :
    Nat → List Str → Outcome (Nat ⊕ List (Nat × Bool × Nat))
  | _, [] => .ok (.inr [])
  | i, term :: terms =>
    (weighTerm t C vocab kb term).bind fun
    | none => .ok (.inl i)
    | some w => (weighTerms t C vocab kb (i + 1) terms).map fun
      | .inl j => .inl j
      | .inr l => .inr ((i, w) :: l)

/-- The comparison of `toBeSorted` (Index.Text.cpp:1192-1200). -/
def better (a b : Nat × Bool × Nat) : Bool := if a.2.1 = b.2.1 then decide (a.2.2 < b.2.2) else a.2.1

/-- The index returned: `std::sort` may put any element first that no other one is better than. -/
def Chosen (r : Nat ⊕ List (Nat × Bool × Nat)) (i : Nat) : Prop :=
  match r with
  | .inl j => i = j
  | .inr l => ∃ w, (i, w) ∈ l ∧ ∀ y ∈ l, better y (i, w) = false

/-- The posting lists of terms one after the other (Index.Text.cpp:542-548, 664, 671-679). -/
def wordLists (fuel : Nat) (file : List Nat) (t : TextMeta) (C : Collation.Comparator) (vocab : List Str)
    (kb : Str → Option Nat) : List Str → Outcome (List (List Nat × List Nat))
  | [] => .ok []
  | term :: terms =>
    (resolve C vocab kb term).bind fun f => (wordPostings fuel file t f).bind fun l =>
    (wordLists fuel file t C vocab kb terms).map (l :: ·)

/-- The rest of `getContextEntityScoreListsForWords` after the term with number `i` has been chosen
(Index.Text.cpp:656-687); for one term it is term 0 (688-691). -/
def entitiesWith (fuel : Nat) (file : List Nat) (t : TextMeta) (C : Collation.Comparator) (vocab : List Str)
    (kb : Str → Option Nat) (terms : List Str) (i : Nat) : Outcome FTS.Triple :=
  (wordLists fuel file t C vocab kb (terms.eraseIdx i)).bind fun ws =>
  (Outcome.read terms i).bind fun term =>
  (resolve C vocab kb term).bind fun f => (entityPostings fuel file t f).bind fun es =>
  FTS.contextEntityScoreLists fuel ws es

/-- `getContextEntityScoreListsForWords` (Index.Text.cpp:637-694) after the words have been split at spaces (C48): what
may be returned. -/
def Answer (fuel : Nat) (file : List Nat) (t : TextMeta) (C : Collation.Comparator) (vocab : List Str)
    (kb : Str → Option Nat) (terms : List Str) (out : Outcome FTS.Triple) : Prop :=
  if terms.length = 0 then out = .throw
  else if terms.length > 1 then
    match weighTerms t C vocab kb 0 terms with
    | .ok r => ∃ i, Chosen r i ∧ out = entitiesWith fuel file t C vocab kb terms i
    | .throw => out = .throw
    | .ub => out = .ub
    | .diverge => out = .diverge
  else out = entitiesWith fuel file t C vocab kb terms 0

/-- `getContextListForWords` (Index.Text.cpp:533-570) after the words have been split: the records with all terms. -/
def recordsWith (fuel : Nat) (file : List Nat) (t : TextMeta) (C : Collation.Comparator) (vocab : List Str)
    (kb : Str → Option Nat) (terms : List Str) : Outcome (List Nat × List Nat) :=
  (wordLists fuel file t C vocab kb terms).bind fun ls => FTS.contextListForWords fuel ls

end Verif.TextIndex
