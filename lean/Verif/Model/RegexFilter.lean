import Verif.Model.Collation
import Verif.Model.Filter
/-
Model of the conditions of FILTER with a constant: `SparqlParser::parseRegexFilter` (/repo/src/parser/SparqlParser.cpp), the cases PREFIX
and REGEX of `Filter::computeFilterFixedValue` and the conversion of constants in `computeResultFixedValue` (/repo/src/engine/Filter.cpp).

Simplifications: `std::regex_search` is a parameter.  The constant is the raw text of a token of type RDFLITERAL, as the lexer gives it.
Numbers and dates, which are converted to index words (Filter.cpp:643-646), are left out.
-/
namespace Verif.RegexFilter
open Verif.ExternalVocabulary (Word)
open Verif.Collation (Comparator prefixRange)
open Verif.Filter (engineFilter filterPrefix SortedRanges)

/-- `regexControlChars` (SparqlParser.cpp:1014). -/
def controlChars : Word := ['[', ']', '^', '$', '.', '|', '?', '*', '+', '(', ')']

/-- The loop over the regular expression (SparqlParser.cpp:1015-1037) from position `i` on: whether it is simple, and the positions of
the backslashes that escape. -/
def scan (i : Nat) (escaped : Bool) (positions : List Nat) : Word → Outcome (Bool × List Nat)
  | [] => .ok (true, positions)
  | c :: cs =>
    if c = '\\' then scan (i + 1) (!escaped) (if !escaped then positions ++ [i] else positions) cs
    else
      let isControlChar := controlChars.contains c
      if !escaped && isControlChar then .ok (false, positions)
      else if escaped && !isControlChar then .throw
      else scan (i + 1) false positions cs

/-- The type of a filter and its `_rhs`. -/
structure Condition where
  isPrefix : Bool
  rhs : Word
  deriving DecidableEq, Repr

/-- `parseRegexFilter` (SparqlParser.cpp:976-1051) from the token with the regular expression on; `raw` has at least the two quotes. -/
def parseRegex (raw : Word) (ignoreCase : Bool) : Outcome Condition :=
  let rhs := (raw.drop 1).take (raw.length - 2)
  if rhs.head? = some '^' && !ignoreCase then
    (scan 1 false [] rhs.tail).map fun r =>
      if r.1 then ⟨true, r.2.reverse.foldl (fun s it => s.eraseIdx it) rhs⟩ else ⟨false, rhs⟩
  else .ok ⟨false, rhs⟩

/-- The branch `prefix` of `parseFilter` (SparqlParser.cpp:747-771): the right hand sides of the two conditions `>=` and `<` that are made
from `prefix(lhs, raw)`.  Characters are bytes; `substr(0, size - 2)` of a variable with one letter is empty. -/
def prefixFunction (lhs raw : Word) : Outcome (Word × Word) :=
  let ge := raw.dropLast ++ [' ']
  let lt := lhs.take (lhs.length - 2)
  (Outcome.read ge (ge.length - 2)).bind fun x => (Outcome.read ge (ge.length - 1)).map fun y =>
    (ge, lt ++ [Char.ofNat ((x.toNat + 1) % 256), y])

/-! ### The filter -/

/-- `lhsRhsMap` (Filter.cpp:475-480), in the iteration order of the hash map: the prefixes of each column, in their order. -/
def Grouped (conds : List (Nat × Word)) (groups : List (Nat × List Word)) : Prop :=
  (groups.map (·.1)).Nodup ∧ (∀ c, c ∈ groups.map (·.1) ↔ c ∈ conds.map (·.1)) ∧
    ∀ g ∈ groups, g.2 = (conds.filter fun x => x.1 = g.1).map (·.2)

/-- The ranges of one column (Filter.cpp:484-486). -/
def rangesOf (C : Comparator) (words : List Word) : List Word → Outcome (List (Nat × Nat))
  | [] => .ok []
  | p :: ps => (prefixRange C words p).bind fun r => (rangesOf C words ps).map fun rs => r :: rs

/-- `prefixRanges` (Filter.cpp:481-487). -/
def allRanges (C : Comparator) (words : List Word) : List (Nat × List Word) → Outcome (List (Nat × List (Nat × Nat)))
  | [] => .ok []
  | g :: gs => (rangesOf C words g.2).bind fun rs => (allRanges C words gs).map fun ms => (g.1, rs) :: ms

/-- The PREFIX case for a KB column (Filter.cpp:470-574): the conditions are the columns with the `_rhs` of the filter and of its additional
prefixes; the leading `^` is removed.  The outcome depends on the iteration order of a hash map and on `std::sort`. -/
inductive PrefixRun (C : Comparator) (words : List Word) (sortedBy : Option Nat) (lhs : Nat) (conds : List (Nat × Word)) (t : Table) :
    Outcome Table → Prop
  | ok (groups : List (Nat × List Word)) (conds' ranges : List (Nat × List (Nat × Nat))) (h1 : Grouped (conds.map fun x => (x.1, x.2.drop 1)) groups)
      (h2 : allRanges C words groups = .ok conds') (h3 : List.Forall₂ (fun a b => a.1 = b.1 ∧ SortedRanges a.2 b.2) conds' ranges) :
      PrefixRun C words sortedBy lhs conds t (filterPrefix sortedBy lhs ranges t)
  | fail (groups : List (Nat × List Word)) (o : Outcome Table) (h1 : Grouped (conds.map fun x => (x.1, x.2.drop 1)) groups)
      (h2 : ∀ r, allRanges C words groups ≠ .ok r)
      (h3 : ∀ r, o ≠ .ok r) : PrefixRun C words sortedBy lhs conds t o

/-- The REGEX case (Filter.cpp:575-612); `entity` is what `idToOptionalString` gives for an id, and nothing for columns that are neither
KB nor LOCAL_VOCAB; `search` is `std::regex_search`.  Columns that are not KB come here for the type PREFIX, too. -/
def filterRegex (entity : Nat → Outcome (Option Word)) (search : Word → Word → Bool) (lhs : Nat) (rhs : Word) (t : Table) : Outcome Table :=
  engineFilter (fun e => (Outcome.read e lhs).bind fun x => (entity x).map fun
    | none => true
    | some s => search rhs s) t

/-! ### Constants -/

/-- The conversion of a constant that is neither a number nor a date (Filter.cpp:642-660); `back()` of an empty string is not reached. -/
def constant (rhs : Word) : Word :=
  if rhs.length > 2 ∧ rhs[1]? = some '<' ∧ rhs[0]? = some '"' ∧ rhs.getLast? = some '"' then (rhs.drop 1).take (rhs.length - 2)
  else if rhs.count '"' > 2 ∧ rhs.getLast? = some '"' then (rhs.drop 1).take (rhs.length - 2)
  else rhs

end Verif.RegexFilter
