import Verif.Model.SparqlParser
import Verif.Model.Patterns
/-
Model of the decision to answer a query with `CountAvailablePredicates` (the "pattern trick"), src/engine/QueryPlanner.cpp:437-680, and of
the plan that results, QueryPlanner.cpp:886-967.

Simplifications: the plan for the rest of the query (C65, C66) is given by its variables and its rows.  An input that is sorted already is
not sorted again in the code; here the input of the count is any ordered arrangement of the rows.
`alias._isAggregate` is always true for parsed queries.
-/
namespace Verif.PatternTrick
open Verif.SparqlParser (Str Triple FilterType Filter BindExpr Info Op Pattern Query Alias)

/-- `HAS_PREDICATE_PREDICATE` (Constants.h:46-47) -/
def hasPredicate : Str := "<QLever-internal-function/has-predicate>".toList

/-- `s.find(w) != string::npos` -/
def contains (w : Str) : Str → Bool
  | [] => w.isPrefixOf []
  | c :: s => w.isPrefixOf (c :: s) || contains w s

/-- The alias is a count without `DISTINCT` (QueryPlanner.cpp:457-469); `low` is `getLowercaseUtf8`. -/
def countAlias (low : Char → Char) (a : Alias) : Bool :=
  !contains "distinct".toList (a.function.map low) && "count".toList.isPrefixOf (a.function.map low)

/-- The variable occurs in the triple (QueryPlanner.cpp:520-521, 621-623). -/
def inTriple (v : Str) (t : Triple) : Bool := t.s == v || t.p.iri == v || t.o == v

/-- `Bind::strings` (ParsedQuery.h:397-455), apart from the operator; a number is stored as a string too, which is never a variable. -/
def bindStrings (e : BindExpr) (target : Str) : List Str :=
  match e with
  | .rename v => [v, target]
  | .binary v w _ => [v, w, target]
  | .word w => [w, target]
  | .int _ => [target]

mutual
/-- The checks inside of nested patterns (QueryPlanner.cpp:591-655) -/
def opBlocks (v : Str) : Op → Bool
  | .basic ts => ts.any (inTriple v)
  | .optional g => patternBlocks v g
  | .minus g => patternBlocks v g
  | .union a b => patternBlocks v a || patternBlocks v b
  | .subquery (.mk info _) => info.selected.contains v
  | .bind e target => (bindStrings e target).contains v
  | .values vars _ => vars.contains v
def opsBlock (v : Str) : List Op → Bool
  | [] => false
  | o :: os => opBlocks v o || opsBlock v os
def patternBlocks (v : Str) : Pattern → Bool
  | .mk _ cs => opsBlock v cs
end

/-- The checks for the parts of the query itself (QueryPlanner.cpp:547-590): `VALUES` and `MINUS` are not looked at. -/
def rootBlocks (v : Str) : Op → Bool
  | .basic _ => false
  | .optional g => patternBlocks v g
  | .minus _ => false
  | .union a b => patternBlocks v a || patternBlocks v b
  | .subquery (.mk info _) => info.selected.contains v
  | .bind e target => (bindStrings e target).contains v
  | .values _ _ => false

/-- The triples of the basic graph patterns. -/
def basicTriples (cs : List Op) : List Triple :=
  cs.flatMap fun
    | .basic ts => ts
    | _ => []

/-- A filter for the object with a fixed right side (QueryPlanner.cpp:535, 672) -/
def movable (t : Triple) (f : Filter) : Bool := f.lhs == t.o && f.rhs.head? != some '?'

/-- The filter prevents the trick (QueryPlanner.cpp:535-537). -/
def filterBlocks (t : Triple) (f : Filter) : Bool :=
  !movable t f && (f.lhs == t.s || f.lhs == t.o || f.rhs == t.o || f.rhs == t.s)

/-- All checks for the triple `t` between `a` and `b` of a basic pattern, between the parts `before` and `after`
(QueryPlanner.cpp:484-658) -/
def usable (info : Info) (filters : List Filter) (before : List Op) (a : List Triple) (t : Triple) (b : List Triple) (after : List Op) : Bool :=
  t.p.iri == hasPredicate &&
  (info.aliases.all fun al => al.inVar == t.o || al.inVar == t.s) &&
  info.groupBy.head? == some t.o &&
  (info.selected.all fun v => v == t.o || v == (match info.aliases with | al :: _ => al.outVar | [] => [])) &&
  !((basicTriples before ++ a ++ b ++ basicTriples after).any (inTriple t.o)) &&
  !(filters.any (filterBlocks t)) &&
  !((before ++ after).any (rootBlocks t.o))

/-- The loop over the triples of a basic pattern (QueryPlanner.cpp:483-679) -/
def findTriple (info : Info) (filters : List Filter) (before : List Op) (after : List Op) (a : List Triple) :
    List Triple → Option (Triple × List Op)
  | [] => none
  | t :: b =>
    if usable info filters before a t b after then some (t, before ++ .basic (a ++ b) :: after)
    else findTriple info filters before after (a ++ [t]) b

/-- The loop over the parts of the query (QueryPlanner.cpp:478-681) -/
def findChild (info : Info) (filters : List Filter) (before : List Op) : List Op → Option (Triple × List Op)
  | [] => none
  | .basic ts :: after =>
    match findTriple info filters before after [] ts with
    | some r => some r
    | none => findChild info filters (before ++ [.basic ts]) after
  | c :: after => findChild info filters (before ++ [c]) after

/-- `checkUsePatternTrick` (QueryPlanner.cpp:437-684): the triple, and the changed query -/
def checkUse (low : Char → Char) : Query → Option (Triple × Query)
  | .mk info (.mk filters cs) =>
    if info.groupBy.length ≠ 1 ∨ info.aliases.length > 1 then none
    else if !info.aliases.all (countAlias low) then none
    else match findChild info filters [] cs with
      | none => none
      | some (t, cs') =>
        some (t, .mk { info with having := info.having ++ filters.filter (movable t) } (.mk (filters.filter fun f => !movable t f) cs'))

/-- `optimize` returns no plan (QueryPlanner.cpp:405-434). -/
def noPlan (cs : List Op) : Bool :=
  cs.all fun
    | .basic [] => true
    | _ => false

/-- The variables of the plan for the rest of the query with their columns, and its rows. -/
structure Rest where
  column : Str → Option Nat
  rows : List (List Nat)

open Verif.Patterns (Index Trick TrickAll)

/-- `getPatternTrickRow` (QueryPlanner.cpp:886-967) and `CountAvailablePredicates::computeResult` (CountAvailablePredicates.cpp:135-176);
`vocab` is `getVocab().getId`. -/
def Row (ix : Index) (vocab : Str → Option Nat) (aliases : List Alias) (t : Triple) (rest : Option Rest) (o : Outcome (List (Nat × Nat))) : Prop :=
  match rest with
  | some r =>
    match r.column t.s with
    | none => o = .throw
    | some c =>
      if aliases = [] then o = .ub
      else ∃ rows : List (List Nat), rows.Perm r.rows ∧ (rows.map (·.getD c 0)).Pairwise (· ≤ ·) ∧ Trick ix (rows.map (·.getD c 0)) o
  | none =>
    if t.s.head? ≠ some '?' then
      if aliases = [] then o = .ub
      else match vocab t.s with
        | none => o = .ok []
        | some a => Trick ix [a] o
    else TrickAll ix o

/-- The rows of a query for which the trick is used (QueryPlanner.cpp:43-75), with `having` for the `HAVING` conditions: they are applied to the
predicate and its count. -/
def Answer (low : Char → Char) (ix : Index) (vocab : Str → Option Nat) (rest : Pattern → Rest) (holds : Filter → Nat × Nat → Bool)
    (q : Query) (o : Outcome (List (Nat × Nat))) : Prop :=
  ∃ t info filters cs o', checkUse low q = some (t, .mk info (.mk filters cs)) ∧
    Row ix vocab info.aliases t (if noPlan cs then none else some (rest (.mk filters cs))) o' ∧
    o = o'.map fun rows => rows.filter fun r => info.having.all fun f => holds f r

end Verif.PatternTrick
