import Verif.Model.SparqlParser
import Verif.Model.RdfEscaping
/-
Model of the expansion of prefixes in a parsed query, src/parser/ParsedQuery.cpp:249-391.

Simplifications: the parts of a query are changed one after the other in the order in which they are written, where the code uses a stack
(each part is changed once, and none depends on another one).  The operator of a BIND and numbers, in which nothing is changed, are left out.
-/
namespace Verif.Prefixes
open Verif.SparqlParser (Str Triple FilterType Filter BindExpr Info Op Pattern Query)
open Verif.PropertyPath (Path)

/-- `prefixMap` (ParsedQuery.cpp:250-254): later prefixes replace earlier ones. -/
def prefixMap (ps : List (Str × Str)) (p : Str) : Option Str :=
  (("ql".toList, "<QLever-internal-function/>".toList) :: ps).reverse.lookup p

/-- `item.find("^^")`: the position behind it, or 0 (ParsedQuery.cpp:372-377) -/
def behindCarets (s : Str) : Nat :=
  match find s with
  | some k => k + 2
  | none => 0
where
  find : Str → Option Nat
    | '^' :: '^' :: _ => some 0
    | [] => none
    | _ :: s => (find s).map (· + 1)

variable (pm : Str → Option Str)

/-- The expansion without language tag (ParsedQuery.cpp:371-383) -/
def expandPlain (s : Str) : Outcome Str :=
  let start := behindCarets s
  match s.idxOf? ':' with
  | none => .ok s
  | some i =>
    if i < start then .ok s else
    match pm ((s.drop start).take (i - start)) with
    | none => .ok s
    | some uri => RdfEscaping.unescapePrefixedIri (s.take start ++ uri.dropLast ++ s.drop (i + 1) ++ ['>'])

/-- `expandPrefix(string&, …)` (ParsedQuery.cpp:353-391); `convertToLanguageTaggedPredicate` (Conversions.h:658-661) -/
def expandItem (s : Str) : Outcome Str :=
  match s with
  | '?' :: _ => .ok s
  | '<' :: _ => .ok s
  | '@' :: t =>
    match t.dropWhile (· ≠ '@') with
    | [] => .throw
    | _ :: item => (expandPlain pm item).map fun r => '@' :: t.takeWhile (· ≠ '@') ++ '@' :: r
  | _ => expandPlain pm s

/-- A loop over a vector. -/
def each {α : Type} (f : α → Outcome α) : List α → Outcome (List α)
  | [] => .ok []
  | a :: as => (f a).bind fun b => (each f as).map (b :: ·)

mutual
/-- `expandPrefix(PropertyPath&, …)` (ParsedQuery.cpp:333-350) -/
def expandPath : Path → Outcome Path
  | .node .iri l i cs n => (expandItem pm i).map fun i => .node .iri l i cs n
  | .node op l i cs n => (expandPaths cs).map fun cs => .node op l i cs n
/-- The children. -/
def expandPaths : List Path → Outcome (List Path)
  | [] => .ok []
  | p :: ps => (expandPath p).bind fun p => (expandPaths ps).map (p :: ·)
end

/-- `ad_utility::split(s, ' ')` (StringUtils.h:448-461) for a nonempty text -/
def splitBlanks : Str → List Str
  | [] => [[]]
  | c :: s =>
    if c = ' ' then [] :: splitBlanks s
    else match splitBlanks s with
      | w :: ws => (c :: w) :: ws
      | [] => [[c]]

/-- The tokens with blanks between them (ParsedQuery.cpp:315-321) -/
def joinBlanks : List Str → Str
  | [] => []
  | [w] => w
  | w :: ws => w ++ ' ' :: joinBlanks ws

/-- `s.find("in-context") != string::npos` -/
def inContext : Str → Bool
  | [] => false
  | c :: s => "in-context".toList.isPrefixOf (c :: s) || inContext s

/-- A triple (ParsedQuery.cpp:309-325) -/
def expandTriple (t : Triple) : Outcome Triple :=
  (expandItem pm t.s).bind fun s => (expandPath pm t.p).bind fun p =>
    if p.op = .iri ∧ inContext p.iri then
      if t.o = [] then .ok ⟨s, p, []⟩ else (each (expandItem pm) (splitBlanks t.o)).map fun ws => ⟨s, p, joinBlanks ws⟩
    else (expandItem pm t.o).map fun o => ⟨s, p, o⟩

/-- A filter (ParsedQuery.cpp:256-262) -/
def expandFilter (f : Filter) : Outcome Filter :=
  (expandItem pm f.lhs).bind fun l =>
    if f.type = .regex then .ok { f with lhs := l } else (expandItem pm f.rhs).map fun r => { f with lhs := l, rhs := r }

/-- `BIND` (ParsedQuery.cpp:300-304) -/
def expandBind : BindExpr → Outcome BindExpr
  | .rename v => (expandItem pm v).map .rename
  | .binary v w op => (expandItem pm v).bind fun v => (expandItem pm w).map fun w => .binary v w op
  | .word w => (expandItem pm w).map .word
  | .int n => .ok (.int n)

mutual
/-- The children of graph patterns (ParsedQuery.cpp:271-327); `ps` are the prefixes of the query. -/
def expandOp (ps : List (Str × Str)) : Op → Outcome Op
  | .basic ts => (each (expandTriple (prefixMap ps)) ts).map .basic
  | .optional g => (expandNested ps g).map .optional
  | .minus g => (expandNested ps g).map .minus
  | .union a b => (expandNested ps a).bind fun a => (expandNested ps b).map fun b => .union a b
  | .subquery q => (expandQuery ps q).map .subquery
  | .bind e v => (expandBind (prefixMap ps) e).map fun e => .bind e v
  | .values vs rows => (each (each (expandItem (prefixMap ps))) rows).map fun rows => .values vs rows
/-- The loop over the children. -/
def expandOps (ps : List (Str × Str)) : List Op → Outcome (List Op)
  | [] => .ok []
  | o :: os => (expandOp ps o).bind fun o => (expandOps ps os).map (o :: ·)
/-- A graph pattern inside of a query: its filters are not visited. -/
def expandNested (ps : List (Str × Str)) : Pattern → Outcome Pattern
  | .mk fs cs => (expandOps ps cs).map fun cs => .mk fs cs
/-- `arg._subquery._prefixes = _prefixes`, and `expandPrefixes` (ParsedQuery.cpp:249-331) -/
def expandQuery (ps : List (Str × Str)) : Query → Outcome Query
  | .mk info (.mk fs cs) =>
    (each (expandFilter (prefixMap ps)) fs).bind fun fs => (expandOps ps cs).map fun cs => .mk { info with prefixes := ps } (.mk fs cs)
end

/-- `expandPrefixes` (ParsedQuery.cpp:249-331) for a query as the parser returns it -/
def expandPrefixes : Query → Outcome Query
  | .mk info root => expandQuery info.prefixes (.mk info root)

end Verif.Prefixes
