import Verif.Model.Join
import Verif.Model.Minus
import Verif.Model.Union
import Verif.Model.Filter
import Verif.Model.Modifiers
import Verif.Model.GroupBy
import Verif.Model.TransitivePath
import Verif.Model.Patterns
/-
Model of the cache keys of operations: the `asString` functions in `/repo/src/engine`, and of what the operations compute,
in terms of the models of the single operations.

Simplifications: `QueryExecutionTree::asString` remembers its last result, which is left out. Words are lists of characters.
BIND, VALUES, text operations, the pattern trick and prefix filters on several variables are left out. Widths are natural
numbers. A row of GROUP BY starts with zeros and all columns have the type KB. `fuel` bounds the loops of the single models.
-/
namespace Verif.CacheKey
open Outcome

abbrev Word := List Char

/-- The six orders of a full scan (`/repo/src/engine/IndexScan.h:13-29`). -/
inductive Order where
  | spo | sop | pso | pos | osp | ops
  deriving DecidableEq, Repr

/-- `IndexScan` with the words that its type uses (`/repo/src/engine/IndexScan.h:13-29`). -/
inductive Scan where
  | psoBoundS (p s : Word)
  | posBoundO (p o : Word)
  | sopBoundO (s o : Word)
  | psoFreeS (p : Word)
  | posFreeO (p : Word)
  | spoFreeP (s : Word)
  | sopFreeO (s : Word)
  | opsFreeP (o : Word)
  | ospFreeS (o : Word)
  | full (order : Order)
  deriving DecidableEq, Repr

/-- `SparqlFilter::FilterType` with the flag for regular expressions (`/repo/src/parser/ParsedQuery.h`). -/
inductive FilterType where
  | cmp (c : FilterSpec.Cmp)
  | langMatches
  | regex (ignoreCase : Bool)
  | prefix
  deriving DecidableEq, Repr

/-- The operations, with all members that decide what is computed. -/
inductive Op where
  | scan (s : Scan)
  | join (left : Op) (leftCol : Nat) (right : Op) (rightCol : Nat)
  | sort (sub : Op) (col : Nat)
  | orderBy (sub : Op) (keys : List (Nat × Bool))
  | union (left right : Op) (origins : List (Option Nat × Option Nat))
  | distinct (sub : Op) (keep : List Nat)
  /-- `lhsCol`, `rhsCol` are the columns of the variables in the subtree -/
  | filter (sub : Op) (type : FilterType) (lhsAsString : Bool) (lhs rhs : Word) (lhsCol : Nat) (rhsCol : Option Nat)
  | minus (left right : Op) (jcs : List (Nat × Nat))
  | optionalJoin (left right : Op) (leftOptional rightOptional : Bool) (jcs : List (Nat × Nat))
  | multiColumnJoin (left right : Op) (jcs : List (Nat × Nat))
  | twoColumnJoin (left right : Op) (jc1Left jc2Left jc1Right jc2Right : Nat)
  | hasPredicateFreeS (object : Word)
  | hasPredicateFreeO (subject : Word)
  | hasPredicateFull
  | hasPredicateSub (sub : Op) (col : Nat)
  /-- the columns of the grouped variables in the subtree and in the result; the aggregates -/
  | groupBy (sub : Op) (groups : List (Nat × Nat)) (aggs : List GroupBy.Aggregate)
  /-- the value of a side that is not a variable -/
  | transitivePath (sub : Op) (leftCol rightCol : Nat) (leftValue rightValue : Option Nat) (minDist maxDist : Nat)
  | transitivePathLeft (sub left : Op) (leftSideCol leftCol rightCol : Nat) (rightValue : Option Nat) (minDist maxDist : Nat)
  deriving DecidableEq

/-- `os << n` for a number. -/
def natStr (n : Nat) : List Char :=
  if n < 10 then [Char.ofNat (48 + n)] else natStr (n / 10) ++ [Char.ofNat (48 + n % 10)]
termination_by n

/-- `for (size_t i = 0; i < indent; ++i) os << " "`. -/
def ind (i : Nat) : List Char := List.replicate i ' '

/-- `getResultWidth` (`IndexScan.cpp:76-100`). -/
def Scan.width : Scan → Nat
  | .psoBoundS .. | .posBoundO .. | .sopBoundO .. => 1
  | .full _ => 3
  | _ => 2

/-- `getResultWidth` (`Join.cpp:180-185`, `Sort.cpp:13`, `OrderBy.cpp:15`, `Union.cpp:54-59`, `Distinct.cpp:13`, `Filter.cpp:16`, `Minus.cpp:83`,
`OptionalJoin.cpp:152-157`, `MultiColumnJoin.cpp:143-148`, `TwoColumnJoin.cpp:173-177`, `HasPredicateScan.cpp:60-72`, `GroupBy.cpp:77`,
`TransitivePath.cpp:106`). -/
def width : Op → Nat
  | .scan s => s.width
  | .join l _ r _ => width l + width r - 1
  | .sort s _ => width s
  | .orderBy s _ => width s
  | .union _ _ origins => origins.length
  | .distinct s _ => width s
  | .filter s .. => width s
  | .minus l _ _ => width l
  | .optionalJoin l r _ _ jcs => width l + width r - jcs.length
  | .multiColumnJoin l r jcs => width l + width r - jcs.length
  | .twoColumnJoin l r .. => width l + width r - 2
  | .hasPredicateFreeS _ => 1
  | .hasPredicateFreeO _ => 1
  | .hasPredicateFull => 2
  | .hasPredicateSub s _ => width s + 1
  | .groupBy _ groups aggs => groups.length + aggs.length
  | .transitivePath .. => 2
  | .transitivePathLeft _ l .. => width l + 1

/-- `QueryExecutionTree::asString` (`QueryExecutionTree.cpp:32-52`) around the key of the operation. -/
def tree (i : Nat) (body : List Char) (w : Nat) : List Char :=
  ind i ++ "{\n".toList ++ body ++ "\n".toList ++ ind i ++ "  qet-width: ".toList ++ natStr w ++ " ".toList ++ "\n".toList ++ ind i ++ "}".toList

/-- `IndexScan.cpp:17-66`. -/
def Scan.key : Scan → List Char
  | .psoBoundS p s => "SCAN PSO with P = \"".toList ++ p ++ "\", S = \"".toList ++ s ++ "\"".toList
  | .posBoundO p o => "SCAN POS with P = \"".toList ++ p ++ "\", O = \"".toList ++ o ++ "\"".toList
  | .sopBoundO s o => "SCAN SOP with S = \"".toList ++ s ++ "\", O = \"".toList ++ o ++ "\"".toList
  | .psoFreeS p => "SCAN PSO with P = \"".toList ++ p ++ "\"".toList
  | .posFreeO p => "SCAN POS with P = \"".toList ++ p ++ "\"".toList
  | .spoFreeP s => "SCAN SPO with S = \"".toList ++ s ++ "\"".toList
  | .sopFreeO s => "SCAN SOP with S = \"".toList ++ s ++ "\"".toList
  | .opsFreeP o => "SCAN OPS with O = \"".toList ++ o ++ "\"".toList
  | .ospFreeS o => "SCAN OSP with O = \"".toList ++ o ++ "\"".toList
  | .full .spo => "SCAN FOR FULL INDEX SPO (DUMMY OPERATION)".toList
  | .full .sop => "SCAN FOR FULL INDEX SOP (DUMMY OPERATION)".toList
  | .full .pso => "SCAN FOR FULL INDEX PSO (DUMMY OPERATION)".toList
  | .full .pos => "SCAN FOR FULL INDEX POS (DUMMY OPERATION)".toList
  | .full .osp => "SCAN FOR FULL INDEX OSP (DUMMY OPERATION)".toList
  | .full .ops => "SCAN FOR FULL INDEX OPS (DUMMY OPERATION)".toList

/-- The columns of ORDER BY (`OrderBy.cpp:36-38`, `Sort.cpp:31`). -/
def keysStr : List (Nat × Bool) → List Char
  | [] => []
  | k :: ks => (if k.2 then "desc(".toList else "asc(".toList) ++ natStr k.1 ++ ") ".toList ++ keysStr ks

/-- The list of join columns (`OptionalJoin.cpp:44-46, 53-55`, `MultiColumnJoin.cpp:41-43, 50-52`). -/
def colsStr : List Nat → List Char
  | [] => []
  | [c] => natStr c
  | c :: cs => natStr c ++ " & ".toList ++ colsStr cs

/-- `Filter.cpp:47-78`. -/
def FilterType.key : FilterType → List Char
  | .cmp .eq => " == ".toList
  | .cmp .ne => " != ".toList
  | .cmp .lt => " < ".toList
  | .cmp .le => " <= ".toList
  | .cmp .gt => " > ".toList
  | .cmp .ge => " >= ".toList
  | .langMatches => " LANG_MATCHES ".toList
  | .regex ic => " REGEX ".toList ++ (if ic then "ignoring case ".toList else [])
  | .prefix => " PREFIX ".toList

/-- `AggregateTypeAsString` (`/repo/src/parser/ParsedQuery.h:272-297`). -/
def aggName : GroupBy.AggregateType → List Char
  | .count => "COUNT".toList
  | .groupConcat => "GROUP_CONCAT".toList
  | .first => "FIRST".toList
  | .last => "LAST".toList
  | .sample => "SAMPLE".toList
  | .min => "MIN".toList
  | .max => "MAX".toList
  | .sum => "SUM".toList
  | .avg => "AVG".toList

/-- `GroupBy.cpp:56-58`. -/
def groupsStr : List (Nat × Nat) → List Char
  | [] => []
  | g :: gs => natStr g.2 ++ ", ".toList ++ groupsStr gs

/-- `GroupBy.cpp:59-67`. -/
def aggsStr : List GroupBy.Aggregate → List Char
  | [] => []
  | a :: as =>
    aggName a.type ++ (if a.type = .groupConcat then a.delim else []) ++ " ".toList ++ natStr a.inCol ++ " ".toList ++
      natStr a.outCol ++ aggsStr as

/-- ` leftValue 5` if the left side is not a variable (`TransitivePath.cpp:49-54`). -/
def valueStr (name : List Char) : Option Nat → List Char
  | none => []
  | some v => name ++ natStr v

/-- `asString(indent)` of the operations (`IndexScan.cpp:12-68`, `Join.cpp:37-50`, `Sort.cpp:21-35`, `OrderBy.cpp:26-42`, `Union.cpp:41-50`,
`Distinct.cpp:22-29`, `Filter.cpp:40-88`, `Minus.cpp:33-41`, `OptionalJoin.cpp:37-58`, `MultiColumnJoin.cpp:34-55`, `TwoColumnJoin.cpp:51-78`,
`HasPredicateScan.cpp:23-43`, `GroupBy.cpp:48-71`, `TransitivePath.cpp:41-67`). -/
def key (i : Nat) : Op → List Char
  | .scan s => ind i ++ s.key
  | .join l lc r rc =>
    ind i ++ "JOIN\n".toList ++ tree i (key (i + 2) l) (width l) ++ " join-column: [".toList ++ natStr lc ++ "]\n".toList ++ ind i ++
      "|X|\n".toList ++ tree i (key (i + 2) r) (width r) ++ " join-column: [".toList ++ natStr rc ++ "]".toList
  | .sort s c => ind i ++ "SORT / ORDER BY on columns:".toList ++ keysStr [(c, false)] ++ "\n".toList ++ tree i (key (i + 2) s) (width s)
  | .orderBy s keys => ind i ++ "SORT / ORDER BY on columns:".toList ++ keysStr keys ++ "\n".toList ++ tree i (key (i + 2) s) (width s)
  | .union l r _ =>
    tree i (key (i + 2) l) (width l) ++ "\n".toList ++ ind i ++ "UNION\n".toList ++ tree i (key (i + 2) r) (width r) ++ "\n".toList
  | .distinct s _ => ind i ++ "Distinct ".toList ++ tree i (key (i + 2) s) (width s)
  | .filter s type str lhs rhs _ _ =>
    ind i ++ "FILTER ".toList ++ tree i (key (i + 2) s) (width s) ++ " with ".toList ++ lhs ++ type.key ++
      (if str then "LHS_AS_STR ".toList else []) ++ rhs ++ "\n".toList
  | .minus l r _ =>
    ind i ++ "MINUS\n".toList ++ tree i (key (i + 2) l) (width l) ++ "\n".toList ++ tree i (key (i + 2) r) (width r) ++ " ".toList
  | .optionalJoin l r _ _ jcs =>
    ind i ++ "OPTIONAL_JOIN\n".toList ++ tree i (key (i + 2) l) (width l) ++ " ".toList ++ "join-columns: [".toList ++
      colsStr (jcs.map (·.1)) ++ "]\n".toList ++ ind i ++ "|X|\n".toList ++ tree i (key (i + 2) r) (width r) ++ " ".toList ++
      "join-columns: [".toList ++ colsStr (jcs.map (·.2)) ++ "]".toList
  | .multiColumnJoin l r jcs =>
    ind i ++ "MULTI_COLUMN_JOIN\n".toList ++ tree i (key (i + 2) l) (width l) ++ " ".toList ++ "join-columns: [".toList ++
      colsStr (jcs.map (·.1)) ++ "]\n".toList ++ ind i ++ "|X|\n".toList ++ tree i (key (i + 2) r) (width r) ++ " ".toList ++
      "join-columns: [".toList ++ colsStr (jcs.map (·.2)) ++ "]".toList
  | .twoColumnJoin l r j1l j2l j1r j2r =>
    ind i ++ "TWO_COLUMN_JOIN\n".toList ++ ind i ++ tree i (key (i + 2) l) (width l) ++ "\n".toList ++ ind i ++
      "join-columns: [".toList ++ natStr j1l ++ " & ".toList ++ natStr j2l ++ "]\n".toList ++ ind i ++ "|X|\n".toList ++ ind i ++
      tree i (key (i + 2) r) (width r) ++ "\n".toList ++ ind i ++ "join-columns: [".toList ++ natStr j1r ++ " & ".toList ++
      natStr j2r ++ "]".toList
  | .hasPredicateFreeS o => ind i ++ "HAS_RELATION_SCAN with O = ".toList ++ o
  | .hasPredicateFreeO s => ind i ++ "HAS_RELATION_SCAN with S = ".toList ++ s
  | .hasPredicateFull => ind i ++ "HAS_RELATION_SCAN for the full relation".toList
  | .hasPredicateSub s _ => ind i ++ "HAS_RELATION_SCAN with S = ".toList ++ tree i (key (i + 2) s) (width s)
  | .groupBy s groups aggs =>
    ind i ++ "GROUP_BY ".toList ++ groupsStr groups ++ aggsStr aggs ++ "\n".toList ++ tree i (key (i + 2) s) (width s)
  | .transitivePath s lc rc lv rv mn mx =>
    ind i ++ "TransitivePath leftCol ".toList ++ natStr lc ++ " rightCol ".toList ++ natStr rc ++
      valueStr " leftValue ".toList lv ++ valueStr " rightValue ".toList rv ++ " minDist ".toList ++ natStr mn ++ " maxDist ".toList ++
      natStr mx ++ "\n".toList ++ tree i (key (i + 2) s) (width s) ++ "\n".toList ++ tree i (key (i + 2) s) (width s) ++ "\n".toList
  | .transitivePathLeft s l _ lc rc rv mn mx =>
    ind i ++ "TransitivePath leftCol ".toList ++ natStr lc ++ " rightCol ".toList ++ natStr rc ++
      valueStr " rightValue ".toList rv ++ " minDist ".toList ++ natStr mn ++ " maxDist ".toList ++
      natStr mx ++ "\n".toList ++ tree i (key (i + 2) s) (width s) ++ "\n".toList ++ "Left subtree:\n".toList ++
      tree i (key (i + 2) l) (width l) ++ "\n".toList ++ tree i (key (i + 2) s) (width s) ++ "\n".toList

/-- `cacheKey = asString()` (`Operation.cpp:65`). -/
def cacheKey (op : Op) : List Char := key 0 op

/-! ### Constructors that order the sides -/

/-- `s < t` for strings, as lists of characters. -/
def lessStr : List Char → List Char → Bool
  | _, [] => false
  | [], _ :: _ => true
  | a :: s, b :: t => if a.toNat < b.toNat then true else if b.toNat < a.toNat then false else lessStr s t

def treeKey (op : Op) : List Char := tree 0 (key 2 op) (width op)

/-- `OptionalJoin::OptionalJoin` (`OptionalJoin.cpp:11-34`). -/
def mkOptionalJoin (t1 : Op) (o1 : Bool) (t2 : Op) (o2 : Bool) (jcs : List (Nat × Nat)) : Op :=
  if lessStr (treeKey t1) (treeKey t2) then .optionalJoin t1 t2 o1 o2 jcs
  else .optionalJoin t2 t1 o2 o1 (jcs.map fun p => (p.2, p.1))

/-! ### What the operations compute -/

/-- What the operations read besides their subtrees. -/
structure Env where
  fuel : Nat
  scan : Scan → Outcome Table
  /-- joins with a full scan, which is not computed (`Join.cpp:93-132`) -/
  fullJoin : Order → Bool → Table → Nat → Outcome Table
  /-- filters other than comparisons of two variables (`Filter.cpp:260-262`) -/
  filterFixed : FilterType → Bool → Word → Nat → Table → Outcome Table
  index : Patterns.Index
  hasPredicateFreeS : Word → Outcome Table
  hasPredicateFreeO : Word → Outcome Table
  F : Type
  float : GroupBy.Env F
  iter : Nat → List Nat → List Nat

/-- Continue with the table that a subtree computed. -/
def onTable (f : Table → Outcome Table → Prop) : Outcome Table → Outcome Table → Prop
  | .ok t, o => f t o
  | .throw, o => o = .throw
  | .ub, o => o = .ub
  | .diverge, o => o = .diverge

/-- `o` is a possible result of the operation. -/
def Computes (env : Env) : Op → Outcome Table → Prop
  | .scan s, o => o = env.scan s
  | .join (.scan (.full ord)) _ r rc, o => ∃ t, Computes env r t ∧ o = t.bind fun t => env.fullJoin ord true t rc
  | .join l lc (.scan (.full ord)) _, o => ∃ t, Computes env l t ∧ o = t.bind fun t => env.fullJoin ord false t lc
  | .join l lc r rc, o =>
    ∃ tl tr, Computes env l tl ∧ Computes env r tr ∧ o = tl.bind fun a => tr.bind fun b => Join.join env.fuel a lc b rc
  | .sort s c, o => ∃ t, Computes env s t ∧ onTable (Modifiers.SortOp c) t o
  | .orderBy s keys, o => ∃ t, Computes env s t ∧ onTable (Modifiers.OrderByOp keys) t o
  | .union l r origins, o =>
    ∃ tl tr, Computes env l tl ∧ Computes env r tr ∧
      o = tl.bind fun a => tr.bind fun b => Union.computeUnion (width l) (width r) a b origins
  | .distinct s keep, o => ∃ t, Computes env s t ∧ o = t.bind (Modifiers.distinct (width s) keep)
  | .filter s type str _ rhs lc rc, o =>
    ∃ t, Computes env s t ∧ o = t.bind fun t =>
      match type, rc with
      | .cmp c, some rc => Filter.computeFilter Filter.idReader c lc rc t
      | _, _ => env.filterFixed type str rhs lc t
  | .minus l r jcs, o =>
    ∃ tl tr, Computes env l tl ∧ Computes env r tr ∧ o = tl.bind fun a => tr.bind fun b => Minus.computeMinus env.fuel a b jcs
  | .optionalJoin l r lo ro jcs, o =>
    ∃ tl tr, Computes env l tl ∧ Computes env r tr ∧
      o = tl.bind fun a => tr.bind fun b => MultiJoin.optionalJoin env.fuel a b (width l) lo ro jcs (width l + width r - jcs.length)
  | .multiColumnJoin l r jcs, o =>
    ∃ tl tr, Computes env l tl ∧ Computes env r tr ∧
      o = tl.bind fun a => tr.bind fun b => MultiJoin.multiColumnJoin env.fuel a b jcs (width l + width r - jcs.length)
  | .twoColumnJoin l r j1l j2l j1r j2r, o =>
    ∃ tl tr, Computes env l tl ∧ Computes env r tr ∧
      o = tl.bind fun a => tr.bind fun b => Minus.Filter.twoColumnJoin env.fuel a (width l) j1l j2l b (width r) j1r j2r
  | .hasPredicateFreeS w, o => o = env.hasPredicateFreeS w
  | .hasPredicateFreeO w, o => o = env.hasPredicateFreeO w
  | .hasPredicateFull, o => o = (Patterns.computeFullScan env.index).map fun l => l.map fun p => [p.1, p.2]
  | .hasPredicateSub s c, o => ∃ t, Computes env s t ∧ o = t.bind (Patterns.computeSubqueryS env.index c)
  | .groupBy s groups aggs, o =>
    ∃ t, Computes env s t ∧ o = t.bind fun t =>
      (GroupBy.doGroupBy env.float (List.replicate (groups.length + aggs.length) 0) t (List.replicate (width s) .kb)
        (groups.map (·.1)) ((groups.map fun g => (⟨.sample, g.1, g.2, [], false⟩ : GroupBy.Aggregate)) ++ aggs)).map (·.1)
  | .transitivePath s lc rc lv rv mn mx, o =>
    ∃ t, Computes env s t ∧ o = t.bind fun t =>
      TransitivePath.computeTransitivePath env.fuel env.iter t lv.isNone rv.isNone lc rc (lv.getD 0) (rv.getD 0) mn mx
  | .transitivePathLeft s l c lc rc rv mn mx, o =>
    ∃ t tl, Computes env s t ∧ Computes env l tl ∧ o = t.bind fun t => tl.bind fun a =>
      TransitivePath.computeLeftBound env.fuel env.iter 0 t a c rv.isNone lc rc (rv.getD 0) mn mx (width l + 1)

end Verif.CacheKey
