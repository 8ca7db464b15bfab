import Verif.Spec.SparqlText
import Verif.Spec.PropertyPath
import Verif.Model.SparqlParser
/-
The SPARQL queries that QLever supports, how they are written, and the parsed query that stands for them.  From the model of the parser
only the types of the parsed query are used, and `computeCanBeNull` for the flags of property paths (see C47).
-/
namespace Verif.SparqlSpec
open Verif.SparqlLexer (Ty Token)
open Verif.PropertyPath (Path)
open Verif.PropertyPathSpec (Syn)
open Verif.SparqlParser (Triple FilterType Filter Agg Alias OrderKey BindExpr Info Op Pattern)

/-! ### Tokens -/

/-- A token, or a property path (the token that it begins with, and the rest). -/
inductive Word where
  | tok (t : Token)
  | path (t : Token) (m : Str)

def kw (w : String) : Word := .tok ⟨.keyword, w.toList⟩
def sym (c : Char) : Word := .tok ⟨.symbol, [c]⟩
def varWord (n : Str) : Word := .tok ⟨.var, '?' :: n⟩
def litWord (v : Str) : Word := .tok ⟨.literal, '"' :: v ++ ['"']⟩

/-- How a word is written. -/
inductive Item where
  | lex (l : Lexeme)
  | path (l : Lexeme) (m : Str)

namespace Item

def word : Item → Word
  | lex l => .tok l.token
  | path l m => .path l.token m

def text : Item → Str
  | lex l => l.text
  | path l m => l.text ++ m

/-- white space, with vertical tab and form feed -/
def space (c : Char) : Bool := c.toNat ∈ [9, 10, 11, 12, 13, 32]

def Ok : Item → Prop
  | lex l => l.Ok
  | path l m => l.Ok ∧ ∀ c ∈ m, ¬ space c

/-- The text `s` can follow.  White space must follow a path. -/
def Ends (s : Str) : Item → Prop
  | lex l => l.Ends s
  | path l m => l.Ends (m ++ s) ∧ ∃ c, s.head? = some c ∧ space c

end Item

/-- A text that consists of given words; the flag says whether there is white space or a comment at the end. -/
inductive QueryText : List Word → Bool → Str → Prop
  | nil {s} : Trailing s → QueryText [] (!s.isEmpty) s
  | cons {g : Str} {i : Item} {ws b s} : Gap g → i.Ok → i.Ends s → QueryText ws b s → QueryText (i.word :: ws) b (g ++ (i.text ++ s))

/-! ### Triples -/

/-- The terms in triples and filters. -/
inductive Term where
  | var (n : Str)
  | iri (t : Str)
  | pname (p l : Str)
  | literal (v : Str) (x : Suffix)

namespace Term

def token : Term → Token
  | var n => ⟨.var, '?' :: n⟩
  | iri t => ⟨.iri, '<' :: t ++ ['>']⟩
  | pname p l => ⟨.iri, p ++ ':' :: l⟩
  | literal v x => ⟨.literal, '"' :: v ++ '"' :: x.text⟩

def word (x : Term) : Word := .tok x.token

/-- The string that stands for the term in the parsed query. -/
def str (x : Term) : Str := x.token.raw

/-- Literals that the parser keeps as they are in triples. -/
def Simple : Term → Prop
  | literal v x => '"' ∉ v ∧ v.getLast? ≠ some '\\' ∧ x.Ok ∧ ∀ t parts, x = .lang t parts → parts = []
  | pname p _ => p.head? ≠ some '"'
  | _ => True

/-- A term without variables. -/
def Const : Term → Prop
  | var _ => False
  | _ => True

end Term

/-- Predicates: variables and property paths.  The first token of the path, and the rest. -/
inductive Pred where
  | var (n : Str)
  | path (s : Syn) (l : Lexeme) (m : Str)

namespace Pred

def word : Pred → Word
  | var n => varWord n
  | path _ l m => .path l.token m

def text : Pred → Str
  | var n => '?' :: n
  | path s _ _ => s.text

def tree : Pred → Path
  | var n => .node .iri 0 ('?' :: n) [] false
  | path s _ _ => PropertyPath.computeCanBeNull s.tree

/-- The path begins with an IRI, a prefixed name, `^` or `(`. -/
def Ok : Pred → Prop
  | var n => PropertyPathSpec.iriOk n
  | path s l m => s.ok ∧ s.plain ∧ s.text = l.text ++ m ∧
      match l with
      | .iri _ | .pname _ _ => True
      | .symbol c => c ∈ ['^', '(']
      | _ => False

end Pred

/-- Keywords for `ql:contains-word` are kept in small letters, without quotation marks. -/
def objectStr (low : Char → Char) (p : Pred) : Term → Str
  | .literal v .none =>
    if (p.text = "ql:contains-word".toList ∨ p.text = "<QLever-internal-function/contains-word>".toList) ∧ v ≠ [] then v.map low
    else (Term.literal v .none).str
  | o => o.str

/-- A predicate with its objects. -/
structure Property where
  pred : Pred
  obj : Term
  objs : List Term

def Property.words (p : Property) : List Word := p.pred.word :: p.obj.word :: p.objs.flatMap fun o => [sym ',', o.word]

def Property.Ok (p : Property) : Prop := p.pred.Ok ∧ ∀ o ∈ p.obj :: p.objs, o.Simple

/-- Triples with a common subject. -/
structure Block where
  subject : Term
  prop : Property
  props : List Property

def Block.words (b : Block) : List Word := b.subject.word :: (b.prop.words ++ b.props.flatMap fun p => sym ';' :: p.words)

def Block.Ok (b : Block) : Prop := b.subject.Simple ∧ ∀ p ∈ b.prop :: b.props, p.Ok

def Block.triples (low : Char → Char) (b : Block) : List Triple :=
  (b.prop :: b.props).flatMap fun p => (p.obj :: p.objs).map fun o => ⟨b.subject.str, p.pred.tree, objectStr low p.pred o⟩

/-! ### Filters -/

inductive Operand where
  | term (x : Term)
  | integer (minus : Bool) (digits : Str)
  | decimal (minus : Bool) (digits fraction : Str)

def Operand.token : Operand → Token
  | term x => x.token
  | integer m d => ⟨.integer, (if m then ['-'] else []) ++ d⟩
  | decimal m d f => ⟨.float, (if m then ['-'] else []) ++ d ++ '.' :: f⟩

def Operand.Ok : Operand → Prop
  | term _ => True
  | integer _ d => ∃ c s, d = c :: s ∧ TurtleSpec.digit c
  | decimal _ d _ => ∃ c s, d = c :: s ∧ TurtleSpec.digit c

inductive Cmp where
  | eq | ne | lt | le | gt | ge

def Cmp.words : Cmp → List Word
  | eq => [sym '=']
  | ne => [sym '!', sym '=']
  | lt => [sym '<']
  | le => [sym '<', sym '=']
  | gt => [sym '>']
  | ge => [sym '>', sym '=']

def Cmp.type : Cmp → FilterType
  | eq => .eq
  | ne => .ne
  | lt => .lt
  | le => .le
  | gt => .gt
  | ge => .ge

/-- Characters with a meaning in regular expressions. -/
def controls : List Char := ['[', ']', '^', '$', '.', '|', '?', '*', '+', '(', ')']

/-- A regular expression that matches a single string, and this string. -/
inductive Escaped : Str → Str → Prop
  | nil : Escaped [] []
  | plain {c s v} : c ∉ controls → c ≠ '\\' → Escaped s v → Escaped (c :: s) (c :: v)
  | escape {c s v} : c ∈ controls ∨ c = '\\' → Escaped s v → Escaped ('\\' :: c :: s) (c :: v)

/-- `regex(?v, "pattern")` or `regex(str(?v), "pattern", "i")`; `start` is the string that the values have to begin with, if that is what
the pattern says. -/
structure Regex where
  str : Bool
  v : Str
  pattern : Str
  ignoreCase : Bool
  start : Option Str

namespace Regex

def words (r : Regex) : List Word :=
  sym '(' :: ((if r.str then [kw "str", sym '(', varWord r.v, sym ')'] else [varWord r.v]) ++
    (sym ',' :: litWord r.pattern :: ((if r.ignoreCase then [sym ',', litWord ['i']] else []) ++ [sym ')'])))

def Ok (r : Regex) : Prop :=
  match r.start with
  | some s => r.ignoreCase = false ∧ ∃ t, r.pattern = '^' :: t ∧ Escaped t s
  | none => r.ignoreCase = true ∨ r.pattern.head? ≠ some '^' ∨ ∃ t s c u, r.pattern = '^' :: t ++ c :: u ∧ Escaped t s ∧ c ∈ controls

def filter (r : Regex) : Filter :=
  match r.start with
  | some s => { type := .pre, lhs := '?' :: r.v, rhs := '^' :: s, ignoreCase := r.ignoreCase, lhsAsString := r.str }
  | none => { type := .regex, lhs := '?' :: r.v, rhs := r.pattern, ignoreCase := r.ignoreCase, lhsAsString := r.str }

end Regex

/-- A comparison in `k + 1` parentheses, or regular expressions in `k` parentheses. -/
inductive FilterE where
  | compare (k : Nat) (str : Bool) (lhs : Operand) (op : Cmp) (rhs : Operand)
  | regex (k : Nat) (r : Regex) (more : List Regex)

namespace FilterE

def words : FilterE → List Word
  | compare k str lhs op rhs =>
    List.replicate (k + 1) (sym '(') ++
      ((if str then [kw "str", sym '(', .tok lhs.token, sym ')'] else [.tok lhs.token]) ++
        (op.words ++ .tok rhs.token :: List.replicate (k + 1) (sym ')')))
  | regex k r more =>
    List.replicate k (sym '(') ++
      (kw "regex" :: (r.words ++
        (more.flatMap (fun r => .tok ⟨.logicalOr, ['|', '|']⟩ :: kw "regex" :: r.words) ++ List.replicate k (sym ')'))))

/-- Alternatives are only supported in parentheses, and for the beginnings of strings. -/
def Ok : FilterE → Prop
  | compare _ _ lhs _ rhs => lhs.Ok ∧ rhs.Ok
  | regex k r more => (∀ x ∈ r :: more, x.Ok) ∧ (more ≠ [] → k ≠ 0 ∧ ∀ x ∈ r :: more, x.start ≠ none)

def filter : FilterE → Filter
  | compare _ str lhs op rhs => { type := op.type, lhs := lhs.token.raw, rhs := rhs.token.raw, lhsAsString := str }
  | regex _ r more =>
    { r.filter with additionalLhs := more.map fun x => '?' :: x.v, additionalPrefixes := more.map fun x => x.filter.rhs }

end FilterE

/-! ### SELECT, BIND, modifiers -/

def aggName : Agg → String
  | .count => "count"
  | .sample => "sample"
  | .min => "min"
  | .max => "max"
  | .sum => "sum"
  | .avg => "avg"
  | .groupConcat => "group_concat"

def aggUpper : Agg → String
  | .count => "COUNT"
  | .sample => "SAMPLE"
  | .min => "MIN"
  | .max => "MAX"
  | .sum => "SUM"
  | .avg => "AVG"
  | .groupConcat => "GROUP_CONCAT"

/-- `AGG(DISTINCT ?v; SEPARATOR="…") AS ?out` -/
structure AliasE where
  agg : Agg
  distinct : Bool
  v : Str
  sep : Option Str
  out : Str

namespace AliasE

def words (a : AliasE) : List Word :=
  .tok ⟨.aggregate, (aggName a.agg).toList⟩ :: sym '(' :: ((if a.distinct then [kw "distinct"] else []) ++
    (varWord a.v :: ((match a.sep with | some s => [sym ';', kw "separator", sym '=', litWord s] | none => []) ++
      [sym ')', kw "as", varWord a.out])))

def Ok (a : AliasE) : Prop := a.sep ≠ none → a.agg = .groupConcat

def alias_ (a : AliasE) : Alias where
  type := a.agg
  inVar := '?' :: a.v
  outVar := '?' :: a.out
  distinct := a.distinct
  delimiter := a.sep.getD [' ']
  function := (aggUpper a.agg).toList ++ (if a.distinct then "DISTINCT ".toList else []) ++ ('(' :: '?' :: a.v) ++
    (match a.sep with | some s => ";SEPARATOR=\"".toList ++ s ++ ['"'] | none => []) ++ ") as ?".toList ++ a.out

end AliasE

/-- What is selected. -/
inductive Sel where
  | var (n : Str)
  | text (n : Str)
  | score (n : Str)
  | aliased (a : AliasE)

namespace Sel

def words : Sel → List Word
  | var n => [varWord n]
  | text n => [kw "text", sym '(', varWord n, sym ')']
  | score n => [kw "score", sym '(', varWord n, sym ')']
  | aliased a => sym '(' :: (a.words ++ [sym ')'])

def name : Sel → Str
  | var n => '?' :: n
  | text n => "TEXT(?".toList ++ n ++ [')']
  | score n => "SCORE(?".toList ++ n ++ [')']
  | aliased a => '?' :: a.out

def aliases : Sel → List Alias
  | aliased a => [a.alias_]
  | _ => []

def Ok : Sel → Prop
  | aliased a => a.Ok
  | _ => True

end Sel

inductive BindE where
  | rename (v : Str)
  | binary (v : Str) (op : Char) (w : Str)
  | literal (v : Str) (x : Suffix)
  | iri (t : Str)
  | pname (p l : Str)
  | integer (minus : Bool) (digits : List Nat)

namespace BindE

def digitChars (ds : List Nat) : Str := ds.map fun d => Char.ofNat (48 + d)

def words : BindE → List Word
  | rename v => [varWord v]
  | binary v op w => [varWord v, sym op, varWord w]
  | literal v x => [(Term.literal v x).word]
  | iri t => [(Term.iri t).word]
  | pname p l => [(Term.pname p l).word]
  | integer m ds => [.tok ⟨.integer, (if m then ['-'] else []) ++ digitChars ds⟩]

/-- Numbers fit into 64 bits. -/
def Ok : BindE → Prop
  | binary _ op _ => op ∈ ['+', '-', '*', '/']
  | literal v x => (Term.literal v x).Simple
  | integer _ ds => ds ≠ [] ∧ (∀ d ∈ ds, d < 10) ∧ PropertyPathSpec.natOf ds < 2 ^ 63
  | _ => True

def expr : BindE → BindExpr
  | rename v => .rename ('?' :: v)
  | binary v op w => .binary ('?' :: v) ('?' :: w) op
  | literal v x => .word (Term.literal v x).str
  | iri t => .word (Term.iri t).str
  | pname p l => .word (Term.pname p l).str
  | integer m ds => .int (if m then - (PropertyPathSpec.natOf ds : Int) else PropertyPathSpec.natOf ds)

end BindE

inductive OrderE where
  | var (n : Str)
  | key (desc : Bool) (n : Str)
  | score (desc : Bool) (n : Str)
  | aliased (desc : Bool) (a : AliasE)

namespace OrderE

def direction (desc : Bool) : Word := if desc then kw "desc" else kw "asc"

def words : OrderE → List Word
  | var n => [varWord n]
  | key d n => [direction d, sym '(', varWord n, sym ')']
  | score d n => [direction d, sym '(', kw "score", sym '(', varWord n, sym ')', sym ')']
  | aliased d a => direction d :: sym '(' :: sym '(' :: (a.words ++ [sym ')', sym ')'])

def key' : OrderE → OrderKey
  | var n => ⟨'?' :: n, false⟩
  | key d n => ⟨'?' :: n, d⟩
  | score d n => ⟨"SCORE(?".toList ++ n ++ [')'], d⟩
  | aliased d a => ⟨'?' :: a.out, d⟩

def aliases : OrderE → List Alias
  | aliased _ a => [a.alias_]
  | _ => []

/-- A name of a variable without brackets and white space. -/
def Name (n : Str) : Prop := ∀ c ∈ n, c ≠ ')' ∧ ¬ Item.space c

/-- The variable of an alias is not selected. -/
def Ok (selected : List Str) : OrderE → Prop
  | var n => Name n
  | key _ n => Name n
  | score _ n => Name n
  | aliased _ a => a.Ok ∧ Name a.out ∧ '?' :: a.out ∉ selected

end OrderE

/-- Solution modifiers; `sp` is the white space between the two words. -/
inductive Mod where
  | orderBy (sp : Str) (k : OrderE) (ks : List OrderE)
  | groupBy (sp : Str) (v : Str) (vs : List Str)
  | having (f : FilterE) (fs : List FilterE)
  | limit (n : Str)
  | offset (n : Str)
  | textLimit (n : Str)

namespace Mod

def words : Mod → List Word
  | orderBy sp k ks => .tok ⟨.orderBy, "order".toList ++ sp ++ "by".toList⟩ :: (k :: ks).flatMap OrderE.words
  | groupBy sp v vs => .tok ⟨.groupBy, "group".toList ++ sp ++ "by".toList⟩ :: (v :: vs).map varWord
  | having f fs => kw "having" :: (f :: fs).flatMap FilterE.words
  | limit n => [kw "limit", .tok ⟨.integer, n⟩]
  | offset n => [kw "offset", .tok ⟨.integer, n⟩]
  | textLimit n => [kw "textlimit", .tok ⟨.integer, n⟩]

def orders : Mod → List OrderE
  | orderBy _ k ks => k :: ks
  | _ => []

def groups : Mod → List Str
  | groupBy _ v vs => (v :: vs).map ('?' :: ·)
  | _ => []

def havings : Mod → List FilterE
  | having f fs => f :: fs
  | _ => []

def limit? : Mod → Option Str
  | limit n => some n
  | _ => none

def offset? : Mod → Option Str
  | offset n => some n
  | _ => none

def textLimit? : Mod → Option Str
  | textLimit n => some n
  | _ => none

end Mod

/-! ### Groups and queries -/

mutual
/-- A group: the elements one after the other, with an optional dot behind each of them (`dot`).  Triples need a dot, except at the end. -/
inductive Group where
  | last (b : Option Block)
  | triples (b : Block) (g : Group)
  | optional (h : Group) (dot : Bool) (g : Group)
  | minus (h : Group) (dot : Bool) (g : Group)
  | union (a b : Group) (dot : Bool) (g : Group)
  | subquery (q : QueryE) (dot : Bool) (g : Group)
  | bind (e : BindE) (v : Str) (dot : Bool) (g : Group)
  | values (vs : List Str) (rows : List (List Term)) (dot : Bool) (g : Group)
  | valuesOne (v : Str) (xs : List Term) (dot : Bool) (g : Group)
  | filter (f : FilterE) (dot : Bool) (g : Group)
/-- A query behind `SELECT`. -/
inductive QueryE where
  | mk (distinct reduced : Bool) (sels : List Sel) (g : Group) (mods : List Mod)
end

def dots (dot : Bool) : List Word := if dot then [sym '.'] else []

mutual
/-- A group, behind the `{` -/
def Group.words : Group → List Word
  | .last none => [sym '}']
  | .last (some b) => b.words ++ [sym '}']
  | .triples b g => b.words ++ sym '.' :: g.words
  | .optional h dot g => kw "optional" :: sym '{' :: (h.words ++ (dots dot ++ g.words))
  | .minus h dot g => kw "minus" :: sym '{' :: (h.words ++ (dots dot ++ g.words))
  | .union a b dot g => sym '{' :: (a.words ++ (kw "union" :: sym '{' :: (b.words ++ (dots dot ++ g.words))))
  | .subquery q dot g => sym '{' :: kw "select" :: (q.words ++ (sym '}' :: (dots dot ++ g.words)))
  | .bind e v dot g => kw "bind" :: sym '(' :: (e.words ++ (kw "as" :: varWord v :: sym ')' :: (dots dot ++ g.words)))
  | .values vs rows dot g =>
    kw "values" :: sym '(' :: (vs.map varWord ++ (sym ')' :: sym '{' ::
      (rows.flatMap (fun r => sym '(' :: (r.map Term.word ++ [sym ')'])) ++ (sym '}' :: (dots dot ++ g.words)))))
  | .valuesOne v xs dot g => kw "values" :: varWord v :: sym '{' :: (xs.map Term.word ++ (sym '}' :: (dots dot ++ g.words)))
  | .filter f dot g => kw "filter" :: (f.words ++ (dots dot ++ g.words))
/-- A query, behind `SELECT` -/
def QueryE.words : QueryE → List Word
  | .mk distinct reduced sels g mods =>
    (if distinct then [kw "distinct"] else []) ++ ((if reduced then [kw "reduced"] else []) ++
      (sels.flatMap Sel.words ++ (kw "where" :: sym '{' :: (g.words ++ mods.flatMap Mod.words))))
end

/-- The list without repetitions, in the order of the first occurrences. -/
def firsts : List Triple → List Triple
  | [] => []
  | t :: ts => t :: (firsts ts).filter (· ≠ t)

/-- Consecutive triples form one basic graph pattern. -/
def basics (ts : List Triple) : List Op := if ts = [] then [] else [.basic (firsts ts)]

/-- The parsed query, apart from the graph pattern. -/
def infoOf (prefixes : List (Str × Str)) (distinct reduced : Bool) (sels : List Sel) (mods : List Mod) : Info where
  prefixes := prefixes
  selected := sels.map Sel.name
  having := (mods.flatMap Mod.havings).map FilterE.filter
  orderBy := (mods.flatMap Mod.orders).map OrderE.key'
  groupBy := mods.flatMap Mod.groups
  limit := (mods.filterMap Mod.limit?).getLast?.getD []
  textLimit := (mods.filterMap Mod.textLimit?).getLast?.getD []
  offset := (mods.filterMap Mod.offset?).getLast?.getD []
  reduced := reduced
  distinct := distinct
  aliases := sels.flatMap Sel.aliases ++ (mods.flatMap Mod.orders).flatMap OrderE.aliases

variable (low : Char → Char)

/-- The filters of a group: they apply to all of it. -/
def Group.filters : Group → List Filter
  | .last _ => []
  | .filter f _ g => f.filter :: g.filters
  | .triples _ g | .optional _ _ g | .minus _ _ g | .union _ _ _ g | .subquery _ _ g | .bind _ _ _ g | .values _ _ _ g
  | .valuesOne _ _ _ g => g.filters

mutual
/-- The operations of a group, if the triples `ts` stand directly in front of it -/
def Group.ops (ts : List Triple) : Group → List Op
  | .last none => basics ts
  | .last (some b) => basics (ts ++ b.triples low)
  | .triples b g => g.ops (ts ++ b.triples low)
  | .filter _ _ g => g.ops ts
  | .optional h _ g => basics ts ++ .optional (.mk h.filters (h.ops [])) :: g.ops []
  | .minus h _ g => basics ts ++ .minus (.mk h.filters (h.ops [])) :: g.ops []
  | .union a b _ g => basics ts ++ .union (.mk a.filters (a.ops [])) (.mk b.filters (b.ops [])) :: g.ops []
  | .subquery q _ g => basics ts ++ .subquery (q.query []) :: g.ops []
  | .bind e v _ g => basics ts ++ .bind e.expr ('?' :: v) :: g.ops []
  | .values vs rows _ g => basics ts ++ .values (vs.map ('?' :: ·)) (rows.map (·.map Term.str)) :: g.ops []
  | .valuesOne v xs _ g => basics ts ++ .values ['?' :: v] (xs.map fun x => [x.str]) :: g.ops []
/-- The parsed query -/
def QueryE.query (prefixes : List (Str × Str)) : QueryE → SparqlParser.Query
  | .mk distinct reduced sels g mods => .mk (infoOf prefixes distinct reduced sels mods) (.mk g.filters (g.ops []))
end

/-- What is selected is grouped or aggregated, and the variables of aliases are new. -/
def SelectOk (sels : List Sel) (mods : List Mod) : Prop :=
  (mods.flatMap Mod.groups ≠ [] → ∀ n, Sel.var n ∈ sels → '?' :: n ∈ mods.flatMap Mod.groups) ∧
  ∀ a, Sel.aliased a ∈ sels → (sels.map Sel.name).count ('?' :: a.out) = 1

mutual
def Group.Ok : Group → Prop
  | .last none => True
  | .last (some b) => b.Ok
  | .triples b g => b.Ok ∧ g.Ok
  | .optional h _ g => h.Ok ∧ g.Ok
  | .minus h _ g => h.Ok ∧ g.Ok
  | .union a b _ g => a.Ok ∧ b.Ok ∧ g.Ok
  | .subquery q _ g => q.Ok ∧ g.Ok
  | .bind e _ _ g => e.Ok ∧ g.Ok
  | .values vs rows _ g => (∀ r ∈ rows, r.length = vs.length ∧ ∀ x ∈ r, x.Const) ∧ g.Ok
  | .valuesOne _ xs _ g => (∀ x ∈ xs, x.Const) ∧ g.Ok
  | .filter f _ g => f.Ok ∧ g.Ok
def QueryE.Ok : QueryE → Prop
  | .mk _ _ sels g mods =>
    (∀ s ∈ sels, s.Ok) ∧ g.Ok ∧ (∀ k ∈ mods.flatMap Mod.orders, k.Ok (sels.map Sel.name)) ∧
      (∀ f ∈ mods.flatMap Mod.havings, f.Ok) ∧ SelectOk sels mods
end

/-- A whole query: prefixes and their IRIs, and the query. -/
structure Whole where
  prefixes : List (Str × Str)
  query : QueryE

def Whole.words (q : Whole) : List Word :=
  q.prefixes.flatMap (fun p => [kw "prefix", .tok ⟨.iri, p.1 ++ [':']⟩, .tok ⟨.iri, '<' :: p.2 ++ ['>']⟩]) ++ kw "select" :: q.query.words

/-- The parsed query. -/
def Whole.parsed (q : Whole) : SparqlParser.Query := q.query.query low (q.prefixes.map fun p => (p.1, '<' :: p.2 ++ ['>']))

end Verif.SparqlSpec
