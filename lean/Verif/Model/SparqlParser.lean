import Verif.Model.SparqlLexer
import Verif.Model.PropertyPath
import Verif.Model.Bind
/-
Model of the parser for SPARQL queries, src/parser/SparqlParser.cpp:20-491 and 634-1064, on top of the model of the lexer
(`accept` and `expect`: src/parser/SparqlLexer.cpp:174-225).

Simplifications: a `char` is one character; the texts of error messages and of log messages, `_originalString`, the numbers of graph
patterns (`_id`, `_numGraphPatterns`) and the flag `_optional` (which is set exactly for the child of an `Optional`) are left out.
Loops take a number of rounds; a loop that needs more rounds ends with `diverge`.
-/
namespace Verif.SparqlParser
open Verif.SparqlLexer (Ty Token Lexer isSpace)
open Verif.PropertyPath (Path)

abbrev Str := List Char

/-! ### Parsed queries -/

mutual
/-- `PropertyPath::operator==` (ParsedQuery.h:57-61) -/
def decPath : (a b : Path) → Decidable (a = b)
  | .node o l i cs n, .node o' l' i' cs' n' =>
    match decEq o o', decEq l l', decEq i i', decPaths cs cs', decEq n n' with
    | isTrue h1, isTrue h2, isTrue h3, isTrue h4, isTrue h5 => isTrue (by rw [h1, h2, h3, h4, h5])
    | isFalse h, _, _, _, _ => isFalse fun e => h (by cases e; rfl)
    | _, isFalse h, _, _, _ => isFalse fun e => h (by cases e; rfl)
    | _, _, isFalse h, _, _ => isFalse fun e => h (by cases e; rfl)
    | _, _, _, isFalse h, _ => isFalse fun e => h (by cases e; rfl)
    | _, _, _, _, isFalse h => isFalse fun e => h (by cases e; rfl)
/-- The comparison of `_children`. -/
def decPaths : (a b : List Path) → Decidable (a = b)
  | [], [] => isTrue rfl
  | [], _ :: _ => isFalse (by simp)
  | _ :: _, [] => isFalse (by simp)
  | a :: as, b :: bs =>
    match decPath a b, decPaths as bs with
    | isTrue h1, isTrue h2 => isTrue (by rw [h1, h2])
    | isFalse h, _ => isFalse fun e => h (by cases e; rfl)
    | _, isFalse h => isFalse fun e => h (by cases e; rfl)
end

instance : DecidableEq Path := decPath

/-- `SparqlTriple` (ParsedQuery.h:97-115) -/
structure Triple where
  s : Str
  p : Path
  o : Str
  deriving DecidableEq

/-- `SparqlFilter::FilterType` (ParsedQuery.h:181-191); `LANG_MATCHES` is not used by the parser. -/
inductive FilterType where
  | eq | ne | lt | le | gt | ge | regex | pre
  deriving DecidableEq

/-- `SparqlFilter` (ParsedQuery.h:179-204) -/
structure Filter where
  type : FilterType
  lhs : Str
  rhs : Str
  additionalLhs : List Str := []
  additionalPrefixes : List Str := []
  ignoreCase : Bool := false
  lhsAsString : Bool := false
  deriving DecidableEq

/-- `ParsedQuery::AggregateType` (ParsedQuery.h:252-262), as far as it is used -/
inductive Agg where
  | count | sample | min | max | sum | avg | groupConcat
  deriving DecidableEq

/-- `ParsedQuery::Alias` (ParsedQuery.h:293-302) -/
structure Alias where
  type : Agg
  inVar : Str
  outVar : Str
  distinct : Bool
  function : Str
  delimiter : Str
  deriving DecidableEq

/-- `OrderKey` (ParsedQuery.h:117-177) -/
structure OrderKey where
  key : Str
  desc : Bool
  deriving DecidableEq

/-- `GraphPatternOperation::Bind::_expressionVariant` (ParsedQuery.h:397-439) -/
inductive BindExpr where
  | rename (v : Str)
  | binary (v w : Str) (op : Char)
  | word (w : Str)
  | int (n : Int)
  deriving DecidableEq

/-- `ParsedQuery` (ParsedQuery.h:219-334), apart from the root graph pattern -/
structure Info where
  prefixes : List (Str × Str) := []
  selected : List Str := []
  having : List Filter := []
  orderBy : List OrderKey := []
  groupBy : List Str := []
  limit : Str := []
  textLimit : Str := []
  offset : Str := []
  reduced : Bool := false
  distinct : Bool := false
  aliases : List Alias := []
  deriving DecidableEq

mutual
/-- `GraphPatternOperation` (ParsedQuery.h:347-480) -/
inductive Op where
  | basic (ts : List Triple)
  | optional (g : Pattern)
  | minus (g : Pattern)
  | union (a b : Pattern)
  | subquery (q : Query)
  | bind (e : BindExpr) (target : Str)
  | values (vars : List Str) (rows : List (List Str))
/-- `ParsedQuery::GraphPattern` (ParsedQuery.h:226-250) -/
inductive Pattern where
  | mk (filters : List Filter) (children : List Op)
/-- `ParsedQuery` -/
inductive Query where
  | mk (info : Info) (root : Pattern)
end

/-! ### Programs that use the lexer -/

/-- What the parser does with the lexer: it looks at the next token and asks for the end of the input (`accept`, `expect`, `empty`),
takes the next token (`readNext`), or extends it (`expandNextUntilWhitespace`). -/
inductive Prog (α : Type) where
  | lift (o : Outcome α)
  | peek (k : Token → Bool → Prog α)
  | advance (p : Prog α)
  | expand (p : Prog α)

namespace Prog

def bind {α β : Type} : Prog α → (α → Prog β) → Prog β
  | lift (.ok a), f => f a
  | lift .throw, _ => lift .throw
  | lift .ub, _ => lift .ub
  | lift .diverge, _ => lift .diverge
  | peek k, f => peek fun t e => (k t e).bind f
  | advance p, f => advance (p.bind f)
  | expand p, f => expand (p.bind f)

instance : Monad Prog where
  pure a := lift (.ok a)
  bind := bind

def throw {α : Type} : Prog α := lift .throw
def diverge {α : Type} : Prog α := lift .diverge

/-- A program runs on a lexer. -/
def run {α : Type} (norm : Str → Outcome Str) : Prog α → Lexer → Outcome (α × Lexer)
  | lift o, l => o.map fun a => (a, l)
  | peek k, l => run norm (k l.next l.empty) l
  | advance p, l => (l.readNext norm).bind (run norm p)
  | expand p, l => run norm p l.expand

end Prog

/-- What is taken from elsewhere: `getLowercaseUtf8` (StringUtils.h:244-270, character by character), and the parser for property
paths. -/
structure Env where
  low : Char → Char
  path : Str → Outcome Path

variable (E : Env)

/-- `accept(type)` (SparqlLexer.cpp:174-180); the token is the one that `current` returns afterwards. -/
def acceptTy (ty : Ty) : Prog (Option Token) := .peek fun t _ => if t.type = ty then .advance (pure (some t)) else pure none

/-- `accept(raw)` (SparqlLexer.cpp:182-193); `w` is in small letters. -/
def accept (w : String) : Prog Bool := .peek fun t _ => if t.raw.map E.low = w.toList then .advance (pure true) else pure false

/-- `accept()` and `current` (SparqlLexer.cpp:195, 227) -/
def take : Prog Token := .peek fun t _ => .advance (pure t)

/-- `expect(type)` (SparqlLexer.cpp:197-207) -/
def expectTy (ty : Ty) : Prog Token := .peek fun t _ => if t.type = ty then .advance (pure t) else .throw

/-- `expect(raw)` (SparqlLexer.cpp:208-225) -/
def expect (w : String) : Prog Unit := .peek fun t _ => if t.raw.map E.low = w.toList then .advance (pure ()) else .throw

/-- `empty` (SparqlLexer.cpp:100) -/
def isEmpty : Prog Bool := .peek fun _ e => pure e

/-- `accept(".")` without looking at the result -/
def optionalDot : Prog Unit := .peek fun t _ => if t.raw.map E.low = ".".toList then .advance (pure ()) else pure ()

/-! ### Literals -/

/-- `s.substr(1, s.size() - 2)` -/
def inner (s : Str) : Str := (s.drop 1).take (s.length - 2)

/-- The loop over the string in `parseLiteral` (SparqlParser.cpp:927-939): what is written, and the rest from the delimiter on. -/
def quotedPart (delimiter : Char) : (escaped : Bool) → Str → Str × Str
  | _, [] => ([], [])
  | escaped, c :: s =>
    if !escaped && c == delimiter then ([], c :: s)
    else if c == '\\' && s.head? == some delimiter then quotedPart delimiter true s
    else let r := quotedPart delimiter false s; (c :: r.1, r.2)

/-- `std::isalpha` in the "C" locale -/
def isAlpha (c : Char) : Bool := Turtle.between 0x41 0x5A c || Turtle.between 0x61 0x7A c

/-- `parseLiteral(literal, true)` (SparqlParser.cpp:899-975) -/
def parseLiteral (s : Str) : Outcome Str :=
  match s.dropWhile isSpace with
  | [] => .throw
  | d :: s =>
    if d ≠ '"' ∧ d ≠ '\'' then .throw else
    let q := quotedPart d false s
    let rest := q.2.drop 1
    let tag := if rest.head? = some '@' then '@' :: rest.tail.takeWhile isAlpha else []
    let rest := rest.drop tag.length
    let type := if rest.head? = some '^' ∧ rest.tail.head? = some '^' then rest.takeWhile fun c => !isSpace c else []
    let rest := rest.drop type.length
    if rest.all isSpace then .ok ('"' :: q.1 ++ '"' :: (tag ++ type)) else .throw

/-- `strip(text, c)` (StringUtils.h:601-608) -/
def strip (c : Char) (s : Str) : Str := ((s.dropWhile (· == c)).reverse.dropWhile (· == c)).reverse

/-- `stripAndLowercaseKeywordLiteral` (SparqlParser.cpp:888-897) -/
def stripAndLowercase (s : Str) : Str :=
  if s.length > 2 ∧ s.head? = some '"' ∧ s.getLast? = some '"' then (strip '"' s).map E.low else s

/-! ### Prologue, SELECT -/

/-- `parsePrologue`, `addPrefix` (SparqlParser.cpp:91-108) -/
def parsePrologue : Nat → Info → Prog Info
  | 0, _ => .diverge
  | n + 1, q => do
    if ← accept E "prefix" then
      let key ← expectTy .iri
      let value ← expectTy .iri
      parsePrologue n { q with prefixes := q.prefixes ++ [(key.raw.dropLast, value.raw)] }
    else pure q

/-- The type of an aggregate (SparqlParser.cpp:192-212) -/
def aggType (raw : Str) : Outcome Agg :=
  if raw = "count".toList then .ok .count
  else if raw = "sample".toList then .ok .sample
  else if raw = "min".toList then .ok .min
  else if raw = "max".toList then .ok .max
  else if raw = "sum".toList then .ok .sum
  else if raw = "avg".toList then .ok .avg
  else if raw = "group_concat".toList then .ok .groupConcat
  else .throw

/-- `toupper` in the "C" locale -/
def upper (c : Char) : Char := if Turtle.between 0x61 0x7A c then Char.ofNat (c.toNat - 32) else c

/-- The optional argument of `GROUP_CONCAT` (SparqlParser.cpp:223-235): what is added to `func`, and the delimiter -/
def parseSeparator (agg : Str) : Prog (Str × Str) := do
  if ← accept E ";" then
    if agg ≠ "group_concat".toList then .throw else
    expect E "separator"
    expect E "="
    let lit ← expectTy .literal
    pure (";SEPARATOR=".toList ++ lit.raw, inner lit.raw)
  else pure ([], [' '])

/-- `parseAlias` (SparqlParser.cpp:190-245) -/
def parseAlias : Prog Alias := do
  let agg ← expectTy .aggregate
  let type ← Prog.lift (aggType agg.raw)
  expect E "("
  let distinct ← accept E "distinct"
  let v ← expectTy .var
  let sep ← parseSeparator E agg.raw
  expect E ")"
  expect E "as"
  let out ← expectTy .var
  pure {
    type, inVar := v.raw, outVar := out.raw, distinct, delimiter := sep.2
    function := agg.raw.map upper ++ (if distinct then "DISTINCT ".toList else []) ++ '(' :: v.raw ++ sep.1 ++ ") as ".toList ++ out.raw }

/-- `( variable )` behind `TEXT` and `SCORE` (SparqlParser.cpp:120-128, 129-137, 161-167) -/
def parenVar : Prog Str := do
  expect E "("
  let v ← expectTy .var
  expect E ")"
  pure v.raw

/-- The loop of `parseSelect` (SparqlParser.cpp:117-153) -/
def selectLoop : Nat → Info → Prog Info
  | 0, _ => .diverge
  | n + 1, q => do
    if ← accept E "where" then pure q else
    let q ← (do
      match ← acceptTy .var with
      | some v => pure { q with selected := q.selected ++ [v.raw] }
      | none =>
      if ← accept E "text" then
        let v ← parenVar E
        pure { q with selected := q.selected ++ ["TEXT(".toList ++ v ++ [')']] }
      else if ← accept E "score" then
        let v ← parenVar E
        pure { q with selected := q.selected ++ ["SCORE(".toList ++ v ++ [')']] }
      else if ← accept E "(" then
        let a ← parseAlias E
        expect E ")"
        pure { q with aliases := q.aliases ++ [a], selected := q.selected ++ [a.outVar] }
      else .throw)
    if ← isEmpty then .throw else
    selectLoop n q

/-- `parseSelect` (SparqlParser.cpp:110-154) -/
def parseSelect (n : Nat) (q : Info) : Prog Info := do
  let distinct ← accept E "distinct"
  let reduced ← accept E "reduced"
  selectLoop E n { q with distinct := q.distinct || distinct, reduced := q.reduced || reduced }

/-! ### Filters -/

/-- `while (_lexer.accept("("))` (SparqlParser.cpp:690-693): the number of parentheses -/
def openParens : Nat → Prog Nat
  | 0 => .diverge
  | n + 1 => do
    if ← accept E "(" then
      let k ← openParens n
      pure (k + 1)
    else pure 0

/-- `expectClose` (SparqlParser.cpp:694-699) -/
def expectClose : Nat → Prog Unit
  | 0 => pure ()
  | k + 1 => do
    expect E ")"
    expectClose k

/-- The operands of a comparison (SparqlParser.cpp:777-791, 819-834) -/
def operand : Prog Str := .peek fun t _ =>
  if t.type = .iri ∨ t.type = .var ∨ t.type = .literal ∨ t.type = .integer ∨ t.type = .float then .advance (pure t.raw) else .throw

/-- The operator of a comparison (SparqlParser.cpp:796-817) -/
def comparison : Prog FilterType := do
  if ← accept E "=" then pure .eq
  else if ← accept E "!" then
    expect E "="
    pure .ne
  else if ← accept E "<" then
    if ← accept E "=" then pure .le else pure .lt
  else if ← accept E ">" then
    if ← accept E "=" then pure .ge else pure .gt
  else .throw

/-- `regexControlChars` (SparqlParser.cpp:1005) -/
def isControl (c : Char) : Bool := "[]^$.|?*+()".toList.contains c

/-- The loop over a regex behind the `^` (SparqlParser.cpp:1006-1031) and the removal of the backslashes (1039-1042): the text without
the escaping backslashes if the regex `isSimple`. -/
def simplePrefix : (escaped : Bool) → Str → Outcome (Option Str)
  | _, [] => .ok (some [])
  | escaped, c :: s =>
    if c = '\\' then (simplePrefix (!escaped) s).map fun r => if escaped then r.map (c :: ·) else r
    else if !escaped && isControl c then .ok none
    else if escaped && !isControl c then .throw
    else (simplePrefix false s).map fun r => r.map (c :: ·)

/-- `parseRegexFilter` (SparqlParser.cpp:976-1051) behind the keyword -/
def parseRegexFilter : Prog Filter := do
  expect E "("
  let str ← accept E "str"
  if str then expect E "("
  let v ← expectTy .var
  if str then expect E ")"
  expect E ","
  let lit ← expectTy .literal
  let rhs := inner lit.raw
  let ignoreCase ← accept E ","
  if ignoreCase then expect E "\"i\""
  expect E ")"
  if rhs.head? = some '^' ∧ ignoreCase = false then
    match ← Prog.lift (simplePrefix false rhs.tail) with
    | some s => pure { type := .pre, lhs := v.raw, rhs := '^' :: s, ignoreCase, lhsAsString := str }
    | none => pure { type := .regex, lhs := v.raw, rhs, ignoreCase, lhsAsString := str }
  else pure { type := .regex, lhs := v.raw, rhs, ignoreCase, lhsAsString := str }

/-- `while (_lexer.accept(LOGICAL_OR))` (SparqlParser.cpp:728-730) -/
def moreRegex : Nat → Prog (List Filter)
  | 0 => .diverge
  | n + 1 => do
    match ← acceptTy .logicalOr with
    | some _ =>
      expect E "regex"
      let f ← parseRegexFilter E
      let fs ← moreRegex n
      pure (f :: fs)
    | none => pure []

/-- `lastBasicPattern` (SparqlParser.cpp:1053-1064): the children in front of the last basic pattern, and its triples -/
def lastBasic (cs : List Op) : List Op × List Triple :=
  match cs.getLast? with
  | some (.basic ts) => (cs.dropLast, ts)
  | _ => (cs, [])

/-- `push_back` unless it is there already (SparqlParser.cpp:472-478, 869-881) -/
def addNew (ts : List Triple) (t : Triple) : List Triple := if t ∈ ts then ts else ts ++ [t]

/-- `*it = taggedTriple` at the first suitable triple (SparqlParser.cpp:846-849, 868-874) -/
def tagFirst (v tag : Str) : List Triple → Option (List Triple)
  | [] => none
  | t :: ts =>
    if t.o = v ∧ t.p.op = .iri ∧ t.p.iri.head? ≠ some '?' then
      some ({ t with p := .node .iri 0 ('@' :: tag ++ '@' :: t.p.iri) [] false } :: ts)
    else (tagFirst v tag ts).map (t :: ·)

/-- `addLangFilter` (SparqlParser.cpp:847-886); `LANGUAGE_PREDICATE` (Constants.h:53-55), `convertLangtagToEntityUri`
(Conversions.h:644-646) -/
def addLangFilter (lhs rhs : Str) (cs : List Op) : List Op :=
  let tag := inner rhs
  let b := lastBasic cs
  let ts := match tagFirst lhs tag b.2 with
    | some ts => ts
    | none => addNew b.2 ⟨lhs, .node .iri 0 "<QLever-internal-function/langtag>".toList [] false,
        "<QLever-internal-function/@".toList ++ tag ++ ['>']⟩
  b.1 ++ [.basic ts]

/-- The two filters for `prefix(?x, "…")` (SparqlParser.cpp:747-770) -/
def prefixFilters (lhs rhs : Str) : Outcome (List Filter) :=
  let r1 := rhs.dropLast ++ [' ']
  match r1.dropLast.getLast? with
  | none => .ub
  | some c => .ok [⟨.ge, lhs, r1, [], [], false, false⟩,
      ⟨.lt, lhs, lhs.take (lhs.length - 2) ++ [Char.ofNat (c.toNat + 1), ' '], [], [], false, false⟩]

/-- `parseFilter` (SparqlParser.cpp:687-845), with the filters and the children of the pattern: `none` instead of `false` -/
def parseFilter (n : Nat) (fs : List Filter) (cs : List Op) : Prog (Option (List Filter × List Op)) := do
  let k ← openParens E n
  let lang ← accept E "lang"
  if lang = true ∧ k ≠ 0 then
    expect E "("
    let lhs ← expectTy .var
    expect E ")"
    expect E "="
    let rhs ← expectTy .literal
    expectClose E k
    pure (some (fs, addLangFilter lhs.raw rhs.raw cs))
  else if ← accept E "langmatches" then
    expect E "("
    expect E "lang"
    expect E "("
    let lhs ← expectTy .var
    expect E ")"
    expect E ","
    let rhs ← expectTy .literal
    expectClose E k
    pure (some (fs, addLangFilter lhs.raw rhs.raw cs))
  else if ← accept E "regex" then
    let f ← parseRegexFilter E
    let more ← if k = 0 then pure [] else moreRegex E n
    if more ≠ [] ∧ ¬ (f :: more).all (fun f => f.type = .pre) then .throw else
    expectClose E k
    pure (some (fs ++ [{ f with additionalLhs := more.map Filter.lhs, additionalPrefixes := more.map Filter.rhs }], cs))
  else if ← accept E "prefix" then
    expect E "("
    let lhs ← expectTy .var
    expect E ","
    let rhs ← expectTy .literal
    let two ← Prog.lift (prefixFilters lhs.raw rhs.raw)
    expect E ")"
    expectClose E k
    pure (some (fs ++ two, cs))
  else if k ≠ 0 then
    let str ← accept E "str"
    if str then expect E "("
    let lhs ← operand
    if str then expect E ")"
    let type ← comparison E
    let rhs ← operand
    expectClose E k
    pure (some (fs ++ [{ type, lhs, rhs, lhsAsString := str }], cs))
  else pure none

/-! ### WHERE -/

/-- The expression of a BIND (SparqlParser.cpp:286-313, 317-331) -/
def bindExpr : Prog BindExpr := do
  match ← acceptTy .var with
  | some v =>
    match ← acceptTy .symbol with
    | some op =>
      match op.raw.head? with
      | none => .throw
      | some c =>
        if c ∉ ['+', '-', '*', '/'] then .throw else
        let w ← expectTy .var
        pure (.binary v.raw w.raw c)
    | none => pure (.rename v.raw)
  | none =>
  match ← acceptTy .literal with
  | some l =>
    let s ← Prog.lift (parseLiteral l.raw)
    pure (.word s)
  | none =>
  match ← acceptTy .integer with
  | some l => pure (.int (Bind.strtoll (number l.raw)))
  | none =>
  let t ← expectTy .iri
  pure (.word t.raw)
where
  /-- the number that is written in decimal -/
  number (s : Str) : Int :=
    if s.head? = some '-' then -(digits s.tail : Nat) else (digits s : Nat)
  digits (s : Str) : Nat := s.foldl (fun n c => 10 * n + (c.toNat - 48)) 0

/-- BIND (SparqlParser.cpp:278-335) behind the keyword -/
def parseBind : Prog Op := do
  expect E "("
  let e ← bindExpr
  expect E "as"
  let t ← expectTy .var
  expect E ")"
  pure (.bind e t.raw)

/-- `while (_lexer.accept(VARIABLE))` (SparqlParser.cpp:387-389, 667-669) -/
def varList : Nat → Prog (List Str)
  | 0 => .diverge
  | n + 1 => do
    match ← acceptTy .var with
    | some v =>
      let vs ← varList n
      pure (v.raw :: vs)
    | none => pure []

/-- A row of VALUES (SparqlParser.cpp:393-399) -/
def valuesRow : Nat → Prog (List Str)
  | 0 => pure []
  | k + 1 => do
    let t ← (do
      match ← acceptTy .literal with
      | some t => pure t
      | none => expectTy .iri)
    let ts ← valuesRow k
    pure (t.raw :: ts)

/-- The rows of VALUES (SparqlParser.cpp:392-401) -/
def valuesRows (k : Nat) : Nat → Prog (List (List Str))
  | 0 => .diverge
  | n + 1 => do
    if ← accept E "(" then
      let r ← valuesRow k
      expect E ")"
      let rs ← valuesRows k n
      pure (r :: rs)
    else pure []

/-- The values for a single variable (SparqlParser.cpp:407-411) -/
def valuesOne : Nat → Prog (List (List Str))
  | 0 => .diverge
  | n + 1 => do
    match ← acceptTy .iri with
    | some t =>
      let ts ← valuesOne n
      pure ([t.raw] :: ts)
    | none =>
    match ← acceptTy .literal with
    | some t =>
      let ts ← valuesOne n
      pure ([t.raw] :: ts)
    | none => pure []

/-- VALUES (SparqlParser.cpp:383-420) behind the keyword -/
def parseValues (n : Nat) : Prog Op := do
  if ← accept E "(" then
    let vs ← varList n
    expect E ")"
    expect E "{"
    let rs ← valuesRows E vs.length n
    expect E "}"
    pure (.values vs rs)
  else
    match ← acceptTy .var with
    | some v =>
      expect E "{"
      let rs ← valuesOne n
      expect E "}"
      pure (.values [v.raw] rs)
    | none => .throw

/-- The subject and the object of a triple (SparqlParser.cpp:424-431, 456-463) -/
def node : Prog Str := do
  match ← acceptTy .var with
  | some t => pure t.raw
  | none =>
  match ← acceptTy .literal with
  | some t => Prog.lift (parseLiteral t.raw)
  | none =>
  let t ← expectTy .iri
  pure t.raw

/-- The predicate (SparqlParser.cpp:439-449) -/
def predicate : Prog Str := do
  match ← acceptTy .var with
  | some t => pure t.raw
  | none =>
  match ← acceptTy .literal with
  | some t => Prog.lift (parseLiteral t.raw)
  | none => .expand do
    let t ← take
    pure t.raw

/-- `CONTAINS_WORD_PREDICATE`, `CONTAINS_WORD_PREDICATE_NS` (Constants.h:41-43) -/
def containsWord : List Str := ["<QLever-internal-function/contains-word>".toList, "ql:contains-word".toList]

/-- A triple (SparqlParser.cpp:422-479) with the last subject and predicate, which are empty if there are none: subject, predicate, and
the new children -/
def parseTriple (subj pred : Str) (cs : List Op) : Prog (Str × Str × List Op) := do
  let s ← if subj = [] then node else pure subj
  let p ← if pred = [] then predicate else pure pred
  let o ← node
  let o := if p ∈ containsWord then stripAndLowercase E o else o
  let path ← Prog.lift (E.path p)
  let b := lastBasic cs
  pure (s, p, b.1 ++ [.basic (addNew b.2 ⟨s, path, o⟩)])

/-! ### Solution modifiers -/

/-- The constructor of `OrderKey` for a text (ParsedQuery.h:120-175) -/
def orderKeyOf (s : Str) : Outcome OrderKey :=
  let l := s.map E.low
  let desc := "desc(".toList.isPrefixOf l
  let s1 := if desc then (s.drop 5).dropWhile isSpace else if "asc(".toList.isPrefixOf l then (s.drop 4).dropWhile isSpace else s
  match s1.map E.low with
  | '(' :: _ => (brackets 1 s1.tail).map fun k => ⟨'(' :: k, desc⟩
  | 's' :: r =>
    if "core(".toList.isPrefixOf r then
      .ok ⟨"SCORE(".toList ++ (s1.drop 6).take 1 ++ word (s1.drop 7) ++ [')'], desc⟩
    else .throw
  | '?' :: _ => .ok ⟨s1.take 1 ++ word (s1.drop 1), desc⟩
  | _ => .ok ⟨[], desc⟩
where
  /-- up to white space or a closing bracket -/
  word (s : Str) : Str := s.takeWhile fun c => c ≠ ')' && !isSpace c
  /-- up to the closing bracket (ParsedQuery.h:143-155) -/
  brackets : Nat → Str → Outcome Str
    | 0, _ => .ok []
    | _ + 1, [] => .throw
    | k + 1, c :: s => (brackets (if c = '(' then k + 2 else if c = ')' then k else k + 1) s).map (c :: ·)

/-- `parseOrderKey` (SparqlParser.cpp:156-188) -/
def parseOrderKey (order : String) (q : Info) : Prog Info := do
  expect E "("
  let r ← (do
    if ← accept E "score" then
      let v ← parenVar E
      pure ("SCORE(".toList ++ v ++ [')'], q)
    else if ← accept E "(" then
      let a ← parseAlias E
      if a.outVar ∈ q.selected then .throw else
      expect E ")"
      pure (a.outVar, { q with aliases := q.aliases ++ [a] })
    else
      let v ← expectTy .var
      pure (v.raw, q))
  expect E ")"
  let k ← Prog.lift (orderKeyOf E (order.toList ++ '(' :: r.1 ++ [')']))
  pure { r.2 with orderBy := r.2.orderBy ++ [k] }

/-- The loop behind ORDER BY (SparqlParser.cpp:636-654) -/
def orderLoop : Nat → Info → Prog Info
  | 0, _ => .diverge
  | n + 1, q => do
    match ← acceptTy .var with
    | some v =>
      let k ← Prog.lift (orderKeyOf E v.raw)
      orderLoop n { q with orderBy := q.orderBy ++ [k] }
    | none =>
    if ← accept E "asc" then
      let q ← parseOrderKey E "ASC" q
      orderLoop n q
    else if ← accept E "desc" then
      let q ← parseOrderKey E "DESC" q
      orderLoop n q
    else if q.orderBy = [] then .throw
    else pure q

/-- `while (parseFilter(…, false, …))` (SparqlParser.cpp:672-674) -/
def havingLoop (m : Nat) : Nat → List Filter → List Op → Prog (List Filter × List Op)
  | 0, _, _ => .diverge
  | n + 1, fs, cs => do
    match ← parseFilter E m fs cs with
    | some r => havingLoop m n r.1 r.2
    | none => pure (fs, cs)

/-- `parseSolutionModifiers` (SparqlParser.cpp:634-684); the second branch for `textlimit` is never reached. -/
def parseModifiers : Nat → Info → List Filter → List Op → Prog (Info × Pattern)
  | 0, _, _, _ => .diverge
  | n + 1, q, fs, cs => do
    if ← isEmpty then pure (q, .mk fs cs)
    else if ← accept E "}" then pure (q, .mk fs cs)
    else
    match ← acceptTy .orderBy with
    | some _ =>
      let q ← orderLoop E n q
      parseModifiers n q fs cs
    | none =>
    if ← accept E "limit" then
      let t ← expectTy .integer
      parseModifiers n { q with limit := t.raw } fs cs
    else if ← accept E "textlimit" then
      let t ← expectTy .integer
      parseModifiers n { q with textLimit := t.raw } fs cs
    else if ← accept E "offset" then
      let t ← expectTy .integer
      parseModifiers n { q with offset := t.raw } fs cs
    else
    match ← acceptTy .groupBy with
    | some _ =>
      let v ← expectTy .var
      let vs ← varList n
      parseModifiers n { q with groupBy := q.groupBy ++ v.raw :: vs } fs cs
    | none =>
    if ← accept E "having" then
      match ← parseFilter E n q.having cs with
      | some r =>
        let r ← havingLoop E n n r.1 r.2
        parseModifiers n { q with having := r.1 } fs r.2
      | none => .throw
    else .throw

/-- The checks at the end of `parseQuery` (SparqlParser.cpp:45-88) -/
def checkSelected (q : Info) : Bool :=
  (q.groupBy.isEmpty || q.selected.all fun v =>
    v.head? != some '?' || q.aliases.any (fun a => a.outVar == v) || q.groupBy.contains v) &&
  q.aliases.all fun a => q.selected.count a.outVar ≤ 1

mutual
/-- The loop of `parseWhere` (SparqlParser.cpp:247-491) with the filters and children read so far, `lastSubject` and `lastPredicate` -/
def parseWhere : Nat → List Filter → List Op → Str → Str → Prog Pattern
  | 0, _, _, _, _ => .diverge
  | n + 1, fs, cs, subj, pred => do
    if ← accept E "}" then pure (.mk fs cs)
    else if ← isEmpty then .throw
    else if ← accept E "optional" then
      expect E "{"
      let g ← parseWhere n [] [] [] []
      optionalDot E
      parseWhere n fs (cs ++ [.optional g]) subj pred
    else if ← accept E "bind" then
      let b ← parseBind E
      optionalDot E
      parseWhere n fs (cs ++ [b]) subj pred
    else if ← accept E "minus" then
      expect E "{"
      let g ← parseWhere n [] [] [] []
      optionalDot E
      parseWhere n fs (cs ++ [.minus g]) subj pred
    else if ← accept E "{" then
      if ← accept E "select" then
        let q ← parseQuery n {}
        optionalDot E
        parseWhere n fs (cs ++ [.subquery q]) subj pred
      else
        let a ← parseWhere n [] [] [] []
        expect E "union"
        expect E "{"
        let b ← parseWhere n [] [] [] []
        optionalDot E
        parseWhere n fs (cs ++ [.union a b]) subj pred
    else if ← accept E "filter" then
      match ← parseFilter E n fs cs with
      | some r =>
        optionalDot E
        parseWhere n r.1 r.2 subj pred
      | none => .throw
    else if ← accept E "values" then
      let v ← parseValues E n
      optionalDot E
      parseWhere n fs (cs ++ [v]) subj pred
    else
      let (s, p, cs) ← parseTriple E subj pred cs
      if ← accept E ";" then parseWhere n fs cs s []
      else if ← accept E "," then parseWhere n fs cs s p
      else if ← accept E "}" then pure (.mk fs cs)
      else
        expect E "."
        parseWhere n fs cs [] []
/-- `parseQuery` (SparqlParser.cpp:37-89) -/
def parseQuery : Nat → Info → Prog Query
  | 0, _ => .diverge
  | n + 1, q => do
    let q ← parseSelect E n q
    expect E "{"
    let .mk fs cs ← parseWhere n [] [] [] []
    let (q, root) ← parseModifiers E n q fs cs
    if checkSelected q then pure (.mk q root) else .throw
end

/-- `parse` (SparqlParser.cpp:25-34) -/
def parseProg (n : Nat) : Prog Query := do
  let q ← parsePrologue E n {}
  expect E "select"
  let q ← parseQuery E n q
  if ← isEmpty then pure q else .throw

/-- The constructor and `parse` (SparqlParser.cpp:20-34) for a text; `n` bounds the number of rounds of each loop. -/
def parse (norm : Str → Outcome Str) (n : Nat) (s : Str) : Outcome Query :=
  (Lexer.init norm s).bind fun l => ((parseProg E n).run norm l).map Prod.fst

end Verif.SparqlParser
