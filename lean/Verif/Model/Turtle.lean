import Verif.Model.RdfEscaping
/-
Model of the Turtle parser with the RE2 tokenizer: `src/parser/TurtleParser.{h,cpp}`, `src/parser/Tokenizer.{h,cpp}`.
The input is well-formed UTF-8; a character is a code point.  (All characters the hand-written code looks for are
ASCII, so that searching for bytes and searching for code points is the same.)  Not modelled: the relaxed parsing mode
with `TokenizerCtre`, logging, and the positions in error messages.
-/
namespace Verif.Turtle

abbrev Str := List Char

/-! ### Regular expressions -/

/-- Regular expressions as RE2 reads them; repetitions are greedy and alternatives are tried from left to right. -/
inductive Re where
  /-- one character of a class -/
  | cls (p : Char → Bool)
  | eps
  | seq (a b : Re)
  | alt (a b : Re)
  | star (a : Re)

/-- All ways of matching `r*`, where `f` lists those of `r`; preferred ones first. -/
def many (f : Str → List Str) : Nat → Str → List Str
  | 0, s => [s]
  | n + 1, s => ((f s).filter fun t => decide (t.length < s.length)).flatMap (many f n) ++ [s]

/-- What remains of `s` after a match of a prefix; preferred matches first (the semantics of `RE2::Consume` without
`longest_match`). -/
def Re.run : Re → Str → List Str
  | .cls p, s => match s with
    | [] => []
    | c :: t => if p c then [t] else []
  | .eps, s => [s]
  | .seq a b, s => (a.run s).flatMap b.run
  | .alt a b, s => a.run s ++ b.run s
  | .star a, s => many a.run s.length s

/-- `r?` -/
def Re.opt (r : Re) : Re := .alt r .eps
/-- `r+` -/
def Re.plus (r : Re) : Re := .seq r (.star r)
/-- a fixed character -/
def Re.chr (c : Char) : Re := .cls (· == c)
/-- a fixed text -/
def Re.lit : Str → Re
  | [] => .eps
  | [c] => .chr c
  | c :: cs => .seq (.chr c) (Re.lit cs)
/-- `r{n}` -/
def Re.times (r : Re) : Nat → Re
  | 0 => .eps
  | n + 1 => .seq r (Re.times r n)

/-- `c` lies between `a` and `b` -/
def between (a b : Nat) (c : Char) : Bool := decide (a ≤ c.toNat) && decide (c.toNat ≤ b)

def isDigit (c : Char) : Bool := between 0x30 0x39 c
def isAlpha (c : Char) : Bool := between 0x41 0x5A c || between 0x61 0x7A c
/-- `[0-9a-fA-f]` in `UcharString` (Tokenizer.h:325); note the range `A-f`. -/
def isUcharHex (c : Char) : Bool := isDigit c || between 0x61 0x66 c || between 0x41 0x66 c
/-- `HexString` (Tokenizer.h:324) -/
def isHex (c : Char) : Bool := isDigit c || between 0x41 0x46 c || between 0x61 0x66 c

/-- `[+-]` -/
def isSign (c : Char) : Bool := c == '+' || c == '-'

/-- `PnCharsBaseString` (Tokenizer.h:354-364) -/
def isBase (c : Char) : Bool :=
  isAlpha c || between 0xC0 0xD6 c || between 0xD8 0xF6 c || between 0xF8 0x2FF c || between 0x370 0x37D c ||
  between 0x37F 0x1FFF c || between 0x200C 0x200D c || between 0x2070 0x218F c || between 0x2C00 0x2FEF c ||
  between 0x3001 0xD7FF c || between 0xF900 0xFDCF c || between 0xFDF0 0xFFFD c || between 0x10000 0xEFFFF c
/-- `PnCharsUString` (Tokenizer.h:366) -/
def isBaseU (c : Char) : Bool := isBase c || c == '_'
/-- `PnCharsString` (Tokenizer.h:368-369) -/
def isPn (c : Char) : Bool :=
  isBaseU c || c == '-' || isDigit c || c.toNat == 0xB7 || between 0x300 0x36F c || between 0x203F 0x2040 c
/-- the characters that may be escaped in a local name, `PnLocalEscString` (Tokenizer.h:384) -/
def isLocalEsc (c : Char) : Bool :=
  ['_', '~', '.', '-', '!', '$', '&', '\'', '(', ')', '*', '+', ',', ';', '=', '/', '?', '#', '@', '%'].contains c
/-- the characters allowed in an IRI, `IrirefString` (Tokenizer.h:347-348) -/
def isIriChar (c : Char) : Bool :=
  !(decide (c.toNat ≤ 0x20) || ['<', '>', '"', '{', '}', '|', '^', '`', '\\'].contains c)
/-- `WsSingleString` (Tokenizer.h:408) -/
def isWs (c : Char) : Bool := c == ' ' || c == '\t' || c == '\r' || c == '\n'

/-- `UcharString` (Tokenizer.h:325) -/
def uchar : Re :=
  .alt (.seq (.lit ['\\', 'u']) (.times (.cls isUcharHex) 4)) (.seq (.lit ['\\', 'U']) (.times (.cls isUcharHex) 8))
/-- `PlxString` with `PercentString` (Tokenizer.h:351, 384-386) -/
def plx : Re :=
  .alt (.seq (.chr '%') (.times (.cls isHex) 2)) (.seq (.chr '\\') (.cls isLocalEsc))
/-- `ExponentString` (Tokenizer.h:318) -/
def exponent : Re := .seq (.cls fun c => c == 'e' || c == 'E') (.seq (.opt (.cls isSign)) (.plus (.cls isDigit)))

/-- The tokens that are used by the parser (`TokId`, Tokenizer.h:70-99). -/
inductive TokId where
  | turtlePrefix | sparqlPrefix | turtleBase | sparqlBase | dot | comma | semicolon | openSquared | closeSquared
  | openRound | a | doubleCircumflex | true_ | false_ | langtag | integer | decimal | double | iriref | pnameNS
  | pnLocal | blankNodeLabel | anon
  deriving DecidableEq

/-- `Tokenizer::idToRegex` (Tokenizer.cpp:55-117) with the expressions of `TurtleToken` (Tokenizer.h:245-423). -/
def regex : TokId → Re
  | .turtlePrefix => .lit ['@', 'p', 'r', 'e', 'f', 'i', 'x']
  | .sparqlPrefix => .lit ['P', 'R', 'E', 'F', 'I', 'X']
  | .turtleBase => .lit ['@', 'b', 'a', 's', 'e']
  | .sparqlBase => .lit ['B', 'A', 'S', 'E']
  | .dot => .chr '.'
  | .comma => .chr ','
  | .semicolon => .chr ';'
  | .openSquared => .chr '['
  | .closeSquared => .chr ']'
  | .openRound => .chr '('
  | .a => .chr 'a'
  | .doubleCircumflex => .lit ['^', '^']
  | .true_ => .lit ['t', 'r', 'u', 'e']
  | .false_ => .lit ['f', 'a', 'l', 's', 'e']
  -- Tokenizer.h:313
  | .langtag =>
    .seq (.chr '@') (.seq (.plus (.cls isAlpha))
      (.star (.seq (.chr '-') (.plus (.cls fun c => isAlpha c || isDigit c)))))
  -- Tokenizer.h:271-272
  | .integer => .seq (.opt (.cls isSign)) (.plus (.cls isDigit))
  | .decimal => .seq (.opt (.cls isSign)) (.seq (.star (.cls isDigit)) (.seq (.chr '.') (.plus (.cls isDigit))))
  -- Tokenizer.h:320-321
  | .double =>
    .seq (.opt (.cls isSign))
      (.alt (.seq (.plus (.cls isDigit)) (.seq (.chr '.') (.seq (.star (.cls isDigit)) exponent))) exponent)
  -- Tokenizer.h:347-348
  | .iriref => .seq (.chr '<') (.seq (.star (.alt (.cls isIriChar) uchar)) (.chr '>'))
  -- Tokenizer.h:377-381
  | .pnameNS =>
    .seq (.cls isBase) (.seq (.star (.alt (.seq (.chr '.') (.cls isPn)) (.cls isPn))) (.chr ':'))
  -- Tokenizer.h:394-397
  | .pnLocal =>
    .seq (.alt (.cls fun c => isBaseU c || c == ':' || isDigit c) plx)
      (.star (.seq (.star (.chr '.')) (.alt (.cls fun c => isPn c || c == ':') plx)))
  -- Tokenizer.h:403-404
  | .blankNodeLabel =>
    .seq (.lit ['_', ':']) (.seq (.cls fun c => isBaseU c || isDigit c)
      (.star (.seq (.star (.chr '.')) (.cls isPn))))
  -- Tokenizer.h:413
  | .anon => .seq (.chr '[') (.seq (.star (.cls isWs)) (.chr ']'))

/-- `RE2::Consume` as used in `Tokenizer::getNextToken` and `skip` (Tokenizer.cpp:15-23, Tokenizer.h:737): the matched
text and the rest. -/
def consume (r : Re) (s : Str) : Option (Str × Str) :=
  (r.run s).head?.map fun t => (s.take (s.length - t.length), t)

/-! ### The state of the parser -/

abbrev Triple := Str × Str × Str

/-- The data members of `TurtleParser` (TurtleParser.h:110-134).  `prefixes` is the hash map `_prefixMap`, the entry
written last first. -/
structure State where
  input : Str
  last : Str := []
  base : Str := []
  prefixes : List (Str × Str) := []
  activePrefix : Str := []
  activeSubject : Str := []
  activePredicate : Str := []
  numBlank : Nat := 0
  triples : List Triple := []
  deriving DecidableEq

/-- What a function of the parser does. -/
inductive Res (α : Type) where
  /-- returns normally -/
  | ok (a : α) (s : State)
  /-- throws a `ParseException`; the state is seen by `TurtleStreamParser::getLine`, which catches the exception -/
  | error (s : State)
  /-- throws another exception, which nobody catches -/
  | abort
  | ub
  | diverge
  deriving DecidableEq

def Res.bind : Res α → (α → State → Res β) → Res β
  | .ok a s, f => f a s
  | .error s, _ => .error s
  | .abort, _ => .abort
  | .ub, _ => .ub
  | .diverge, _ => .diverge

/-- A member function returning `bool`. -/
abbrev P := State → Res Bool

/-- `f() || g()` -/
def por (f g : P) : P := fun s => (f s).bind fun b s => if b then .ok true s else g s
/-- `f() && g()` -/
def pand (f g : P) : P := fun s => (f s).bind fun b s => if b then g s else .ok false s
/-- `check(f())` (TurtleParser.h:217-228) -/
def check (f : P) : P := fun s => (f s).bind fun b s => if b then .ok true s else .error s

/-- A function of `RdfEscaping` is called and its result stored; its exceptions are no `ParseException`s. -/
def lift (o : Outcome Str) (k : Str → Res Bool) : Res Bool :=
  match o with
  | .ok v => k v
  | .throw => .abort
  | .ub => .ub
  | .diverge => .diverge

/-- The functions of `RdfEscaping` that are called. -/
structure Escapes where
  literal : Str → Outcome Str
  iriref : Str → Outcome Str
  prefixed : Str → Outcome Str

/-- The actual functions (RdfEscaping.cpp). -/
def escapes (hex : Str → Str) : Escapes :=
  ⟨RdfEscaping.normalizeRDFLiteral hex, RdfEscaping.unescapeIriref hex, RdfEscaping.unescapePrefixedIri⟩

/-! ### The tokenizer -/

/-- `Tokenizer::skipWhitespace` (Tokenizer.h:766-773) -/
def skipWhitespace (s : Str) : Str := s.dropWhile isWs

/-- `Tokenizer::skipComments` (Tokenizer.h:777-790): at most one comment is skipped, and only if its line is complete. -/
def skipComments (s : Str) : Str :=
  match s with
  | '#' :: _ => if '\n' ∈ s then (s.dropWhile (· ≠ '\n')).drop 1 else s
  | _ => s

/-- `Tokenizer::skipWhitespaceAndComments` (Tokenizer.cpp:8-12) -/
def skipWC (s : Str) : Str := skipWhitespace (skipComments (skipWhitespace s))

/-- `skip` (TurtleParser.h:189-193) -/
def skip (id : TokId) : P := fun s =>
  let t := skipWC s.input
  match consume (regex id) t with
  | some (_, r) => .ok true { s with input := r }
  | none => .ok false { s with input := t }

/-- `parseTerminal` (TurtleParser.cpp:347-361); `ws` is the template parameter `SkipWhitespaceBefore`. -/
def parseTerminalWs (ws : Bool) (id : TokId) : P := fun s =>
  let t := if ws then skipWC s.input else s.input
  match consume (regex id) t with
  | some (w, r) => .ok true { s with input := r, last := w }
  | none => .ok false { s with input := t }

/-- `parseTerminal` with the default value of its second parameter -/
abbrev parseTerminal : TokId → P := parseTerminalWs true

/-! ### Terms -/

/-- `createAnonNode` (TurtleParser.h:243-247); `ANON_NODE_PREFIX` (Constants.h:50). -/
def anonName (k : Nat) : Str := "QLever-Anon-Node".toList ++ ':' :: (toString k).toList

/-- `emitTriple` (TurtleParser.h:205-207) -/
def emitTriple (s : State) : State :=
  { s with triples := s.triples ++ [(s.activeSubject, s.activePredicate, s.last)] }

/-- `pnameNS` (TurtleParser.cpp:371-380) -/
def pnameNS : P := fun s => (parseTerminal .pnameNS s).bind fun b s =>
  if b then .ok true { s with activePrefix := s.last.take (s.last.length - 1), last := [] } else .ok false s

/-- `iriref` (TurtleParser.cpp:412-440), the case without `UseRelaxedParsing`. -/
def iriref (e : Escapes) : P := fun s => (parseTerminal .iriref s).bind fun b s =>
  if b then lift (e.iriref s.last) fun v => .ok true { s with last := v } else .ok false s

/-- `_prefixMap[prefix]` -/
def lookup (m : List (Str × Str)) (p : Str) : Option Str := (m.find? fun x => x.1 == p).map (·.2)

/-- `prefixedName` (TurtleParser.cpp:324-338), the case without `UseRelaxedParsing`; `expandPrefix` (TurtleParser.h:232-241). -/
def prefixedName (e : Escapes) : P := fun s => (pnameNS s).bind fun b s =>
  if b then (parseTerminalWs false .pnLocal s).bind fun _ s =>
    match lookup s.prefixes s.activePrefix with
    | none => .error s
    | some n => lift (e.prefixed s.last) fun v => .ok true { s with last := ['<'] ++ n ++ v ++ ['>'] }
  else .ok false s

/-- `iri` (TurtleParser.cpp:316-320) -/
def iri (e : Escapes) : P := por (iriref e) (prefixedName e)

/-- `anon` (TurtleParser.h:179-185) -/
def anon : P := fun s => (parseTerminal .anon s).bind fun b s =>
  if b then .ok true { s with last := anonName s.numBlank, numBlank := s.numBlank + 1 } else .ok false s

/-- `blankNode` (TurtleParser.cpp:342-344), `blankNodeLabel` (TurtleParser.cpp:365-367) -/
def blankNode : P := por (parseTerminal .blankNodeLabel) anon

/-- `view.find(q, pos)` -/
def find (q v : Str) : Nat → Nat → Option Nat
  | 0, _ => none
  | n + 1, pos => if q.isPrefixOf (v.drop pos) then some pos else find q v n (pos + 1)

/-- The number of backslashes immediately before position `pos` (TurtleParser.cpp:281-287).  The loop of the code stops
at the latest at the opening quotation mark. -/
def backslashes (v : Str) (pos : Nat) : Nat := ((v.take pos).reverse.takeWhile (· == '\\')).length

/-- The loop searching for the closing quotation marks (TurtleParser.cpp:278-298): `fuel` bounds the number of
iterations. -/
def closing (q v : Str) : Nat → Option Nat → Option Nat
  | 0, _ => none
  | _ + 1, none => none
  | n + 1, some pos =>
    if backslashes v pos % 2 = 0 then some pos else closing q v n (find q v (v.length + 1 - (pos + 1)) (pos + 1))

/-- The loop over the four kinds of quotation marks (TurtleParser.cpp:272-302): the kind with which the view starts. -/
def quoteOf (v : Str) : Option Str :=
  [['"', '"', '"'], ['\'', '\'', '\''], ['"'], ['\'']].find? fun q => q.isPrefixOf v

/-- `stringParse` (TurtleParser.cpp:267-312); it does not skip white space. -/
def stringParse : P := fun s =>
  match quoteOf s.input with
  | none => .ok false s
  | some q =>
    match closing q s.input (s.input.length + 1) (find q s.input (s.input.length + 1 - q.length) q.length) with
    | none => .error s
    | some pos => .ok true { s with last := s.input.take (pos + q.length), input := s.input.drop (pos + q.length) }

/-- `rdfLiteral` (TurtleParser.cpp:239-257) -/
def rdfLiteral (e : Escapes) : P := fun s => (stringParse s).bind fun b s =>
  if b then lift (e.literal s.last) fun lit =>
    (parseTerminal .langtag { s with last := lit }).bind fun b s =>
      if b then .ok true { s with last := lit ++ s.last }
      else (pand (skip .doubleCircumflex) (check (iri e)) s).bind fun b s =>
        if b then .ok true { s with last := lit ++ ['^', '^'] ++ s.last } else .ok true s
  else .ok false s

/-- `numericLiteral` (TurtleParser.cpp:233-235) -/
def numericLiteral : P := por (parseTerminal .integer) (por (parseTerminal .decimal) (parseTerminal .double))

/-- `booleanLiteral` (TurtleParser.cpp:261-263) -/
def booleanLiteral : P := por (parseTerminal .true_) (parseTerminal .false_)

/-- `literal` (TurtleParser.cpp:194-196) -/
def literal (e : Escapes) : P := por (rdfLiteral e) (por numericLiteral booleanLiteral)

/-- `collection` (TurtleParser.cpp:223-229): always refused. -/
def collection : P := fun s => (skip .openRound s).bind fun b s => if b then .error s else .ok false s

/-- `<http://www.w3.org/1999/02/22-rdf-syntax-ns#type>` -/
def rdfType : Str := "<http://www.w3.org/1999/02/22-rdf-syntax-ns#type>".toList

/-- `predicateSpecialA` (TurtleParser.cpp:143-152) -/
def predicateSpecialA : P := fun s =>
  let t := skipWC s.input
  match consume (regex .a) t with
  | some (_, r) => .ok true { s with input := r, activePredicate := rdfType }
  | none => .ok false { s with input := t }

/-- `predicate` (TurtleParser.cpp:167-174) -/
def predicate (e : Escapes) : P := fun s => (iri e s).bind fun b s =>
  if b then .ok true { s with activePredicate := s.last } else .ok false s

/-- `verb` (TurtleParser.cpp:137-139) -/
def verb (e : Escapes) : P := por predicateSpecialA (predicate e)

/-- `subject` (TurtleParser.cpp:156-163) -/
def subject (e : Escapes) : P := fun s => (por blankNode (por (iri e) collection) s).bind fun b s =>
  if b then .ok true { s with activeSubject := s.last } else .ok false s

/-! ### Lists of predicates and objects -/

/-- The functions that call each other, and their loops. -/
inductive Task where
  | predicateObjectList
  /-- the loop of `predicateObjectList` -/
  | semicolons
  | objectList
  /-- the loop of `objectList` -/
  | commas
  | object
  | blankNodePropertyList
  deriving DecidableEq

/-- The bodies of the functions; `call` is used for calls. -/
def step (e : Escapes) (call : Task → P) : Task → P
  -- TurtleParser.cpp:109-120
  | .predicateObjectList => pand (verb e) (pand (check (call .objectList)) (call .semicolons))
  | .semicolons => fun s => (skip .semicolon s).bind fun b s =>
      if b then (pand (verb e) (check (call .objectList)) s).bind fun _ s => call .semicolons s
      else .ok true s
  -- TurtleParser.cpp:124-133
  | .objectList => pand (call .object) (call .commas)
  | .commas => fun s => (pand (skip .comma) (check (call .object)) s).bind fun b s =>
      if b then call .commas s else .ok true s
  -- TurtleParser.cpp:178-190
  | .object => fun s => (por blankNode (por (literal e) (iri e)) s).bind fun b s =>
      if b then .ok true (emitTriple s) else por collection (call .blankNodePropertyList) s
  -- TurtleParser.cpp:200-219
  | .blankNodePropertyList => fun s => (skip .openSquared s).bind fun b s =>
      if b then
        let blank := anonName s.numBlank
        let s' := emitTriple { s with numBlank := s.numBlank + 1, last := blank }
        (check (call .predicateObjectList) { s' with activeSubject := blank }).bind fun _ t =>
          (check (skip .closeSquared) t).bind fun _ t =>
            .ok true { t with activeSubject := s.activeSubject, activePredicate := s.activePredicate }
      else .ok false s

/-- The functions themselves; `diverge` stands for calls nested deeper than `fuel`. -/
def run (e : Escapes) : Nat → Task → P
  | 0 => fun _ _ => .diverge
  | n + 1 => step e (run e n)

/-! ### Statements -/

/-- `triples` (TurtleParser.cpp:89-105) -/
def triples (e : Escapes) (fuel : Nat) : P := fun s => (subject e s).bind fun b s =>
  if b then (run e fuel .predicateObjectList s).bind fun b s => if b then .ok true s else .error s
  else (run e fuel .blankNodePropertyList s).bind fun b s =>
    if b then (run e fuel .predicateObjectList s).bind fun _ s => .ok true s else .ok false s

/-- `substr(1, size() - 2)`; for a string of one character `size() - 2` wraps around, the empty string throws. -/
def stripBrackets (w : Str) : Outcome Str :=
  if w.length = 0 then .throw else .ok ((w.drop 1).take (if w.length = 1 then w.length else w.length - 2))

/-- `prefixID` (TurtleParser.cpp:27-40) -/
def prefixID (e : Escapes) : P := fun s => (skip .turtlePrefix s).bind fun b s =>
  if b then (pand (check pnameNS) (pand (check (iriref e)) (check (skip .dot))) s).bind fun b s =>
    if b then lift (stripBrackets s.last) fun v =>
      .ok true { s with prefixes := (s.activePrefix, v) :: s.prefixes }
    else .error s
  else .ok false s

/-- `base` and `sparqlBase` (TurtleParser.cpp:44-55, 74-85): neither reads a dot. -/
def baseDirective (e : Escapes) (id : TokId) : P := fun s => (skip id s).bind fun b s =>
  if b then (iriref e s).bind fun b s => if b then .ok true { s with base := s.last } else .error s
  else .ok false s

/-- `sparqlPrefix` (TurtleParser.cpp:59-70): the angle brackets are kept. -/
def sparqlPrefix (e : Escapes) : P := fun s => (skip .sparqlPrefix s).bind fun b s =>
  if b then (pand pnameNS (iriref e) s).bind fun b s =>
    if b then .ok true { s with prefixes := (s.activePrefix, s.last) :: s.prefixes } else .error s
  else .ok false s

/-- `directive` (TurtleParser.cpp:21-23) -/
def directive (e : Escapes) : P :=
  por (prefixID e) (por (baseDirective e .turtleBase) (por (sparqlPrefix e) (baseDirective e .sparqlBase)))

/-- `statement` (TurtleParser.cpp:14-17) -/
def statement (e : Escapes) (fuel : Nat) : P := fun s =>
  por (directive e) (pand (triples e fuel) (skip .dot)) { s with input := skipWC s.input }

/-- `turtleDoc` (TurtleParser.h:101-104); `n` bounds the number of statements, `fuel` the depth of calls. -/
def turtleDoc (e : Escapes) (fuel : Nat) : Nat → State → Res Unit
  | 0, _ => .diverge
  | n + 1, s => (statement e fuel s).bind fun b s => if b then turtleDoc e fuel n s else .ok () s

end Verif.Turtle
