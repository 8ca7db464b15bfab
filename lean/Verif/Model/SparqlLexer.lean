import Verif.Model.Turtle
/-
Model of the lexer for SPARQL queries: `src/parser/SparqlLexer.{h,cpp}`.  The input is well-formed UTF-8; a character is a code point.
The regular expressions are those of Model/Turtle (`Re`, `consume`).  Not modelled: the positions for error messages (`pos`).
-/
namespace Verif.SparqlLexer
open Turtle (Str Re consume isAlpha isDigit isHex isBase isBaseU isPn isWs between)

/-- `SparqlToken::Type` (SparqlLexer.h:10-23) -/
inductive Ty where
  | iri | ws | keyword | groupBy | orderBy | var | symbol | aggregate | literal | integer | float | logicalOr
  deriving DecidableEq

/-- `SparqlToken` (SparqlLexer.h:9-34) -/
structure Token where
  type : Ty
  raw : Str
  deriving DecidableEq

/-! ### Words -/

/-- ASCII letters in lower case -/
def lower (c : Char) : Char := if between 0x41 0x5A c then Char.ofNat (c.toNat + 32) else c

/-- Simple case folding, as far as the letters of the keywords are concerned: RE2 lets `(?i)s` match U+017F and `(?i)k` match
U+212A. -/
def fold (c : Char) : Char := if c.toNat = 0x17F then 's' else if c.toNat = 0x212A then 'k' else lower c

/-- `KEYWORD` (SparqlLexer.cpp:58-62), in this order -/
def keywords : List Str :=
  ["textlimit", "prefix", "select", "distinct", "reduced", "having", "where", "asc", "as", "limit", "offset", "desc", "filter",
   "values", "optional", "union", "langmatches", "lang", "text", "score", "regex", "prefix", "separator", "str", "bind",
   "minus"].map (·.toList)

/-- `AGGREGATE` (SparqlLexer.cpp:63-64) -/
def aggregates : List Str := ["sample", "count", "min", "max", "avg", "sum", "group_concat"].map (·.toList)

/-- `RE2::Consume` with an alternative of words, `(?i)(A|B|...)`: the first one that matches. -/
def consumeWord (ws : List Str) (s : Str) : Option (Str × Str) :=
  (ws.find? fun w => w.isPrefixOf (s.map fold)).map fun w => (s.take w.length, s.drop w.length)

/-- `\s` of RE2 -/
def isSpaceClass (c : Char) : Bool := c == ' ' || c == '\t' || c == '\n' || c == '\x0c' || c == '\r'

/-- `(?i)(FIRST(\s)*SECOND)`, `GROUP_BY` and `ORDER_BY` (SparqlLexer.cpp:56-57) -/
def consumePair (a b : Str) (s : Str) : Option (Str × Str) :=
  if a.isPrefixOf (s.map fold) then
    let t := (s.drop a.length).dropWhile isSpaceClass
    if b.isPrefixOf (t.map fold) then some (s.take (s.length - (t.length - b.length)), t.drop b.length) else none
  else none

/-! ### Regular expressions -/

/-- `LANGTAG` (SparqlLexer.cpp:14) -/
def langtag : Re :=
  .seq (.chr '@') (.seq (.plus (.cls isAlpha)) (.star (.seq (.chr '-') (.plus (.cls fun c => isAlpha c || isDigit c)))))

/-- the characters in `IRIREF` (SparqlLexer.cpp:15-16); no square brackets -/
def isIriChar (c : Char) : Bool :=
  !(decide (c.toNat ≤ 0x20) || ['<', '>', '"', '{', '}', '|', '^', '`', '\\', '[', ']'].contains c)

/-- `IRIREF` (SparqlLexer.cpp:15-16) -/
def iriref : Re := .seq (.chr '<') (.seq (.star (.cls isIriChar)) (.chr '>'))

/-- `PN_PREFIX` (SparqlLexer.cpp:33-34) -/
def pnPrefix : Re := .seq (.cls isBase) (.opt (.seq (.star (.cls fun c => isPn c || c == '.')) (.cls isPn)))

/-- the characters that may be escaped in a local name.  (`$` is not among them: it is not escaped in the regular expression and
stands for the end of the text.) -/
def isLocalEsc (c : Char) : Bool :=
  ['_', '~', '.', '-', '!', '&', '\'', '(', ')', '*', '+', ',', ';', '=', '/', '?', '#', '@', '%'].contains c

/-- `PLX` (SparqlLexer.cpp:35-37).  Simplified: a backslash at the end of the text is not matched. -/
def plx : Re := .alt (.seq (.chr '%') (.times (.cls isHex) 2)) (.seq (.chr '\\') (.cls isLocalEsc))

/-- the first character of `PN_LOCAL`, or an escape -/
def localStart : Re := .alt (.cls fun c => isBaseU c || c == ':' || isDigit c) plx
/-- inside of `PN_LOCAL` -/
def localInner : Re := .alt (.cls fun c => isPn c || c == '.' || c == ':') plx
/-- the end of `PN_LOCAL` -/
def localEnd : Re := .alt (.cls fun c => isPn c || c == ':') plx

/-- `PN_LOCAL` (SparqlLexer.cpp:38-40) -/
def pnLocal : Re := .seq localStart (.opt (.seq (.star localInner) localEnd))

/-- `PNAME_NS` (SparqlLexer.cpp:42) -/
def pnameNS : Re := .seq (.opt pnPrefix) (.chr ':')

/-- `PNAME_LN` (SparqlLexer.cpp:43-44) -/
def pnameLN : Re := .seq pnameNS pnLocal

/-- `IRI` (SparqlLexer.cpp:46-47) -/
def iri : Re := .seq (.opt (.seq langtag (.chr '@'))) (.alt iriref (.alt pnameLN pnameNS))

/-- the first character of `VARNAME` (SparqlLexer.cpp:48-50) -/
def isVarStart (c : Char) : Bool := isBaseU c || isDigit c
/-- the other characters of `VARNAME` -/
def isVarChar (c : Char) : Bool := isBaseU c || isDigit c || c.toNat == 0xB7 || between 0x300 0x36F c || between 0x203F 0x2040 c

/-- `VARIABLE` (SparqlLexer.cpp:65) -/
def varRe : Re := .seq (.chr '?') (.seq (.cls isVarStart) (.star (.cls isVarChar)))

/-- `SYMBOL` (SparqlLexer.cpp:66-67) -/
def isSymbol (c : Char) : Bool :=
  ['.', '{', '}', '(', ')', '=', '*', ',', ';', ':', '<', '>', '!', '|', '/', '^', '?', '+', '-'].contains c

/-- `ECHAR` (SparqlLexer.cpp:25) -/
def echar : Re := .seq (.chr '\\') (.cls fun c => ['t', 'b', 'n', 'r', 'f', '\\', '"', '\''].contains c)

/-- one character of a string in marks `q` -/
def stringChar (q : Char) : Re := .alt (.cls fun c => !(c == q || c == '\\' || c == '\n' || c == '\r')) echar

def quoted (q : Char) : Re := .seq (.chr q) (.seq (.star (stringChar q)) (.chr q))

/-- `RDFLITERAL` with `STRING_LITERAL` (SparqlLexer.cpp:69-76) -/
def literalRe : Re := .seq (.alt (quoted '\'') (quoted '"')) (.opt (.alt langtag (.seq (.lit ['^', '^']) iri)))

/-- `INTEGER` (SparqlLexer.cpp:26) -/
def integerRe : Re := .seq (.opt (.chr '-')) (.plus (.cls isDigit))
/-- `FLOAT` (SparqlLexer.cpp:27) -/
def floatRe : Re := .seq (.opt (.chr '-')) (.seq (.plus (.cls isDigit)) (.seq (.chr '.') (.plus (.cls isDigit))))

/-! ### The lexer -/

/-- `raw.rfind('"') + 1`; 0 if there is none (`npos + 1`) -/
def behindLastQuote (s : Str) : Nat := s.length - (s.reverse.takeWhile (· ≠ '"')).length

/-- A literal is normalised up to its last quotation mark (SparqlLexer.cpp:132-139).  `norm` is `RdfEscaping::normalizeRDFLiteral`. -/
def normLiteral (norm : Str → Outcome Str) (raw : Str) : Outcome Str :=
  (norm (raw.take (behindLastQuote raw))).map (· ++ raw.drop (behindLastQuote raw))

/-- One pass through the loop of `readNext` (SparqlLexer.cpp:107-160): the token and the rest.  `ws` stands for white space and for
comments. -/
def step (norm : Str → Outcome Str) (s : Str) : Outcome (Token × Str) :=
  match consumeWord keywords s with
  | some (w, t) => .ok (⟨.keyword, w.map lower⟩, t)
  | none =>
  match consumePair "group".toList "by".toList s with
  | some (w, t) => .ok (⟨.groupBy, w.map lower⟩, t)
  | none =>
  match consumePair "order".toList "by".toList s with
  | some (w, t) => .ok (⟨.orderBy, w.map lower⟩, t)
  | none =>
  match consumeWord aggregates s with
  | some (w, t) => .ok (⟨.aggregate, w.map lower⟩, t)
  | none =>
  match consume (.lit ['|', '|']) s with
  | some (w, t) => .ok (⟨.logicalOr, w⟩, t)
  | none =>
  match consume varRe s with
  | some (w, t) => .ok (⟨.var, w⟩, t)
  | none =>
  match consume iri s with
  | some (w, t) => .ok (⟨.iri, w⟩, t)
  | none =>
  match consume literalRe s with
  | some (w, t) => (normLiteral norm w).map fun r => (⟨.literal, r⟩, t)
  | none =>
  match consume floatRe s with
  | some (w, t) => .ok (⟨.float, w⟩, t)
  | none =>
  match consume integerRe s with
  | some (w, t) => .ok (⟨.integer, w⟩, t)
  | none =>
  match consume (.cls isSymbol) s with
  | some (w, t) => .ok (⟨.symbol, w⟩, t)
  | none =>
  match consume (.plus (.cls isWs)) s with
  | some (w, t) => .ok (⟨.ws, w⟩, t)
  | none => if s.head? = some '#' then .ok (⟨.ws, []⟩, s.dropWhile (· ≠ '\n')) else .throw

/-- `_next` and `_re_string` after `readNext` (SparqlLexer.cpp:102-163).  Simplified: the raw text of a token of type `ws`, which
is only seen at the end of the input, is left empty.  Every pass consumes a character, so that the fuel `s.length` suffices. -/
def readLoop (norm : Str → Outcome Str) : Nat → Str → Outcome (Token × Str)
  | _, [] => .ok (⟨.ws, []⟩, [])
  | 0, _ => .diverge
  | n + 1, s => (step norm s).bind fun r => if r.1.type = .ws then readLoop norm n r.2 else .ok r

def read (norm : Str → Outcome Str) (s : Str) : Outcome (Token × Str) := readLoop norm s.length s

/-- The data members of `SparqlLexer` (SparqlLexer.h:98-101). -/
structure Lexer where
  rest : Str
  current : Token
  next : Token
  deriving DecidableEq

/-- `readNext` (SparqlLexer.cpp:102-163) -/
def Lexer.readNext (norm : Str → Outcome Str) (l : Lexer) : Outcome Lexer :=
  (read norm l.rest).map fun r => ⟨r.2, l.next, r.1⟩

/-- The constructor (SparqlLexer.cpp:95-98). -/
def Lexer.init (norm : Str → Outcome Str) (s : Str) : Outcome Lexer := Lexer.readNext norm ⟨s, ⟨.iri, []⟩, ⟨.iri, []⟩⟩

/-- `empty` (SparqlLexer.cpp:100): nothing is left *behind* the next token. -/
def Lexer.empty (l : Lexer) : Bool := l.rest.isEmpty

/-- `std::isspace` in the "C" locale -/
def isSpace (c : Char) : Bool := c == ' ' || between 0x09 0x0D c

/-- `expandNextUntilWhitespace` (SparqlLexer.cpp:165-172) -/
def Lexer.expand (l : Lexer) : Lexer :=
  { l with rest := l.rest.dropWhile (fun c => !isSpace c), next := ⟨l.next.type, l.next.raw ++ l.rest.takeWhile fun c => !isSpace c⟩ }

/-- All tokens of a text, one `readNext` after the other (until nothing is left). -/
def tokens (norm : Str → Outcome Str) : Nat → Str → Outcome (List Token)
  | 0, _ => .diverge
  | n + 1, s => (read norm s).bind fun r =>
    if r.1.type = .ws then .ok [] else (tokens norm n r.2).map (r.1 :: ·)

end Verif.SparqlLexer
