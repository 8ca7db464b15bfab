import Verif.Spec.RdfEscaping
/-
Turtle documents, how they are written, and which triples they denote, following the W3C recommendation "RDF 1.1 Turtle".
Independent of the model of the parser.  All IRIs are taken to be absolute, so that `@base` has no effect; collections are
left out.
-/
namespace Verif.TurtleSpec
open Verif.Spec

abbrev Str := List Char
abbrev Triple := Str × Str × Str

/-! ### Characters -/

def inRanges (rs : List (Nat × Nat)) (c : Char) : Bool :=
  rs.any fun r => decide (r.1 ≤ c.toNat) && decide (c.toNat ≤ r.2)

def letter : Char → Bool := inRanges [(0x41, 0x5A), (0x61, 0x7A)]
def digit : Char → Bool := inRanges [(0x30, 0x39)]
def hexDigit : Char → Bool := inRanges [(0x30, 0x39), (0x41, 0x46), (0x61, 0x66)]

/-- `PN_CHARS_BASE` -/
def nameStart : Char → Bool := inRanges
  [(0x41, 0x5A), (0x61, 0x7A), (0xC0, 0xD6), (0xD8, 0xF6), (0xF8, 0x2FF), (0x370, 0x37D), (0x37F, 0x1FFF),
   (0x200C, 0x200D), (0x2070, 0x218F), (0x2C00, 0x2FEF), (0x3001, 0xD7FF), (0xF900, 0xFDCF), (0xFDF0, 0xFFFD),
   (0x10000, 0xEFFFF)]
/-- `PN_CHARS` -/
def nameChar (c : Char) : Bool :=
  nameStart c || c == '_' || c == '-' || digit c || inRanges [(0xB7, 0xB7), (0x300, 0x36F), (0x203F, 0x2040)] c
/-- the characters that may be written in an IRI as they are -/
def iriChar (c : Char) : Bool :=
  decide (0x20 < c.toNat) && decide (c ∉ ['<', '>', '"', '{', '}', '|', '^', '`', '\\'])
/-- the characters that may be escaped in a local name -/
def escapable (c : Char) : Bool :=
  decide (c ∈ ['_', '~', '.', '-', '!', '$', '&', '\'', '(', ')', '*', '+', ',', ';', '=', '/', '?', '#', '@', '%'])
/-- `WS` -/
def blank (c : Char) : Bool := decide (c ∈ [' ', '\t', '\r', '\n'])

/-! ### Words -/

/-- The part of a prefix after its first character; no two dots in succession. -/
inductive PrefixTail : Str → Prop
  | nil : PrefixTail []
  | chr {c s} : nameChar c → PrefixTail s → PrefixTail (c :: s)
  | dot {c s} : nameChar c → PrefixTail s → PrefixTail ('.' :: c :: s)

/-- A prefix (`PN_PREFIX` without successive dots). -/
def Prefix (p : Str) : Prop := ∃ c s, p = c :: s ∧ nameStart c ∧ PrefixTail s

/-- `PLX`: a percent code, which stands for itself, or an escaped character. -/
inductive Plx : Str → Str → Prop
  | percent {a b} : hexDigit a → hexDigit b → Plx ['%', a, b] ['%', a, b]
  | escaped {c} : escapable c → Plx ['\\', c] [c]

/-- The part of a local name after its first character: how it is written and what it stands for. -/
inductive LocalTail : Str → Str → Prop
  | nil : LocalTail [] []
  | chr {n c s v} : nameChar c ∨ c = ':' → LocalTail s v →
      LocalTail (List.replicate n '.' ++ c :: s) (List.replicate n '.' ++ c :: v)
  | plx {n p w s v} : Plx p w → LocalTail s v →
      LocalTail (List.replicate n '.' ++ (p ++ s)) (List.replicate n '.' ++ (w ++ v))

/-- A local name (`PN_LOCAL`, or nothing): how it is written and what it stands for. -/
inductive Local : Str → Str → Prop
  | nil : Local [] []
  | chr {c s v} : nameStart c ∨ c = '_' ∨ c = ':' ∨ digit c → LocalTail s v → Local (c :: s) (c :: v)
  | plx {p w s v} : Plx p w → LocalTail s v → Local (p ++ s) (w ++ v)

/-- The part of the label of a blank node after its first character. -/
inductive LabelTail : Str → Prop
  | nil : LabelTail []
  | chr {n c s} : nameChar c → LabelTail s → LabelTail (List.replicate n '.' ++ c :: s)

/-- The label of a blank node (`BLANK_NODE_LABEL` without `_:`). -/
def Label (l : Str) : Prop := ∃ c s, l = c :: s ∧ (nameStart c ∨ c = '_' ∨ digit c) ∧ LabelTail s

/-- The inside of `IRIREF`. -/
inductive IriText : Str → Prop
  | nil : IriText []
  | chr {c s} : iriChar c → IriText s → IriText (c :: s)
  | u4 {d s} : d.length = 4 → (∀ c ∈ d, hexDigit c) → IriText s → IriText ('\\' :: 'u' :: (d ++ s))
  | u8 {d s} : d.length = 8 → (∀ c ∈ d, hexDigit c) → IriText s → IriText ('\\' :: 'U' :: (d ++ s))

/-- The inside of a string in quotation marks `q`; a long string (in three marks) may have up to two marks in succession,
but not at its end.  (`k` is 0 or 2.) -/
inductive Content (q : Char) (k : Nat) : Str → Prop
  | nil : Content q k []
  | chr {n c s} : n ≤ k → c ≠ q → c ≠ '\\' → Content q k s → Content q k (List.replicate n q ++ c :: s)
  | esc {n c s} : n ≤ k → Content q k s → Content q k (List.replicate n q ++ '\\' :: c :: s)

/-- `LANGTAG` -/
def LangTag (t : Str) : Prop :=
  ∃ (x : Str) (parts : List Str), x ≠ [] ∧ (∀ c ∈ x, letter c) ∧
    (∀ y ∈ parts, y ≠ [] ∧ ∀ c ∈ y, letter c || digit c) ∧ t = '@' :: x ++ parts.flatMap ('-' :: ·)

/-- `INTEGER` -/
def Integer (t : Str) : Prop :=
  ∃ (sign digits : Str), sign ∈ [[], ['+'], ['-']] ∧ digits ≠ [] ∧ (∀ c ∈ digits, digit c) ∧ t = sign ++ digits

/-! ### Documents -/

/-- An IRI, in full or abbreviated.  `value` is what the text inside the brackets, or the local name, stands for. -/
inductive Iri where
  | ref (text value : Str)
  | pname (pre text value : Str)

/-- What follows the string in a literal. -/
inductive Suffix where
  | none
  | lang (tag : Str)
  | dtype (i : Iri)

/-- A literal.  A string is written between `quotes` and has the given value. -/
inductive Lit where
  | string (quotes text value : Str) (x : Suffix)
  | number (text : Str)
  | bool (b : Bool)

/-- A term without structure.  `anon ws` is a pair of square brackets with white space between them. -/
inductive Node where
  | iri (i : Iri)
  | label (l : Str)
  | anon (ws : Str)

inductive Verb where
  | a
  | iri (i : Iri)

mutual
  inductive Obj where
    | node (n : Node)
    | lit (l : Lit)
    /-- predicates and objects in square brackets -/
    | props (p : Props)
  inductive Objs where
    | one (o : Obj)
    | more (o : Obj) (r : Objs)
  /-- predicates with their objects.  Several semicolons in succession and at the end are allowed. -/
  inductive Props where
    | one (v : Verb) (o : Objs) (semicolons : Nat)
    | more (v : Verb) (o : Objs) (semicolons : Nat) (r : Props)
end

inductive Stmt where
  /-- `@prefix` or `PREFIX` -/
  | pre (sparql : Bool) (p : Str) (text value : Str)
  /-- `@base` or `BASE` -/
  | base (sparql : Bool) (text value : Str)
  | triples (s : Node) (p : Props)
  /-- the subject is `[ ... ]` -/
  | props (s : Props) (p : Option Props)

/-! ### What a document denotes -/

/-- The IRIs of the prefixes. -/
abbrev Env := Str → Option Str

def Iri.den (env : Env) : Iri → Option Str
  | .ref _ v => some (['<'] ++ v ++ ['>'])
  | .pname p _ v => (env p).map fun n => ['<'] ++ n ++ v ++ ['>']

/-- The k-th anonymous blank node is called `name k`. -/
def Node.den (name : Nat → Str) (env : Env) (k : Nat) : Node → Option (Str × Nat)
  | .iri i => (i.den env).map fun v => (v, k)
  | .label l => some ('_' :: ':' :: l, k)
  | .anon _ => some (name k, k + 1)

def Suffix.den (env : Env) : Suffix → Option Str
  | .none => some []
  | .lang t => some t
  | .dtype i => (i.den env).map fun v => '^' :: '^' :: v

/-- Literals are kept in double quotes without escapes; numbers and booleans as they are. -/
def Lit.den (env : Env) : Lit → Option Str
  | .string _ _ v x => (x.den env).map fun w => ['"'] ++ v ++ ['"'] ++ w
  | .number t => some t
  | .bool b => some (if b then "true".toList else "false".toList)

def Verb.den (env : Env) : Verb → Option Str
  | .a => some "<http://www.w3.org/1999/02/22-rdf-syntax-ns#type>".toList
  | .iri i => i.den env

mutual
  /-- The triples with subject `s` and predicate `p`, and the number of anonymous blank nodes so far. -/
  def Obj.den (name : Nat → Str) (env : Env) (s p : Str) (k : Nat) : Obj → Option (List Triple × Nat)
    | .node n => (n.den name env k).map fun x => ([(s, p, x.1)], x.2)
    | .lit l => (l.den env).map fun v => ([(s, p, v)], k)
    | .props q => (q.den name env (name k) (k + 1)).map fun x => ((s, p, name k) :: x.1, x.2)
  def Objs.den (name : Nat → Str) (env : Env) (s p : Str) (k : Nat) : Objs → Option (List Triple × Nat)
    | .one o => o.den name env s p k
    | .more o r => (o.den name env s p k).bind fun x => (r.den name env s p x.2).map fun y => (x.1 ++ y.1, y.2)
  def Props.den (name : Nat → Str) (env : Env) (s : Str) (k : Nat) : Props → Option (List Triple × Nat)
    | .one v o _ => (v.den env).bind fun p => o.den name env s p k
    | .more v o _ r => (v.den env).bind fun p => (o.den name env s p k).bind fun x =>
        (r.den name env s x.2).map fun y => (x.1 ++ y.1, y.2)
end

/-- The prefixes that are known after the statement, the triples, and the number of anonymous blank nodes so far. -/
def Stmt.den (name : Nat → Str) (env : Env) (k : Nat) : Stmt → Option (Env × List Triple × Nat)
  | .pre _ p _ v => some (fun q => if q = p then some v else env q, [], k)
  | .base _ _ _ => some (env, [], k)
  | .triples s p => (s.den name env k).bind fun x => (p.den name env x.1 x.2).map fun y => (env, y)
  | .props s none => (s.den name env (name k) (k + 1)).map fun y => (env, y)
  | .props s (some p) => (s.den name env (name k) (k + 1)).bind fun x =>
      (p.den name env (name k) x.2).map fun y => (env, x.1 ++ y.1, y.2)

def denFrom (name : Nat → Str) (env : Env) (k : Nat) : List Stmt → Option (List Triple)
  | [] => some []
  | st :: d => (st.den name env k).bind fun x => (denFrom name x.1 x.2.2 d).map fun y => x.2.1 ++ y

/-- The triples of a document. -/
def den (name : Nat → Str) (d : List Stmt) : Option (List Triple) := denFrom name (fun _ => none) 0 d

/-! ### How a document is written -/

/-- A token; `word` says that it must not be followed by a character that could belong to it. -/
structure Tok where
  text : Str
  word : Bool

def Tok.sym (t : Str) : Tok := ⟨t, false⟩
def Tok.wrd (t : Str) : Tok := ⟨t, true⟩

def Iri.toks : Iri → List Tok
  | .ref t _ => [.sym (['<'] ++ t ++ ['>'])]
  | .pname p t _ => [.wrd (p ++ ':' :: t)]

def Node.toks : Node → List Tok
  | .iri i => i.toks
  | .label l => [.wrd ('_' :: ':' :: l)]
  | .anon ws => [.sym ('[' :: ws ++ [']'])]

def Suffix.toks : Suffix → List Tok
  | .none => []
  | .lang t => [.wrd t]
  | .dtype i => .sym ['^', '^'] :: i.toks

def Lit.toks : Lit → List Tok
  | .string q t _ x => .sym (q ++ t ++ q) :: x.toks
  | .number t => [.wrd t]
  | .bool b => [.wrd (if b then "true".toList else "false".toList)]

def Verb.toks : Verb → List Tok
  | .a => [.wrd ['a']]
  | .iri i => i.toks

def semicolons (n : Nat) : List Tok := List.replicate n (.sym [';'])

mutual
  def Obj.toks : Obj → List Tok
    | .node n => n.toks
    | .lit l => l.toks
    | .props p => .sym ['['] :: p.toks ++ [.sym [']']]
  def Objs.toks : Objs → List Tok
    | .one o => o.toks
    | .more o r => o.toks ++ .sym [','] :: r.toks
  def Props.toks : Props → List Tok
    | .one v o n => v.toks ++ o.toks ++ semicolons n
    | .more v o n r => v.toks ++ o.toks ++ semicolons (n + 1) ++ r.toks
end

def Stmt.toks : Stmt → List Tok
  | .pre false p t _ => [.wrd "@prefix".toList, .sym (p ++ [':']), .sym (['<'] ++ t ++ ['>']), .sym ['.']]
  | .pre true p t _ => [.wrd "PREFIX".toList, .sym (p ++ [':']), .sym (['<'] ++ t ++ ['>'])]
  | .base false t _ => [.wrd "@base".toList, .sym (['<'] ++ t ++ ['>']), .sym ['.']]
  | .base true t _ => [.wrd "BASE".toList, .sym (['<'] ++ t ++ ['>'])]
  | .triples s p => s.toks ++ p.toks ++ [.sym ['.']]
  | .props s none => .sym ['['] :: s.toks ++ [.sym [']'], .sym ['.']]
  | .props s (some p) => .sym ['['] :: s.toks ++ .sym [']'] :: p.toks ++ [.sym ['.']]

def blanks (s : Str) : Prop := ∀ c ∈ s, blank c
/-- a comment with the end of its line -/
def Comment (s : Str) : Prop := ∃ t, '\n' ∉ t ∧ s = '#' :: t ++ ['\n']

/-- White space and comments between tokens. -/
inductive Seps : Str → Prop
  | nil {s} : blanks s → Seps s
  | comment {s c r} : blanks s → Comment c → Seps r → Seps (s ++ c ++ r)

/-- White space with at most one comment. -/
def Sep (s : Str) : Prop := ∃ a c b, s = a ++ c ++ b ∧ blanks a ∧ (c = [] ∨ Comment c) ∧ blanks b

/-- A word ends before `s`: there is white space, a comment, a comma, semicolon or bracket, or a dot followed by white space
or a comment. -/
def Ends (s : Str) : Prop :=
  match s with
  | [] => True
  | '.' :: s => match s with
    | [] => True
    | c :: _ => blank c ∨ c = '#'
  | c :: _ => blank c ∨ c ∈ ['#', ',', ';', ']']

/-- `s` consists of the tokens, with separators around them. -/
inductive Layout (sep : Str → Prop) : List Tok → Str → Prop
  | nil {s} : sep s → Layout sep [] s
  | cons {s t ts r} : sep s → (t.word = true → Ends r) → Layout sep ts r → Layout sep (t :: ts) (s ++ t.text ++ r)

/-! ### The documents for which the parser is proved correct -/

/-- The prefix starts with `e` or `E`, perhaps a minus sign, and a digit. -/
def Exponential : Str → Bool
  | c :: '-' :: d :: _ => (c == 'e' || c == 'E') && digit d
  | c :: d :: _ => (c == 'e' || c == 'E') && digit d
  | _ => false

/-- Where the IRI stands. -/
inductive Place where
  | subject | predicate | object | datatype

/-- Prefixes that are not mistaken for something else. -/
def Place.ok (p : Str) : Place → Prop
  | .subject => ¬ "PREFIX".toList <+: p ∧ ¬ "BASE".toList <+: p
  | .predicate => ¬ ['a'] <+: p
  | .object => ¬ "true".toList <+: p ∧ ¬ "false".toList <+: p ∧ Exponential p = false
  | .datatype => True

def Iri.Ok (hex : Str → Str) (w : Place) : Iri → Prop
  | .ref t v => IriText t ∧ DenotesNoTail false hex t v
  | .pname p t v => Prefix p ∧ Local t v ∧ w.ok p

def Node.Ok (hex : Str → Str) (w : Place) : Node → Prop
  | .iri i => i.Ok hex w
  | .label l => Label l
  | .anon ws => blanks ws

def Suffix.Ok (hex : Str → Str) : Suffix → Prop
  | .none => True
  | .lang t => LangTag t
  | .dtype i => i.Ok hex .datatype

def Lit.Ok (hex : Str → Str) : Lit → Prop
  | .string q t v x =>
    (∃ c, (c = '"' ∨ c = '\'') ∧ ((q = [c] ∧ Content c 0 t) ∨ (q = [c, c, c] ∧ Content c 2 t))) ∧
      DenotesNoTail true hex t v ∧ x.Ok hex
  | .number t => Integer t
  | .bool _ => True

def Verb.Ok (hex : Str → Str) : Verb → Prop
  | .a => True
  | .iri i => i.Ok hex .predicate

mutual
  def Obj.Ok (hex : Str → Str) : Obj → Prop
    | .node n => n.Ok hex .object
    | .lit l => l.Ok hex
    | .props p => p.Ok hex
  def Objs.Ok (hex : Str → Str) : Objs → Prop
    | .one o => o.Ok hex
    | .more o r => o.Ok hex ∧ r.Ok hex
  def Props.Ok (hex : Str → Str) : Props → Prop
    | .one v o _ => v.Ok hex ∧ o.Ok hex
    | .more v o _ r => v.Ok hex ∧ o.Ok hex ∧ r.Ok hex
end

def Stmt.Ok (hex : Str → Str) : Stmt → Prop
  | .pre sparql p t v => sparql = false ∧ Prefix p ∧ IriText t ∧ DenotesNoTail false hex t v
  | .base .. => False
  | .triples s p => s.Ok hex .subject ∧ p.Ok hex
  | .props .. => False

end Verif.TurtleSpec
