import Verif.Spec.Turtle
import Verif.Model.SparqlLexer
/-
How the words of a SPARQL query are written, following the grammar of SPARQL 1.1 (section 19.8).  Only the names of the types of tokens
are taken from the model.
-/
namespace Verif.SparqlSpec
open Verif.Spec (EChar)
open Verif.TurtleSpec (letter digit nameStart nameChar iriChar blank)
open Verif.SparqlLexer (Ty Token)

abbrev Str := List Char

/-- The keywords. -/
def keywords : List String :=
  ["prefix", "select", "distinct", "reduced", "where", "as", "limit", "offset", "textlimit", "having", "asc", "desc", "filter",
   "values", "optional", "union", "minus", "bind", "lang", "langmatches", "regex", "str", "separator", "text", "score"]

/-- The names of aggregates. -/
def aggregates : List String := ["count", "min", "max", "sum", "avg", "sample", "group_concat"]

/-- Capital letters replaced by small ones. -/
def small (c : Char) : Char := if 'A' ≤ c ∧ c ≤ 'Z' then Char.ofNat (c.toNat + 32) else c

/-- The text `t` is the word `w`, apart from capital letters. -/
def Spells (w : String) (t : Str) : Prop := t.map small = w.toList

/-! ### Words -/

/-- the other characters of the name of a variable -/
def varChar (c : Char) : Bool := nameStart c || c == '_' || digit c || TurtleSpec.inRanges [(0xB7, 0xB7), (0x300, 0x36F), (0x203F, 0x2040)] c

/-- `VARNAME` -/
def VarName (n : Str) : Prop := ∃ c s, n = c :: s ∧ (nameStart c || c == '_' || digit c) ∧ ∀ d ∈ s, varChar d

/-- The inside of `IRIREF`. -/
def IriText (t : Str) : Prop := ∀ c ∈ t, iriChar c ∧ c ≠ '[' ∧ c ≠ ']'

/-- A prefix, `PN_PREFIX` or nothing. -/
def Prefix (p : Str) : Prop :=
  p = [] ∨ ∃ c s, p = c :: s ∧ nameStart c ∧ (∀ d ∈ s, nameChar d || d == '.') ∧ p.getLast? ≠ some '.'

/-- A local name without escapes, `PN_LOCAL` or nothing. -/
def Local (l : Str) : Prop :=
  l = [] ∨ ∃ c s, l = c :: s ∧ (nameStart c || c == '_' || c == ':' || digit c) ∧ (∀ d ∈ s, nameChar d || d == '.' || d == ':') ∧
    l.getLast? ≠ some '.'

/-- The inside of a string in double quotes, and what it stands for. -/
inductive StringText : Str → Str → Prop
  | nil : StringText [] []
  | plain {c s v} : c ∉ ['"', '\\', '\n', '\r'] → StringText s v → StringText (c :: s) (c :: v)
  | echar {e x s v} : EChar e x → StringText s v → StringText ('\\' :: e :: s) (x :: v)

/-- What follows the string in a literal. -/
inductive Suffix where
  | none
  | lang (x : Str) (parts : List Str)
  | ref (t : Str)
  | pname (p l : Str)

def Suffix.text : Suffix → Str
  | none => []
  | lang x parts => '@' :: x ++ parts.flatMap ('-' :: ·)
  | ref t => ['^', '^', '<'] ++ t ++ ['>']
  | pname p l => ['^', '^'] ++ p ++ ':' :: l

def Suffix.Ok : Suffix → Prop
  | none => True
  | lang x parts => x ≠ [] ∧ (∀ c ∈ x, letter c) ∧ ∀ y ∈ parts, y ≠ [] ∧ ∀ c ∈ y, letter c || digit c
  | ref t => IriText t
  | pname p l => Prefix p ∧ Local l

/-- What is not taken for a part of a name: it can begin with dots. -/
def EndsName (s : Str) : Prop :=
  ∃ n t, s = List.replicate n '.' ++ t ∧ ∀ c, t.head? = some c → ¬ nameChar c ∧ c ∉ ['.', ':', '%', '\\']

def Suffix.Ends (s : Str) : Suffix → Prop
  | none => ∀ c, s.head? = some c → c ≠ '@' ∧ c ≠ '^'
  | lang _ _ => ∀ c, s.head? = some c → ¬ letter c ∧ ¬ digit c ∧ c ≠ '-'
  | ref _ => True
  | pname _ _ => EndsName s

/-- A token of a query and how it is written. -/
inductive Lexeme where
  | keyword (w : String) (text : Str)
  | aggregate (w : String) (text : Str)
  /-- `GROUP BY` or `ORDER BY` -/
  | groupBy (text₁ space text₂ : Str)
  | orderBy (text₁ space text₂ : Str)
  | var (name : Str)
  | iri (text : Str)
  | pname (p l : Str)
  /-- a string with its value, and what follows -/
  | literal (text value : Str) (x : Suffix)
  | integer (minus : Bool) (digits : Str)
  | decimal (minus : Bool) (digits fraction : Str)
  | symbol (c : Char)
  | or

namespace Lexeme

def text : Lexeme → Str
  | keyword _ t => t
  | aggregate _ t => t
  | groupBy a s b => a ++ s ++ b
  | orderBy a s b => a ++ s ++ b
  | var n => '?' :: n
  | iri t => '<' :: t ++ ['>']
  | pname p l => p ++ ':' :: l
  | literal t _ x => '"' :: t ++ '"' :: x.text
  | integer m d => (if m then ['-'] else []) ++ d
  | decimal m d f => (if m then ['-'] else []) ++ d ++ '.' :: f
  | symbol c => [c]
  | or => ['|', '|']

/-- The token: strings are kept by value, words in small letters. -/
def token : Lexeme → Token
  | keyword w _ => ⟨.keyword, w.toList⟩
  | aggregate w _ => ⟨.aggregate, w.toList⟩
  | groupBy a s b => ⟨.groupBy, (a ++ s ++ b).map small⟩
  | orderBy a s b => ⟨.orderBy, (a ++ s ++ b).map small⟩
  | var n => ⟨.var, '?' :: n⟩
  | iri t => ⟨.iri, '<' :: t ++ ['>']⟩
  | pname p l => ⟨.iri, p ++ ':' :: l⟩
  | literal _ v x => ⟨.literal, '"' :: v ++ '"' :: x.text⟩
  | integer m d => ⟨.integer, (if m then ['-'] else []) ++ d⟩
  | decimal m d f => ⟨.float, (if m then ['-'] else []) ++ d ++ '.' :: f⟩
  | symbol c => ⟨.symbol, [c]⟩
  | or => ⟨.logicalOr, ['|', '|']⟩

/-- No keyword stands at the beginning of a prefix. -/
def NoKeyword (p : Str) : Prop :=
  ∀ w ∈ keywords ++ aggregates ++ ["groupby", "orderby"], ∀ t u, p = t ++ u → ¬ Spells w t

def Ok : Lexeme → Prop
  | keyword w t => w ∈ keywords ∧ Spells w t
  | aggregate w t => w ∈ aggregates ∧ Spells w t
  | groupBy a s b => Spells "group" a ∧ (∀ c ∈ s, blank c) ∧ Spells "by" b
  | orderBy a s b => Spells "order" a ∧ (∀ c ∈ s, blank c) ∧ Spells "by" b
  | var n => VarName n
  | iri t => IriText t
  | pname p l => Prefix p ∧ Local l ∧ NoKeyword p ∧ ∀ c ∈ p, c.toNat ≠ 0x17F ∧ c.toNat ≠ 0x212A
  | literal t v x => StringText t v ∧ x.Ok
  | integer _ d => d ≠ [] ∧ ∀ c ∈ d, digit c
  | decimal _ d f => d ≠ [] ∧ (∀ c ∈ d, digit c) ∧ f ≠ [] ∧ ∀ c ∈ f, digit c
  | symbol c => c ∈ ['.', '{', '}', '(', ')', '=', '*', ',', ';', '<', '>', '!', '|', '/', '^', '?', '+', '-']
  | or => True

/-- The text `s` can follow without changing the token. -/
def Ends (s : Str) : Lexeme → Prop
  | keyword _ _ => ∀ c, s.head? = some c → ¬ nameChar c
  | aggregate _ _ => ∀ c, s.head? = some c → ¬ nameChar c
  | groupBy _ _ _ => True
  | orderBy _ _ _ => True
  | var _ => ∀ c, s.head? = some c → ¬ varChar c
  | iri _ => True
  | pname _ _ => EndsName s
  | literal _ _ x => x.Ends s
  | integer _ _ => (∀ c, s.head? = some c → ¬ digit c) ∧ ∀ c t, s = '.' :: c :: t → ¬ digit c
  | decimal _ _ _ => ∀ c, s.head? = some c → ¬ digit c
  | symbol c =>
    if c = '<' then ∀ u v, s = u ++ '>' :: v → ¬ IriText u
    else if c = '|' then s.head? ≠ some '|'
    else if c = '?' then ∀ d, s.head? = some d → ¬ varChar d
    else if c = '-' then ∀ d, s.head? = some d → ¬ digit d
    else True
  | or => True

end Lexeme

/-! ### Texts -/

/-- White space and comments between tokens. -/
inductive Gap : Str → Prop
  | nil : Gap []
  | blank {c s} : blank c → Gap s → Gap (c :: s)
  | comment {c s} : '\n' ∉ c → Gap s → Gap ('#' :: c ++ '\n' :: s)

/-- White space and comments at the end. -/
inductive Trailing : Str → Prop
  | gap {s} : Gap s → Trailing s
  | comment {s c} : Gap s → '\n' ∉ c → Trailing (s ++ '#' :: c)

/-- A text that consists of given tokens. -/
inductive Text : List Lexeme → Str → Prop
  | nil {s} : Trailing s → Text [] s
  | cons {g l ls s} : Gap g → l.Ok → l.Ends s → Text ls s → Text (l :: ls) (g ++ (l.text ++ s))

end Verif.SparqlSpec
