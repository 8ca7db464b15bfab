import Verif.Model.Outcome
/-
Model of property paths: `PropertyPath` (src/parser/ParsedQuery.h:33-81, ParsedQuery.cpp:182-193) and `src/parser/PropertyPathParser.cpp`.
A `char` is one character of a list.
-/
namespace Verif.PropertyPath

abbrev Word := List Char

/-- `PropertyPath::Operation` (ParsedQuery.h:35-43). -/
inductive Op where
  | sequence | alternative | transitive | transitiveMin | transitiveMax | inverse | iri
  deriving DecidableEq, Repr

/-- `PropertyPath` (ParsedQuery.h:33-81): `_operation`, `_limit`, `_iri`, `_children`, `_can_be_null`. -/
inductive Path where
  | node (op : Op) (limit : Nat) (iri : Word) (children : List Path) (canBeNull : Bool)
  deriving Repr

namespace Path
def op : Path → Op | node op _ _ _ _ => op
def limit : Path → Nat | node _ limit _ _ _ => limit
def iri : Path → Word | node _ _ iri _ _ => iri
def children : Path → List Path | node _ _ _ children _ => children
def canBeNull : Path → Bool | node _ _ _ _ null => null
end Path

mutual
/-- `PropertyPath::computeCanBeNull` (ParsedQuery.cpp:182-193). -/
def computeCanBeNull : Path → Path
  | .node op limit iri children _ =>
    let cs := computeAll children
    .node op limit iri cs
      (if op = .transitive ∨ op = .transitiveMax ∨ (op = .transitiveMin ∧ limit = 0) then true else decide (cs ≠ []) && cs.all Path.canBeNull)
/-- The loop over the children (ParsedQuery.cpp:184-187). -/
def computeAll : List Path → List Path
  | [] => []
  | p :: ps => computeCanBeNull p :: computeAll ps
end

/-! ### Tokens -/

/-- `DELIMITER_CHARS` (PropertyPathParser.cpp:111-119). -/
def isDelimiter (c : Char) : Bool := c = '?' || c = '*' || c = '+' || c = '/' || c = '|' || c = '(' || c = ')' || c = '^'

/-- `VALID_CHARS` (PropertyPathParser.cpp:121-128): the delimiters and the characters for which `isgraph` holds. -/
def isValid (c : Char) : Bool := isDelimiter c || (33 ≤ c.toNat && c.toNat ≤ 126)

/-- `std::isdigit`.  Simplified: characters beyond ASCII are no digits. -/
def isDigit (c : Char) : Bool := 48 ≤ c.toNat && c.toNat ≤ 57

/-- Where `tokenize` is (PropertyPathParser.cpp:47-102): in the outer loop, with `pos = 0`, `inside_iri`, `escaped` and the characters from `start` to
`pos`; in the loop over delimiters, which keeps `inside_iri = false` and the character `c` it began with; or behind a `*`, at digits. -/
inductive Scan where
  | outer (first inside escaped : Bool) (cur : Word)
  | delims (c : Char)
  | digits (c : Char) (cur : Word)
  deriving DecidableEq, Repr

/-- One delimiter (PropertyPathParser.cpp:82-97); `c` is the one that the loop began with. -/
def delimStep (c d : Char) (rest : Word) : List Word × Scan :=
  if c = '*' ∧ rest.head?.any isDigit then ([], .digits c [d]) else ([[d]], .delims c)

/-- One character of the outer loop (PropertyPathParser.cpp:52-102). -/
def outerStep (first inside escaped : Bool) (cur : Word) (c : Char) (rest : Word) : Outcome (List Word × Scan) :=
  if !isValid c then .throw
  else
    let inside := if c = '<' then true else if c = '>' then false else inside
    if !inside && c = '\\' then .ok ([], .outer false inside (!escaped) (cur ++ [c]))
    else if !inside && isDelimiter c && escaped then .ok ([], .outer false inside false (cur ++ [c]))
    else if !inside && isDelimiter c && (!first || c ≠ '?') then
      let r := delimStep c c rest
      .ok ((if cur = [] then [] else [cur]) ++ r.1, r.2)
    else .ok ([], .outer false inside false (cur ++ [c]))

/-- One character.  The last digit ends its token. -/
def step (s : Scan) (c : Char) (rest : Word) : Outcome (List Word × Scan) :=
  match s with
  | .outer first inside escaped cur => outerStep first inside escaped cur c rest
  | .delims d => if isDelimiter c then .ok (delimStep d c rest) else outerStep false false false [] c rest
  | .digits d cur => if rest.head?.any isDigit then .ok ([], .digits d (cur ++ [c])) else .ok ([cur ++ [c]], .delims d)

/-- The last token (PropertyPathParser.cpp:103-105). -/
def lastToken : Scan → List Word
  | .outer _ _ _ cur => if cur = [] then [] else [cur]
  | .delims _ => []
  | .digits _ cur => [cur]

/-- `tokenize` (PropertyPathParser.cpp:38-107), from a state on. -/
def scan (s : Scan) : Word → Outcome (List Word)
  | [] => .ok (lastToken s)
  | c :: rest => (step s c rest).bind fun r => (scan r.2 rest).map (r.1 ++ ·)

/-- `tokenize` (PropertyPathParser.cpp:38-107). -/
def tokenize (str : Word) : Outcome (List Word) := scan (.outer true false false []) str

/-! ### The grammar.  The tokens that are left are `_position`. -/

/-- `accept` (PropertyPathParser.cpp:238-244). -/
def accept (c : Char) (ts : List Word) : Option (List Word) :=
  match ts with
  | t :: ts => if t = [c] then some ts else none
  | [] => none

/-- `std::stoi` for a string of digits: out of range and the empty string throw. -/
def stoi (w : Word) : Outcome Nat :=
  let n := w.foldl (fun n c => 10 * n + (c.toNat - 48)) 0
  if w = [] then .throw else if n < 2 ^ 31 then .ok n else .throw

/-- The operators behind a primary (PropertyPathParser.cpp:193-216).  A token that begins with `*` is followed by digits only. -/
def modifier (child : Path) (ts : List Word) : Outcome (Path × List Word) :=
  match ts with
  | [] => .ok (child, [])
  | t :: rest =>
    if t = ['?'] then .ok (.node .transitiveMax 1 [] [child] false, rest)
    else if t = ['*'] then .ok (.node .transitive 0 [] [child] false, rest)
    else if t = ['+'] then .ok (.node .transitiveMin 1 [] [child] false, rest)
    else if t.head? = some '*' then (stoi (t.drop 1)).map fun n => (.node .transitiveMax n [] [child] false, rest)
    else .ok (child, t :: rest)

mutual
/-- `path` (PropertyPathParser.cpp:132-150).  `fuel` bounds the depth of the calls. -/
def path : Nat → List Word → Outcome (Path × List Word)
  | 0, _ => .diverge
  | fuel + 1, ts => (pathSequence fuel ts).bind fun r => (pathMore fuel r.2).map fun m =>
      (if m.1 = [] then r.1 else .node .alternative 0 [] (r.1 :: m.1) false, m.2)
termination_by structural fuel => fuel
/-- The loop of `path` (PropertyPathParser.cpp:139-141). -/
def pathMore : Nat → List Word → Outcome (List Path × List Word)
  | 0, _ => .diverge
  | fuel + 1, ts =>
    match accept '|' ts with
    | none => .ok ([], ts)
    | some ts => (pathSequence fuel ts).bind fun r => (pathMore fuel r.2).map fun m => (r.1 :: m.1, m.2)
termination_by structural fuel => fuel
/-- `pathSequence` (PropertyPathParser.cpp:153-171). -/
def pathSequence : Nat → List Word → Outcome (Path × List Word)
  | 0, _ => .diverge
  | fuel + 1, ts => (pathEltOrInverse fuel ts).bind fun r => (sequenceMore fuel r.2).map fun m =>
      (if m.1 = [] then r.1 else .node .sequence 0 [] (r.1 :: m.1) false, m.2)
termination_by structural fuel => fuel
/-- The loop of `pathSequence` (PropertyPathParser.cpp:160-162). -/
def sequenceMore : Nat → List Word → Outcome (List Path × List Word)
  | 0, _ => .diverge
  | fuel + 1, ts =>
    match accept '/' ts with
    | none => .ok ([], ts)
    | some ts => (pathEltOrInverse fuel ts).bind fun r => (sequenceMore fuel r.2).map fun m => (r.1 :: m.1, m.2)
termination_by structural fuel => fuel
/-- `pathEltOrInverse` (PropertyPathParser.cpp:174-184). -/
def pathEltOrInverse : Nat → List Word → Outcome (Path × List Word)
  | 0, _ => .diverge
  | fuel + 1, ts =>
    match accept '^' ts with
    | some ts => (pathElt fuel ts).map fun r => (.node .inverse 0 [] [r.1] false, r.2)
    | none => pathElt fuel ts
termination_by structural fuel => fuel
/-- `pathElt` (PropertyPathParser.cpp:187-217). -/
def pathElt : Nat → List Word → Outcome (Path × List Word)
  | 0, _ => .diverge
  | fuel + 1, ts => (pathPrimary fuel ts).bind fun r => modifier r.1 r.2
termination_by structural fuel => fuel
/-- `pathPrimary` (PropertyPathParser.cpp:220-235): every token but `(` is taken as an IRI. -/
def pathPrimary : Nat → List Word → Outcome (Path × List Word)
  | 0, _ => .diverge
  | fuel + 1, ts =>
    match accept '(' ts with
    | some ts => (path fuel ts).bind fun r =>
      match accept ')' r.2 with
      | some ts => .ok (r.1, ts)
      | none => .throw
    | none =>
      match ts with
      | t :: ts => .ok (.node .iri 0 t [] false, ts)
      | [] => .throw
termination_by structural fuel => fuel
end

/-- `PropertyPathParser::parse` (PropertyPathParser.cpp:25-35). -/
def parse (fuel : Nat) (str : Word) : Outcome Path :=
  (tokenize str).bind fun ts => (path fuel ts).bind fun r => if r.2 = [] then .ok (computeCanBeNull r.1) else .throw

end Verif.PropertyPath
