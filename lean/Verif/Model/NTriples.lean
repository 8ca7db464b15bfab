import Verif.Model.Outcome
/-
Model of the readers for N-Triples and tab-separated files (`src/parser/NTriplesParser.cpp`, `src/parser/TsvParser.cpp`).
Strings are lists of characters; positions are numbers, and `std::string::npos` is `none`.
-/
namespace Verif.NTriples

abbrev Str := List Char
abbrev Triple := Str × Str × Str

/-- the test that occurs in all loops of `NTriplesParser::getLine` -/
def isBlank (c : Char) : Bool := c == ' ' || c == '\t'

/-- `while (i < line.size() && (line[i] == ' ' || line[i] == '\t')) ++i;` (NTriplesParser.cpp:24-26, 42-44, 53-55) -/
def skipBlanks (line : Str) (i : Nat) : Nat := i + ((line.drop i).takeWhile isBlank).length

/-- `while (j < line.size() && line[j] != '\t' && line[j] != ' ') ++j;` (NTriplesParser.cpp:32-34, 46-48, 71-73, 93-95) -/
def wordEnd (line : Str) (j : Nat) : Nat := j + ((line.drop j).takeWhile fun c => !isBlank c).length

/-- `line.find(c, i)` -/
def find (line : Str) (c : Char) (i : Nat) : Option Nat := ((line.drop i).findIdx? (· == c)).map (i + ·)

/-- The loop over a literal (NTriplesParser.cpp:77-87), from the position that was found: the number of steps. -/
def literalSteps (escape : Bool) : Str → Nat
  | [] => 0
  | c :: s =>
    if !escape && c == '\\' then literalSteps true s + 1
    else if !escape && c == '"' then 0
    else literalSteps false s + 1

/-- `line.substr(i, j - i)`; the difference wraps around if `j` is smaller, and the rest of the line is taken. -/
def substr (line : Str) (i j : Nat) : Str := if j < i then line.drop i else (line.drop i).take (j - i)

/-- `line[i]`, for `i <= line.size()` -/
def charAt (line : Str) (i : Nat) : Char := line.getD i '\x00'

/-- Where the object ends (NTriplesParser.cpp:60-96). -/
def objectEnd (line : Str) (i : Nat) : Outcome Nat :=
  if charAt line i = '<' then
    match find line '>' (i + 1) with
    | none => .throw
    | some j => .ok (j + 1)
  else if charAt line i = '_' ∧ i + 1 < line.length ∧ charAt line (i + 1) = ':' then .ok (wordEnd line (i + 1))
  else
    match find line '"' (i + 1) with
    -- the loop is not entered, `j != line.size()`, and `++j` is 0
    | none => .ok (wordEnd line 0)
    | some j =>
      let j := j + literalSteps false (line.drop j)
      if j = line.length then .throw else .ok (wordEnd line (j + 1))

/-- What `NTriplesParser::getLine` does with a line (NTriplesParser.cpp:23-104). -/
def parseLine (line : Str) : Outcome Triple :=
  let i := skipBlanks line 0
  if line.length ≤ i then .throw
  else
    let j := wordEnd line (i + 1)
    if line.length ≤ j ∨ ¬ ((charAt line i = '<' ∧ charAt line (j - 1) = '>') ∨
        (i + 1 < line.length ∧ charAt line i = '_' ∧ charAt line (i + 1) = ':')) then .throw
    else
      let s := substr line i j
      let i := skipBlanks line j
      let j := wordEnd line (i + 1)
      if line.length ≤ j ∨ ¬ (charAt line i = '<' ∧ charAt line (j - 1) = '>') then .throw
      else
        let p := substr line i j
        let i := skipBlanks line j
        if line.length ≤ i then .throw
        else
          match objectEnd line i with
          | .ok j =>
            if line.length ≤ j ∨ isBlank (charAt line j) = false then .throw else .ok (s, p, substr line i j)
          | .throw => .throw
          | .ub => .ub
          | .diverge => .diverge

/-- What `TsvParser::getLine` does with a line (TsvParser.cpp:18-31), with assertions switched off: after a failed search,
`npos + 1` is 0, and `substr` takes the rest of the line. -/
def parseTsv (line : Str) : Triple :=
  let after (o : Option Nat) : Nat := match o with
    | none => 0
    | some i => i + 1
  let field (i : Nat) (o : Option Nat) : Str := match o with
    | none => line.drop i
    | some j => substr line i j
  let i := find line '\t' 0
  let j := find line '\t' (after i)
  let k := find line '\t' (after j)
  (field 0 i, field (after i) j, field (after j) k)

/-- The lines that `std::getline` returns one after the other; there is no empty line after the last line feed. `cur` is the
current line in reverse. -/
def getLines (cur : Str) : Str → List Str
  | [] => if cur = [] then [] else [cur.reverse]
  | c :: s => if c = '\n' then cur.reverse :: getLines [] s else getLines (c :: cur) s

/-- `while (p.getLine(spo))` (ParallelParseBuffer.h:43-55 as used in Index.cpp:153-190): the triples, or the first exception. -/
def readLines (parse : Str → Outcome Triple) : List Str → Outcome (List Triple)
  | [] => .ok []
  | l :: ls => match parse l with
    | .ok t => (readLines parse ls).map (t :: ·)
    | .throw => .throw
    | .ub => .ub
    | .diverge => .diverge

def readNTriples (text : Str) : Outcome (List Triple) := readLines parseLine (getLines [] text)
def readTsv (text : Str) : Outcome (List Triple) := readLines (fun l => .ok (parseTsv l)) (getLines [] text)

end Verif.NTriples
