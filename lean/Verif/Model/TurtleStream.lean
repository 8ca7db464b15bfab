import Verif.Model.Turtle
/-
Model of how Turtle files are read: `TurtleStreamParser` and `TurtleMmapParser` (`src/parser/TurtleParser.{h,cpp}`) and the
blocks of `ParallelFileBuffer` (`src/parser/ParallelBuffer.h`).  A file is given by its blocks, which are cut between two
characters (in the code also inside one that has several bytes).  Exceptions of all kinds are `throw`.  Not modelled:
logging, the positions in error messages, and reading ahead in another thread.
-/
namespace Verif.Turtle

/-- The number of bytes of a text. -/
def byteSize (s : Str) : Nat := (s.map Char.utf8Size).sum

/-- `TurtleStreamParser` (TurtleParser.h:332-393): the parser with the bytes it can see, the blocks not yet read, and
`_isParserExhausted`. -/
structure Stream where
  st : State
  blocks : List Str
  exhausted : Bool := false

/-- `TurtleParserBackupState` (TurtleParser.h:337-342) -/
structure Backup where
  numBlank : Nat
  numTriples : Nat
  input : Str

/-- `initialize` (TurtleParser.cpp:548-562): the first block is read. -/
def Stream.init : List Str → Stream
  | [] => { st := { input := [] }, blocks := [] }
  | b :: bs => { st := { input := b }, blocks := bs }

/-- `backupState` (TurtleParser.cpp:442-451) -/
def Stream.backup (x : Stream) : Backup :=
  { numBlank := x.st.numBlank, numTriples := x.st.triples.length, input := x.st.input }

/-- `resetStateAndRead` (TurtleParser.cpp:454-491).  An empty block means the end of the file. The prefixes are not reset, nor
is what was parsed last. -/
def resetAndRead (b : Backup) (x : Stream) : Outcome (Option (Backup × Stream)) :=
  match x.blocks with
  | [] => .ok none
  | [] :: _ => .ok none
  | next :: bs =>
    if x.st.triples.length < b.numTriples then .throw
    else
      let st := { x.st with numBlank := b.numBlank, triples := x.st.triples.take b.numTriples, input := b.input ++ next }
      let x' := { x with st := st, blocks := bs }
      .ok (some (x'.backup, x'))

/-- What happens when no statement could be read (TurtleParser.cpp:590-645). `raised` says whether there was an exception,
`next` is the loop. -/
def retry (max : Nat) (next : Backup → Stream → Outcome Stream) (b : Backup) (raised : Bool) (x : Stream) : Outcome Stream :=
  match resetAndRead b x with
  | .ok (some (b', x')) => if max < byteSize x'.st.input then .throw else next b' x'
  | .ok none =>
    if raised then .throw else .ok { x with st := { x.st with input := skipWC x.st.input }, exhausted := true }
  | .throw => .throw
  | .ub => .ub
  | .diverge => .diverge

/-- The loop of `TurtleStreamParser::getLine` (TurtleParser.cpp:572-646) until there are `min` triples; `fuel` bounds the depth
of calls in the parser and the last number that of iterations. -/
def fill (e : Escapes) (fuel min max : Nat) : Nat → Backup → Stream → Outcome Stream
  | 0, _, _ => .diverge
  | n + 1, b, x =>
    if x.st.triples.length < min ∧ x.exhausted = false then
      match statement e fuel x.st with
      | .ok true s => fill e fuel min max n b { x with st := s }
      | .ok false s => retry max (fill e fuel min max n) b false { x with st := s }
      | .error s => retry max (fill e fuel min max n) b true { x with st := s }
      | .abort => .throw
      | .ub => .ub
      | .diverge => .diverge
    else .ok x

/-- `*triple = _triples.back(); _triples.pop_back();`, or `false` (TurtleParser.cpp:649-656). -/
def pop (x : Stream) : Option Triple × Stream :=
  match x.st.triples.getLast? with
  | none => (none, x)
  | some t => (some t, { x with st := { x.st with triples := x.st.triples.dropLast } })

/-- `TurtleStreamParser::getLine` (TurtleParser.cpp:565-657) -/
def streamGetLine (e : Escapes) (fuel loops min max : Nat) (x : Stream) : Outcome (Option Triple × Stream) :=
  if x.st.triples = [] then
    match fill e fuel min max loops x.backup x with
    | .ok y => .ok (pop y)
    | .throw => .throw
    | .ub => .ub
    | .diverge => .diverge
  else .ok (pop x)

/-- The loop of `TurtleMmapParser::getLine` (TurtleParser.cpp:513-536): it ends as soon as a statement was read. -/
def mmapFill (e : Escapes) (fuel min : Nat) : Nat → Stream → Outcome Stream
  | 0, _ => .diverge
  | n + 1, x =>
    if x.st.triples.length < min ∧ x.exhausted = false then
      match statement e fuel x.st with
      | .ok true s => .ok { x with st := { s with input := skipWC s.input }, exhausted := true }
      | .ok false s => mmapFill e fuel min n { x with st := s }
      | .error _ => .throw
      | .abort => .throw
      | .ub => .ub
      | .diverge => .diverge
    else .ok x

/-- `TurtleMmapParser::getLine` (TurtleParser.cpp:512-546) -/
def mmapGetLine (e : Escapes) (fuel loops min : Nat) (x : Stream) : Outcome (Option Triple × Stream) :=
  if x.st.triples = [] then
    match mmapFill e fuel min loops x with
    | .ok y => .ok (pop y)
    | .throw => .throw
    | .ub => .ub
    | .diverge => .diverge
  else .ok (pop x)

/-- `while (p.getLine(triple))` (TurtleParserMain.cpp:30, ParallelParseBuffer.h:43-55); the number bounds the calls. -/
def readAll (getLine : Stream → Outcome (Option Triple × Stream)) : Nat → Stream → Outcome (List Triple)
  | 0, _ => .diverge
  | n + 1, x => match getLine x with
    | .ok (none, _) => .ok []
    | .ok (some t, y) => (readAll getLine n y).map (t :: ·)
    | .throw => .throw
    | .ub => .ub
    | .diverge => .diverge

end Verif.Turtle
