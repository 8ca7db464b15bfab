import Verif.Model.Outcome
/-
Model of the time limits of queries: classes `Timer` and `TimeoutTimer` (/repo/src/util/Timer.h), the parameter `timeout` of the
server (/repo/src/engine/Server.cpp), and the checks made by operations (/repo/src/engine/Operation.h, Operation.cpp).

Simplifications: every reading of the clock by `gettimeofday` is an argument, so nothing is assumed about the clock.  `off_t` does
not overflow (except in the conversion of the parameter).  `atof` reads an optional sign, digits and optionally a point and more
digits; white space in front, exponents, hexadecimal numbers, "inf" and "nan" are left out, and the product with a million is exact.
Time measured through `Synchronized` is one sequence of calls in the order in which threads get the lock.
-/
namespace Verif.Timeout

/-- `struct timeval`: seconds and microseconds of a reading of the clock -/
structure TimeVal where
  sec : Int
  usec : Int
  deriving DecidableEq, Repr

/-- `class Timer`, Timer.h:22-42.  `_tend` is only used inside `stop`. -/
structure Timer where
  usecs : Int
  atMark : Int
  tstart : TimeVal
  running : Bool
  deriving DecidableEq, Repr

/-- `reset`, Timer.h:49-52; the start time is kept. -/
def Timer.reset (t : Timer) : Timer := { t with usecs := 0, atMark := 0, running := false }

/-- `start`, Timer.h:63-67 -/
def Timer.start (_ : Timer) (now : TimeVal) : Timer := ⟨0, 0, now, true⟩

/-- `cont`, Timer.h:71-76 -/
def Timer.cont (t : Timer) (now : TimeVal) : Timer := if t.running = false then { t with tstart := now, running := true } else t

/-- `stop`, Timer.h:79-86 -/
def Timer.stop (t : Timer) (now : TimeVal) : Timer :=
  { t with
    usecs := if t.running then t.usecs + (1000000 * (now.sec - t.tstart.sec) + (now.usec - t.tstart.usec)) else t.usecs
    running := false }

/-- `mark`, Timer.h:56-60 -/
def Timer.mark (t : Timer) (a b : TimeVal) : Timer :=
  let s := t.stop a
  { s with atMark := s.usecs }.cont b

/-- `msecs`, Timer.h:96; the division of C++ rounds towards zero -/
def Timer.msecs (t : Timer) : Int := t.usecs.tdiv 1000

/-- `usecs_since_mark`, Timer.h:101 -/
def Timer.sinceMark (t : Timer) : Int := t.usecs - t.atMark

/-- `class TimeoutTimer`, Timer.h:116, 180-186 -/
structure TimeoutTimer where
  timer : Timer
  limit : Int
  unlimited : Bool
  deriving DecidableEq, Repr

/-- `TimeoutTimer::unlimited`, Timer.h:119, 184 -/
def TimeoutTimer.never : TimeoutTimer := ⟨⟨0, 0, ⟨0, 0⟩, false⟩, 0, true⟩

/-- `TimeoutTimer::fromMicroseconds`, Timer.h:121-123, 185-186 -/
def TimeoutTimer.fromMicroseconds (limit : Int) : TimeoutTimer := ⟨⟨0, 0, ⟨0, 0⟩, false⟩, limit, false⟩

/-- `start` on the base class -/
def TimeoutTimer.start (T : TimeoutTimer) (now : TimeVal) : TimeoutTimer := { T with timer := T.timer.start now }

/-- `hasTimedOut`, Timer.h:135-147.  The clock is read by `stop` and by `cont` (used only if the timer was running). -/
def TimeoutTimer.hasTimedOut (T : TimeoutTimer) (a b : TimeVal) : Bool × TimeoutTimer :=
  if T.unlimited then (false, T)
  else
    let s := T.timer.stop a
    (decide (s.usecs > T.limit), { T with timer := if T.timer.running then s.cont b else s })

/-- `remainingMicroseconds`, Timer.h:165-178 -/
def TimeoutTimer.remaining (T : TimeoutTimer) (a b : TimeVal) : Int × TimeoutTimer :=
  if T.unlimited then (2 ^ 63 - 1, T)
  else
    let s := T.timer.stop a
    (if s.usecs > T.limit then 0 else T.limit - s.usecs, { T with timer := if T.timer.running then s.cont b else s })

/-- `Operation::checkTimeout`, Operation.cpp:147-151, and `checkTimeoutAndThrow`, Timer.h:151-163 -/
def TimeoutTimer.check (T : TimeoutTimer) (a b : TimeVal) : Outcome TimeoutTimer :=
  if (T.hasTimedOut a b).1 then .throw else .ok (T.hasTimedOut a b).2

/-- The function made by `checkTimeoutAfterNCallsFactory`, Operation.h:143-155: state is the counter and the timer, `inc` is the
argument.  The clock is only read if the timer is checked. -/
def afterNCalls (N : Nat) (s : Nat × TimeoutTimer) (inc : Nat) (a b : TimeVal) : Outcome (Nat × TimeoutTimer) :=
  let i := s.1 + inc
  if i ≥ N then do
    let T ← s.2.check a b
    .ok (0, T)
  else .ok (i, s.2)

/-- A loop that calls this function with the given arguments and readings, for example Join.cpp:525-576 -/
def loop (N : Nat) : Nat × TimeoutTimer → List (Nat × TimeVal × TimeVal) → Outcome (Nat × TimeoutTimer)
  | s, [] => .ok s
  | s, c :: cs => do
    let s' ← afterNCalls N s c.1 c.2.1 c.2.2
    loop N s' cs

/-- What `computeResult` of an operation and of its inputs does to the shared timer: checks that throw (Operation.cpp:93-105,
147-151, Operation.h:150) and readings of the remaining time (Sort.cpp:54-56, OrderBy.cpp:81-83). -/
inductive Use where
  | check (a b : TimeVal)
  | remaining (a b : TimeVal)
  deriving DecidableEq, Repr

def uses : TimeoutTimer → List Use → Outcome TimeoutTimer
  | T, [] => .ok T
  | T, .check a b :: l => do
    let T' ← T.check a b
    uses T' l
  | T, .remaining a b :: l => uses (T.remaining a b).2 l

/-- `computeLambda` in `Operation::getResult`, Operation.cpp:91-109: a check, the computation, a check -/
def computed (T : TimeoutTimer) (before : TimeVal × TimeVal) (body : List Use) (after : TimeVal × TimeVal) : Outcome TimeoutTimer := do
  let T ← T.check before.1 before.2
  let T ← uses T body
  T.check after.1 after.2

/-- the value of digits -/
def digitsValue (l : List Char) : Nat := l.foldl (fun acc c => 10 * acc + (c.toNat - 48)) 0

/-- the sign that `atof` reads -/
def splitSign : List Char → Bool × List Char
  | '-' :: l => (true, l)
  | '+' :: l => (false, l)
  | l => (false, l)

/-- the digits that `atof` reads behind the point -/
def fraction : List Char → List Char
  | '.' :: l => l.takeWhile Char.isDigit
  | _ => []

/-- `static_cast<off_t>(atof(text) * 1000 * 1000)`, Server.cpp:180-181 and Timer.h:129-131.  A value that does not fit into
`off_t` is undefined behaviour. -/
def microseconds (text : List Char) : Outcome Int :=
  let l := (splitSign text).2
  let f := fraction (l.dropWhile Char.isDigit)
  let m := digitsValue (l.takeWhile Char.isDigit ++ f) * 1000000 / 10 ^ f.length
  let v : Int := if (splitSign text).1 then -(m : Int) else m
  if -(2 ^ 63) ≤ v ∧ v < 2 ^ 63 then .ok v else .ub

/-- The timer of a query: Server.cpp:175-182, started at Server.cpp:213 -/
def queryTimer (timeout : Option (List Char)) (now : TimeVal) : Outcome TimeoutTimer :=
  match timeout with
  | none => .ok (TimeoutTimer.never.start now)
  | some text => do
    let m ← microseconds text
    .ok ((TimeoutTimer.fromMicroseconds m).start now)

/-- The computations of scans with one variable while the query is planned (IndexScan.cpp:306-320): every operation has its own
timer without a limit (Operation.h:134-136) until the shared one is set, which happens after planning (Server.cpp:215-219). -/
def planned : List ((TimeVal × TimeVal) × List Use × (TimeVal × TimeVal)) → Outcome Unit
  | [] => .ok ()
  | s :: l => do
    let _ ← computed TimeoutTimer.never s.1 s.2.1 s.2.2
    planned l

/-- A query whose result is not in the cache, Server.cpp:213-241: start of the timer, planning, computation of the root -/
def query (timeout : Option (List Char)) (start : TimeVal) (scans : List ((TimeVal × TimeVal) × List Use × (TimeVal × TimeVal)))
    (before : TimeVal × TimeVal) (body : List Use) (after : TimeVal × TimeVal) : Outcome TimeoutTimer := do
  let T ← queryTimer timeout start
  let _ ← planned scans
  computed T before body after

end Verif.Timeout
