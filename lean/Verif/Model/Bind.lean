import Verif.Model.GroupBy
/-
Model of BIND: `Bind::computeResult` and its three variants, `/repo/src/engine/Bind.cpp`.

Simplifications: `float` is an abstract type with the operations that the code uses; strings behind ids are abstract
functions (`GroupBy.Env`). The memory of a new table is zero (`/repo/src/engine/IdTable.h:1087`), so that writing the four
bytes of a `float` to a cell gives `toBits`.
-/
namespace Verif.Bind
open Outcome Verif.ResultTable

/-- What BIND uses of `float` in addition to GROUP BY. -/
structure Env (F : Type) extends GroupBy.Env F where
  sub : F → F → F
  mul : F → F → F
  div : F → F → F
  /-- `x == y` -/
  eq : F → F → Bool

/-- `GraphPatternOperation::Bind::_expressionVariant` (`/repo/src/parser/ParsedQuery.h:397-439`) with the columns of the
variables; a constant is an integer (VERBATIM) or a word (KB). -/
inductive Expr where
  | binary (op : Char) (col1 col2 : Nat)
  | rename (col : Nat)
  | int (val : Int)
  | word (w : List Char)

/-- `std::strtoll` for the text of an integer, `/repo/src/parser/SparqlParser.cpp:309`. -/
def strtoll (n : Int) : Int := if n < -2 ^ 63 then -2 ^ 63 else if n ≥ 2 ^ 63 then 2 ^ 63 - 1 else n

/-- `value = ptr->_intValue`, `Bind.cpp:156`: conversion of `int64_t` to `Id`. -/
def intToId (n : Int) : Nat := (n % 2 ^ 64).toNat

/-- The copy of the first columns of a row, `Bind.cpp:209-211, 259-261, 280-282`. -/
def copyRow (row : List Nat) : Nat → Outcome (List Nat)
  | 0 => .ok []
  | j + 1 => (copyRow row j).bind fun l => (read row j).map fun x => l ++ [x]

variable {F : Type}

/-- What the loop over the operands does with a value, `Bind.cpp:217-234`. -/
inductive Operand (F : Type) where
  | value (x : F)
  | noValue
  | stop

def operand (env : Env F) (type : RT) (id : Nat) : Operand F :=
  match type with
  | .verbatim => .value (env.ofId id)
  | .float => .value (env.ofBits id)
  | .text | .localVocab => .noValue
  | .kb => if !env.isFloatWord (env.word id) then .stop else .value (env.wordToFloat (env.word id))

/-- The loop over the two operands, `Bind.cpp:212-236`. -/
def operands (env : Env F) (type1 type2 : RT) (row : List Nat) (col1 col2 : Nat) : Outcome (F × F) :=
  (read row col1).bind fun id1 =>
  match operand env type1 id1 with
  | .stop => .ok (env.nan, env.nan)
  | o1 =>
    let v1 := match o1 with | .value x => x | _ => env.nan
    (read row col2).map fun id2 =>
    match operand env type2 id2 with
    | .value x => (v1, x)
    | _ => (v1, env.nan)

/-- The table of operations, `Bind.cpp:197-204`; `none` if the operator is not found. -/
def operation (env : Env F) : Char → Option (F → F → F)
  | '+' => some env.add
  | '-' => some env.sub
  | '*' => some env.mul
  | '/' => some env.div
  | _ => none

/-- `Bind.cpp:237-241`. -/
def opResult (env : Env F) (op : Char) (f : F → F → F) (v : F × F) : F :=
  let invalid := env.eq v.1 env.nan || env.eq v.2 env.nan || (op == '/' && env.eq v.2 env.zero)
  if invalid then env.nan else f v.1 v.2

/-- The loop over all rows, `Bind.cpp:206-243, 257-264, 278-285`; `cell` computes the new cell. -/
def bindRows (width : Nat) (cell : List Nat → Outcome Nat) : Table → Outcome Table
  | [] => .ok []
  | row :: rows =>
    (copyRow row width).bind fun l => (cell row).bind fun x => (bindRows width cell rows).map fun rest => (l ++ [x]) :: rest

/-- `Bind::computeResult`, `Bind.cpp:118-181`; `width` is the number of columns of the input, `getId` the vocabulary. -/
def computeResult (env : Env F) (getId : List Char → Option Nat) (width : Nat) (e : Expr) (sub : Result) : Outcome Result :=
  match e with
  | .binary op c1 c2 =>
    (read sub.types c1).bind fun t1 => (read sub.types c2).bind fun t2 =>
    match operation env op with
    | none => .throw
    | some f =>
      (bindRows width (fun row => (operands env t1 t2 row c1 c2).map fun v => env.toBits (opResult env op f v)) sub.data).map
        fun d => ⟨d, sub.types ++ [.float], sub.localVocab⟩
  | .rename c =>
    (read sub.types c).bind fun t =>
    (bindRows width (fun row => read row c) sub.data).map fun d => ⟨d, sub.types ++ [t], sub.localVocab⟩
  | .int n =>
    (bindRows width (fun _ => .ok (intToId n)) sub.data).map fun d => ⟨d, sub.types ++ [.verbatim], sub.localVocab⟩
  | .word w =>
    match getId w with
    | none => .throw
    | some id => (bindRows width (fun _ => .ok id) sub.data).map fun d => ⟨d, sub.types ++ [.kb], sub.localVocab⟩

end Verif.Bind
