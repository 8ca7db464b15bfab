import Mathlib.Data.Rat.Defs
import Verif.Model.Outcome
import Verif.Model.ExternalVocabulary
/-
Model of the conversion of typed literals to index words and back (/repo/src/util/Conversions.h).

Strings are lists of characters, a character stands for one byte.  Assertions (`assert`) are off, as in the build type Release.
Strings are taken to be shorter than 2^31 characters, so that positions fit into an `int`.
-/
namespace Verif.Conversions
open Verif.ExternalVocabulary (Word)

/-- `VALUE_FLOAT_PREFIX` (Constants.h:58), `:v:float:`. -/
def floatPrefix : Word := [':', 'v', ':', 'f', 'l', 'o', 'a', 't', ':']

/-- `VALUE_DATE_PREFIX` (Constants.h:57), `:v:date:`. -/
def datePrefix : Word := [':', 'v', ':', 'd', 'a', 't', 'e', ':']

/-- The character that an output stream writes for a number below 10. -/
def digitChar (d : Nat) : Char := Char.ofNat (48 + d)

/-- `std::ostream << int` for a number that is not negative: digits of quotients, with a bound on their number. -/
def decimalAux : Nat → Nat → Word
  | 0, n => [digitChar n]
  | bound + 1, n => if n < 10 then [digitChar n] else decimalAux bound (n / 10) ++ [digitChar (n % 10)]

/-- `std::ostream << int` for a number that is not negative. -/
def decimal (n : Nat) : Word := decimalAux n n

/-- `atoi` of a string of one character: 0 if it is not a digit. -/
def atoi1 (c : Char) : Nat := if '0' ≤ c ∧ c ≤ '9' then c.toNat - 48 else 0

/-- `atoi`: the digits at the beginning; a value that does not fit into an `int` is undefined.  Signs and spaces do not occur where the
function is called. -/
def atoi (w : Word) : Outcome Nat :=
  let n := (w.takeWhile fun c => '0' ≤ c ∧ c ≤ '9').foldl (fun n c => 10 * n + atoi1 c) 0
  if n < 2 ^ 31 then .ok n else .ub

/-- `getBase10ComplementOfIntegerString` (Conversions.h:582-588). -/
def complement (w : Word) : Word := w.map fun c => digitChar (9 - atoi1 c)

/-- `NumericType` (Conversions.h:45-50). -/
inductive NumericType where
  | integer | float | double | decimal
  deriving DecidableEq, Repr

/-- `char(type)` (Conversions.h:45-50). -/
def NumericType.char : NumericType → Char
  | .integer => 'I'
  | .float => 'F'
  | .double => 'D'
  | .decimal => 'T'

/-- The exponent (Conversions.h:231-245). -/
def exponentOf (value : Word) (posOfDot : Nat) : Int :=
  if posOfDot ≤ 1 ∧ value.head? = some '0' then
    let zeros := ((value.drop 2).takeWhile (· = '0')).length
    if 2 + zeros = value.length then -1 else -1 - (zeros : Int)
  else (posOfDot : Int) - 1

/-- The digits of the mantissa (Conversions.h:276-288): every character other than a dot, complemented for negative numbers. -/
def mantissaOf (value : Word) (negaMantissa : Bool) : Word :=
  let ds := value.filter (· ≠ '.')
  if negaMantissa then complement ds else ds

/-- `convertFloatStringToIndexWord` for a string with a dot, without the sign `+` (Conversions.h:216-303). -/
def floatWordDot (value : Word) (posOfDot : Nat) (type : NumericType) : Outcome Word :=
  if value = ['0', '.', '0'] ∨ value = ['-', '0', '.', '0'] then .ok (floatPrefix ++ ['N', '0', type.char])
  else
    let negaMantissa : Bool := value.head? = some '-'
    let value := if negaMantissa then value.drop 1 else value
    let posOfDot := if negaMantissa then posOfDot - 1 else posOfDot
    let exponent := exponentOf value posOfDot
    let negaExpo : Bool := exponent < 0
    let expoString := if negaMantissa != negaExpo then complement (decimal exponent.natAbs) else decimal exponent.natAbs
    if expoString.length < 20 then
      let mant := mantissaOf value negaMantissa
      .ok (floatPrefix ++ [if negaMantissa then 'M' else 'P']
        ++ [if negaMantissa then (if negaExpo then '-' else '+') else (if negaExpo then 'M' else 'P')]
        ++ List.replicate (20 - expoString.length) (if negaExpo == negaMantissa then '0' else '9') ++ expoString
        ++ ['E'] ++ mant.take 30 ++ List.replicate (30 - mant.length) (if negaMantissa then '9' else '0') ++ [type.char])
    else .throw

/-- Without the sign `+` at the beginning (Conversions.h:205-210). -/
def stripPlus (w : Word) : Word := if w.head? = some '+' then w.drop 1 else w

/-- `convertFloatStringToIndexWord` (Conversions.h:201-303).  The recursive call of line 213 finds a dot. -/
def floatWord (orig : Word) (type : NumericType) : Outcome Word :=
  let value := stripPlus orig
  match value.findIdx? (· = '.') with
  | some posOfDot => floatWordDot value posOfDot type
  | none =>
    let value := stripPlus (value ++ ['.', '0'])
    floatWordDot value (value.findIdx (· = '.')) type

/-- The loop that writes the digits of a number with an exponent that is not negative (Conversions.h:360-379): `os` and `zeros` are the
two streams. -/
def writeDigits (absExponent : Nat) : Word → Nat → Word → Word → Word
  | [], _, os, _ => os
  | c :: cs, tenToThe, os, zeros =>
    let os' := if c = '0' then os else os ++ zeros ++ [c]
    let zeros' := if c = '0' then zeros ++ ['0'] else []
    if tenToThe = absExponent then writeDigits absExponent cs (tenToThe + 1) (os' ++ zeros' ++ ['.']) []
    else writeDigits absExponent cs (tenToThe + 1) os' zeros'

/-- `rstrip(s, '0')`. -/
def rstripZeros (w : Word) : Word := (w.reverse.dropWhile (· = '0')).reverse

/-- The parts of an index word (Conversions.h:307-332 and 396-419): the signs of mantissa and exponent, the absolute value of the
exponent, and the digits of the mantissa. -/
structure Parts where
  negaMantissa : Bool
  negaExponent : Bool
  absExponent : Nat
  mantissa : Word
  deriving DecidableEq, Repr

/-- Taking an index word apart (Conversions.h:307-332 and 396-419); `none` for zero.  A word without `E`, or with less than two characters before it,
violates the assertions of the code. -/
def parts (indexWord : Word) : Outcome (Option Parts) :=
  if indexWord.length > floatPrefix.length + 1 then
    let number := (indexWord.drop floatPrefix.length).take (indexWord.length - floatPrefix.length - 1)
    if number = ['N', '0'] then .ok none
    else match number.findIdx? (· = 'E') with
      | none => .ub
      | some posOfE =>
        if posOfE < 2 then .ub
        else
          let negaMantissa : Bool := number.head? = some 'M'
          let negaExponent : Bool := number[1]? = some 'M' || number[1]? = some '-'
          let expo := (number.drop 2).take (posOfE - 2)
          let mant := number.drop (posOfE + 1)
          (atoi (if negaMantissa == negaExponent then expo else complement expo)).map fun absExponent =>
            some ⟨negaMantissa, negaExponent, absExponent, if negaMantissa then complement mant else mant⟩
  else .throw

/-- `convertIndexWordToFloatString` (Conversions.h:306-392).  With a negative exponent of absolute value zero, `--absExponent` gives
2^64-1, and the memory is exhausted; `back()` of an empty string is undefined. -/
def floatString (indexWord : Word) : Outcome Word :=
  (parts indexWord).bind fun
  | none => .ok ['0', '.', '0']
  | some p =>
    let sign : Word := if p.negaMantissa then ['-'] else []
    let digits := p.mantissa.dropWhile (· = '0')
    if p.negaExponent then
      if p.absExponent = 0 then .throw
      else .ok (sign ++ ['0', '.'] ++ List.replicate (p.absExponent - 1) '0' ++ rstripZeros digits)
    else
      let os := writeDigits p.absExponent digits 0 sign []
      match os.getLast? with
      | none => .ub
      | some last =>
        .ok (os ++ (if last = '.' then ['0'] else []) ++ List.replicate (p.absExponent - p.mantissa.length) '0')

/-- `stol`: throws without a digit at the beginning and for values from 2^63. -/
def stol (w : Word) : Outcome Nat :=
  let ds := w.takeWhile fun c => '0' ≤ c ∧ c ≤ '9'
  if ds = [] then .throw
  else
    let n := ds.foldl (fun n c => 10 * n + atoi1 c) 0
    if n < 2 ^ 63 then .ok n else .throw

/-- `convertIndexWordToFloat` (Conversions.h:395-443).  Simplified: the products and powers are exact instead of rounded; `log10 n` stands
for `std::log10(n)` converted to `unsigned int`. -/
def toFloat (log10 : Nat → Nat) (indexWord : Word) : Outcome ℚ :=
  (parts indexWord).bind fun
  | none => .ok 0
  | some p =>
    let rest := p.mantissa.dropWhile (· = '0')
    let digits := if rest = [] then [] else rstripZeros rest
    (stol digits).map fun absMantissa =>
      let expo : Int := if p.negaExponent then -(p.absExponent : Int) - log10 absMantissa else (p.absExponent : Int) - log10 absMantissa
      (if p.negaMantissa then -(absMantissa : ℚ) else absMantissa) * (10 : ℚ) ^ expo

/-- `isNumeric` (Conversions.h:616-630). -/
def isNumeric (val : Word) : Bool :=
  match val with
  | [] => false
  | c :: cs =>
    let rest := (if c = '-' ∨ c = '+' then cs else c :: cs).dropWhile fun c => '0' ≤ c ∧ c ≤ '9'
    match rest with
    | [] => true
    | d :: ds => d = '.' && !ds.isEmpty && ds.all fun c => '0' ≤ c ∧ c ≤ '9'

/-- `convertNumericToIndexWord` (Conversions.h:633-641). -/
def numericWord (val : Word) : Outcome Word :=
  if '.' ∈ val then floatWord val .float else floatWord (val ++ ['.', '0']) .integer

/-- The last position of a character. -/
def rfind (c : Char) (w : Word) : Option Nat := (w.reverse.findIdx? (· = c)).map fun i => w.length - 1 - i

/-- `isXsdValue` (Conversions.h:606-613). -/
def isXsdValue (val : Word) : Bool :=
  match rfind '"' val with
  | none => false
  | some q => val.head? = some '"' && 0 < q && (val.drop q).tails.any fun t => ['^', '^'].isPrefixOf t

/-- The type of a literal (Conversions.h:116-135): what follows the last `#` up to the final `>`, or what follows the last colon.
Without `#` the position is `npos`, and the type becomes the literal without its last character. -/
def typeOf (orig : Word) : Outcome Word :=
  if orig.getLast? = some '>' then
    match rfind '#' orig with
    | some h => .ok ((orig.drop (h + 1)).take (orig.length - (h + 2)))
    | none => .ok orig.dropLast
  else match rfind ':' orig with
    | some c => .ok (orig.drop (c + 1))
    | none => .throw

/-- The numeric types that are converted, and what is appended to the value (Conversions.h:144-155). -/
def numericType (type : Word) : Option (NumericType × Word) :=
  if type = ['i', 'n', 't'] ∨ type = ['i', 'n', 't', 'e', 'g', 'e', 'r'] then some (.integer, ['.', '0'])
  else if type = ['f', 'l', 'o', 'a', 't'] then some (.float, [])
  else if type = ['d', 'o', 'u', 'b', 'l', 'e'] then some (.double, [])
  else if type = ['d', 'e', 'c', 'i', 'm', 'a', 'l'] then some (.decimal, [])
  else none

/-! ### Dates -/

/-- `value.substr(pos, stop - pos)` for a position in the string; if `stop` is before `pos` the length wraps around, and everything is
taken. -/
def cut (value : Word) (pos stop : Nat) : Word := if pos ≤ stop then (value.drop pos).take (stop - pos) else value.drop pos

/-- `find(c, start)`. -/
def findFrom (c : Char) (w : Word) (start : Nat) : Option Nat := ((w.drop start).findIdx? (· = c)).map (· + start)

/-- There is a character at a position, and it does not begin a time zone (Conversions.h:468-469, 475-476). -/
def noZoneAt (value : Word) (i : Nat) : Bool := i < value.length && value[i]? ≠ some '-' && value[i]? ≠ some '+'

/-- Hour, minute and second (Conversions.h:463-501); `t` is the position of `T`. -/
def timeOf (value : Word) (t : Nat) : Word × Word × Word :=
  let zero : Word := ['0', '0']
  match if noZoneAt value (t + 3) then findFrom ':' value 0 else none with
  | none => ((value.drop (t + 1)).take 2, zero, zero)
  | some f =>
    match if noZoneAt value (f + 3) then findFrom ':' value (f + 1) else none with
    | none => (cut value (t + 1) f, (value.drop (f + 1)).take 2, zero)
    | some s => (cut value (t + 1) f, cut value (f + 1) s, (value.drop (s + 1)).take 2)

/-- Year, month and day (Conversions.h:502-532); `stop` is the position of `T` or the end. -/
def dayOf (value : Word) (stop : Nat) : Word × Word × Word :=
  let zero : Word := ['0', '0']
  match findFrom '-' value 1 with
  | none => (value, zero, zero)
  | some f => match findFrom '-' value (f + 1) with
    | none => (value.take f, cut value (f + 1) stop, zero)
    | some s => (value.take f, cut value (f + 1) s, cut value (s + 1) stop)

/-- The year with 19 characters (Conversions.h:534-546); for longer years the length wraps around, and `append` throws. -/
def padYear (year : Word) : Outcome Word :=
  if year.length ≤ 19 then
    if year.head? = some '-' then .ok ('-' :: List.replicate (19 - year.length) '9' ++ complement (year.drop 1))
    else .ok (List.replicate (19 - year.length) '0' ++ year)
  else .throw

/-- `normalizeDate` (Conversions.h:446-549). -/
def normalizeDate (orig : Word) : Outcome Word :=
  let value := orig.takeWhile (· ≠ 'Z')
  let posOfT := value.findIdx? (· = 'T')
  let time : Word × Word × Word := match posOfT with
    | some t => timeOf value t
    | none => (['0', '0'], ['0', '0'], ['0', '0'])
  let day : Word × Word × Word :=
    if posOfT = some 0 then (['0', '0', '0', '0'], ['0', '0'], ['0', '0']) else dayOf value (posOfT.getD value.length)
  (padYear day.1).map fun year =>
    datePrefix ++ year ++ ['-'] ++ day.2.1 ++ ['-'] ++ day.2.2 ++ ['T'] ++ time.1 ++ [':'] ++ time.2.1 ++ [':'] ++ time.2.2

/-- `convertDateToIndexWord` (Conversions.h:552-564). -/
def dateWord (value : Word) : Outcome Word :=
  (normalizeDate value).map fun norm =>
    if norm.head? = some '-' then '-' :: complement ((norm.drop 1).take 18) ++ norm.drop 19 else norm

/-- `convertIndexWordToDate` (Conversions.h:567-579), for words with at least the prefix; `substr` throws if the word is too short. -/
def wordDate (indexWord : Word) : Outcome Word :=
  let rest := indexWord.drop datePrefix.length
  if rest.head? = some '-' then
    if rest.length < 19 then .throw else .ok ('-' :: complement ((rest.drop 1).take 18) ++ rest.drop 19)
  else .ok rest

/-- The types of dates (Conversions.h:137-138). -/
def isDateType (type : Word) : Bool :=
  type = ['d', 'a', 't', 'e', 'T', 'i', 'm', 'e'] || type = ['g', 'Y', 'e', 'a', 'r']
    || type = ['g', 'Y', 'e', 'a', 'r', 'M', 'o', 'n', 't', 'h'] || type = ['d', 'a', 't', 'e']

/-! ### Literals -/

/-- `convertValueLiteralToIndexWord` (Conversions.h:102-157), for literals that begin with a quote. -/
def valueWord (orig : Word) : Outcome Word :=
  match rfind '"' orig with
  | none => .ub
  | some q =>
    let value := (orig.drop 1).take (q - 1)
    (typeOf orig).bind fun type =>
      if isDateType type then dateWord value
      else match numericType type with
        | some (t, dot) => floatWord (value ++ dot) t
        | none => .ok orig

/-- `"^^<http://www.w3.org/2001/XMLSchema#type>"` (Constants.h:59-67). -/
def xsdSuffix (type : Word) : Word :=
  ['^', '^', '<', 'h', 't', 't', 'p', ':', '/', '/', 'w', 'w', 'w', '.', 'w', '3', '.', 'o', 'r', 'g', '/', '2', '0', '0', '1', '/',
    'X', 'M', 'L', 'S', 'c', 'h', 'e', 'm', 'a', '#'] ++ type ++ ['>']

/-- `removeLeadingZeros` (Conversions.h:591-603), and the zero of lines 164-166. -/
def showDate (date : Word) : Word :=
  let date := date.dropWhile (· = '0')
  if date = [] ∨ date.head? = some 'T' then '0' :: date else date

/-- `convertIndexWordToValueLiteral` (Conversions.h:160-198). -/
def wordValue (indexWord : Word) : Outcome Word :=
  if datePrefix.isPrefixOf indexWord then
    (wordDate indexWord).map fun date => ['"'] ++ showDate date ++ ['"'] ++ xsdSuffix ['d', 'a', 't', 'e', 'T', 'i', 'm', 'e']
  else if floatPrefix.isPrefixOf indexWord then
    let number (type : Word) := (floatString indexWord).map fun s => ['"'] ++ s ++ ['"'] ++ xsdSuffix type
    match indexWord.getLast? with
    | some 'F' => number ['f', 'l', 'o', 'a', 't']
    | some 'D' => number ['d', 'o', 'u', 'b', 'l', 'e']
    | some 'T' => number ['d', 'e', 'c', 'i', 'm', 'a', 'l']
    | some 'I' => (floatString indexWord).map fun s => ['"'] ++ s.takeWhile (· ≠ '.') ++ ['"'] ++ xsdSuffix ['i', 'n', 't']
    | _ => .ok indexWord
  else .ok indexWord

end Verif.Conversions
