import Verif.Model.Outcome
/-
Model of `src/parser/RdfEscaping.cpp`.  Strings are lists of characters (a character stands for one byte).
The conversion of hexadecimal digits to UTF-8 (RdfEscaping.cpp:20-28, library code) is a parameter `hex`.
-/
namespace Verif.RdfEscaping

/-- The template parameters of `unescapeStringAndNumericEscapes` (RdfEscaping.cpp:37-43); the combination
`true, true` is excluded by the `static_assert`. -/
structure Mode where
  acceptOnlyNumericEscapes : Bool
  acceptOnlyBackslashAndNewline : Bool

/-- `pushNewlineOrBackslash` (RdfEscaping.cpp:47-59) is allowed? -/
def Mode.newlineOk (m : Mode) : Bool := !m.acceptOnlyNumericEscapes || m.acceptOnlyBackslashAndNewline
/-- `pushOtherStringEscape` (RdfEscaping.cpp:63-73) is allowed? -/
def Mode.otherOk (m : Mode) : Bool := !m.acceptOnlyNumericEscapes && !m.acceptOnlyBackslashAndNewline
/-- `pushNumericEscape` (RdfEscaping.cpp:78-92) is allowed? -/
def Mode.numericOk (m : Mode) : Bool := !m.acceptOnlyBackslashAndNewline

/-- `unescapeStringAndNumericEscapes` (RdfEscaping.cpp:37-144).  Simplification: the output is built character by
character instead of copying the stretch up to the next backslash (lines 95-99) at once. -/
def unescapeGen (m : Mode) (hex : List Char → List Char) (s : List Char) : Outcome (List Char) :=
  match s with
  | [] => .ok []
  | c :: cs =>
    if c ≠ '\\' then (unescapeGen m hex cs).map (c :: ·)
    else
      match cs with
      | [] => .throw            -- line 100: AD_CHECK(nextBackslashIterator + 1 < endIterator)
      | e :: rest =>
        let push (ok : Bool) (x : Char) : Outcome (List Char) :=
          if ok then (unescapeGen m hex rest).map (x :: ·) else .throw
        let num (len : Nat) : Outcome (List Char) :=
          if m.numericOk then
            -- line 80: AD_CHECK(iterator + length < endIterator)
            if len < rest.length then
              (unescapeGen m hex (rest.drop len)).map (hex (rest.take len) ++ ·)
            else .throw
          else .throw
        if e = 't' then push m.otherOk '\t'
        else if e = 'n' then push m.newlineOk '\n'
        else if e = 'r' then push m.otherOk '\r'
        else if e = 'b' then push m.otherOk '\x08'
        else if e = 'f' then push m.otherOk '\x0c'
        else if e = '"' then push m.otherOk '"'
        else if e = '\'' then push m.otherOk '\''
        else if e = '\\' then push m.newlineOk '\\'
        else if e = 'u' then num 4
        else if e = 'U' then num 8
        else .throw
termination_by s.length
decreasing_by
  all_goals simp_wf
  all_goals omega

/-- `unescapeNewlinesAndBackslashes` (RdfEscaping.cpp:148-153). -/
def unescapeNB (s : List Char) : Outcome (List Char) :=
  unescapeGen ⟨false, true⟩ (fun _ => []) s

/-- `escapeNewlinesAndBackslashes` (RdfEscaping.cpp:156-178).  Simplification: character by character. -/
def escapeNB : List Char → List Char
  | [] => []
  | c :: cs =>
    if c = '\n' then '\\' :: 'n' :: escapeNB cs
    else if c = '\\' then '\\' :: '\\' :: escapeNB cs
    else c :: escapeNB cs

/-- `ad_utility::startsWith` (StringUtils.h). -/
def startsWith (s p : List Char) : Bool := p.isPrefixOf s
/-- `ad_utility::endsWith` (StringUtils.h). -/
def endsWith (s p : List Char) : Bool := p.isSuffixOf s

/-- `remove_prefix(n); remove_suffix(n)` on a `string_view`: undefined behaviour if longer than the view. -/
def removeBoth (n : Nat) (s : List Char) : Outcome (List Char) :=
  if n + n ≤ s.length then .ok ((s.drop n).take (s.length - n - n)) else .ub

/-- `normalizeRDFLiteral` (RdfEscaping.cpp:181-209). -/
def normalizeRDFLiteral (hex : List Char → List Char) (lit : List Char) : Outcome (List Char) :=
  let inner : Outcome (List Char) :=
    if startsWith lit ['"', '"', '"'] || startsWith lit ['\'', '\'', '\''] then
      if endsWith lit (lit.take 3) then removeBoth 3 lit else .throw
    else if startsWith lit ['"'] || startsWith lit ['\''] then
      if endsWith lit (lit.take 1) then removeBoth 1 lit else .throw
    else .throw
  inner.bind fun s =>
    (unescapeGen ⟨false, false⟩ hex s).map fun r => ['"'] ++ r ++ ['"']

/-- `unescapeIriref` (RdfEscaping.cpp:219-231). -/
def unescapeIriref (hex : List Char → List Char) (iri : List Char) : Outcome (List Char) :=
  if startsWith iri ['<'] then
    if endsWith iri ['>'] then
      (removeBoth 1 iri).bind fun s =>
        (unescapeGen ⟨true, false⟩ hex s).map fun r => ['<'] ++ r ++ ['>']
    else .throw
  else .throw

/-- The characters that may be escaped in a prefixed name (RdfEscaping.cpp:236-238). -/
def reserved : List Char :=
  ['_', '~', '.', '-', '-', '!', '$', '&', '\'', '(', ')', '*', '+', ',', ';', '=', '/', '?', '#', '@', '%']

/-- `unescapePrefixedIri` (RdfEscaping.cpp:234-253). -/
def unescapePrefixedIri : List Char → Outcome (List Char)
  | [] => .ok []
  | c :: cs =>
    if c ≠ '\\' then (unescapePrefixedIri cs).map (c :: ·)
    else
      match cs with
      | [] => .throw
      | e :: rest => if e ∈ reserved then (unescapePrefixedIri rest).map (e :: ·) else .throw

end Verif.RdfEscaping
