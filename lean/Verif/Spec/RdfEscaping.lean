/-
What an escaped text denotes, following the Turtle/SPARQL grammar (ECHAR, UCHAR).  Independent of the model.
-/
namespace Verif.Spec

/-- The character meant by the letter after a backslash (ECHAR of the Turtle grammar). -/
inductive EChar : Char → Char → Prop
  | t : EChar 't' '\t'
  | n : EChar 'n' '\n'
  | r : EChar 'r' '\r'
  | b : EChar 'b' '\x08'
  | f : EChar 'f' '\x0c'
  | dquote : EChar '"' '"'
  | squote : EChar '\'' '\''
  | backslash : EChar '\\' '\\'

/-- `Denotes str hex s v`: the escaped text `s` denotes `v`.  String escapes are allowed iff `str`, numeric escapes
are always allowed and their digits are translated by `hex`. -/
inductive Denotes (str : Bool) (hex : List Char → List Char) : List Char → List Char → Prop
  | nil : Denotes str hex [] []
  | plain {c s v} : c ≠ '\\' → Denotes str hex s v → Denotes str hex (c :: s) (c :: v)
  | echar {e x s v} : str = true → EChar e x → Denotes str hex s v → Denotes str hex ('\\' :: e :: s) (x :: v)
  | u4 {d s v} : d.length = 4 → Denotes str hex s v → Denotes str hex ('\\' :: 'u' :: (d ++ s)) (hex d ++ v)
  | u8 {d s v} : d.length = 8 → Denotes str hex s v → Denotes str hex ('\\' :: 'U' :: (d ++ s)) (hex d ++ v)

/-- Like `Denotes`, but the text does not end directly with a numeric escape. -/
inductive DenotesNoTail (str : Bool) (hex : List Char → List Char) : List Char → List Char → Prop
  | nil : DenotesNoTail str hex [] []
  | plain {c s v} : c ≠ '\\' → DenotesNoTail str hex s v → DenotesNoTail str hex (c :: s) (c :: v)
  | echar {e x s v} : str = true → EChar e x → DenotesNoTail str hex s v →
      DenotesNoTail str hex ('\\' :: e :: s) (x :: v)
  | u4 {d s v} : d.length = 4 → s ≠ [] → DenotesNoTail str hex s v →
      DenotesNoTail str hex ('\\' :: 'u' :: (d ++ s)) (hex d ++ v)
  | u8 {d s v} : d.length = 8 → s ≠ [] → DenotesNoTail str hex s v →
      DenotesNoTail str hex ('\\' :: 'U' :: (d ++ s)) (hex d ++ v)

end Verif.Spec
