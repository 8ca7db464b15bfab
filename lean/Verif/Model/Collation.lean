import Verif.Model.Filter
import Verif.Model.StringUtils
import Verif.Model.VocabularyMerger
/-
Model of the comparison of words and the lookups in the vocabularies: `LocaleManager`, `SimpleStringComparator` and
`TripleComponentComparator` (/repo/src/index/StringSortComparator.h), `Vocabulary` (/repo/src/index/Vocabulary.cpp).

Words are lists of characters, a character stands for one byte.  ICU is not modelled: a collator is given by its sort keys, and
comparing two strings at a level is comparing their sort keys at this level, as the comment at StringSortComparator.h:147-148 says.
Words are shown as they are after expanding the prefix compression (see C04).
-/
namespace Verif.Collation
open Verif.Filter (partitionPoint)
open Verif.StringUtils (findLiteralEnd)
open Verif.ExternalVocabulary (Word)

/-- `LocaleManager::Level` (StringSortComparator.h:29-38). -/
inductive Level where
  | primary | secondary | tertiary | quarternary | identical | total
  deriving DecidableEq, Repr

/-- `_collator[level]` (StringSortComparator.h:265-283): the collator for TOTAL has the strength IDENTICAL. -/
def Level.strength : Level → Level
  | .total => .identical
  | l => l

/-- The collators of a `LocaleManager`: `key level s` are the bytes of the sort key of `s` without the final zero. -/
structure Collator where
  key : Level → Word → List Nat

/-- `std::string::compare`: unsigned bytes from left to right, a proper prefix is smaller. -/
def lexCmp : List Nat → List Nat → Int
  | [], [] => 0
  | [], _ :: _ => -1
  | _ :: _, [] => 1
  | a :: as, b :: bs => if a < b then -1 else if b < a then 1 else lexCmp as bs

/-- `std::strcmp`: the strings end at the first zero byte. -/
def strcmp (a b : List Nat) : Int := lexCmp (a.takeWhile (· ≠ 0)) (b.takeWhile (· ≠ 0))

/-- `compare` of two `std::string`s or `std::string_view`s. -/
def bytesCmp (a b : Word) : Int := lexCmp (a.map Char.toNat) (b.map Char.toNat)

/-- `LocaleManager::compare(string_view, string_view, level)` (StringSortComparator.h:115-123). -/
def Collator.compare (c : Collator) (a b : Word) (level : Level) : Int :=
  lexCmp (c.key level.strength a) (c.key level.strength b)

/-- `LocaleManager::getSortKey` (StringSortComparator.h:150-174): at the level TOTAL the bytes are appended. -/
def Collator.sortKey (c : Collator) (s : Word) (level : Level) : List Nat :=
  c.key level.strength s ++ if level = .total then s.map Char.toNat else []

/-- The last byte plus one, or a zero byte appended (StringSortComparator.h:417-422, 606-611); `back()` of an empty string is
undefined. -/
def bump (key : List Nat) : Outcome (List Nat) :=
  match key.getLast? with
  | none => .ub
  | some last => .ok (if last < 255 then key.dropLast ++ [last + 1] else key ++ [0])

/-! ### `SimpleStringComparator` -/

/-- `SimpleStringComparator::compare` (StringSortComparator.h:367-374): at the level TOTAL, if the collator finds no difference,
the result is that of `a.compare(b) < 0`. -/
def simpleCompare (c : Collator) (a b : Word) (level : Level) : Int :=
  let cmpRes := c.compare a b level
  if cmpRes ≠ 0 ∨ level ≠ .total then cmpRes else if bytesCmp a b < 0 then 1 else 0

/-- `operator()(string_view, SortKey, level)` (StringSortComparator.h:392-397). -/
def simpleLessKey (c : Collator) (a : Word) (b : List Nat) : Bool := strcmp (c.sortKey a .primary) b < 0

/-- `SimpleStringComparator::transformToFirstPossibleBiggerValue` for PRIMARY (StringSortComparator.h:413-424). -/
def simpleBigger (c : Collator) (s : Word) : Outcome (List Nat) := bump (c.sortKey s .primary)

/-! ### `TripleComponentComparator` -/

/-- `SplitValBase` (StringSortComparator.h:471-486); `α` is `string_view` or `SortKey`. -/
structure Split (α : Type) where
  first : Nat
  val : α
  langtag : Word
  deriving DecidableEq, Repr

/-- `findLiteralEnd(res, "\"")` (StringSortComparator.h:655); it returns normally for every string, see C48. -/
def literalEnd (s : Word) : Option Nat :=
  match findLiteralEnd (s.length + 2) s ['"'] with
  | .ok r => r
  | _ => none

/-- `extractComparable<SplitValNonOwning>` (StringSortComparator.h:640-672). -/
def extract (a : Word) : Split Word :=
  match a with
  | [] => ⟨0, [], []⟩
  | ch :: res =>
    if ch = '"' ∨ ch = Char.ofNat 127 then
      match literalEnd res with
      | some endPos => ⟨ch.toNat, res.take endPos, res.drop (endPos + 1)⟩
      | none => ⟨ch.toNat, res, []⟩
    else ⟨ch.toNat, ch :: res, []⟩

/-- `extractAndTransformComparable` (StringSortComparator.h:546-549). -/
def extractKey (c : Collator) (a : Word) (level : Level) : Split (List Nat) :=
  ⟨(extract a).first, c.sortKey (extract a).val level, (extract a).langtag⟩

/-- `strncmp` of one character: as unsigned bytes. -/
def firstCmp (a b : Nat) : Int := if a < b then -1 else if b < a then 1 else 0

/-- `compare(SplitValBase, SplitValBase, level)` (StringSortComparator.h:558-583): `valCmp` is the comparison of the `LocaleManager` for
the kind of values, `bytes` their byte-wise comparison. -/
def splitCompare (valCmp bytes : α → α → Int) (a b : Split α) (level : Level) : Int :=
  let res := firstCmp a.first b.first
  if res ≠ 0 then res
  else
    let res := valCmp a.val b.val
    if res ≠ 0 ∨ level ≠ .total then res
    else
      let res := bytesCmp a.langtag b.langtag
      if res ≠ 0 then res else bytes a.val b.val

/-- `TripleComponentComparator::compare(string_view, string_view, level)` (StringSortComparator.h:532-540). -/
def tripleCompare (c : Collator) (a b : Word) (level : Level) : Int :=
  splitCompare (fun x y => c.compare x y level) bytesCmp (extract a) (extract b) level

/-- `compare` of two split values with sort keys. -/
def keyCompare (a b : Split (List Nat)) (level : Level) : Int := splitCompare strcmp lexCmp a b level

/-- `operator()(string_view, SplitVal, PRIMARY)` (StringSortComparator.h:519-523). -/
def tripleLessKey (c : Collator) (a : Word) (b : Split (List Nat)) : Bool := keyCompare (extractKey c a .primary) b .primary < 0

/-- `TripleComponentComparator::transformToFirstPossibleBiggerValue` for PRIMARY (StringSortComparator.h:602-613). -/
def tripleBigger (c : Collator) (s : Word) : Outcome (Split (List Nat)) :=
  let t := extractKey c s .primary
  (bump t.val).map fun k => { t with val := k }

/-- The order in which a partial vocabulary is sorted: the split values of the items are made at the level IDENTICAL
(/repo/src/index/IndexBuilderTypes.h:50-51) and compared at the level TOTAL (`identicalPred`, /repo/src/index/Index.cpp:1543-1547). -/
def itemCompare (c : Collator) (a b : Word) : Int := keyCompare (extractKey c a .identical) (extractKey c b .identical) .total

/-! ### `Vocabulary` -/

/-- The template argument `ComparatorType` of `Vocabulary`. -/
structure Comparator where
  Key : Type
  compare : Word → Word → Level → Int
  bigger : Word → Outcome Key
  lessKey : Word → Key → Bool

/-- The comparator of the `TextVocabulary`. -/
def simple (c : Collator) : Comparator := ⟨List Nat, simpleCompare c, simpleBigger c, simpleLessKey c⟩

/-- The comparator of the `RdfsVocabulary`. -/
def triple (c : Collator) : Comparator := ⟨Split (List Nat), tripleCompare c, tripleBigger c, tripleLessKey c⟩

/-- `operator()(string_view, string_view, level)` (StringSortComparator.h:358-361, 505-508). -/
def Comparator.less (C : Comparator) (level : Level) (a b : Word) : Bool := C.compare a b level < 0

/-- `Vocabulary::prefix_range` (Vocabulary.cpp:384-399). -/
def prefixRange (C : Comparator) (words : List Word) (pre : Word) : Outcome (Nat × Nat) :=
  if pre = [] then .ok (0, words.length)
  else
    (Filter.lowerBound (C.less .primary) words pre).bind fun lb =>
    (C.bigger pre).bind fun transformed =>
    (partitionPoint (fun w => C.lessKey w transformed) words).map fun ub => (lb, ub)

/-- `Vocabulary::getIdRangeForFullTextPrefix` (Vocabulary.cpp:313-328): the range with its last element and whether there is one.
`prefixRange.second - 1` is computed with 64 bits. -/
def fullTextPrefix (C : Comparator) (words : List Word) (word : Word) : Outcome (Bool × Nat × Nat) :=
  match word.getLast? with
  | none => .ub
  | some last =>
    if last ≠ '*' then .throw
    else
      (prefixRange C words word.dropLast).bind fun r =>
        let success := decide (r.2 > r.1)
        let first := r.1
        let last := (r.2 + 2 ^ 64 - 1) % 2 ^ 64
        if success ∧ ¬ (first < words.length ∧ last < words.length) then .throw else .ok (success, first, last)

/-- A `Vocabulary` (Vocabulary.h:313-328). -/
structure Vocab where
  words : List Word
  ext : ExternalVocabulary.Vocab
  extPrefixes : List Word
  internalLangs : List Word

/-- `rfind` of a character. -/
def rfind (ch : Char) (s : Word) : Option Nat := (s.reverse.findIdx? (· == ch)).map fun i => s.length - 1 - i

/-- `getLanguage` (Vocabulary.cpp:208-217). -/
def getLanguage (literal : Word) : Word :=
  match rfind '@' literal with
  | none => []
  | some lioAt =>
    match rfind '"' literal with
    | none => []
    | some lioQ => if lioQ < lioAt then literal.drop (lioAt + 1) else []

/-- `shouldBeExternalized` with `isLiteral`, `shouldEntityBeExternalized` and `shouldLiteralBeExternalized`
(Vocabulary.cpp:155-205); `MAX_INTERNAL_LITERAL_BYTES` is 1024 (ConstantsIndexCreation.h:18). -/
def shouldBeExternalized (v : Vocab) (word : Word) : Bool :=
  if word.head? = some '"' then
    if word.length > 1024 then true
    else if getLanguage word = [] then false
    else !v.internalLangs.contains (getLanguage word)
  else v.extPrefixes.any fun p => p.isPrefixOf word

/-- `Vocabulary::getId` (Vocabulary.cpp:370-381) with `ExternalVocabulary::getId`; the fuel bounds the steps of the binary search there
(C30). -/
def getId (C : Comparator) (fuel : Nat) (v : Vocab) (word : Word) : Outcome (Nat × Bool) :=
  if !shouldBeExternalized v word then
    (Filter.lowerBound (C.less .total) v.words word).bind fun id =>
      if id < v.words.length then (Outcome.read v.words id).map fun w => (id, w == word) else .ok (id, false)
  else
    (ExternalVocabulary.getId fuel (fun a b => C.compare a b .total) v.ext word).map fun r => ((r.1 + v.words.length) % 2 ^ 64, r.2)

/-- `createFromSet` (Vocabulary.cpp:111-121): `std::sort` with the comparator at its default level QUARTERNARY; `words'` is any result it
may have. -/
def CreatedFrom (C : Comparator) (set words' : List Word) : Prop :=
  words'.Perm set ∧ words'.Pairwise fun a b => C.less .quarternary b a = false

/-- `tripleToInternalRepresentation` (Index.cpp:1395-1418) for one word that is not the object or not a number: normalisation, then a
mark at the first byte if the word is to be kept on disk. -/
def internalWord (nfc : Word → Word) (onDiskLiterals : Bool) (v : Vocab) (w : Word) : Outcome Word :=
  let el := nfc w
  if onDiskLiterals && shouldBeExternalized v el then
    match el with
    | [] => .ub
    | ch :: cs => if ch = '"' then .ok (Char.ofNat 127 :: cs) else if ch = '<' then .ok (Char.ofNat 128 :: cs) else .throw
  else .ok el

end Verif.Collation
