/-
Specification of vocabularies: words, their order, finding a word.
-/
namespace Verif.VocabularySpec

/-- `cmp` is the three-way comparison of a strict total order on the words in `S`. -/
structure OrderOn (S : List Char → Prop) (cmp : List Char → List Char → Int) : Prop where
  eq_zero : ∀ a b, S a → S b → (cmp a b = 0 ↔ a = b)
  flip : ∀ a b, S a → S b → (cmp a b < 0 ↔ 0 < cmp b a)
  trans : ∀ a b c, S a → S b → S c → cmp a b < 0 → cmp b c < 0 → cmp a c < 0

/-- The answer of a lookup: the position of the word if it occurs, otherwise "not found". -/
def Finds (ws : List (List Char)) (w : List Char) (r : Nat × Bool) : Prop :=
  if w ∈ ws then r.2 = true ∧ ws[r.1]? = some w else r.2 = false

/-- The sizes for which a lookup of a word smaller than all others leaves the vocabulary:
1, 4-5, 10-13, 22-29, 46-61, ... -/
def BadSize (n : Nat) : Prop := ∃ k, 3 * 2 ^ k ≤ n + 2 ∧ n + 3 ≤ 4 * 2 ^ k

/-- A triple of words. -/
abbrev Words := List Char × List Char × List Char

/-- The triples stored for an input triple whose object has the language tag `tag` (none if empty): the triple itself, the triple with
the predicate that carries the language, the triple that states the language of the object. -/
def stored (tag : List Char) (s p o : List Char) : List Words :=
  if tag = [] then [(s, p, o)]
  else [(s, p, o), (s, '@' :: tag ++ '@' :: p, o),
    (o, "<QLever-internal-function/langtag>".toList, "<QLever-internal-function/".toList ++ '@' :: tag ++ ['>'])]

/-- Words that start with byte 127 or 128 are kept on disk; in the vocabulary their first character is `"` or `<`. -/
def External (w : List Char) : Prop := ∃ c cs, w = c :: cs ∧ 127 ≤ c.toNat

/-- The word as it is shown to the user. -/
def shown : List Char → List Char
  | [] => []
  | c :: cs => if c.toNat = 127 then '"' :: cs else if c.toNat = 128 then '<' :: cs else c :: cs

/-- The ids of a triple stand for its words in the vocabulary `voc`. -/
def Denote (voc : List (List Char)) (ids : Nat × Nat × Nat) (ws : Words) : Prop :=
  voc[ids.1]? = some ws.1 ∧ voc[ids.2.1]? = some ws.2.1 ∧ voc[ids.2.2]? = some ws.2.2

/-- Words with a smaller first byte are smaller. -/
def FirstByte (S : List Char → Prop) (cmp : List Char → List Char → Int) : Prop :=
  ∀ c cs d ds, S (c :: cs) → S (d :: ds) → c.toNat < d.toNat → cmp (c :: cs) (d :: ds) < 0

end Verif.VocabularySpec
