/-
Which prefixes are good for compressing a list of words: independent of trees, nodes and counts.

Words are compared as `std::string`s are: by their first different character; a proper prefix is smaller (the order of lists).
-/
namespace Verif.PrefixChoice

/-- `p` is the longest common prefix of two words. -/
def LongestCommon (a b p : List Char) : Prop := p <+: a ∧ p <+: b ∧ ∀ q, q <+: a → q <+: b → q <+: p

/-- `cs` are the longest common prefixes of the neighbours in a list of words. -/
inductive CommonPrefixes : List (List Char) → List (List Char) → Prop
  | nil : CommonPrefixes [] []
  | single (w : List Char) : CommonPrefixes [w] []
  | cons {a b p : List Char} {ws cs : List (List Char)} :
    LongestCommon a b p → CommonPrefixes (b :: ws) cs → CommonPrefixes (a :: b :: ws) (p :: cs)

/-- The length of the longest prefix of `w` in `ps`, zero if there is none. -/
def covered (ps : List (List Char)) (w : List Char) : Nat :=
  ps.foldr (fun p n => if p.isPrefixOf w then max p.length n else n) 0

/-- The number of characters that the prefixes `ps` cover in the words of a list. -/
def saved (ps ws : List (List Char)) : Nat := (ws.map (covered ps)).sum

/-- Every prefix was the best of the list `cs` to be added to the ones before it, and each one covered more than before. -/
def Greedy (cs ps : List (List Char)) : Prop :=
  ∀ i < ps.length, saved (ps.take i) cs < saved (ps.take (i + 1)) cs ∧
    ∀ q ∈ cs, saved (ps.take i ++ [q]) cs ≤ saved (ps.take (i + 1)) cs

/-- The words are in the order of `std::less<std::string>`, except perhaps for the first. -/
def SortedTail (ws : List (List Char)) : Prop := ws.tail.Pairwise (· ≤ ·)

end Verif.PrefixChoice
