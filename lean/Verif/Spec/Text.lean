/-
Specification of text search: what a user expects of posting lists and their intersections, without reference to the
model of the code.
-/
namespace Verif.Spec.Text

/-- A posting says that a word or entity occurs in a context (a piece of text) with a score. -/
structure Posting where
  cid : Nat
  eid : Nat
  score : Nat
  deriving DecidableEq, Repr

/-- Posting lists are sorted by context. -/
def Sorted (l : List Posting) : Prop := l.Pairwise fun a b => a.cid ≤ b.cid

/-- Posting lists of a single word contain each context once. -/
def StrictSorted (l : List Posting) : Prop := l.Pairwise fun a b => a.cid < b.cid

/-- The context occurs in the posting list. -/
def Occurs (l : List Posting) (c : Nat) : Prop := ∃ p ∈ l, p.cid = c

instance (l : List Posting) (c : Nat) : Decidable (Occurs l c) := inferInstanceAs (Decidable (∃ p ∈ l, p.cid = c))

/-- The score of a context in a posting list: the score of its first posting. -/
def scoreIn (l : List Posting) (c : Nat) : Nat :=
  match l.find? (·.cid = c) with
  | some p => p.score
  | none => 0

/-- The sum of the scores of a context in several posting lists. -/
def sumIn (ls : List (List Posting)) (c : Nat) : Nat := (ls.map fun l => scoreIn l c).sum

/-! ### Results of text queries -/

/-- `best` are `k` elements (context, score) of `l` with highest score, best first; all elements if there are fewer. -/
def BestK (k : Nat) (l best : List (Nat × Nat)) : Prop :=
  ∃ rest, l.Perm (best ++ rest) ∧ best.length = min k l.length ∧ best.Pairwise (fun a b => b.2 ≤ a.2) ∧
    ∀ x ∈ best, ∀ y ∈ rest, y.2 ≤ x.2

/-- `occ` gives the contexts, with their scores, in which something (an entity, a tuple of entities) occurs. The result
`out` has, for everything that occurs, the rows for the `k` best contexts; the aggregated score is the number of contexts,
a 16-bit number. -/
def IsTopK (k : Nat) (occ : κ → List (Nat × Nat)) (rows : Nat → Nat → κ → List ρ) (out : List ρ) : Prop :=
  ∃ keys : List κ, keys.Nodup ∧ (∀ key, key ∈ keys ↔ occ key ≠ []) ∧
  ∃ best : κ → List (Nat × Nat), (∀ key, BestK k (occ key) (best key)) ∧
    out = keys.flatMap fun key => (best key).flatMap fun c => rows c.1 ((occ key).length % 65536) key

/-- The contexts of an entity. -/
def contextsOf (ps : List Posting) (e : Nat) : List (Nat × Nat) := (ps.filter (·.eid = e)).map fun p => (p.cid, p.score)

/-- No entity is listed twice for a context. -/
def Distinct (ps : List Posting) : Prop := (ps.map fun p => (p.cid, p.eid)).Nodup

/-- The contexts of a posting list, each once. -/
def contexts (ps : List Posting) : List Nat := (ps.map (·.cid)).eraseDups

/-- The entities that occur in a context. -/
def entitiesIn (ps : List Posting) (c : Nat) : List Nat := (ps.filter (·.cid = c)).map (·.eid)

/-- The contexts in which all entities of a tuple of `v` entities occur. -/
def contextsOfTuple (ps : List Posting) (v : Nat) (key : List Nat) : List (Nat × Nat) :=
  if key.length = v then
    ((contexts ps).filter fun c => ∀ e ∈ key, e ∈ entitiesIn ps c).map fun c => (c, scoreIn ps c)
  else []

end Verif.Spec.Text
