import Verif.Model.PrefixCompression
/-
Model of the choice of prefixes for the compression of the vocabulary (/repo/src/index/PrefixHeuristic.cpp, PrefixHeuristic.h).

Simplifications: a character stands for one byte.  Numbers do not overflow.  All nodes of a tree have different values, so a pointer to
a node is the value of the node.  `_score` and `_sharedCount` are recomputed in every call of `getMaximum` and are no part of a node.
The output of progress is left out.  The overload for vectors (PrefixHeuristic.cpp:235-262), which only tests call, is not modelled.
-/
namespace Verif.PrefixHeuristic
open RdfEscaping (startsWith unescapeNB)
open PrefixCompression (getlines)

abbrev Word := List Char

/-- `TreeNode` (PrefixHeuristic.h:55-118) without its children and its parent. -/
structure Node where
  value : Word
  own : Nat := 1
  penalty : Nat := 0
  active : Bool := true
  deriving DecidableEq

/-- `_children`: the first node, its children, and the other nodes. -/
inductive Forest where
  | nil
  | cons (n : Node) (children rest : Forest)
  deriving DecidableEq

/-- All nodes. -/
def Forest.nodes : Forest → List Node
  | .nil => []
  | .cons n cs rest => n :: (cs.nodes ++ rest.nodes)

/-- `push_back` of several nodes -/
def Forest.append : Forest → Forest → Forest
  | .nil, g => g
  | .cons n cs rest, g => .cons n cs (rest.append g)

/-- All nodes of the list (not of their subtrees) begin with `v`. -/
def Forest.allStart (v : Word) : Forest → Bool
  | .nil => true
  | .cons n _ rest => startsWith n.value v && rest.allStart v

/-- `std::remove_if` and the move of the removed children (PrefixHeuristic.cpp:53-65): the children that stay and those that are
moved.  `std::remove_if` moves a child that stays to the place of one that is removed.  The unique pointer that is overwritten deletes
its node and the place at the end that was moved from is null, and null is moved to the new node.  The next function that visits
the children follows the null pointer.  So the outcome is undefined unless the removed children are the last ones. -/
def splitChildren (v : Word) : Forest → Outcome (Forest × Forest)
  | .nil => .ok (.nil, .nil)
  | .cons n cs rest =>
    if startsWith n.value v then
      if rest.allStart v then .ok (.nil, .cons n cs rest) else .ub
    else (splitChildren v rest).map fun r => (.cons n cs r.1, r.2)

/-- The end of `TreeNode::insertAfter`: the children of a node with a new child (PrefixHeuristic.cpp:47-69). -/
def addChild (v : Word) (cs : Forest) : Outcome Forest :=
  (splitChildren v cs).map fun r => r.1.append (.cons { value := v } r.2 .nil)

/-- `TreeNode::insertAfter` of the first node of a list that is a prefix of `v`, if there is one (PrefixHeuristic.cpp:32-70).  The result
has the new list and, if a node was made, its `_parent`.  (The children that are moved to a new node keep their `_parent`.) -/
def insertChild (v : Word) : Forest → Outcome (Option (Forest × Option Word))
  | .nil => .ok none
  | .cons n cs rest =>
    if startsWith v n.value then
      if v = n.value then .ok (some (.cons { n with own := n.own + 1 } cs rest, none))
      else (insertChild v cs).bind fun r =>
        match r with
        | some (cs', p) => .ok (some (.cons n cs' rest, p))
        | none => (addChild v cs).map fun cs' => some (.cons n cs' rest, some n.value)
    else (insertChild v rest).map fun r => r.map fun q => (.cons n cs q.1, q.2)

/-- `startPoint->insertAfter(v)` for the node with the value `h`. -/
def insertAt (h v : Word) : Forest → Outcome (Option (Forest × Option Word))
  | .nil => .ok none
  | .cons n cs rest =>
    if n.value = h then insertChild v (.cons n cs rest)
    else (insertAt h v cs).bind fun r =>
      match r with
      | some (cs', p) => .ok (some (.cons n cs' rest, p))
      | none => (insertAt h v rest).map fun r => r.map fun q => (.cons n cs q.1, q.2)

/-- `Tree`: the root and the `_parent` of all nodes. -/
structure Tree where
  root : Forest
  parents : List (Word × Word)
  deriving DecidableEq

/-- The root is the empty string (PrefixHeuristic.h:120-129). -/
def Tree.init : Tree := ⟨.cons { value := [] } .nil .nil, []⟩

/-- `TreeNode::insert` (PrefixHeuristic.cpp:73-82): the node from which `insertAfter` is called.  The root has no parent.  The first
argument bounds the number of steps. -/
def climb (parents : List (Word × Word)) (v : Word) : Nat → Word → Outcome Word
  | 0, _ => .diverge
  | fuel + 1, h =>
    if startsWith v h then .ok h
    else match parents.lookup h with
      | some p => climb parents v fuel p
      | none => .ub

/-- `Tree::insert` with a start point, `none` for the null pointer (PrefixHeuristic.cpp:24-29). -/
def Tree.insert (t : Tree) (v : Word) (start : Option Word) : Outcome Tree :=
  (climb t.parents v ((start.getD []).length + 1) (start.getD [])).bind fun h =>
    (insertAt h v t.root).bind fun r =>
      match r with
      | none => .ub
      | some (root, none) => .ok ⟨root, t.parents⟩
      | some (root, some p) => .ok ⟨root, (v, p) :: t.parents⟩

/-- `commonPrefix` (/repo/src/util/StringUtils.h:212-222) -/
def commonPrefix : Word → Word → Word
  | a :: as, b :: bs => if a = b then a :: commonPrefix as bs else []
  | _, _ => []

/-- The loop that reads the words (PrefixHeuristic.cpp:187-206); `last` is the word before and `pos` is `lastPos`. -/
def build (minLength : Nat) (t : Tree) (pos : Option Word) (last : Word) : List Word → Outcome Tree
  | [] => .ok t
  | line :: lines => (unescapeNB line).bind fun next =>
    let pref := commonPrefix last next
    if minLength ≤ pref.length then (t.insert pref pos).bind fun t' => build minLength t' (some pref) next lines
    else build minLength t none next lines

/-- The loop of `TreeNode::getMaximum` over some children (PrefixHeuristic.cpp:85-128), with the sum of the `_sharedCount`s, the
greatest score and its node so far.  The difference of natural numbers is zero if it would be negative (lines 106-109). -/
def getMaximum (codelength : Nat) : Forest → Nat × Nat × Option Word → Nat × Nat × Option Word
  | .nil, acc => acc
  | .cons n cs rest, acc =>
    let sub := getMaximum codelength cs (n.own, 0, none)
    let shared := if n.active then sub.1 else 0
    let score := shared * (n.value.length - (n.penalty + codelength))
    let best := if score ≥ sub.2.1 then (score, some n.value) else sub.2
    getMaximum codelength rest (acc.1 + shared, if best.1 ≥ acc.2.1 then best else acc.2)

/-- `TreeNode::penaltizeChildren` of all nodes (PrefixHeuristic.cpp:140-147) -/
def raise (len : Nat) : Forest → Forest
  | .nil => .nil
  | .cons n cs rest => .cons { n with penalty := max n.penalty len } (raise len cs) (raise len rest)

/-- `TreeNode::penaltize` of the node with the value `v` (PrefixHeuristic.cpp:150-159) -/
def penaltize (v : Word) : Forest → Forest
  | .nil => .nil
  | .cons n cs rest =>
    if n.value = v then
      .cons { n with penalty := max n.penalty n.value.length, own := 0, active := false } (raise n.value.length cs) rest
    else .cons n (penaltize v cs) (penaltize v rest)

/-- The calls of `Tree::getAndDeleteMaximum` (PrefixHeuristic.cpp:131-137) in the loop over the prefixes (PrefixHeuristic.cpp:212-221):
the scores and the prefixes. -/
def choose (codelength : Nat) : Nat → Forest → Outcome (List (Nat × Word))
  | 0, _ => .ok []
  | k + 1, t =>
    match (getMaximum codelength t (0, 0, none)).2 with
    | (_, none) => .ub
    | (score, some v) =>
      if v = [] then .ok [] else (choose codelength k (penaltize v t)).map ((score, v) :: ·)

/-- `calculatePrefixes` (PrefixHeuristic.cpp:163-232): the prefixes and the sum of their scores.  The first word is used as it is in the
file, the others are unescaped (lines 173-188). -/
def calculatePrefixes (file : List Char) (numPrefixes codelength : Nat) (alwaysAddCode : Bool) : Outcome (List Word × Nat) :=
  match getlines file with
  | [] => .ok ([], 0)
  | first :: lines =>
    (build (if alwaysAddCode then 1 else codelength + 1) Tree.init none first lines).bind fun t =>
      (choose (if alwaysAddCode then 0 else codelength) numPrefixes t.root).map fun l => (l.map (·.2), (l.map (·.1)).sum)

end Verif.PrefixHeuristic
