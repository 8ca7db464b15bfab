import Verif.Model.PropertyPath
/-
Specification of property paths: their syntax (https://www.w3.org/TR/sparql11-query/#propertypaths, and `*n` for at most `n` steps) and what they mean.
-/
namespace Verif.PropertyPathSpec
open Verif.PropertyPath (Word Path)

/-- The operators behind a path. -/
inductive Mod where
  | opt | star | plus
  /-- at most the number with these digits -/
  | atMost (digits : List Nat)
  deriving DecidableEq, Repr

/-- The syntax of paths.  Sequences and alternatives are nested to the right. -/
inductive Syn where
  | iri (w : Word)
  | paren (s : Syn)
  | mod (s : Syn) (m : Mod)
  | inv (s : Syn)
  | seq (a b : Syn)
  | alt (a b : Syn)
  deriving DecidableEq, Repr

/-! ### The text of a path -/

/-- The number with given digits. -/
def natOf (ds : List Nat) : Nat := ds.foldl (fun n d => 10 * n + d) 0

/-- The text of an operator. -/
def Mod.text : Mod → Word
  | .opt => ['?']
  | .star => ['*']
  | .plus => ['+']
  | .atMost ds => '*' :: ds.map fun d => Char.ofNat (48 + d)

/-- The text of a path. -/
def Syn.text : Syn → Word
  | .iri w => w
  | .paren s => '(' :: s.text ++ [')']
  | .mod s m => s.text ++ m.text
  | .inv s => '^' :: s.text
  | .seq a b => a.text ++ '/' :: b.text
  | .alt a b => a.text ++ '|' :: b.text

/-- How tightly the last operator binds: primary, element, inverse, sequence, alternative. -/
def Syn.level : Syn → Nat
  | .iri _ => 0
  | .paren _ => 0
  | .mod _ _ => 1
  | .inv _ => 2
  | .seq _ _ => 3
  | .alt _ _ => 4

/-- Operators have digits only, and their number fits into an `int`. -/
def Mod.ok : Mod → Bool
  | .atMost ds => decide (ds ≠ []) && ds.all (fun d => decide (d < 10)) && decide (natOf ds < 2 ^ 31)
  | _ => true

/-- The characters of an IRI that is not in angle brackets: a prefixed name, in which operators are escaped with `\`, as other characters may be; it may contain IRIs in angle
brackets (`@en@<p>`). -/
def wordOk : (inside : Bool) → Word → Bool
  | inside, [] => !inside
  | true, c :: w => decide (33 ≤ c.toNat ∧ c.toNat ≤ 126) && (if c = '>' then wordOk false w else wordOk true w)
  | false, '\\' :: c :: w => decide (33 ≤ c.toNat ∧ c.toNat ≤ 126) && (c ∉ ['<', '>']) && wordOk false w
  | false, c :: w => decide (33 ≤ c.toNat ∧ c.toNat ≤ 126) && (c ∉ ['?', '*', '+', '/', '|', '(', ')', '^', '\\']) && (if c = '<' then wordOk true w else wordOk false w)

/-- An IRI.  It does not begin with a digit. -/
def iriOk (w : Word) : Bool := wordOk false w && w.head?.any fun c => !(decide (48 ≤ c.toNat ∧ c.toNat ≤ 57))

/-- The grammar of SPARQL. -/
def Syn.ok : Syn → Bool
  | .iri w => iriOk w
  | .paren s => s.ok
  | .mod s m => s.ok && m.ok && decide (s.level = 0)
  | .inv s => s.ok && decide (s.level ≤ 1)
  | .seq a b => a.ok && b.ok && decide (a.level ≤ 2) && decide (b.level ≤ 3)
  | .alt a b => a.ok && b.ok && decide (a.level ≤ 3)

/-! ### What a path means -/

/-- At most `n` steps. -/
inductive Within {N : Type} (R : N → N → Prop) : Nat → N → N → Prop where
  | refl (n u) : Within R n u u
  | step {n u v w} : R u v → Within R n v w → Within R (n + 1) u w

/-- Any number of steps. -/
inductive Steps {N : Type} (R : N → N → Prop) : N → N → Prop where
  | refl (u) : Steps R u u
  | step {u v w} : R u v → Steps R v w → Steps R u w

/-- The pairs of nodes that a path connects, in a graph `G` with triples `G u iri v`. -/
def Syn.Rel {N : Type} (G : N → Word → N → Prop) : Syn → N → N → Prop
  | .iri w => fun u v => G u w v
  | .paren s => s.Rel G
  | .mod s .opt => fun u v => u = v ∨ s.Rel G u v
  | .mod s .star => Steps (s.Rel G)
  | .mod s .plus => fun u w => ∃ v, s.Rel G u v ∧ Steps (s.Rel G) v w
  | .mod s (.atMost ds) => Within (s.Rel G) (natOf ds)
  | .inv s => fun u v => s.Rel G v u
  | .seq a b => fun u w => ∃ v, a.Rel G u v ∧ b.Rel G v w
  | .alt a b => fun u v => a.Rel G u v ∨ b.Rel G u v

/-- A path matches the empty path if it connects every node with itself in every graph. -/
def Syn.Empty (s : Syn) : Prop := ∀ (N : Type) (G : N → Word → N → Prop) (u : N), s.Rel G u u

/-- In every alternative, either both sides match the empty path or none. -/
def Syn.Even : Syn → Prop
  | .iri _ => True
  | .paren s => s.Even
  | .mod s _ => s.Even
  | .inv s => s.Even
  | .seq a b => a.Even ∧ b.Even
  | .alt a b => a.Even ∧ b.Even ∧ (a.Empty ↔ b.Empty)

/-- `*n` is only used directly behind IRIs. -/
def Syn.plain : Syn → Bool
  | .iri _ => true
  | .paren s => s.plain
  | .mod (.iri _) _ => true
  | .mod _ (.atMost _) => false
  | .mod s _ => s.plain
  | .inv s => s.plain
  | .seq a b => a.plain && b.plain
  | .alt a b => a.plain && b.plain

/-! ### The tree that the parser returns -/

/-- The tree of a path with all flags unset, its factors if it is a sequence, and its summands if it is an alternative.  Sequences and alternatives have
a list of children, parentheses only group. -/
def Syn.trees : Syn → Path × List Path × List Path
  | .iri w => single (.node .iri 0 w [] false)
  | .paren s => single s.trees.1
  | .mod s .opt => single (.node .transitiveMax 1 [] [s.trees.1] false)
  | .mod s .star => single (.node .transitive 0 [] [s.trees.1] false)
  | .mod s .plus => single (.node .transitiveMin 1 [] [s.trees.1] false)
  | .mod s (.atMost ds) => single (.node .transitiveMax (natOf ds) [] [s.trees.1] false)
  | .inv s => single (.node .inverse 0 [] [s.trees.1] false)
  | .seq a b =>
    let cs := a.trees.1 :: b.trees.2.1
    (.node .sequence 0 [] cs false, cs, [.node .sequence 0 [] cs false])
  | .alt a b =>
    let cs := a.trees.1 :: b.trees.2.2
    (.node .alternative 0 [] cs false, [.node .alternative 0 [] cs false], cs)
where
  /-- A path that is its only factor and summand. -/
  single (p : Path) : Path × List Path × List Path := (p, [p], [p])

/-- The tree of a path with all flags unset. -/
def Syn.tree (s : Syn) : Path := s.trees.1

mutual
/-- A tree without its flags. -/
def strip : Path → Path
  | .node op limit iri children _ => .node op limit iri (stripAll children) false
/-- Trees without their flags. -/
def stripAll : List Path → List Path
  | [] => []
  | p :: ps => strip p :: stripAll ps
end

/-! ### What a tree means -/

mutual
/-- The pairs of nodes that a tree connects.  The flags have no meaning. -/
def pathRel {N : Type} (G : N → Word → N → Prop) : Path → N → N → Prop
  | .node .iri _ iri _ _ => fun u v => G u iri v
  | .node .inverse _ _ children _ => fun u v => firstRel G children v u
  | .node .sequence _ _ children _ => seqRel G children
  | .node .alternative _ _ children _ => altRel G children
  | .node .transitive _ _ children _ => Steps (firstRel G children)
  | .node .transitiveMin _ _ children _ => fun u w => ∃ v, firstRel G children u v ∧ Steps (firstRel G children) v w
  | .node .transitiveMax limit _ children _ => Within (firstRel G children) limit
/-- The first child. -/
def firstRel {N : Type} (G : N → Word → N → Prop) : List Path → N → N → Prop
  | [] => fun _ _ => False
  | p :: _ => pathRel G p
/-- One child after the other. -/
def seqRel {N : Type} (G : N → Word → N → Prop) : List Path → N → N → Prop
  | [] => fun u v => u = v
  | p :: ps => fun u w => ∃ v, pathRel G p u v ∧ seqRel G ps v w
/-- One of the children. -/
def altRel {N : Type} (G : N → Word → N → Prop) : List Path → N → N → Prop
  | [] => fun _ _ => False
  | p :: ps => fun u v => pathRel G p u v ∨ altRel G ps u v
end

end Verif.PropertyPathSpec
