import Verif.Model.Table
/-
What the operations of a table mean for a plain list of rows with `cols` columns.  Rows that are added without contents may have any contents.
-/
namespace Verif.RowListSpec

inductive Op
  | pushBack (row : Row)
  | emplaceBack
  | popBack
  | insert (pos : Nat) (new : Table)
  | erase (b e : Nat)
  | eraseOne (b : Nat)
  | clear
  | reserve (rows : Nat)
  | resize (rows : Nat)
  | set (row col v : Nat)

/-- `Step cols op l l'`: the operation makes `l'` of `l`. -/
inductive Step (cols : Nat) : Op → Table → Table → Prop
  | pushBack (l : Table) (row : Row) : Step cols (.pushBack row) l (l ++ [row])
  | emplaceBack (l : Table) (row : Row) : row.length = cols → Step cols .emplaceBack l (l ++ [row])
  | popBack (l : Table) : Step cols .popBack l l.dropLast
  | insert (l : Table) (pos : Nat) (new : Table) : Step cols (.insert pos new) l (l.take pos ++ new ++ l.drop pos)
  | erase (l : Table) (b e : Nat) : Step cols (.erase b e) l (l.take b ++ l.drop (max b e))
  | eraseOne (l : Table) (b : Nat) : Step cols (.eraseOne b) l (l.eraseIdx b)
  | clear (l : Table) : Step cols .clear l []
  | reserve (l : Table) (n : Nat) : Step cols (.reserve n) l l
  | resize (l : Table) (n : Nat) (new : Table) : new.WF cols → (l.take n ++ new).length = n → Step cols (.resize n) l (l.take n ++ new)
  | set (l : Table) (i c v : Nat) : Step cols (.set i c v) l (l.modify i fun r => r.set c v)

/-- A sequence of operations. -/
inductive Run (cols : Nat) : List Op → Table → Table → Prop
  | nil (l : Table) : Run cols [] l l
  | cons {op : Op} {ops : List Op} {l l' l'' : Table} : Step cols op l l' → Run cols ops l' l'' → Run cols (op :: ops) l l''

end Verif.RowListSpec
