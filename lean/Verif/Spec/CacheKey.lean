import Verif.Model.CacheKey
/-
What a cache key says about an operation, and operations whose words can be recognised in their key.
-/
namespace Verif.CacheKey

/-- The operation with the members that its key does not contain replaced by fixed values; SORT is ORDER BY on one column. -/
def strip : Op → Op
  | .scan s => .scan s
  | .join l lc r rc => .join (strip l) lc (strip r) rc
  | .sort s c => .orderBy (strip s) [(c, false)]
  | .orderBy s keys => .orderBy (strip s) keys
  | .union l r _ => .union (strip l) (strip r) []
  | .distinct s _ => .distinct (strip s) []
  | .filter s type str lhs rhs _ _ => .filter (strip s) type str lhs rhs 0 none
  | .minus l r _ => .minus (strip l) (strip r) []
  | .optionalJoin l r _ _ jcs => .optionalJoin (strip l) (strip r) false false jcs
  | .multiColumnJoin l r jcs => .multiColumnJoin (strip l) (strip r) jcs
  | .twoColumnJoin l r a b c d => .twoColumnJoin (strip l) (strip r) a b c d
  | .hasPredicateFreeS o => .hasPredicateFreeS o
  | .hasPredicateFreeO s => .hasPredicateFreeO s
  | .hasPredicateFull => .hasPredicateFull
  | .hasPredicateSub s _ => .hasPredicateSub (strip s) 0
  | .groupBy s groups aggs =>
    .groupBy (strip s) (groups.map fun g => (0, g.2)) (aggs.map fun a => ⟨a.type, a.inCol, a.outCol, [], false⟩)
  | .transitivePath s lc rc lv rv mn mx => .transitivePath (strip s) lc rc lv rv mn mx
  | .transitivePathLeft s l _ lc rc rv mn mx => .transitivePathLeft (strip s) (strip l) 0 lc rc rv mn mx

/-- Words without quotation marks and line breaks where the key needs it. Objects may contain quotation marks. -/
def Scan.WF : Scan → Prop
  | .psoBoundS p s => '"' ∉ p ∧ '\n' ∉ p ∧ '\n' ∉ s
  | .posBoundO p o => '"' ∉ p ∧ '\n' ∉ p ∧ '\n' ∉ o
  | .sopBoundO s o => '"' ∉ s ∧ '\n' ∉ s ∧ '\n' ∉ o
  | .psoFreeS p => '"' ∉ p ∧ '\n' ∉ p
  | .posFreeO p => '"' ∉ p ∧ '\n' ∉ p
  | .spoFreeP s => '\n' ∉ s
  | .sopFreeO s => '"' ∉ s ∧ '\n' ∉ s
  | .opsFreeP o => '\n' ∉ o
  | .ospFreeS o => '\n' ∉ o
  | .full _ => True

/-- Operations whose words can be recognised in the key. -/
def WF : Op → Prop
  | .scan s => s.WF
  | .join l _ r _ => WF l ∧ WF r
  | .sort s _ => WF s
  | .orderBy s _ => WF s
  | .union l r _ => WF l ∧ WF r
  | .distinct s _ => WF s
  | .filter s _ _ lhs rhs _ _ =>
    WF s ∧ ' ' ∉ lhs ∧ '\n' ∉ rhs ∧ ¬ "LHS_AS_STR ".toList <+: rhs ∧ ¬ "ignoring case ".toList <+: rhs
  | .minus l r _ => WF l ∧ WF r
  | .optionalJoin l r _ _ _ => WF l ∧ WF r
  | .multiColumnJoin l r _ => WF l ∧ WF r
  | .twoColumnJoin l r _ _ _ _ => WF l ∧ WF r
  | .hasPredicateFreeS o => '\n' ∉ o
  | .hasPredicateFreeO s => '\n' ∉ s ∧ '{' ∉ s
  | .hasPredicateFull => True
  | .hasPredicateSub s _ => WF s
  | .groupBy s _ aggs => WF s ∧ ∀ a ∈ aggs, a.type ≠ .groupConcat
  | .transitivePath s _ _ _ _ _ _ => WF s
  | .transitivePathLeft s l _ _ _ _ _ _ => WF s ∧ WF l

/-- Operations whose key contains all members that decide what is computed. -/
def Complete : Op → Prop
  | .scan _ => True
  | .join l _ r _ => Complete l ∧ Complete r
  | .sort s _ => Complete s
  | .orderBy s _ => Complete s
  | .multiColumnJoin l r _ => Complete l ∧ Complete r
  | .twoColumnJoin l r _ _ _ _ => Complete l ∧ Complete r
  | .hasPredicateFreeS _ => True
  | .hasPredicateFreeO _ => True
  | .hasPredicateFull => True
  | .transitivePath s _ _ _ _ _ _ => Complete s
  | _ => False

/-- The operation with sorting by one ascending column left to break ties in any way. `OrderBy` breaks them by the first column, `Sort` does
not; the planner uses both (`QueryPlanner.cpp:870, 1051-1060, 1916`), and their keys are the same. -/
def loosen : Op → Op
  | .scan s => .scan s
  | .join l lc r rc => .join (loosen l) lc (loosen r) rc
  | .sort s c => .sort (loosen s) c
  | .orderBy s [(c, false)] => .sort (loosen s) c
  | .orderBy s keys => .orderBy (loosen s) keys
  | .union l r o => .union (loosen l) (loosen r) o
  | .distinct s k => .distinct (loosen s) k
  | .filter s type str lhs rhs lc rc => .filter (loosen s) type str lhs rhs lc rc
  | .minus l r j => .minus (loosen l) (loosen r) j
  | .optionalJoin l r o o' jcs => .optionalJoin (loosen l) (loosen r) o o' jcs
  | .multiColumnJoin l r jcs => .multiColumnJoin (loosen l) (loosen r) jcs
  | .twoColumnJoin l r a b c d => .twoColumnJoin (loosen l) (loosen r) a b c d
  | .hasPredicateFreeS o => .hasPredicateFreeS o
  | .hasPredicateFreeO s => .hasPredicateFreeO s
  | .hasPredicateFull => .hasPredicateFull
  | .hasPredicateSub s c => .hasPredicateSub (loosen s) c
  | .groupBy s groups aggs => .groupBy (loosen s) groups aggs
  | .transitivePath s lc rc lv rv mn mx => .transitivePath (loosen s) lc rc lv rv mn mx
  | .transitivePathLeft s l c lc rc rv mn mx => .transitivePathLeft (loosen s) (loosen l) c lc rc rv mn mx

end Verif.CacheKey
