import Verif.Lemmas.TransitivePath
import Verif.Props.C21_GroupBy
/-
C24: transitive paths compute reachability.  C54 for `TransitivePath`.
-/
namespace Verif.TransitivePath
open PathSpec JoinSpec Modifiers GroupBy

theorem edge_swap (sub : Table) (l r : Nat) : Edge sub r l = fun a b => Edge sub l r b a := by
  funext a b
  exact propext ⟨fun ⟨x, h1, h2, h3⟩ => ⟨x, h1, h3, h2⟩, fun ⟨x, h1, h2, h3⟩ => ⟨x, h1, h3, h2⟩⟩

theorem walk_swap {sub : Table} {l r n a b : Nat} : Walk (Edge sub r l) n b a ↔ Walk (Edge sub l r) n a b := by
  rw [edge_swap]; exact walk_reverse_iff

theorem reaches_swap {sub : Table} {l r n a b : Nat} : Reaches (Edge sub r l) n b a ↔ Reaches (Edge sub l r) n a b := by
  unfold Reaches
  exact exists_congr fun n => and_congr_right fun _ => walk_swap

theorem within_swap {sub : Table} {l r n m a b : Nat} : ReachesWithin (Edge sub r l) n m b a ↔ ReachesWithin (Edge sub l r) n m a b := by
  unfold ReachesWithin
  exact exists_congr fun n => and_congr_right fun _ => and_congr_right fun _ => walk_swap

theorem reaches_first {sub : Table} {l r n a b : Nat} (hn : 1 ≤ n) (h : Reaches (Edge sub l r) n a b) : ∃ x ∈ sub, x.getD l 0 = a := by
  obtain ⟨k, hk, hw⟩ := h
  cases hw with
  | refl => omega
  | step e _ => obtain ⟨x, hx, h1, _⟩ := e; exact ⟨x, hx, h1⟩

/-- What the searches find, as a set of pairs. -/
structure Pairs (sub : Table) (leftCol rightCol minDist maxDist : Nat) (leftIsVar rightIsVar : Bool) (leftValue rightValue : Nat) (t : Table) :
    Prop where
  nodup : t.Nodup
  sound : ∀ r ∈ t, ∃ a b, r = [a, b] ∧ ReachesWithin (Edge sub leftCol rightCol) minDist maxDist a b ∧
    (leftIsVar = false → a = leftValue) ∧ (rightIsVar = false → b = rightValue)
  complete : minDist + sub.length ≤ maxDist → ∀ a b, Reaches (Edge sub leftCol rightCol) minDist a b →
    (leftIsVar = false → a = leftValue) → (rightIsVar = false → b = rightValue) → [a, b] ∈ t
  direct : minDist = 1 → 1 ≤ maxDist → ∀ a b, Edge sub leftCol rightCol a b →
    (leftIsVar = false → a = leftValue) → (rightIsVar = false → b = rightValue) → [a, b] ∈ t
  graded : (∀ a b n m, Walk (Edge sub leftCol rightCol) n a b → Walk (Edge sub leftCol rightCol) m a b → n = m) →
    ∀ a b, ReachesWithin (Edge sub leftCol rightCol) minDist maxDist a b →
    (leftIsVar = false → a = leftValue) → (rightIsVar = false → b = rightValue) → [a, b] ∈ t

theorem mem_segments {nodes : List Nat} {mss : List (List Nat)} {P : Nat → List Nat → Prop} (_ : List.Forall₂ P nodes mss)
    (row : Nat → Nat → Row) {r : Row} : r ∈ ((nodes.zip mss).map fun p => p.2.map (row p.1)).flatten ↔
      ∃ p ∈ nodes.zip mss, ∃ c ∈ p.2, row p.1 c = r := by
  simp only [List.mem_flatten, List.mem_map]
  constructor
  · rintro ⟨l, ⟨p, hp, rfl⟩, hr⟩
    obtain ⟨c, hc, rfl⟩ := List.mem_map.mp hr
    exact ⟨p, hp, c, hc, rfl⟩
  · rintro ⟨p, hp, c, hc, rfl⟩
    exact ⟨_, ⟨p, hp, rfl⟩, List.mem_map.mpr ⟨c, hc, rfl⟩⟩

theorem forall₂_zip {R : α → β → Prop} {l : List α} {m : List β} (h : List.Forall₂ R l m) : ∀ p ∈ l.zip m, R p.1 p.2 := by
  induction h with
  | nil => simp
  | cons h _ ih =>
    intro p hp
    rw [List.zip_cons_cons, List.mem_cons] at hp
    rcases hp with rfl | hp
    · exact h
    · exact ih p hp

theorem exists_zip {R : α → β → Prop} {l : List α} {m : List β} (h : List.Forall₂ R l m) {a : α} (ha : a ∈ l) : ∃ b, (a, b) ∈ l.zip m := by
  induction h with
  | nil => cases ha
  | cons _ _ ih =>
    rcases List.mem_cons.mp ha with rfl | ha
    · exact ⟨_, by rw [List.zip_cons_cons]; exact List.mem_cons_self⟩
    · obtain ⟨b, hb⟩ := ih ha
      exact ⟨b, by rw [List.zip_cons_cons]; exact List.mem_cons_of_mem _ hb⟩

theorem nodup_segments {nodes : List Nat} (hn : nodes.Nodup) {mss : List (List Nat)} {P : Nat → List Nat → Prop}
    (h : List.Forall₂ P nodes mss) (hP : ∀ n ms, P n ms → ms.Nodup) {row : Nat → Nat → Row}
    (hrow : ∀ n c n' c', row n c = row n' c' → n = n' ∧ c = c') : (((nodes.zip mss).map fun p => p.2.map (row p.1)).flatten).Nodup := by
  induction h with
  | nil => simp
  | @cons n ms nodes mss hh ht ih =>
    have hn' := List.nodup_cons.mp hn
    rw [List.zip_cons_cons, List.map_cons, List.flatten_cons, List.nodup_append]
    refine ⟨?_, ih hn'.2, ?_⟩
    · exact List.Pairwise.map _ (fun a b hab he => hab (hrow _ _ _ _ he).2) (hP _ _ hh)
    · rintro a ha b hb rfl
      obtain ⟨c, _, rfl⟩ := List.mem_map.mp ha
      obtain ⟨p, hp, c', _, he⟩ := (mem_segments ht row).mp hb
      have := (hrow _ _ _ _ he).1
      subst this
      exact hn'.1 (List.of_mem_zip hp).1

theorem path_pairs {w leftCol rightCol : Nat} (hl : leftCol < w) (hr : rightCol < w) {sub : Table} (hw : sub.WF w)
    {iter : Nat → List Nat → List Nat} (hiter : ∀ n l, (iter n l).Perm l) {minDist maxDist : Nat} (hmin : 1 ≤ minDist) {fuel : Nat}
    (hfuel : searchBound sub.length minDist ≤ fuel) {leftIsVar rightIsVar : Bool} (hvar : leftIsVar = true ∨ rightIsVar = true)
    (leftValue rightValue : Nat) :
    ∃ t, computeTransitivePath fuel iter sub leftIsVar rightIsVar leftCol rightCol leftValue rightValue minDist maxDist = .ok t ∧
      Pairs sub leftCol rightCol minDist maxDist leftIsVar rightIsVar leftValue rightValue t := by
  unfold computeTransitivePath
  rw [if_neg (by rcases hvar with h | h <;> simp [h])]
  cases rightIsVar with
  | true =>
    rw [if_pos rfl]
    obtain ⟨edges, nodes, h1, hb⟩ := built_ok hl hr hw
    rw [h1]
    simp only [Outcome.bind]
    obtain ⟨mss, h2, h3⟩ := overNodes_ok (maxDist := maxDist) hb hiter hmin hfuel (fun n child => [n, child]) (if leftIsVar then nodes else [leftValue]) []
    rw [h2]
    refine ⟨_, rfl, ?_⟩
    rw [List.nil_append]
    have hnd : (if leftIsVar then nodes else [leftValue]).Nodup := by
      cases leftIsVar with
      | true => rw [if_pos rfl, hb.nodes_eq]; exact hb.keys
      | false => simp
    have hroot : ∀ a, (∃ x ∈ sub, x.getD leftCol 0 = a) → (leftIsVar = false → a = leftValue) → a ∈ (if leftIsVar then nodes else [leftValue]) := by
      rintro a ⟨x, hx, hxa⟩ ha
      cases leftIsVar with
      | true => rw [if_pos rfl, hb.first]; exact List.mem_eraseDups.mpr (List.mem_map.mpr ⟨x, hx, hxa⟩)
      | false => rw [ha rfl]; simp
    have hin : ∀ a b, (∃ x ∈ sub, x.getD leftCol 0 = a) → (leftIsVar = false → a = leftValue) →
        (∀ ms, Found sub leftCol rightCol minDist maxDist a ms → b ∈ ms) →
        [a, b] ∈ (((if leftIsVar then nodes else [leftValue]).zip mss).map fun p => p.2.map fun child => [p.1, child]).flatten := by
      intro a b hx ha h
      obtain ⟨ms, hms⟩ := exists_zip h3 (hroot a hx ha)
      exact (mem_segments h3 fun n child => [n, child]).mpr ⟨(a, ms), hms, b, h ms (forall₂_zip h3 _ hms), rfl⟩
    refine ⟨?_, ?_, ?_, ?_, ?_⟩
    · refine nodup_segments (row := fun n child => [n, child]) hnd h3 (fun n ms h => h.nodup) ?_
      intro n c n' c' h
      simpa using h
    · intro r hr
      obtain ⟨p, hp, c, hc, rfl⟩ := (mem_segments h3 fun n child => [n, child]).mp hr
      refine ⟨p.1, c, rfl, (forall₂_zip h3 p hp).sound c hc, ?_, by intro h; cases h⟩
      intro h
      have := (List.of_mem_zip hp).1
      simpa [h] using this
    · intro hmax a b h ha _
      exact hin a b (reaches_first hmin h) ha fun ms hm => hm.complete hmax b h
    · intro h1 h2 a b h ha _
      obtain ⟨x, hx, hxa, _⟩ := id h
      exact hin a b ⟨x, hx, hxa⟩ ha fun ms hm => hm.direct h1 h2 b h
    · intro hg a b h ha _
      obtain ⟨k, hk1, hk2, hk3⟩ := id h
      exact hin a b (reaches_first hmin ⟨k, hk1, hk3⟩) ha fun ms hm => hm.graded (fun b n m => hg a b n m) b h
  | false =>
    rw [if_neg (by simp)]
    obtain ⟨edges, nodes, h1, hb⟩ := built_ok hr hl hw
    rw [h1]
    simp only [Outcome.bind]
    obtain ⟨mss, h2, h3⟩ := overNodes_ok (maxDist := maxDist) hb hiter hmin hfuel (fun n child => [child, n]) [rightValue] []
    rw [h2]
    refine ⟨_, rfl, ?_⟩
    rw [List.nil_append]
    have hlv : leftIsVar = true := by simpa using hvar
    have hin : ∀ a b, (false = false → b = rightValue) →
        (∀ ms, Found sub rightCol leftCol minDist maxDist b ms → a ∈ ms) →
        [a, b] ∈ ((([rightValue]).zip mss).map fun p => p.2.map fun child => [child, p.1]).flatten := by
      intro a b hx h
      obtain ⟨ms, hms⟩ := exists_zip h3 (by rw [hx rfl]; simp : b ∈ [rightValue])
      exact (mem_segments h3 fun n child => [child, n]).mpr ⟨(b, ms), hms, a, h ms (forall₂_zip h3 _ hms), rfl⟩
    refine ⟨?_, ?_, ?_, ?_, ?_⟩
    · refine nodup_segments (row := fun n child => [child, n]) (by simp) h3 (fun n ms h => h.nodup) ?_
      intro n c n' c' h
      simpa [and_comm] using h
    · intro r hr
      obtain ⟨p, hp, c, hc, rfl⟩ := (mem_segments h3 fun n child => [child, n]).mp hr
      refine ⟨c, p.1, rfl, within_swap.mp ((forall₂_zip h3 p hp).sound c hc), fun h => absurd (hlv.symm.trans h) (by decide), ?_⟩
      intro _
      have := (List.of_mem_zip hp).1
      simpa using this
    · intro hmax a b h _ hbv
      exact hin a b hbv fun ms hm => hm.complete hmax a (reaches_swap.mpr h)
    · intro h1 h2 a b h _ hbv
      refine hin a b hbv fun ms hm => hm.direct h1 h2 a ?_
      rw [edge_swap]; exact h
    · intro hg a b h _ hbv
      refine hin a b hbv fun ms hm => hm.graded (fun a n m h1 h2 => hg a b n m (walk_swap.mp h1) (walk_swap.mp h2)) a (within_swap.mpr h)

/-- C24: for a path of `minDist` or more edges without an upper bound (`path+`; QLever passes the greatest `size_t`) the result contains each
pair of nodes that is connected by such a path exactly once and nothing else, for every edge relation, cyclic or not, restricted to the
fixed value if one side is fixed, and for every order in which the hash sets are iterated. -/
theorem C24_path {w leftCol rightCol : Nat} (hl : leftCol < w) (hr : rightCol < w) {sub : Table} (hw : sub.WF w)
    {iter : Nat → List Nat → List Nat} (hiter : ∀ n l, (iter n l).Perm l) {minDist maxDist : Nat} (hmin : 1 ≤ minDist)
    (hmax : minDist + sub.length ≤ maxDist) {fuel : Nat}
    (hfuel : searchBound sub.length minDist ≤ fuel) {leftIsVar rightIsVar : Bool} (hvar : leftIsVar = true ∨ rightIsVar = true)
    (leftValue rightValue : Nat) :
    ∃ t, computeTransitivePath fuel iter sub leftIsVar rightIsVar leftCol rightCol leftValue rightValue minDist maxDist = .ok t ∧ t.Nodup ∧
      ∀ r, r ∈ t ↔ ∃ a b, r = [a, b] ∧ Reaches (Edge sub leftCol rightCol) minDist a b ∧
        (leftIsVar = false → a = leftValue) ∧ (rightIsVar = false → b = rightValue) := by
  obtain ⟨t, h1, h2⟩ := path_pairs (maxDist := maxDist) hl hr hw hiter hmin hfuel hvar leftValue rightValue
  refine ⟨t, h1, h2.nodup, fun r => ⟨fun h => ?_, ?_⟩⟩
  · obtain ⟨a, b, h3, ⟨n, h4, _, h5⟩, h6⟩ := h2.sound r h
    exact ⟨a, b, h3, ⟨n, h4, h5⟩, h6⟩
  · rintro ⟨a, b, rfl, h3, h4, h5⟩
    exact h2.complete hmax a b h3 h4 h5

/-- A cyclic graph. -/
example : ∃ t, computeTransitivePath (searchBound 3 1) (fun _ l => l) [[1, 2], [2, 1], [2, 3]] true true 0 1 0 0 1 (2 ^ 64 - 1) = .ok t ∧
    t.Nodup ∧ ∀ r, r ∈ t ↔ ∃ a b, r = [a, b] ∧ Reaches (Edge [[1, 2], [2, 1], [2, 3]] 0 1) 1 a b ∧
      (true = false → a = 0) ∧ (true = false → b = 0) :=
  C24_path (w := 2) (by decide) (by decide) (by unfold Table.WF; decide) (fun _ l => List.Perm.refl l) (by decide) (by decide) (Nat.le_refl _)
    (.inl rfl) 0 0

/-- C24 with an upper bound: every row of the result is a pair connected by a walk whose length is within the bounds, no row appears twice,
and the result is complete if all walks between two nodes have the same length (for example in a forest) or if the path is a single edge.
Missing: completeness for other graphs, see `C24_bounded_violated`. -/
theorem C24_bounded_partial {w leftCol rightCol : Nat} (hl : leftCol < w) (hr : rightCol < w) {sub : Table} (hw : sub.WF w)
    {iter : Nat → List Nat → List Nat} (hiter : ∀ n l, (iter n l).Perm l) {minDist maxDist : Nat} (hmin : 1 ≤ minDist) {fuel : Nat}
    (hfuel : searchBound sub.length minDist ≤ fuel) {leftIsVar rightIsVar : Bool} (hvar : leftIsVar = true ∨ rightIsVar = true)
    (leftValue rightValue : Nat) :
    ∃ t, computeTransitivePath fuel iter sub leftIsVar rightIsVar leftCol rightCol leftValue rightValue minDist maxDist = .ok t ∧ t.Nodup ∧
      (∀ r ∈ t, ∃ a b, r = [a, b] ∧ ReachesWithin (Edge sub leftCol rightCol) minDist maxDist a b ∧
        (leftIsVar = false → a = leftValue) ∧ (rightIsVar = false → b = rightValue)) ∧
      ((∀ a b n m, Walk (Edge sub leftCol rightCol) n a b → Walk (Edge sub leftCol rightCol) m a b → n = m) ∨ (minDist = 1 ∧ maxDist = 1) →
        ∀ a b, ReachesWithin (Edge sub leftCol rightCol) minDist maxDist a b →
        (leftIsVar = false → a = leftValue) → (rightIsVar = false → b = rightValue) → [a, b] ∈ t) := by
  obtain ⟨t, h1, h2⟩ := path_pairs (maxDist := maxDist) hl hr hw hiter hmin hfuel hvar leftValue rightValue
  refine ⟨t, h1, h2.nodup, h2.sound, ?_⟩
  rintro (hg | ⟨hm1, hm2⟩) a b h ha hb
  · exact h2.graded hg a b h ha hb
  · refine h2.direct hm1 (by omega) a b ?_ ha hb
    obtain ⟨n, hn1, hn2, hn3⟩ := h
    obtain rfl : n = 1 := by omega
    cases hn3 with
    | step e hn =>
      cases hn
      exact e

/-- C24 is violated for length bounds: with the edges 1 → 2, 2 → 3, 1 → 3, 3 → 4 and paths of one or two edges starting at 1, the node 3 is
marked on the way over 2, at depth 2, where its children are beyond the bound; the direct edge 1 → 3 is then skipped, and the pair (1, 4)
is lost. Whether it is depends on the order in which the hash set of 1 is iterated. -/
theorem C24_bounded_violated :
    computeTransitivePath 100 (fun _ l => l) [[1, 2], [2, 3], [1, 3], [3, 4]] false true 0 1 1 0 1 2 = .ok [[1, 2], [1, 3]] ∧
    ReachesWithin (Edge [[1, 2], [2, 3], [1, 3], [3, 4]] 0 1) 1 2 1 4 ∧
    computeTransitivePath 100 (fun _ l => l.reverse) [[1, 2], [2, 3], [1, 3], [3, 4]] false true 0 1 1 0 1 2 = .ok [[1, 3], [1, 4], [1, 2]] := by
  refine ⟨by decide, ⟨2, by decide, by decide, ?_⟩, by decide⟩
  exact .step (b := 3) ⟨[1, 3], by decide, rfl, rfl⟩ (.step (b := 4) ⟨[3, 4], by decide, rfl, rfl⟩ (.refl 4))

/-- C24 is violated if both sides are fixed: the result is always empty. -/
theorem C24_both_fixed_violated (fuel : Nat) (iter : Nat → List Nat → List Nat) (sub : Table) (leftCol rightCol leftValue rightValue minDist maxDist : Nat) :
    computeTransitivePath fuel iter sub false false leftCol rightCol leftValue rightValue minDist maxDist = .ok [] ∧
    Reaches (Edge [[1, 2]] 0 1) 1 1 2 :=
  ⟨rfl, 1, Nat.le_refl _, walk_one ⟨[1, 2], by decide, rfl, rfl⟩⟩

/-- Paths that may have length zero are refused: as soon as a search starts, it throws. -/
theorem C24_zero_throws (fuel : Nat) (iter : Nat → List Nat → List Nat) {w leftCol rightCol : Nat} (hl : leftCol < w) (hr : rightCol < w) {sub : Table}
    (hw : sub.WF w) (hne : sub ≠ []) {leftIsVar rightIsVar : Bool} (hvar : leftIsVar = true ∨ rightIsVar = true) (leftValue rightValue maxDist : Nat) :
    computeTransitivePath fuel iter sub leftIsVar rightIsVar leftCol rightCol leftValue rightValue 0 maxDist = .throw := by
  unfold computeTransitivePath
  rw [if_neg (by rcases hvar with h | h <;> simp [h])]
  cases rightIsVar with
  | true =>
    rw [if_pos rfl]
    obtain ⟨edges, nodes, h1, hb⟩ := built_ok hl hr hw
    rw [h1]
    simp only [Outcome.bind]
    obtain ⟨n, ns, hn⟩ : ∃ n ns, (if leftIsVar then nodes else [leftValue]) = n :: ns := by
      cases leftIsVar with
      | false => exact ⟨leftValue, [], rfl⟩
      | true =>
        rw [if_pos rfl, hb.first]
        cases sub with
        | nil => exact absurd rfl hne
        | cons r sub => rw [List.map_cons, List.eraseDups_cons]; exact ⟨_, _, rfl⟩
    rw [hn, overNodes, dfs, if_pos rfl]
    rfl
  | false =>
    rw [if_neg (by simp)]
    obtain ⟨edges, nodes, h1, hb⟩ := built_ok hr hl hw
    rw [h1]
    simp only [Outcome.bind]
    rw [overNodes, dfs, if_pos rfl]
    rfl

/-! ### Bound sides -/

/-- The rows that a transitive path with a bound side should return for a row of that side: one for each node that is connected with the join
value `x` (`conn`), which is placed with `x` in the first two columns (`place`), followed by the other columns `rest`. -/
def RowsFor (conn : Nat → Prop) (place : Nat → Row) (rest : Row) (seg : Table) : Prop :=
  seg.Nodup ∧ ∀ row, row ∈ seg ↔ ∃ b, conn b ∧ row = place b ++ rest

theorem segment_rows {firstTwo : Nat → Nat → Nat × Nat} {keep : Nat → Bool} {col : Nat} {h : Row} {ms : List Nat} (hn : ms.Nodup)
    {conn : Nat → Prop} (hconn : ∀ b, b ∈ ms ∧ keep b = true ↔ conn b)
    (hinj : ∀ x a b, firstTwo x a = firstTwo x b → a = b) :
    RowsFor conn (fun b => [(firstTwo (h.getD col 0) b).1, (firstTwo (h.getD col 0) b).2]) (h.eraseIdx col) (segment firstTwo keep col h ms) := by
  unfold segment
  refine ⟨List.Pairwise.map _ ?_ (hn.filter _), ?_⟩
  · intro a b hab he
    simp only [List.cons.injEq, and_true] at he
    exact hab (hinj _ _ _ (Prod.ext he.1 he.2))
  · intro row
    rw [List.mem_map]
    constructor
    · rintro ⟨b, hb, rfl⟩
      exact ⟨b, (hconn b).mp (List.mem_filter.mp hb), rfl⟩
    · rintro ⟨b, hb, rfl⟩
      exact ⟨b, List.mem_filter.mpr ((hconn b).mpr hb), rfl⟩

theorem side_segments {sub : Table} {leftCol rightCol : Nat} {edges : Edges} {allNodes : List Nat} (hb : Built sub leftCol rightCol edges allNodes)
    {iter : Nat → List Nat → List Nat} (hiter : ∀ n l, (iter n l).Perm l) {minDist maxDist : Nat} (hmin : 1 ≤ minDist)
    (hmax : minDist + sub.length ≤ maxDist) {fuel : Nat} (hfuel : searchBound sub.length minDist ≤ fuel) {junk w col : Nat} (hcol : col < w)
    (firstTwo : Nat → Nat → Nat × Nat) (hinj : ∀ x a b, firstTwo x a = firstTwo x b → a = b) (keep : Nat → Bool)
    {side : Table} (hw : side.WF w) (hids : ∀ r ∈ side, r.getD col 0 < 2 ^ 64 - 1) :
    ∃ segs, overSide fuel iter edges minDist maxDist junk (w + 1) firstTwo keep col side (2 ^ 64 - 1) 0 0 [] [] = .ok segs.flatten ∧
      List.Forall₂ (fun h seg => RowsFor (fun b => Reaches (Edge sub leftCol rightCol) minDist (h.getD col 0) b ∧ keep b = true)
        (fun b => [(firstTwo (h.getD col 0) b).1, (firstTwo (h.getD col 0) b).2]) (h.eraseIdx col) seg) (runHeads col none side) segs := by
  obtain ⟨mss, h1, h2⟩ := overSide_ok (maxDist := maxDist) hb hiter hmin hfuel (junk := junk) hcol firstTwo keep side hw none (2 ^ 64 - 1) 0 0 []
    (Nat.le_refl _) (by
      intro _ r hr h
      have := hids r (List.mem_of_mem_head? hr)
      omega) (by intro l h; cases h)
  refine ⟨_, by rw [h1, List.nil_append], ?_⟩
  have hk := runHeads_keys col side none
  generalize runHeads col none side = hs at hk
  clear h1 hw hids
  induction h2 generalizing hs with
  | nil => cases hk; exact .nil
  | @cons r ms side mss hh _ ih =>
    cases hk with
    | @cons _ h _ hs hk1 hk2 =>
      rw [List.zip_cons_cons, List.map_cons]
      refine .cons (segment_rows hh.nodup (fun b => ?_) hinj) (ih hs hk2)
      rw [hk1]
      refine and_congr_left fun _ => ⟨fun hm => ?_, hh.complete hmax b⟩
      obtain ⟨n, hn1, _, hn2⟩ := hh.sound b hm
      exact ⟨n, hn1, hn2⟩

theorem rowsFor_take {conn : Nat → Prop} {p : Nat → Nat × Nat} {rest : Row} {seg : Table}
    (h : RowsFor conn (fun b => [(p b).1, (p b).2]) rest seg) : RowsFor conn (fun b => [(p b).1, (p b).2]) [] (seg.map (·.take 2)) := by
  refine ⟨?_, ?_⟩
  · refine List.pairwise_map.mpr (h.1.imp_of_mem fun {x y} hx hy hxy he => hxy ?_)
    obtain ⟨b, _, rfl⟩ := (h.2 x).mp hx
    obtain ⟨b', _, rfl⟩ := (h.2 y).mp hy
    simp only [List.cons_append, List.nil_append, List.take_succ_cons, List.take_zero] at he
    simp only [List.cons_append, List.nil_append]
    simp only [List.cons.injEq, and_true] at he
    rw [he.1, he.2]
  · intro row
    rw [List.mem_map]
    constructor
    · rintro ⟨x, hx, rfl⟩
      obtain ⟨b, hb, rfl⟩ := (h.2 x).mp hx
      exact ⟨b, hb, rfl⟩
    · rintro ⟨b, hb, rfl⟩
      exact ⟨_, (h.2 _).mpr ⟨b, hb, rfl⟩, rfl⟩

theorem heads_take {col : Nat} {conn : Nat → Nat → Prop} {p : Nat → Nat → Nat × Nat} {side : Table} {segs : List Table} {hs : Table}
    (hk : List.Forall₂ (fun r h => h.getD col 0 = r.getD col 0) side hs)
    (h : List.Forall₂ (fun h seg => RowsFor (conn (h.getD col 0)) (fun b => [(p (h.getD col 0) b).1, (p (h.getD col 0) b).2]) (h.eraseIdx col) seg) hs segs) :
    List.Forall₂ (fun r seg => RowsFor (conn (r.getD col 0)) (fun b => [(p (r.getD col 0) b).1, (p (r.getD col 0) b).2]) [] (seg.map (·.take 2)))
      side segs := by
  induction h generalizing side with
  | nil => cases hk; exact .nil
  | cons hh _ ih =>
    cases hk with
    | cons hk1 hk2 =>
      refine .cons ?_ (ih hk2)
      rw [hk1] at hh
      exact rowsFor_take hh

/-- C24 for a bound left side: if adjacent rows of the left side with the same join value are equal, for example because the left side
has no other column, or each join value only once, the result has for each row of the left side and each node connected with its join
value one row, made of the two nodes and the other columns of the left side.
Missing: other left sides, see `C24_leftBound_violated` and, for what still holds, `C24_leftBound_pairs`; upper bounds. -/
theorem C24_leftBound_partial {w leftCol rightCol : Nat} (hl : leftCol < w) (hr : rightCol < w) {sub : Table} (hw : sub.WF w)
    {iter : Nat → List Nat → List Nat} (hiter : ∀ n l, (iter n l).Perm l) {minDist maxDist : Nat} (hmin : 1 ≤ minDist)
    (hmax : minDist + sub.length ≤ maxDist) {fuel : Nat}
    (hfuel : searchBound sub.length minDist ≤ fuel) {lw leftSideCol : Nat} (hc : leftSideCol < lw) {left : Table} (hlw : left.WF lw)
    (hids : ∀ r ∈ left, r.getD leftSideCol 0 < 2 ^ 64 - 1)
    (hchain : left.IsChain fun r s => r.getD leftSideCol 0 = s.getD leftSideCol 0 → r = s) (rightIsVar : Bool) (rightValue junk : Nat) :
    ∃ segs, computeLeftBound fuel iter junk sub left leftSideCol rightIsVar leftCol rightCol rightValue minDist maxDist (lw + 1) = .ok segs.flatten ∧
      List.Forall₂ (fun r seg => RowsFor (fun b => Reaches (Edge sub leftCol rightCol) minDist (r.getD leftSideCol 0) b ∧ (rightIsVar = false → b = rightValue))
        (fun b => [r.getD leftSideCol 0, b]) (r.eraseIdx leftSideCol) seg) left segs := by
  unfold computeLeftBound
  obtain ⟨edges, nodes, h1, hb⟩ := built_ok hl hr hw
  rw [h1]
  simp only [Outcome.bind]
  obtain ⟨segs, h2, h3⟩ := side_segments hb hiter hmin hmax hfuel (junk := junk) hc (fun x child => (x, child))
    (by intro x a b h; simpa using h) (fun child => rightIsVar || child = rightValue) hlw hids
  rw [runHeads_chain (by intro l h; cases h) hchain] at h3
  refine ⟨segs, h2, forall₂_imp (fun r seg h => ?_) h3⟩
  have : ∀ b, ((rightIsVar || decide (b = rightValue)) = true) ↔ (rightIsVar = false → b = rightValue) := by
    intro b; cases rightIsVar <;> simp
  simp only [this] at h
  exact h

/-- C24 for any bound left side: the two nodes of each row are right. -/
theorem C24_leftBound_pairs {w leftCol rightCol : Nat} (hl : leftCol < w) (hr : rightCol < w) {sub : Table} (hw : sub.WF w)
    {iter : Nat → List Nat → List Nat} (hiter : ∀ n l, (iter n l).Perm l) {minDist maxDist : Nat} (hmin : 1 ≤ minDist)
    (hmax : minDist + sub.length ≤ maxDist) {fuel : Nat}
    (hfuel : searchBound sub.length minDist ≤ fuel) {lw leftSideCol : Nat} (hc : leftSideCol < lw) {left : Table} (hlw : left.WF lw)
    (hids : ∀ r ∈ left, r.getD leftSideCol 0 < 2 ^ 64 - 1) (rightIsVar : Bool) (rightValue junk : Nat) :
    ∃ segs : List Table, computeLeftBound fuel iter junk sub left leftSideCol rightIsVar leftCol rightCol rightValue minDist maxDist (lw + 1) = .ok segs.flatten ∧
      List.Forall₂ (fun r seg => RowsFor (fun b => Reaches (Edge sub leftCol rightCol) minDist (r.getD leftSideCol 0) b ∧ (rightIsVar = false → b = rightValue))
        (fun b => [r.getD leftSideCol 0, b]) [] (seg.map (·.take 2))) left segs := by
  unfold computeLeftBound
  obtain ⟨edges, nodes, h1, hb⟩ := built_ok hl hr hw
  rw [h1]
  simp only [Outcome.bind]
  obtain ⟨segs, h2, h3⟩ := side_segments hb hiter hmin hmax hfuel (junk := junk) hc (fun x child => (x, child))
    (by intro x a b h; simpa using h) (fun child => rightIsVar || child = rightValue) hlw hids
  have : ∀ b, ((rightIsVar || decide (b = rightValue)) = true) ↔ (rightIsVar = false → b = rightValue) := by
    intro b; cases rightIsVar <;> simp
  simp only [this] at h3
  exact ⟨segs, h2, heads_take (p := fun x b => (x, b))
    (conn := fun x b => Reaches (Edge sub leftCol rightCol) minDist x b ∧ (rightIsVar = false → b = rightValue)) (runHeads_keys _ _ _) h3⟩

/-- C24 for a bound right side, with the same restriction. -/
theorem C24_rightBound_partial {w leftCol rightCol : Nat} (hl : leftCol < w) (hr : rightCol < w) {sub : Table} (hw : sub.WF w)
    {iter : Nat → List Nat → List Nat} (hiter : ∀ n l, (iter n l).Perm l) {minDist maxDist : Nat} (hmin : 1 ≤ minDist)
    (hmax : minDist + sub.length ≤ maxDist) {fuel : Nat}
    (hfuel : searchBound sub.length minDist ≤ fuel) {rw rightSideCol : Nat} (hc : rightSideCol < rw) {right : Table} (hrw : right.WF rw)
    (hids : ∀ r ∈ right, r.getD rightSideCol 0 < 2 ^ 64 - 1)
    (hchain : right.IsChain fun r s => r.getD rightSideCol 0 = s.getD rightSideCol 0 → r = s) (leftIsVar : Bool) (leftValue junk : Nat) :
    ∃ segs, computeRightBound fuel iter junk sub right rightSideCol leftIsVar leftCol rightCol leftValue minDist maxDist (rw + 1) = .ok segs.flatten ∧
      List.Forall₂ (fun r seg => RowsFor (fun a => Reaches (Edge sub leftCol rightCol) minDist a (r.getD rightSideCol 0) ∧ (leftIsVar = false → a = leftValue))
        (fun a => [a, r.getD rightSideCol 0]) (r.eraseIdx rightSideCol) seg) right segs := by
  unfold computeRightBound
  obtain ⟨edges, nodes, h1, hb⟩ := built_ok hr hl hw
  rw [h1]
  simp only [Outcome.bind]
  obtain ⟨segs, h2, h3⟩ := side_segments hb hiter hmin hmax hfuel (junk := junk) hc (fun x child => (child, x))
    (by intro x a b h; simpa using h) (fun child => leftIsVar || child = leftValue) hrw hids
  rw [runHeads_chain (by intro l h; cases h) hchain] at h3
  refine ⟨segs, h2, forall₂_imp (fun r seg h => ?_) h3⟩
  have : ∀ b, ((leftIsVar || decide (b = leftValue)) = true) ↔ (leftIsVar = false → b = leftValue) := by
    intro b; cases leftIsVar <;> simp
  simp only [this, reaches_swap] at h
  exact h

/-- C24 for any bound right side: the two nodes of each row are right. -/
theorem C24_rightBound_pairs {w leftCol rightCol : Nat} (hl : leftCol < w) (hr : rightCol < w) {sub : Table} (hw : sub.WF w)
    {iter : Nat → List Nat → List Nat} (hiter : ∀ n l, (iter n l).Perm l) {minDist maxDist : Nat} (hmin : 1 ≤ minDist)
    (hmax : minDist + sub.length ≤ maxDist) {fuel : Nat}
    (hfuel : searchBound sub.length minDist ≤ fuel) {rw rightSideCol : Nat} (hc : rightSideCol < rw) {right : Table} (hrw : right.WF rw)
    (hids : ∀ r ∈ right, r.getD rightSideCol 0 < 2 ^ 64 - 1) (leftIsVar : Bool) (leftValue junk : Nat) :
    ∃ segs : List Table, computeRightBound fuel iter junk sub right rightSideCol leftIsVar leftCol rightCol leftValue minDist maxDist (rw + 1) = .ok segs.flatten ∧
      List.Forall₂ (fun r seg => RowsFor (fun a => Reaches (Edge sub leftCol rightCol) minDist a (r.getD rightSideCol 0) ∧ (leftIsVar = false → a = leftValue))
        (fun a => [a, r.getD rightSideCol 0]) [] (seg.map (·.take 2))) right segs := by
  unfold computeRightBound
  obtain ⟨edges, nodes, h1, hb⟩ := built_ok hr hl hw
  rw [h1]
  simp only [Outcome.bind]
  obtain ⟨segs, h2, h3⟩ := side_segments hb hiter hmin hmax hfuel (junk := junk) hc (fun x child => (child, x))
    (by intro x a b h; simpa using h) (fun child => leftIsVar || child = leftValue) hrw hids
  have : ∀ b, ((leftIsVar || decide (b = leftValue)) = true) ↔ (leftIsVar = false → b = leftValue) := by
    intro b; cases leftIsVar <;> simp
  simp only [this, reaches_swap] at h3
  exact ⟨segs, h2, heads_take (p := fun x b => (b, x))
    (conn := fun x a => Reaches (Edge sub leftCol rightCol) minDist a x ∧ (leftIsVar = false → a = leftValue)) (runHeads_keys _ _ _) h3⟩

example := C24_leftBound_partial (w := 2) (leftCol := 0) (rightCol := 1) (by decide) (by decide) (sub := [[1, 2], [2, 1]])
  (by unfold Table.WF; decide) (iter := fun _ l => l.reverse) (fun _ l => List.reverse_perm l) (minDist := 1) (maxDist := 2 ^ 64 - 1) (by decide)
  (by decide) (Nat.le_refl _) (lw := 2) (leftSideCol := 1) (by decide) (left := [[7, 1], [8, 2], [9, 5]]) (by unfold Table.WF; decide)
  (by decide) (by decide) true 0 0

example := C24_rightBound_partial (w := 2) (leftCol := 0) (rightCol := 1) (by decide) (by decide) (sub := [[1, 2], [2, 1]])
  (by unfold Table.WF; decide) (iter := fun _ l => l.reverse) (fun _ l => List.reverse_perm l) (minDist := 1) (maxDist := 2 ^ 64 - 1) (by decide)
  (by decide) (Nat.le_refl _) (rw := 2) (rightSideCol := 1) (by decide) (right := [[7, 1], [8, 2], [9, 5]]) (by unfold Table.WF; decide)
  (by decide) (by decide) false 2 0

/-- C24 is violated for a bound side whose other columns differ between rows with the same join value: with the left side
`(?x, ?name) ∈ {(1, 10), (1, 20)}` and the edge 1 → 2 the result says `10` twice. -/
theorem C24_leftBound_violated :
    computeLeftBound 100 (fun _ l => l) 0 [[1, 2]] [[1, 10], [1, 20]] 0 true 0 1 0 1 (2 ^ 64 - 1) 3 = .ok [[1, 2, 10], [1, 2, 10]] := by decide

theorem C24_rightBound_violated :
    computeRightBound 100 (fun _ l => l) 0 [[1, 2]] [[2, 10], [2, 20]] 0 true 0 1 0 1 (2 ^ 64 - 1) 3 = .ok [[1, 2, 10], [1, 2, 10]] := by decide

/-! ### C54 -/

theorem sorted_segments {idx : Nat} {vals : List Nat} {segs : List Table} (h : List.Forall₂ (fun v seg => ∀ r ∈ seg, r.getD idx 0 = v) vals segs)
    (hs : vals.Pairwise (· ≤ ·)) : SortedOnCols [idx] segs.flatten := by
  unfold SortedOnCols
  induction h with
  | nil => exact .nil
  | @cons v seg vals segs hh ht ih =>
    rw [List.flatten_cons, List.pairwise_append]
    have hs' := List.pairwise_cons.mp hs
    refine ⟨?_, ih hs'.2, ?_⟩
    · refine List.pairwise_iff_forall_sublist.mpr fun {a b} hab => ?_
      rw [key_lt_single, hh a (hab.subset (by simp)), hh b (hab.subset (by simp))]
      exact Nat.lt_irrefl v
    · intro a ha b hb
      rw [key_lt_single, hh a ha]
      obtain ⟨seg', hseg', hb'⟩ := List.mem_flatten.mp hb
      obtain ⟨v', hv', hr⟩ := forall₂_left ht hseg'
      rw [hr b hb']
      exact Nat.not_lt.mpr (hs'.1 v' hv')

/-- `TransitivePath::resultSortedOn` (109-131), for the sort orders that the children declare (no side: `none`). -/
def sortedOn (subSortedOn : List Nat) (left right : Option (List Nat × Nat)) (leftIsVar rightIsVar : Bool) (leftCol : Nat) : List Nat :=
  if left.isNone ∧ right.isNone ∧ leftIsVar ∧ rightIsVar ∧ subSortedOn.head? = some leftCol then [0]
  else
    match left with
    | some (s, c) => if s.head? = some c then [0] else []
    | none =>
      match right with
      | some (s, c) => if s.head? = some c then [1] else []
      | none => []

theorem head_sorted {cols : List Nat} {c : Nat} {t : Table} (hs : SortedOnCols cols t) (h : cols.head? = some c) :
    (t.map fun r => r.getD c 0).Pairwise (· ≤ ·) := by
  cases cols with
  | nil => cases h
  | cons c' cols =>
    cases h
    refine List.pairwise_map.mpr (hs.imp fun {x y} hxy => ?_)
    by_contra hlt
    refine hxy ?_
    unfold key
    rw [List.map_cons, List.map_cons, List.cons_lt_cons_iff]
    exact .inl (by omega)

/-- C54 for `TransitivePath`: if the children are sorted as they declare, so is the result, whether no side is bound or one, for all
length bounds. -/
theorem C54_transitivePath {w leftCol rightCol : Nat} (hl : leftCol < w) (hr : rightCol < w) {sub : Table} (hw : sub.WF w) {subSortedOn : List Nat}
    (hs : SortedOnCols subSortedOn sub)
    {iter : Nat → List Nat → List Nat} (hiter : ∀ n l, (iter n l).Perm l) {minDist maxDist : Nat} (hmin : 1 ≤ minDist) {fuel : Nat}
    (hfuel : searchBound sub.length minDist ≤ fuel) (leftIsVar rightIsVar : Bool) (leftValue rightValue : Nat) {t : Table}
    (h : computeTransitivePath fuel iter sub leftIsVar rightIsVar leftCol rightCol leftValue rightValue minDist maxDist = .ok t) :
    SortedOnCols (sortedOn subSortedOn none none leftIsVar rightIsVar leftCol) t := by
  unfold sortedOn
  by_cases hc : leftIsVar = true ∧ rightIsVar = true ∧ subSortedOn.head? = some leftCol
  · rw [if_pos ⟨rfl, rfl, hc⟩]
    obtain ⟨rfl, rfl, hsub⟩ := hc
    unfold computeTransitivePath at h
    rw [if_neg (by simp), if_pos rfl] at h
    obtain ⟨edges, nodes, h1, hb⟩ := built_ok hl hr hw
    rw [h1] at h
    simp only [Outcome.bind, if_true] at h
    obtain ⟨mss, h2, h3⟩ := overNodes_ok (maxDist := maxDist) hb hiter hmin hfuel (fun n child => [n, child]) nodes []
    rw [h2, List.nil_append] at h
    cases h
    refine sorted_segments (vals := nodes) ?_ ?_
    · clear h2 hb h1
      induction h3 with
      | nil => exact .nil
      | cons _ _ ih =>
        refine .cons ?_ ih
        intro r hr
        obtain ⟨c, _, rfl⟩ := List.mem_map.mp hr
        rfl
    · rw [hb.first]
      exact (head_sorted hs hsub).sublist (eraseDups_sublist _ _ (Nat.le_refl _))
  · rw [if_neg (by simpa using hc)]
    unfold SortedOnCols
    simp only [key, List.map_nil]
    exact List.pairwise_iff_forall_sublist.mpr fun _ => lt_irrefl _

theorem bound_sorted {sub : Table} {leftCol rightCol : Nat} {edges : Edges} {allNodes : List Nat} (hb : Built sub leftCol rightCol edges allNodes)
    {iter : Nat → List Nat → List Nat} (hiter : ∀ n l, (iter n l).Perm l) {minDist maxDist : Nat} (hmin : 1 ≤ minDist)
    {fuel : Nat} (hfuel : searchBound sub.length minDist ≤ fuel) {junk w col : Nat} (hcol : col < w)
    (firstTwo : Nat → Nat → Nat × Nat) (idx : Nat) (hidx : ∀ x b (rest : Row), ((firstTwo x b).1 :: (firstTwo x b).2 :: rest).getD idx 0 = x) (keep : Nat → Bool)
    {side : Table} (hw : side.WF w) (hids : ∀ r ∈ side, r.getD col 0 < 2 ^ 64 - 1) {cols : List Nat} (hs : SortedOnCols cols side)
    (hc : cols.head? = some col) {t : Table}
    (h : overSide fuel iter edges minDist maxDist junk (w + 1) firstTwo keep col side (2 ^ 64 - 1) 0 0 [] [] = .ok t) : SortedOnCols [idx] t := by
  obtain ⟨mss, h1, h2⟩ := overSide_ok (maxDist := maxDist) hb hiter hmin hfuel (junk := junk) hcol firstTwo keep side hw none (2 ^ 64 - 1) 0 0 []
    (Nat.le_refl _) (by
      intro _ r hr h
      have := hids r (List.mem_of_mem_head? hr)
      omega) (by intro l h; cases h)
  rw [h, List.nil_append] at h1
  cases h1
  have hk := runHeads_keys col side none
  refine sorted_segments ?_ (head_sorted hs hc)
  generalize runHeads col none side = heads at hk h
  clear h hw hids hs
  induction h2 generalizing heads with
  | nil => cases hk; exact .nil
  | @cons r ms side mss hh _ ih =>
    cases hk with
    | @cons _ h _ hs hk1 hk2 =>
      rw [List.zip_cons_cons, List.map_cons, List.map_cons]
      refine .cons ?_ (ih hs hk2)
      intro r hr
      obtain ⟨c, _, rfl⟩ := List.mem_map.mp hr
      simp only
      rw [hidx, hk1]

/-- C54 for `TransitivePath` with a bound left side. -/
theorem C54_transitivePath_left {w leftCol rightCol : Nat} (hl : leftCol < w) (hr : rightCol < w) {sub : Table} (hw : sub.WF w) (subSortedOn : List Nat)
    {iter : Nat → List Nat → List Nat} (hiter : ∀ n l, (iter n l).Perm l) {minDist maxDist : Nat} (hmin : 1 ≤ minDist) {fuel : Nat}
    (hfuel : searchBound sub.length minDist ≤ fuel) {lw leftSideCol : Nat} (hc : leftSideCol < lw) {left : Table} (hlw : left.WF lw)
    (hids : ∀ r ∈ left, r.getD leftSideCol 0 < 2 ^ 64 - 1) {leftSortedOn : List Nat} (hs : SortedOnCols leftSortedOn left)
    (leftIsVar rightIsVar : Bool) (rightValue junk : Nat) {t : Table}
    (h : computeLeftBound fuel iter junk sub left leftSideCol rightIsVar leftCol rightCol rightValue minDist maxDist (lw + 1) = .ok t) :
    SortedOnCols (sortedOn subSortedOn (some (leftSortedOn, leftSideCol)) none leftIsVar rightIsVar leftCol) t := by
  unfold sortedOn
  rw [if_neg (by simp)]
  simp only
  by_cases hcol : leftSortedOn.head? = some leftSideCol
  · rw [if_pos hcol]
    unfold computeLeftBound at h
    obtain ⟨edges, nodes, h1, hb⟩ := built_ok hl hr hw
    rw [h1] at h
    exact bound_sorted hb hiter hmin hfuel hc _ 0 (fun x b rest => rfl) _ hlw hids hs hcol h
  · rw [if_neg hcol]
    unfold SortedOnCols
    simp only [key, List.map_nil]
    exact List.pairwise_iff_forall_sublist.mpr fun _ => lt_irrefl _

/-- C54 for `TransitivePath` with a bound right side. -/
theorem C54_transitivePath_right {w leftCol rightCol : Nat} (hl : leftCol < w) (hr : rightCol < w) {sub : Table} (hw : sub.WF w) (subSortedOn : List Nat)
    {iter : Nat → List Nat → List Nat} (hiter : ∀ n l, (iter n l).Perm l) {minDist maxDist : Nat} (hmin : 1 ≤ minDist) {fuel : Nat}
    (hfuel : searchBound sub.length minDist ≤ fuel) {rw rightSideCol : Nat} (hc : rightSideCol < rw) {right : Table} (hrw : right.WF rw)
    (hids : ∀ r ∈ right, r.getD rightSideCol 0 < 2 ^ 64 - 1) {rightSortedOn : List Nat} (hs : SortedOnCols rightSortedOn right)
    (leftIsVar rightIsVar : Bool) (leftValue junk : Nat) {t : Table}
    (h : computeRightBound fuel iter junk sub right rightSideCol leftIsVar leftCol rightCol leftValue minDist maxDist (rw + 1) = .ok t) :
    SortedOnCols (sortedOn subSortedOn none (some (rightSortedOn, rightSideCol)) leftIsVar rightIsVar leftCol) t := by
  unfold sortedOn
  rw [if_neg (by simp)]
  simp only
  by_cases hcol : rightSortedOn.head? = some rightSideCol
  · rw [if_pos hcol]
    unfold computeRightBound at h
    obtain ⟨edges, nodes, h1, hb⟩ := built_ok hr hl hw
    rw [h1] at h
    exact bound_sorted hb hiter hmin hfuel hc _ 1 (fun x b rest => rfl) _ hrw hids hs hcol h
  · rw [if_neg hcol]
    unfold SortedOnCols
    simp only [key, List.map_nil]
    exact List.pairwise_iff_forall_sublist.mpr fun _ => lt_irrefl _

/-- The hypotheses can be met: a sorted edge relation gives a sorted result. -/
example (t : Table) (h : computeTransitivePath (searchBound 3 1) (fun _ l => l) [[1, 2], [2, 1], [2, 3]] true true 0 1 0 0 1 (2 ^ 64 - 1) = .ok t) :
    SortedOnCols [0] t :=
  C54_transitivePath (w := 2) (by decide) (by decide) (by unfold Table.WF; decide) (subSortedOn := [0, 1]) (by unfold SortedOnCols; decide)
    (fun _ l => List.Perm.refl l) (by decide) (Nat.le_refl _) true true 0 0 h

end Verif.TransitivePath
