import Verif.Lemmas.PlannerFound
import Verif.Lemmas.PlannerRuns
/-
C65 Whatever plan the query planner chooses for a group of joined patterns, its execution returns exactly the answers of the
group.
-/
namespace Verif.Planner
open MultiJoin (VarMap)
open PlannerSpec
open JoinSpec (SortedOn SortedOnCols)

/-- What is assumed about the patterns and filters of a group.  `data j k` are the tables that alternative `k` for
seed `j` may return; `vars j` and `bag j` are the variables and the solutions of seed `j`; `keep i` says which solutions satisfy filter `i`. -/
structure Describes (P : Params) (nodes : List Node) (filters : List (List Var)) (children : List (List Alt))
    (data : Nat → Nat → Table → Prop) (vars : Nat → List Var) (bag : Nat → List Sol) (keep : Nat → Sol → Bool) : Prop where
  /-- hash maps are iterated in some order -/
  shuffle : ∀ m, (P.shuffle m).Perm m
  order : ∀ g, (P.order g).Perm g
  /-- all alternatives return the solutions of the seed -/
  leaf : ∀ j k a, (altsOf nodes children j)[k]? = some a → LeafOk data vars bag j k a
  /-- variables in two patterns are bound -/
  bound : ∀ i j, i ≠ j → ∀ v ∈ vars i, v ∈ vars j → ∀ s ∈ bag i, s v ≠ none
  /-- filters look at their variables only -/
  keep : ∀ i s t, (∀ v ∈ filters.getD i [], s v = t v) → keep i s = keep i t

/-- The filters all of whose variables occur in the patterns `0 … n - 1`. -/
def boundFilters (filters : List (List Var)) (vars : Nat → List Var) (n : Nat) : List Nat :=
  (List.range filters.length).filter fun i => (filters.getD i []).all fun v => (List.range n).any fun j => v ∈ vars j

section
variable {P : Params} {nodes : List Node} {filters : List (List Var)} {children : List (List Alt)}
  {data : Nat → Nat → Table → Prop} {vars : Nat → List Var} {bag : Nat → List Sol} {keep : Nat → Sol → Bool}

/-- Plans in the last row: their leaves are the patterns, and their filters are the filters whose variables occur. -/
theorem last_row (h : Describes P nodes filters children data vars bag keep)
    (hn : 0 < nodes.length + children.length) {rows : List (List Plan)}
    (hr : fillDpTab P nodes filters children = .ok rows) {row : List Plan} (hl : rows.getLast? = some row) {p : Plan} (hp : p ∈ row)
    (hs : p.tree.Simple) :
    Sound P data vars bag (fun i => filters.getD i []) p.tree ∧ p.tree.seedsOf.Perm (List.range (nodes.length + children.length)) ∧
      (∀ i, p.filters.testBit i = true → i ∈ p.tree.filtersOf) ∧ (p.tree.isDummy = false →
        ∀ i, i ∈ p.tree.filtersOf ↔ i ∈ boundFilters filters vars (nodes.length + children.length)) := by
  obtain ⟨hrows, hlen⟩ := fillDpTab_inv (data := data) (vars := vars) (bag := bag) h.order h.shuffle h.leaf hr
  have hl' := hl
  rw [List.getLast?_eq_getElem?] at hl
  have hinv := hrows _ _ hl p hp
  have hk : rows.length - 1 + 1 = nodes.length + children.length := by omega
  rw [hk] at hinv
  have hsound := hinv.sound hs
  have hmap := sound_map h.shuffle hsound
  have hperm : p.tree.seedsOf.Perm (List.range (nodes.length + children.length)) := by
    refine (List.subperm_of_subset hinv.nodup fun j hj => List.mem_range.mpr (hinv.lt j hj)).perm_of_length_le ?_
    rw [List.length_range, hinv.len]
  refine ⟨hsound, hperm, hinv.fbits, fun hd i => ?_⟩
  unfold boundFilters
  rw [List.mem_filter, List.mem_range, List.all_eq_true]
  constructor
  · intro hi
    refine ⟨hinv.flt i hi, fun v hv => ?_⟩
    obtain ⟨j, hj, hjv⟩ := sound_filters h.shuffle hsound i hi v hv
    rw [List.any_eq_true]
    exact ⟨j, List.mem_range.mpr (hinv.lt j hj), by simpa using hjv⟩
  · rintro ⟨hi, hv⟩
    refine hinv.fbits i (fillDpTab_complete hn hr row hl' p hp hd i _ (List.getElem?_eq_getElem hi) ?_)
    intro v hv'
    rw [covers_iff, hmap.2]
    have := hv v (by rw [List.getD_eq_getElem?_getD, List.getElem?_eq_getElem hi]; exact hv')
    rw [List.any_eq_true] at this
    obtain ⟨j, hj, hjv⟩ := this
    exact ⟨j, hperm.symm.subset hj, by simpa using hjv⟩

theorem eval_dummy {t : Tree} {x : Table} (he : Eval P data keep t x) : t.isDummy = false := by
  cases hd : t.isDummy with
  | false => rfl
  | true =>
    obtain ⟨seed, alt, s, m, rfl⟩ := dummy_shape hd
    cases he with
    | leaf hnd => rw [hd] at hnd; cases hnd

/-- **C65** for plans whose joins are all on one column: the execution of any plan in the last row of the table returns the join
of all patterns, filtered by all filters whose variables occur in the patterns.
Missing: plans with joins on two or more columns (see `C65_two_columns_violated`), and the other filters
(see `C65_filter_dropped`). -/
theorem C65_plan_partial (h : Describes P nodes filters children data vars bag keep)
    (hn : 0 < nodes.length + children.length) {rows : List (List Plan)}
    (hr : fillDpTab P nodes filters children = .ok rows) {row : List Plan} (hl : rows.getLast? = some row) {p : Plan} (hp : p ∈ row)
    (hs : p.tree.Simple) {t : Table} (he : Eval P data keep p.tree t) :
    (t.map (solution (p.tree.cols P))).Perm
      (answers ((List.range (nodes.length + children.length)).map bag)
        ((boundFilters filters vars (nodes.length + children.length)).map keep)) := by
  obtain ⟨hsound, hperm, _, hcomplete⟩ := last_row h hn hr hl hp hs
  have hcomplete := hcomplete (eval_dummy he)
  have hsem := sem_eval h.keep h.shuffle h.bound he hsound
  refine hsem.sols.trans ?_
  unfold answers
  have hf : (fun s => p.tree.filtersOf.all fun i => keep i s) = fun s =>
      ((boundFilters filters vars (nodes.length + children.length)).map keep).all fun f => f s := by
    funext s
    rw [Bool.eq_iff_iff, List.all_eq_true, List.all_eq_true]
    constructor
    · intro h' f hf
      obtain ⟨i, hi, rfl⟩ := List.mem_map.mp hf
      exact h' i ((hcomplete i).mpr hi)
    · intro h' i hi
      exact h' _ (List.mem_map_of_mem ((hcomplete i).mp hi))
  rw [hf]
  exact (joinAll_perm (hperm.map bag)).filter _

/-- **C65** for groups in the shape of a tree: the patterns can be ordered such that every pattern shares at most one variable with
all earlier ones together.  Whatever plan is chosen, its execution returns the answers.
Missing: cyclic groups and patterns that share several variables (see `C65_two_columns_violated`). -/
theorem C65_tree_partial (h : Describes P nodes filters children data vars bag keep)
    (hn : 0 < nodes.length + children.length) (htree : TreeShaped vars (nodes.length + children.length)) {rows : List (List Plan)}
    (hr : fillDpTab P nodes filters children = .ok rows) {row : List Plan} (hl : rows.getLast? = some row) {p : Plan} (hp : p ∈ row)
    {t : Table} (he : Eval P data keep p.tree t) :
    (t.map (solution (p.tree.cols P))).Perm
      (answers ((List.range (nodes.length + children.length)).map bag)
        ((boundFilters filters vars (nodes.length + children.length)).map keep)) := by
  have hrows := fillDpTab_shaped (data := data) (vars := vars) (bag := bag) h.order h.shuffle h.leaf htree hr
  have hl' := hl
  rw [List.getLast?_eq_getElem?] at hl'
  exact C65_plan_partial h hn hr hl hp (hrows _ _ hl' p hp).simple he

/-- The table that a plan returns has a column for every variable of the patterns, and it is sorted as the plan declares. -/
theorem plan_columns (h : Describes P nodes filters children data vars bag keep)
    (hn : 0 < nodes.length + children.length) (htree : TreeShaped vars (nodes.length + children.length)) {rows : List (List Plan)}
    (hr : fillDpTab P nodes filters children = .ok rows) {row : List Plan} (hl : rows.getLast? = some row) {p : Plan} (hp : p ∈ row)
    {t : Table} (he : Eval P data keep p.tree t) :
    MapOk (p.tree.cols P) p.tree.width ∧ t.WF p.tree.width ∧ JoinSpec.SortedOnCols p.tree.sortedOn t ∧
      ∀ v, v ∈ (p.tree.cols P).map (·.1) ↔ ∃ j, j < nodes.length + children.length ∧ v ∈ vars j := by
  have hrows := fillDpTab_shaped (data := data) (vars := vars) (bag := bag) h.order h.shuffle h.leaf htree hr
  have hl' := hl
  rw [List.getLast?_eq_getElem?] at hl'
  obtain ⟨hsound, hperm, _, _⟩ := last_row h hn hr hl hp (hrows _ _ hl' p hp).simple
  have hmap := sound_map h.shuffle hsound
  have hsem := sem_eval h.keep h.shuffle h.bound he hsound
  refine ⟨hmap.1, hsem.wf, hsem.sorted, fun v => ?_⟩
  rw [hmap.2]
  simp only [hperm.mem_iff, List.mem_range]

/-- **C65** (plans exist). For connected groups in the shape of a tree a plan is found if every pattern can be joined on each of
its variables (scans for triples exist in both orders) and no pattern is a scan of all triples.
Missing: other groups. -/
theorem C65_found_partial (h : Describes P nodes filters children data vars bag keep)
    (hvars : ∀ i n, nodes[i]? = some n → ∀ v, v ∈ n.vars ↔ v ∈ vars i)
    (hdummy : ∀ j, ∀ a ∈ altsOf nodes children j, ¬ (a.scan = true ∧ a.width = 3))
    (hjoinable : ∀ j, j < nodes.length + children.length → ∀ v ∈ vars j, Joinable (altsOf nodes children j) v)
    (hsome : ∃ (j k : Nat) (a : Alt), j < nodes.length + children.length ∧ (altsOf nodes children j)[k]? = some a)
    (htree : TreeShaped vars (nodes.length + children.length))
    (hconn : Conn vars (fun j => j < nodes.length + children.length))
    (h1 : nodes.length < 64) (h2 : filters.length ≤ 64) (h3 : nodes.length + children.length ≤ 64) :
    ∃ rows row p, fillDpTab P nodes filters children = .ok rows ∧ rows.getLast? = some row ∧ cheapest P row = some p := by
  obtain ⟨j, k, a, hj, ha⟩ := hsome
  obtain ⟨rows, hrows, hne⟩ := fillDpTab_found (data := data) (vars := vars) (bag := bag) h.order h.shuffle hvars h.leaf hdummy
    hjoinable (List.ne_nil_of_mem (mem_seeds_of hj ha)) htree hconn (by omega) h1 h2 h3
  obtain ⟨-, hlen⟩ := fillDpTab_inv (data := data) (vars := vars) (bag := bag) h.order h.shuffle h.leaf hrows
  have hl : rows.getLast? = some (rows[rows.length - 1]'(by omega)) := by
    rw [List.getLast?_eq_getElem?]
    exact List.getElem?_eq_getElem _
  obtain ⟨p, hp⟩ := cheapest_isSome (P := P) (hne _ (List.getElem_mem (show rows.length - 1 < rows.length by omega)))
  exact ⟨rows, _, p, hrows, hl, hp⟩

/-- No plan is a scan of all triples if no pattern is. -/
theorem plan_real (h : Describes P nodes filters children data vars bag keep)
    (hdummy : ∀ j, ∀ a ∈ altsOf nodes children j, ¬ (a.scan = true ∧ a.width = 3)) (htree : TreeShaped vars (nodes.length + children.length))
    {rows : List (List Plan)} (hr : fillDpTab P nodes filters children = .ok rows) {row : List Plan} (hl : rows.getLast? = some row)
    {p : Plan} (hp : p ∈ row) : p.tree.isDummy = false := by
  have hrows := fillDpTab_shaped (data := data) (vars := vars) (bag := bag) h.order h.shuffle h.leaf htree hr
  rw [List.getLast?_eq_getElem?] at hl
  have hs := (hrows _ _ hl p hp).simple
  have := fillDpTab_leaves (Q := fun _ _ scan w => ¬ (scan = true ∧ w = 3)) h.order
    (fun j k a ha => hdummy j a (List.mem_of_getElem? ha)) hr _ _ hl p hp hs
  cases hd : p.tree.isDummy with
  | false => rfl
  | true =>
    obtain ⟨seed, alt, s, m, e⟩ := dummy_shape hd
    rw [e] at this
    exact absurd ⟨rfl, rfl⟩ this

/-- **C65** (plans return).  For groups in the shape of a tree whose patterns all return tables, the execution of any plan in the last row
that is not a scan of all triples returns a table, unless some of the patterns, but not all, have more than 1000 solutions
together: then the left table of a join may be more than 1000 times as long as the right one, and the join reads out of bounds (C13).
Missing: other groups. -/
theorem C65_returns_partial (h : Describes P nodes filters children data vars bag keep)
    (hn : 0 < nodes.length + children.length) (htree : TreeShaped vars (nodes.length + children.length))
    (hdata : ∀ j k a, (altsOf nodes children j)[k]? = some a → ∃ x, data j k x) {rows : List (List Plan)}
    (hr : fillDpTab P nodes filters children = .ok rows) {row : List Plan} (hl : rows.getLast? = some row) {p : Plan} (hp : p ∈ row)
    (hd : p.tree.isDummy = false) :
    (∃ t, Eval P data keep p.tree t) ∨ ∃ js : List Nat, js.Sublist (List.range (nodes.length + children.length)) ∧
      js.length < nodes.length + children.length ∧ 1000 < (joinAll (js.map bag)).length := by
  have hrows := fillDpTab_shaped (data := data) (vars := vars) (bag := bag) h.order h.shuffle h.leaf htree hr
  have hl' := hl
  rw [List.getLast?_eq_getElem?] at hl'
  have hs := (hrows _ _ hl' p hp).simple
  obtain ⟨hsound, hperm, _, _⟩ := last_row h hn hr hl hp hs
  have hfed := fillDpTab_leaves (Q := Fed data) h.order (fun j k a ha => hdata j k a ha) hr _ _ hl' p hp hs
  rcases runs h.keep h.shuffle h.bound hsound hfed hd with hx | hlop
  · exact .inl hx
  · right
    obtain ⟨js, h1, h2, h3⟩ := hlop.large h.keep h.shuffle h.bound hsound
    have hnd : p.tree.seedsOf.Nodup := hperm.nodup_iff.mpr List.nodup_range
    have hjs := h1.nodup hnd
    have hlen := hperm.length_eq
    rw [List.length_range] at hlen
    have hp' : ((List.range (nodes.length + children.length)).filter (· ∈ js)).Perm js := by
      rw [List.perm_ext_iff_of_nodup (List.nodup_range.filter _) hjs]
      intro j
      rw [List.mem_filter, decide_eq_true_eq]
      exact ⟨fun h => h.2, fun h => ⟨hperm.subset (h1.subset h), h⟩⟩
    refine ⟨(List.range (nodes.length + children.length)).filter (· ∈ js), List.filter_sublist, ?_, ?_⟩
    · rw [hp'.length_eq]; omega
    · rw [(joinAll_perm (hp'.map bag)).length_eq]
      exact h3

end

/-- The plan that is chosen in the end: the cheapest one of the last row (QueryPlanner.cpp:91-100). -/
def chosen (P : Params) (nodes : List Node) (filters : List (List Var)) (children : List (List Alt)) : Outcome (Option Plan) :=
  (fillDpTab P nodes filters children).map fun rows => rows.getLast?.bind (cheapest P)

theorem of_chosen {P : Params} {nodes : List Node} {filters : List (List Var)} {children : List (List Alt)} {p : Plan}
    (h : chosen P nodes filters children = .ok (some p)) :
    ∃ rows row, fillDpTab P nodes filters children = .ok rows ∧ rows.getLast? = some row ∧ p ∈ row := by
  unfold chosen at h
  cases hf : fillDpTab P nodes filters children with
  | ok rows =>
    rw [hf] at h
    simp only [Outcome.map, Outcome.ok.injEq] at h
    obtain ⟨row, h1, h2⟩ := Option.bind_eq_some_iff.mp h
    exact ⟨rows, row, rfl, h1, cheapest_mem h2⟩
  | throw => rw [hf] at h; cases h
  | ub => rw [hf] at h; cases h
  | diverge => rw [hf] at h; cases h

/-! ### An example: `?x <p> ?y . ?y <q> ?z FILTER(?z != 9)` -/

namespace Sample

/-- Some costs. -/
def cost : Tree → Nat
  | .leaf _ _ _ _ _ _ => 1
  | .sort t _ => 5 + cost t
  | .orderBy t _ => 5 + cost t
  | .filter t _ => 1 + cost t
  | .join l r _ _ => 1 + cost l + cost r
  | .twoCol l r _ _ => 1 + cost l + cost r
  | .multi l r _ => 1 + cost l + cost r

def P : Params := ⟨fun _ _ => true, id, cost, id⟩

def scan (v w : Var) : Alt := ⟨true, 2, [0, 1], [(v, 0), (w, 1)]⟩

def nodes : List Node := [⟨["x", "y"], [scan "x" "y", scan "y" "x"]⟩, ⟨["y", "z"], [scan "y" "z", scan "z" "y"]⟩]

def data : Nat → Nat → Table
  | 0, 0 => [[1, 5], [2, 6]]
  | 0, 1 => [[5, 1], [6, 2]]
  | 1, 0 => [[5, 8], [5, 9]]
  | 1, 1 => [[8, 5], [9, 5]]
  | _, _ => []

def vars : Nat → List Var
  | 0 => ["x", "y"]
  | 1 => ["y", "z"]
  | _ => []

def bag : Nat → List Sol
  | 0 => (data 0 0).map (solution [("x", 0), ("y", 1)])
  | 1 => (data 1 0).map (solution [("y", 0), ("z", 1)])
  | _ => []

def keep : Nat → Sol → Bool
  | 0, s => s "z" ≠ some 9
  | _, _ => true

theorem swapped {v w : Var} (h : v ≠ w) (a b : Nat) : solution [(w, 0), (v, 1)] [b, a] = solution [(v, 0), (w, 1)] [a, b] := by
  funext u
  unfold solution
  by_cases h1 : u = v
  · subst h1
    have h' : (u == w) = false := beq_false_of_ne h
    simp [List.lookup, h']
  · by_cases h2 : u = w
    · subst h2
      have h' : (u == v) = false := beq_false_of_ne h1
      simp [List.lookup, h']
    · have h1' : (u == v) = false := beq_false_of_ne h1
      have h2' : (u == w) = false := beq_false_of_ne h2
      simp [List.lookup, h1', h2']

theorem describes : Describes P nodes [["z"]] [] (returns data) vars bag keep := by
  refine ⟨fun m => .refl m, fun g => .refl g, ?_, ?_, ?_⟩
  · intro j k a h
    have hj : j = 0 ∨ j = 1 ∨ 2 ≤ j := by omega
    rcases hj with rfl | rfl | hj
    · have hk : k = 0 ∨ k = 1 ∨ 2 ≤ k := by omega
      rcases hk with rfl | rfl | hk
      · cases h
        refine LeafOk.of_table ⟨by decide, by decide, by decide⟩ (fun v => Iff.rfl) (by unfold Table.WF; decide) ?_ (.refl _) (by decide)
        unfold SortedOnCols; decide
      · cases h
        refine LeafOk.of_table ⟨by decide, by decide, by decide⟩ ?_ (by unfold Table.WF; decide) ?_ ?_ (by decide)
        · intro v
          simp only [scan, vars, List.map_cons, List.map_nil, List.mem_cons, List.not_mem_nil, or_false]
          exact or_comm
        · unfold SortedOnCols; decide
        · show ([[5, 1], [6, 2]] : Table).map (solution [("y", 0), ("x", 1)]) |>.Perm _
          simp only [List.map_cons, List.map_nil, swapped (show ("x" : Var) ≠ "y" by decide)]
          exact .refl _
      · rw [List.getElem?_eq_none (by show 2 ≤ k; exact hk)] at h; cases h
    · have hk : k = 0 ∨ k = 1 ∨ 2 ≤ k := by omega
      rcases hk with rfl | rfl | hk
      · cases h
        refine LeafOk.of_table ⟨by decide, by decide, by decide⟩ (fun v => Iff.rfl) (by unfold Table.WF; decide) ?_ (.refl _) (by decide)
        unfold SortedOnCols; decide
      · cases h
        refine LeafOk.of_table ⟨by decide, by decide, by decide⟩ ?_ (by unfold Table.WF; decide) ?_ ?_ (by decide)
        · intro v
          simp only [scan, vars, List.map_cons, List.map_nil, List.mem_cons, List.not_mem_nil, or_false]
          exact or_comm
        · unfold SortedOnCols; decide
        · show ([[8, 5], [9, 5]] : Table).map (solution [("z", 0), ("y", 1)]) |>.Perm _
          simp only [List.map_cons, List.map_nil, swapped (show ("y" : Var) ≠ "z" by decide)]
          exact .refl _
      · rw [List.getElem?_eq_none (by show 2 ≤ k; exact hk)] at h; cases h
    · have : altsOf nodes [] j = [] := by
        unfold altsOf
        rw [if_neg (by show ¬ j < 2; omega)]
        simp
      rw [this] at h
      cases h
  · intro i j hne v hi hj s hs
    have hi' : i = 0 ∨ i = 1 ∨ 2 ≤ i := by omega
    rcases hi' with rfl | rfl | hi'
    · have hv : v = "x" ∨ v = "y" := by simpa [vars] using hi
      rcases hv with rfl | rfl
      all_goals
        have : s = solution [("x", 0), ("y", 1)] [1, 5] ∨ s = solution [("x", 0), ("y", 1)] [2, 6] := by simpa [bag, data] using hs
        rcases this with rfl | rfl <;> decide
    · have hv : v = "y" ∨ v = "z" := by simpa [vars] using hi
      rcases hv with rfl | rfl
      all_goals
        have : s = solution [("y", 0), ("z", 1)] [5, 8] ∨ s = solution [("y", 0), ("z", 1)] [5, 9] := by simpa [bag, data] using hs
        rcases this with rfl | rfl <;> decide
    · have : vars i = [] := by
        unfold vars
        split
        · omega
        · omega
        · rfl
      rw [this] at hi
      cases hi
  · intro i s t h
    cases i with
    | zero =>
      have := h "z" (by simp)
      simp only [keep, this]
    | succ i => rfl

theorem treeShaped : TreeShaped vars 2 := by
  refine ⟨id, fun i j _ _ h => h, ?_⟩
  intro j hj v w hv hw h1 h2
  have hj' : j = 0 ∨ j = 1 := by omega
  rcases hj' with rfl | rfl
  · obtain ⟨i, _, hi, _⟩ := h1
    exact absurd hi (by simp)
  · obtain ⟨i, _, hi, hiv⟩ := h1
    obtain ⟨i', _, hi', hiw⟩ := h2
    simp only [id] at hi hi'
    obtain rfl : i = 0 := by omega
    obtain rfl : i' = 0 := by omega
    simp only [vars, List.mem_cons, List.not_mem_nil, or_false] at hv hw hiv hiw
    rcases hv with rfl | rfl
    · rcases hw with rfl | rfl
      · rfl
      · simp at hiw
    · simp at hiv

theorem conn : Conn vars (fun j => j < 2) := by
  have : (fun j => j < 2) = fun j => j = 0 ∨ j = 1 := by funext j; simp only [eq_iff_iff]; omega
  rw [this]
  exact conn_union (conn_singleton 0) (conn_singleton 1) (v := "y") ⟨0, rfl, by decide⟩ ⟨1, rfl, by decide⟩

/-- The chosen plan. -/
def plan : Plan := ⟨.filter (.join (.leaf 1 0 true 2 [0, 1] [("y", 0), ("z", 1)]) (.leaf 0 1 true 2 [0, 1] [("y", 0), ("x", 1)]) 0 0) 0, 3, 1⟩

theorem chosen_plan : chosen P nodes [["z"]] [] = .ok (some plan) := by decide +kernel

theorem eval_plan : Eval P (returns data) keep plan.tree [[5, 8, 1]] := by
  have h : Eval P (returns data) keep (.join (.leaf 1 0 true 2 [0, 1] [("y", 0), ("z", 1)]) (.leaf 0 1 true 2 [0, 1] [("y", 0), ("x", 1)]) 0 0)
      [[5, 8, 1], [5, 9, 1]] :=
    .join (x := [[5, 8], [5, 9]]) (y := [[5, 1], [6, 2]]) (fuel := 5) rfl rfl (.leaf rfl rfl) (.leaf rfl rfl) (by decide) (by decide)
  exact Eval.filter (i := 0) h

example : ([[5, 8, 1]] : Table).map (solution (plan.tree.cols P)) |>.Perm (answers [bag 0, bag 1] [keep 0]) := by
  obtain ⟨rows, row, h1, h2, h3⟩ := of_chosen chosen_plan
  exact C65_tree_partial describes (by decide) treeShaped h1 h2 h3 eval_plan

example : ∃ rows row p, fillDpTab P nodes [["z"]] [] = .ok rows ∧ rows.getLast? = some row ∧ cheapest P row = some p := by
  refine C65_found_partial describes ?_ ?_ ?_ ⟨0, 0, scan "x" "y", by decide, rfl⟩ treeShaped conn (by decide) (by decide) (by decide)
  · intro i n h v
    match i, h with
    | 0, h => cases h; exact Iff.rfl
    | 1, h => cases h; exact Iff.rfl
    | i + 2, h => cases h
  · intro j a ha hd
    have : ∀ n ∈ nodes, ∀ a ∈ n.alts, a.width = 2 := by decide
    unfold altsOf at ha
    split at ha
    · rename_i hj
      rw [List.getElem?_eq_getElem hj] at ha
      have := this _ (List.getElem_mem hj) a ha
      omega
    · simp at ha
  · intro j hj v hv
    have hj' : j = 0 ∨ j = 1 := by
      have : j < 2 := hj
      omega
    rcases hj' with rfl | rfl
    · have hv : v = "x" ∨ v = "y" := by simpa [vars] using hv
      rcases hv with rfl | rfl
      · exact ⟨scan "x" "y", by decide, .inr ⟨0, by decide, rfl⟩⟩
      · exact ⟨scan "y" "x", by decide, .inr ⟨0, by decide, rfl⟩⟩
    · have hv : v = "y" ∨ v = "z" := by simpa [vars] using hv
      rcases hv with rfl | rfl
      · exact ⟨scan "y" "z", by decide, .inr ⟨0, by decide, rfl⟩⟩
      · exact ⟨scan "z" "y", by decide, .inr ⟨0, by decide, rfl⟩⟩

/-- The patterns have two solutions each, so the plan returns. -/
example : ∃ t, Eval P (returns data) keep plan.tree t := by
  obtain ⟨rows, row, h1, h2, h3⟩ := of_chosen chosen_plan
  rcases C65_returns_partial describes (by decide) treeShaped (fun j k _ _ => ⟨data j k, rfl⟩) h1 h2 h3 rfl with h | ⟨js, e1, e2, e3⟩
  · exact h
  · have : js = [] ∨ js = [0] ∨ js = [1] := by
      match js, e1, e2 with
      | [], _, _ => exact .inl rfl
      | [j], e1, _ =>
        have : j < 2 := List.mem_range.mp (e1.subset List.mem_cons_self)
        have : j = 0 ∨ j = 1 := by omega
        rcases this with rfl | rfl
        · exact .inr (.inl rfl)
        · exact .inr (.inr rfl)
      | _ :: _ :: js, _, e2 => exact absurd e2 (by show ¬ js.length + 1 + 1 < 2; omega)
    rcases this with rfl | rfl | rfl
    · have : (joinAll (([] : List Nat).map bag)).length = 1 := by decide
      omega
    · have : (joinAll ([0].map bag)).length = 2 := by rw [List.map_cons, List.map_nil, joinAll_singleton]; rfl
      omega
    · have : (joinAll ([1].map bag)).length = 2 := by rw [List.map_cons, List.map_nil, joinAll_singleton]; rfl
      omega

end Sample

/-! ### Joins on two columns: `VALUES (?x ?z ?y) { … } ?y <r> ?x` -/

namespace Cyclic

def nodes : List Node := [⟨["y", "x"], [Sample.scan "y" "x", Sample.scan "x" "y"]⟩]

def child : Alt := ⟨false, 3, [], [("x", 0), ("z", 1), ("y", 2)]⟩

def data : Nat → Nat → Table
  | 0, 0 => [[8, 2], [9, 1]]
  | 0, 1 => [[1, 9], [2, 8]]
  | 1, 0 => [[2, 4, 8], [1, 3, 9]]
  | _, _ => []

def vars : Nat → List Var
  | 0 => ["y", "x"]
  | 1 => ["x", "z", "y"]
  | _ => []

def bag : Nat → List Sol
  | 0 => (data 0 0).map (solution [("y", 0), ("x", 1)])
  | 1 => (data 1 0).map (solution [("x", 0), ("z", 1), ("y", 2)])
  | _ => []

def keep : Nat → Sol → Bool := fun _ _ => true

theorem describes : Describes Sample.P nodes [] [[child]] (returns data) vars bag keep := by
  refine ⟨fun m => .refl m, fun g => .refl g, ?_, ?_, fun _ _ _ _ => rfl⟩
  · intro j k a h
    have hj : j = 0 ∨ j = 1 ∨ 2 ≤ j := by omega
    rcases hj with rfl | rfl | hj
    · have hk : k = 0 ∨ k = 1 ∨ 2 ≤ k := by omega
      rcases hk with rfl | rfl | hk
      · cases h
        refine LeafOk.of_table ⟨by decide, by decide, by decide⟩ (fun v => Iff.rfl) (by unfold Table.WF; decide) ?_ (.refl _) (by decide)
        unfold SortedOnCols; decide
      · cases h
        refine LeafOk.of_table ⟨by decide, by decide, by decide⟩ ?_ (by unfold Table.WF; decide) ?_ ?_ (by decide)
        · intro v
          simp only [Sample.scan, vars, List.map_cons, List.map_nil, List.mem_cons, List.not_mem_nil, or_false]
          exact or_comm
        · unfold SortedOnCols; decide
        · show ([[1, 9], [2, 8]] : Table).map (solution [("x", 0), ("y", 1)]) |>.Perm _
          simp only [List.map_cons, List.map_nil, Sample.swapped (show ("y" : Var) ≠ "x" by decide)]
          exact .swap _ _ _
      · rw [List.getElem?_eq_none (by show 2 ≤ k; exact hk)] at h; cases h
    · cases k with
      | zero =>
        cases h
        refine LeafOk.of_table ⟨by decide, by decide, by decide⟩ (fun v => Iff.rfl) (by unfold Table.WF; decide) ?_ (.refl _) (by decide)
        unfold SortedOnCols; decide
      | succ k => cases h
    · have : altsOf nodes [[child]] j = [] := by
        unfold altsOf
        rw [if_neg (by show ¬ j < 1; omega), List.getD_eq_getElem?_getD, List.getElem?_eq_none (by show 1 ≤ j - 1; omega)]
        rfl
      rw [this] at h
      cases h
  · intro i j hne v hi hj s hs
    have hi' : i = 0 ∨ i = 1 ∨ 2 ≤ i := by omega
    rcases hi' with rfl | rfl | hi'
    · have hv : v = "y" ∨ v = "x" := by simpa [vars] using hi
      rcases hv with rfl | rfl
      all_goals
        have : s = solution [("y", 0), ("x", 1)] [8, 2] ∨ s = solution [("y", 0), ("x", 1)] [9, 1] := by simpa [bag, data] using hs
        rcases this with rfl | rfl <;> decide
    · have hv : v = "x" ∨ v = "z" ∨ v = "y" := by simpa [vars] using hi
      rcases hv with rfl | rfl | rfl
      all_goals
        have : s = solution [("x", 0), ("z", 1), ("y", 2)] [2, 4, 8] ∨ s = solution [("x", 0), ("z", 1), ("y", 2)] [1, 3, 9] := by
          simpa [bag, data] using hs
        rcases this with rfl | rfl <;> decide
    · have : vars i = [] := by
        unfold vars
        split
        · omega
        · omega
        · rfl
      rw [this] at hi
      cases hi

/-- The chosen plan: the subquery is ordered by `?z` and `?x`, but joined on `?y` and `?x`. -/
def plan : Plan := ⟨.twoCol (.orderBy (.leaf 1 0 false 3 [] [("x", 0), ("z", 1), ("y", 2)]) [1, 0])
  (.leaf 0 0 true 2 [0, 1] [("y", 0), ("x", 1)]) (2, 0) (0, 1), 3, 0⟩

theorem chosen_plan : chosen Sample.P nodes [] [[child]] = .ok (some plan) := by decide +kernel

theorem eval_plan : Eval Sample.P (returns data) keep plan.tree [[1, 3, 9]] := by
  have h : Eval Sample.P (returns data) keep (.orderBy (.leaf 1 0 false 3 [] [("x", 0), ("z", 1), ("y", 2)]) [1, 0]) [[1, 3, 9], [2, 4, 8]] := by
    refine .orderBy (.leaf rfl rfl) ?_
    show Modifiers.OrderByOp [(1, false), (0, false)] [[2, 4, 8], [1, 3, 9]] _
    unfold Modifiers.OrderByOp
    rw [if_neg (by decide)]
    have hw : Table.WF [[2, 4, 8], [1, 3, 9]] 3 := by unfold Table.WF; decide
    exact .sorted _ (Modifiers.comparable_of_image _ (Modifiers.lessKeys_eq hw (by decide) (by decide))) (by decide) (by decide)
  exact .twoCol (fuel := 20) h (.leaf rfl rfl) (by decide) (by decide)

/-- The other answer. -/
theorem answer : union [solution [("y", 0), ("x", 1)] [8, 2], solution [("x", 0), ("z", 1), ("y", 2)] [2, 4, 8]] ∈
    answers [bag 0, bag 1] [] := by
  unfold answers
  rw [List.mem_filter]
  refine ⟨?_, rfl⟩
  unfold joinAll
  refine List.mem_map_of_mem (List.mem_filter.mpr ⟨?_, ?_⟩)
  · simp [choices, bag, data]
  · classical
    refine decide_eq_true (List.pairwise_pair.mpr ?_)
    intro v
    by_cases h1 : v = "x"
    · subst h1; right; right; decide
    · by_cases h2 : v = "y"
      · subst h2; right; right; decide
      · left
        exact solution_not_mem (by simp [h1, h2]) _

end Cyclic

/-- **C65** is violated for joins on two columns: in two of the four rounds of the loop over the ways to sort (`swap`), the sides
are ordered by the columns of the other side.  Such a plan costs the same as the correct one and comes first; answers are lost. -/
theorem C65_two_columns_violated :
    ∃ (P : Params) (nodes : List Node) (children : List (List Alt)) (data : Nat → Nat → Table → Prop) (vars : Nat → List Var)
      (bag : Nat → List Sol) (keep : Nat → Sol → Bool) (p : Plan) (t : Table),
      Describes P nodes [] children data vars bag keep ∧ chosen P nodes [] children = .ok (some p) ∧ Eval P data keep p.tree t ∧
      ¬ (t.map (solution (p.tree.cols P))).Perm (answers ((List.range (nodes.length + children.length)).map bag) []) := by
  refine ⟨_, _, _, _, _, _, _, _, _, Cyclic.describes, Cyclic.chosen_plan, Cyclic.eval_plan, fun h => ?_⟩
  have hm := h.symm.subset Cyclic.answer
  have := List.mem_singleton.mp hm
  have := congrFun this "x"
  revert this
  decide

/-- Joins on two columns are executed only if one side has two columns, which are the join columns. -/
theorem C65_two_columns_not_implemented {P : Params} {data : Nat → Nat → Table → Prop} {keep : Nat → Sol → Bool} {l r : Tree}
    {jc1 jc2 : Nat × Nat} (hl : l.width ≠ 2) (hr : r.width ≠ 2) (t : Table) : ¬ Eval P data keep (.twoCol l r jc1 jc2) t := by
  intro h
  cases h with
  | twoCol _ _ _ h =>
    unfold Minus.Filter.twoColumnJoin at h
    rw [if_neg (fun h => hr h.1), if_neg (fun h => hl h.1)] at h
    cases h

/-- Hence a group of two subqueries of width three that share two variables fails, although there are answers. -/
theorem C65_two_columns_fails :
    ∃ (P : Params) (children : List (List Alt)) (p : Plan), chosen P [] [] children = .ok (some p) ∧
      ∀ data keep t, ¬ Eval P data keep p.tree t := by
  refine ⟨Sample.P, [[Cyclic.child], [⟨false, 3, [], [("x", 0), ("w", 1), ("y", 2)]⟩]],
    ⟨.twoCol (.orderBy (.leaf 0 0 false 3 [] [("x", 0), ("z", 1), ("y", 2)]) [0, 2])
      (.orderBy (.leaf 1 0 false 3 [] [("x", 0), ("w", 1), ("y", 2)]) [0, 2]) (0, 0) (2, 2), 3, 0⟩, by decide +kernel, ?_⟩
  intro data keep t
  exact C65_two_columns_not_implemented (by decide) (by decide) t

/-- **C65** is violated for filters with a variable that no pattern binds: they are ignored, whereas no solution satisfies
`FILTER(?w != 9)` without a binding of `?w`. -/
theorem C65_filter_dropped :
    ∃ (p : Plan) (t : Table) (keep : Nat → Sol → Bool),
      Describes Sample.P Sample.nodes [["w"]] [] (returns Sample.data) Sample.vars Sample.bag keep ∧
      chosen Sample.P Sample.nodes [["w"]] [] = .ok (some p) ∧
      Eval Sample.P (returns Sample.data) keep p.tree t ∧ (∀ s, s "w" = none → keep 0 s = false) ∧
      (t.map (solution (p.tree.cols Sample.P))) ≠ [] ∧ answers [Sample.bag 0, Sample.bag 1] [keep 0] = [] := by
  have hd := Sample.describes
  refine ⟨⟨.join (.leaf 1 0 true 2 [0, 1] [("y", 0), ("z", 1)]) (.leaf 0 1 true 2 [0, 1] [("y", 0), ("x", 1)]) 0 0, 3, 0⟩,
    [[5, 8, 1], [5, 9, 1]], fun i s => i ≠ 0 || (s "w").isSome && s "w" ≠ some 9, ⟨hd.shuffle, hd.order, hd.leaf, hd.bound, ?_⟩, by decide +kernel,
    .join (x := [[5, 8], [5, 9]]) (y := [[5, 1], [6, 2]]) (fuel := 5) rfl rfl (.leaf rfl rfl) (.leaf rfl rfl) (by decide) (by decide), ?_,
    by simp, ?_⟩
  · intro i s t h
    cases i with
    | zero => simp only [h "w" (by simp)]
    | succ i => rfl
  · intro s hs; simp [hs]
  · unfold answers
    rw [List.filter_eq_nil_iff]
    intro s hs
    have : s "w" = none := by
      refine joinAll_unbound ?_ hs
      intro b hb u hu
      rcases List.mem_cons.mp hb with rfl | hb
      · have : u = solution [("x", 0), ("y", 1)] [1, 5] ∨ u = solution [("x", 0), ("y", 1)] [2, 6] := by
          simpa [Sample.bag, Sample.data] using hu
        rcases this with rfl | rfl <;> decide
      · obtain rfl := List.mem_singleton.mp hb
        have : u = solution [("y", 0), ("z", 1)] [5, 8] ∨ u = solution [("y", 0), ("z", 1)] [5, 9] := by
          simpa [Sample.bag, Sample.data] using hu
        rcases this with rfl | rfl <;> decide
    simp [this]

/-- Scans of all triples: alone they cannot be executed, -/
theorem C65_full_scan_fails {P : Params} {data : Nat → Nat → Table → Prop} {keep : Nat → Sol → Bool} {seed alt : Nat} {s : List Nat}
    {m : VarMap} (t : Table) : ¬ Eval P data keep (.leaf seed alt true 3 s m) t := by
  intro h
  cases h with
  | leaf h => cases h

/-- and there is no plan for a join of two of them, e.g. `?s ?p ?o . ?o ?q ?r`. -/
theorem C65_two_full_scans_fail :
    let scan (a b c : Var) : Alt := ⟨true, 3, [0, 1, 2], [(a, 0), (b, 1), (c, 2)]⟩
    let full (s p o : Var) : List Alt := [scan s p o, scan s o p, scan p s o, scan p o s, scan o s p, scan o p s]
    fillDpTab Sample.P [⟨["s", "p", "o"], full "s" "p" "o"⟩, ⟨["o", "q", "r"], full "o" "q" "r"⟩] [] [] = .throw := by
  decide +kernel

/-- Limits: more than 64 triples or filters are refused, and with 64 triples or more than 64 patterns the planner shifts by 64 bits
or more. -/
theorem C65_limits (P : Params) (nodes : List Node) (filters : List (List Var)) (children : List (List Alt)) :
    (64 < nodes.length ∨ 64 < filters.length → fillDpTab P nodes filters children = .throw) ∧
    (nodes.length ≤ 64 → filters.length ≤ 64 → (nodes.length = 64 ∨ 64 < nodes.length + children.length) →
      fillDpTab P nodes filters children = .ub) := by
  unfold fillDpTab
  refine ⟨fun h => ?_, fun h1 h2 h3 => ?_⟩
  · rcases h with h | h
    · simp only [h, if_true]
    · simp only [h, if_true]
      split <;> rfl
  · simp only
    rw [if_neg (by omega), if_neg (by omega), if_pos (by omega)]

end Verif.Planner
