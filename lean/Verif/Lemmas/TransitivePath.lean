import Verif.Model.TransitivePath
import Verif.Spec.Path
import Mathlib.Data.List.Perm.Subperm
import Mathlib.Data.List.Forall2
/-
Lemmas about the model of `TransitivePath`.
-/
namespace Verif.TransitivePath
open PathSpec

/-! ### Walks -/

theorem walk_append {E : Nat → Nat → Prop} {n m a b c : Nat} (h1 : Walk E n a b) (h2 : Walk E m b c) : Walk E (n + m) a c := by
  induction h1 with
  | refl => simpa using h2
  | step e _ ih =>
    rw [Nat.add_right_comm]
    exact .step e (ih h2)

theorem walk_one {E : Nat → Nat → Prop} {a b : Nat} (h : E a b) : Walk E 1 a b := .step h (.refl b)

theorem walk_reverse {E : Nat → Nat → Prop} {n a b : Nat} (h : Walk E n a b) : Walk (fun x y => E y x) n b a := by
  induction h with
  | refl => exact .refl _
  | step e _ ih => exact walk_append ih (walk_one e)

theorem walk_reverse_iff {E : Nat → Nat → Prop} {n a b : Nat} : Walk (fun x y => E y x) n b a ↔ Walk E n a b :=
  ⟨fun h => walk_reverse h, walk_reverse⟩

theorem walk_congr {E E' : Nat → Nat → Prop} (h : ∀ a b, E a b ↔ E' a b) {n a b : Nat} : Walk E n a b ↔ Walk E' n a b := by
  have : E = E' := funext fun a => funext fun b => propext (h a b)
  rw [this]

/-! ### The edge map -/

/-- There is an edge in the map. -/
def EdgeIn (edges : Edges) (a b : Nat) : Prop := ∃ cs, find edges a = some cs ∧ b ∈ cs

theorem find_append_single (edges : Edges) (l : Nat) (cs : List Nat) (a : Nat) :
    find (edges ++ [(l, cs)]) a = (find edges a).or (if l = a then some cs else none) := by
  unfold find
  rw [List.find?_append]
  cases h : edges.find? fun p => decide (p.1 = a) with
  | some p => simp
  | none =>
    by_cases hl : l = a <;> simp [hl]

theorem find_map {edges : Edges} {f : List Nat → List Nat} (l a : Nat) :
    find (edges.map fun p => if p.1 = l then (p.1, f p.2) else p) a = if a = l then (find edges a).map f else find edges a := by
  unfold find
  induction edges with
  | nil => simp
  | cons p ps ih =>
    rw [List.map_cons, List.find?_cons, List.find?_cons]
    by_cases hp : p.1 = l
    · simp only [hp, if_true]
      by_cases ha : l = a
      · subst ha; simp
      · have : ¬ a = l := fun h => ha h.symm
        simp only [ha, decide_false, this, if_false] at ih ⊢
        exact ih
    · simp only [hp, if_false]
      by_cases ha : p.1 = a
      · have : ¬ a = l := fun h => hp (ha.trans h)
        simp [ha, this]
      · simp only [ha, decide_false]
        exact ih

theorem find_addEdge (edges : Edges) (l r a : Nat) :
    find (addEdge edges l r) a = if a = l then
      some (match find edges l with | none => [r] | some cs => if cs.contains r then cs else cs ++ [r]) else find edges a := by
  unfold addEdge
  cases h : find edges l with
  | none =>
    simp only [find_append_single]
    by_cases ha : a = l
    · subst ha; simp [h]
    · have : ¬ l = a := fun h => ha h.symm
      simp [ha, this]
  | some cs =>
    simp only
    rw [find_map (f := fun cs => if cs.contains r then cs else cs ++ [r])]
    by_cases ha : a = l
    · subst ha; simp [h]
    · simp [ha]

theorem keys_addEdge (edges : Edges) (l r : Nat) :
    (addEdge edges l r).map (·.1) = edges.map (·.1) ++ (if (find edges l).isNone then [l] else []) := by
  unfold addEdge
  cases h : find edges l with
  | none => simp
  | some cs =>
    simp only [List.map_map, Option.isNone_some, Bool.false_eq_true, if_false, List.append_nil]
    apply List.map_congr_left
    intro p _
    simp only [Function.comp]
    split <;> rfl

theorem find_isSome_iff (edges : Edges) (l : Nat) : (find edges l).isSome = true ↔ l ∈ edges.map (·.1) := by
  unfold find
  simp only [Option.isSome_map, List.find?_isSome, List.mem_map, decide_eq_true_eq]

/-- What the map contains after reading `sub`. -/
structure Built (sub : Table) (leftCol rightCol : Nat) (edges : Edges) (nodes : List Nat) : Prop where
  nodes_eq : nodes = edges.map (·.1)
  keys : (edges.map (·.1)).Nodup
  edge : ∀ a b, EdgeIn edges a b ↔ Edge sub leftCol rightCol a b
  sets : ∀ a cs, find edges a = some cs → cs.Nodup ∧ cs ≠ []
  first : nodes = (sub.map fun r => r.getD leftCol 0).eraseDups

theorem addEdge_edge (edges : Edges) (l r a b : Nat) : EdgeIn (addEdge edges l r) a b ↔ EdgeIn edges a b ∨ (a = l ∧ b = r) := by
  unfold EdgeIn
  rw [find_addEdge]
  by_cases ha : a = l
  · subst ha
    simp only [if_true, Option.some.injEq, exists_eq_left', true_and]
    cases h : find edges a with
    | none => simp
    | some cs =>
      simp only [Option.some.injEq, exists_eq_left']
      split
      · rename_i hc
        have hc : r ∈ cs := by simpa using hc
        constructor
        · exact .inl
        · rintro (h | rfl)
          · exact h
          · exact hc
      · simp
  · simp [ha]

theorem eraseDups_append_single {l : List Nat} {a : Nat} : (l ++ [a]).eraseDups = if a ∈ l then l.eraseDups else l.eraseDups ++ [a] := by
  rw [List.eraseDups_append]
  by_cases h : a ∈ l
  · simp [List.removeAll, h]
  · simp [List.removeAll, h, List.eraseDups_cons]

theorem buildEdges_ok {w leftCol rightCol : Nat} (hl : leftCol < w) (hr : rightCol < w) (sub : Table) (hw : sub.WF w) (done : Table)
    {edges : Edges} {nodes : List Nat} (h : Built done leftCol rightCol edges nodes) :
    ∃ edges' nodes', buildEdges sub leftCol rightCol edges nodes = .ok (edges', nodes') ∧
      Built (done ++ sub) leftCol rightCol edges' nodes' := by
  induction sub generalizing done edges nodes with
  | nil => exact ⟨edges, nodes, rfl, by simpa using h⟩
  | cons row sub ih =>
    have hlen : row.length = w := hw row List.mem_cons_self
    have hrl : Outcome.read row leftCol = .ok (row.getD leftCol 0) := by
      rw [Outcome.read_lt _ _ (by omega)]; simp [List.getD, hlen, hl]
    have hrr : Outcome.read row rightCol = .ok (row.getD rightCol 0) := by
      rw [Outcome.read_lt _ _ (by omega)]; simp [List.getD, hlen, hr]
    rw [buildEdges, hrl, hrr]
    simp only [Outcome.bind]
    generalize hlv : row.getD leftCol 0 = l at *
    generalize hrv : row.getD rightCol 0 = r at *
    have hb : Built (done ++ [row]) leftCol rightCol (addEdge edges l r) (if (find edges l).isNone then nodes ++ [l] else nodes) := by
      refine ⟨?_, ?_, ?_, ?_, ?_⟩
      · rw [keys_addEdge, h.nodes_eq]
        split <;> simp
      · rw [keys_addEdge]
        split
        · rename_i hn
          rw [List.nodup_append]
          refine ⟨h.keys, by simp, ?_⟩
          intro a ha b hb hab
          have hb : b = l := by simpa using hb
          have := (find_isSome_iff edges l).mpr (by rw [← hb, ← hab]; exact ha)
          rw [Option.isNone_iff_eq_none] at hn
          simp [hn] at this
        · simpa using h.keys
      · intro a b
        rw [addEdge_edge, h.edge]
        constructor
        · rintro (⟨x, hx, h1⟩ | ⟨rfl, rfl⟩)
          · exact ⟨x, List.mem_append_left _ hx, h1⟩
          · exact ⟨row, by simp, hlv, hrv⟩
        · rintro ⟨x, hx, h1, h2⟩
          rcases List.mem_append.mp hx with hx | hx
          · exact .inl ⟨x, hx, h1, h2⟩
          · have : x = row := by simpa using hx
            subst this
            exact .inr ⟨h1.symm.trans hlv, h2.symm.trans hrv⟩
      · intro a cs hcs
        rw [find_addEdge] at hcs
        by_cases ha : a = l
        · subst ha
          simp only [if_true, Option.some.injEq] at hcs
          cases hf : find edges a with
          | none => simp only [hf] at hcs; subst hcs; simp
          | some ds =>
            simp only [hf] at hcs
            obtain ⟨h1, h2⟩ := h.sets a ds hf
            split at hcs
            · subst hcs; exact ⟨h1, h2⟩
            · rename_i hc
              subst hcs
              have hc : r ∉ ds := by simpa using hc
              refine ⟨?_, by simp⟩
              rw [List.nodup_append]
              refine ⟨h1, by simp, ?_⟩
              intro a ha b hb hab
              have hb : b = r := by simpa using hb
              exact hc (by rw [← hb, ← hab]; exact ha)
        · simp only [ha, if_false] at hcs
          exact h.sets a cs hcs
      · rw [List.map_append, List.map_cons, List.map_nil, hlv, eraseDups_append_single, ← h.first]
        have : (find edges l).isNone = true ↔ ¬ l ∈ (done.map fun r => r.getD leftCol 0) := by
          rw [← List.mem_eraseDups, ← h.first, h.nodes_eq, ← find_isSome_iff]
          cases find edges l <;> simp
        by_cases hn : (find edges l).isNone = true
        · rw [if_pos hn, if_neg (this.mp hn)]
        · rw [if_neg hn, if_pos (by rw [this] at hn; exact Classical.not_not.mp hn)]
    obtain ⟨e', n', h1, h2⟩ := ih (fun x hx => hw x (List.mem_cons_of_mem _ hx)) (done ++ [row]) hb
    refine ⟨e', n', h1, ?_⟩
    simpa using h2

theorem built_ok {w leftCol rightCol : Nat} (hl : leftCol < w) (hr : rightCol < w) {sub : Table} (hw : sub.WF w) :
    ∃ edges nodes, buildEdges sub leftCol rightCol [] [] = .ok (edges, nodes) ∧ Built sub leftCol rightCol edges nodes := by
  have h0 : Built [] leftCol rightCol [] [] := by
    refine ⟨rfl, List.nodup_nil, ?_, ?_, rfl⟩
    · intro a b; simp [EdgeIn, Edge, find]
    · intro a cs h; simp [find] at h
  have := buildEdges_ok hl hr sub hw [] h0
  simpa using this

/-! ### The search -/

/-- `c` is a child at depth `d` that is still to be processed. -/
def Pend : List (List Nat) → Nat → Nat → Prop
  | [], _, _ => False
  | f :: rest, d, c => (d = rest.length + 1 ∧ c ∈ f) ∨ Pend rest d c

/-- Weight of a child at depth `d`. -/
def weight (N minDist d : Nat) : Nat := (N + 2) ^ (minDist - d)

/-- Measure of the stack. -/
def stackM (N minDist : Nat) : List (List Nat) → Nat
  | [] => 0
  | f :: rest => f.length * weight N minDist (rest.length + 1) + 1 + stackM N minDist rest

section dfs
variable {iter : Nat → List Nat → List Nat} {edges : Edges} {minDist maxDist : Nat} {emit : Nat → Outcome Table} {e : Nat → Table}
  {root : Nat} {T : List Nat} {res0 : Table} {N : Nat}

/-- All walks from `root` to a node have the same length, as in a tree. -/
def Graded (E : Nat → Nat → Prop) (root : Nat) : Prop := ∀ b n m, Walk E n root b → Walk E m root b → n = m

/-- The invariant of the search. -/
structure Inv (edges : Edges) (minDist maxDist : Nat) (e : Nat → Table) (root : Nat) (T : List Nat) (res0 : Table) (s : State) : Prop where
  nodup : s.marks.Nodup
  targets : s.marks ⊆ T
  res : s.res = res0 ++ s.marks.reverse.flatMap e
  walks : ∀ d c, Pend s.stack d c → Walk (EdgeIn edges) d root c
  height : s.stack.length ≤ minDist + s.marks.length
  sound : ∀ b ∈ s.marks, ReachesWithin (EdgeIn edges) minDist maxDist root b
  closed : minDist + T.length ≤ maxDist → ∀ m ∈ s.marks, ∀ c, EdgeIn edges m c → c ∈ s.marks ∨ ∃ d, minDist ≤ d ∧ Pend s.stack d c
  complete : minDist + T.length ≤ maxDist → ∀ b, Reaches (EdgeIn edges) minDist root b →
    b ∈ s.marks ∨ ∃ d c j, Pend s.stack d c ∧ Walk (EdgeIn edges) j c b ∧ minDist ≤ d + j
  direct : minDist = 1 → 1 ≤ maxDist → ∀ b, EdgeIn edges root b → b ∈ s.marks ∨ Pend s.stack 1 b
  gradedClosed : Graded (EdgeIn edges) root → ∀ m ∈ s.marks, ∀ k, Walk (EdgeIn edges) k root m → k + 1 ≤ maxDist →
    ∀ c, EdgeIn edges m c → c ∈ s.marks ∨ Pend s.stack (k + 1) c
  gradedComplete : Graded (EdgeIn edges) root → ∀ b k, minDist ≤ k → k ≤ maxDist → Walk (EdgeIn edges) k root b →
    b ∈ s.marks ∨ ∃ d c j, Pend s.stack d c ∧ Walk (EdgeIn edges) j c b ∧ d + j = k

/-- With the same length of all walks to a node: walking from a marked node stays in the marked nodes or meets a pending child. -/
theorem graded_walk {s : State}
    (hcl : ∀ m ∈ s.marks, ∀ k, Walk (EdgeIn edges) k root m → k + 1 ≤ maxDist → ∀ c, EdgeIn edges m c → c ∈ s.marks ∨ Pend s.stack (k + 1) c)
    {n a b : Nat} (hw : Walk (EdgeIn edges) n a b) {k : Nat} (ha : a ∈ s.marks) (hk : Walk (EdgeIn edges) k root a)
    (hmax : k + n ≤ maxDist) :
    b ∈ s.marks ∨ ∃ d c j, Pend s.stack d c ∧ Walk (EdgeIn edges) j c b ∧ d + j = k + n := by
  induction hw generalizing k with
  | refl => exact .inl ha
  | @step a a1 b n he hw' ih =>
    rcases hcl _ ha _ hk (by omega) _ he with h | hp
    · rcases ih (k := k + 1) h (walk_append hk (walk_one he)) (by omega) with h1 | ⟨d, c, j, h1, h2, h3⟩
      · exact .inl h1
      · exact .inr ⟨d, c, j, h1, h2, by omega⟩
    · exact .inr ⟨k + 1, a1, n, hp, hw', by omega⟩

theorem weight_pos (N minDist d : Nat) : 0 < weight N minDist d := Nat.pow_pos (by omega)

theorem weight_lt (N : Nat) {minDist d : Nat} (h : d < minDist) : weight N minDist d = (N + 2) * weight N minDist (d + 1) := by
  unfold weight
  rw [show minDist - d = (minDist - (d + 1)) + 1 by omega, Nat.pow_succ, Nat.mul_comm]

theorem weight_ge (N : Nat) {minDist d : Nat} (h : minDist ≤ d) : weight N minDist d = 1 := by
  unfold weight
  rw [show minDist - d = 0 by omega, Nat.pow_zero]

/-- Walking from a marked node stays in the marked nodes or meets a pending child. -/
theorem closed_walk {s : State} (hcl : ∀ m ∈ s.marks, ∀ c, EdgeIn edges m c → c ∈ s.marks ∨ ∃ d, minDist ≤ d ∧ Pend s.stack d c)
    {n a b : Nat} (hw : Walk (EdgeIn edges) n a b) (ha : a ∈ s.marks) :
    b ∈ s.marks ∨ ∃ d c j, Pend s.stack d c ∧ Walk (EdgeIn edges) j c b ∧ minDist ≤ d + j := by
  induction hw with
  | refl => exact .inl ha
  | step he hw' ih =>
    rcases hcl _ ha _ he with h | ⟨d, hd, hp⟩
    · exact ih h
    · exact .inr ⟨d, _, _, hp, hw', by omega⟩

theorem marks_le {T marks : List Nat} (hn : marks.Nodup) (hs : marks ⊆ T) : marks.length ≤ T.length :=
  (hn.subperm hs).length_le

theorem dfsStep_inv (hiter : ∀ n l, (iter n l).Perm l) (hemit : ∀ c, emit c = .ok (e c)) (hT : ∀ a b, EdgeIn edges a b → b ∈ T)
    (hD : ∀ a cs, find edges a = some cs → cs.length ≤ N)
    {s : State} (h : Inv edges minDist maxDist e root T res0 s) :
    (∃ s', dfsStep iter edges minDist maxDist emit s = .ok (.inl s') ∧ Inv edges minDist maxDist e root T res0 s' ∧
      stackM N minDist s'.stack + (T.length - s'.marks.length) * (N + 2) < stackM N minDist s.stack + (T.length - s.marks.length) * (N + 2)) ∨
    ∃ r, dfsStep iter edges minDist maxDist emit s = .ok (.inr r) ∧ (Inv edges minDist maxDist e root T res0 r ∧ r.stack = []) := by
  obtain ⟨stack, marks, res⟩ := s
  cases stack with
  | nil => exact .inr ⟨_, rfl, h, rfl⟩
  | cons f rest =>
    left
    cases f with
    | nil =>
      refine ⟨_, rfl, ⟨h.nodup, h.targets, h.res, ?_, ?_, h.sound, ?_, ?_, ?_, ?_, ?_⟩, ?_⟩
      · exact fun d c hp => h.walks d c (.inr hp)
      · have := h.height; simp only [List.length_cons] at this ⊢; omega
      · intro hm m hmm c hc
        rcases h.closed hm m hmm c hc with h1 | ⟨d, hd, ⟨_, h1⟩ | h1⟩
        · exact .inl h1
        · simp at h1
        · exact .inr ⟨d, hd, h1⟩
      · intro hm b hb
        rcases h.complete hm b hb with h1 | ⟨d, c, j, ⟨_, h1⟩ | h1, h2⟩
        · exact .inl h1
        · simp at h1
        · exact .inr ⟨d, c, j, h1, h2⟩
      · intro hm hx b hb
        rcases h.direct hm hx b hb with h1 | ⟨_, h1⟩ | h1
        · exact .inl h1
        · simp at h1
        · exact .inr h1
      · intro hg m hmm k hk hkm c hc
        rcases h.gradedClosed hg m hmm k hk hkm c hc with h1 | ⟨_, h1⟩ | h1
        · exact .inl h1
        · simp at h1
        · exact .inr h1
      · intro hg b k h1 h2 h3
        rcases h.gradedComplete hg b k h1 h2 h3 with h1 | ⟨d, c, j, ⟨_, h1⟩ | h1, h2⟩
        · exact .inl h1
        · simp at h1
        · exact .inr ⟨d, c, j, h1, h2⟩
      · simp only [stackM, List.length_nil]; omega
    | cons child more =>
      -- what is pending before
      have hpend : ∀ d c, Pend ((child :: more) :: rest) d c ↔ (d = rest.length + 1 ∧ c = child) ∨ Pend (more :: rest) d c := by
        intro d c
        simp only [Pend, List.mem_cons, and_or_left, or_assoc]
      have hwalk : Walk (EdgeIn edges) (rest.length + 1) root child := h.walks _ _ ((hpend _ _).mpr (.inl ⟨rfl, rfl⟩))
      have hchildT : child ∈ T := by
        -- the last edge of the walk
        have : ∀ {n a b : Nat}, Walk (EdgeIn edges) (n + 1) a b → ∃ x, EdgeIn edges x b := by
          intro n
          induction n with
          | zero => intro a b hw; cases hw with | step he hw => cases hw; exact ⟨_, he⟩
          | succ n ih => intro a b hw; cases hw with | step _ hw => exact ih hw
        obtain ⟨x, hx⟩ := this hwalk
        exact hT x child hx
      have hheight := h.height
      simp only [List.length_cons] at hheight
      have hml := marks_le h.nodup h.targets
      simp only at hml
      have hwpos := weight_pos N minDist (rest.length + 1)
      have hmul : (child :: more).length * weight N minDist (rest.length + 1)
          = more.length * weight N minDist (rest.length + 1) + weight N minDist (rest.length + 1) := by
        rw [List.length_cons, Nat.succ_mul]
      unfold dfsStep
      simp only
      by_cases hcond : rest.length + 1 ≤ maxDist ∧ child ∉ marks
      · rw [if_pos hcond]
        have hlt : marks.length < T.length := by
          have hn : (child :: marks).Nodup := List.nodup_cons.mpr ⟨hcond.2, h.nodup⟩
          have := marks_le hn (by intro x hx; rcases List.mem_cons.mp hx with rfl | hx; exact hchildT; exact h.targets hx)
          simp only [List.length_cons] at this; omega
        by_cases hge : rest.length + 1 ≥ minDist
        · rw [if_pos hge, hemit child]
          simp only [Outcome.map, Outcome.bind]
          -- the new children
          have key : ∀ st', (∀ d c, Pend st' d c ↔ Pend (more :: rest) d c ∨ (d = rest.length + 2 ∧ EdgeIn edges child c)) →
              st'.length ≤ rest.length + 2 →
              Inv edges minDist maxDist e root T res0 ⟨st', child :: marks, res ++ e child⟩ := by
            intro st' hst hlen
            refine ⟨List.nodup_cons.mpr ⟨hcond.2, h.nodup⟩, ?_, ?_, ?_, ?_, ?_, ?_, ?_, ?_, ?_, ?_⟩
            · intro x hx; rcases List.mem_cons.mp hx with rfl | hx; exact hchildT; exact h.targets hx
            · have := h.res; simp only at this
              simp only [this, List.reverse_cons, List.flatMap_append, List.flatMap_cons, List.flatMap_nil, List.append_nil,
                List.append_assoc]
            · intro d c hp
              rcases (hst d c).mp hp with hp | ⟨rfl, hc⟩
              · exact h.walks d c ((hpend d c).mpr (.inr hp))
              · exact (walk_append hwalk (walk_one hc) : Walk _ (rest.length + 1 + 1) _ _)
            · simp only [List.length_cons]; omega
            · intro b hb
              rcases List.mem_cons.mp hb with rfl | hb
              · exact ⟨_, hge, hcond.1, hwalk⟩
              · exact h.sound b hb
            · intro hm m hmm c hc
              rcases List.mem_cons.mp hmm with rfl | hmm
              · exact .inr ⟨rest.length + 2, by omega, (hst _ _).mpr (.inr ⟨rfl, hc⟩)⟩
              · rcases h.closed hm m hmm c hc with h1 | ⟨d, hd, h1⟩
                · exact .inl (List.mem_cons_of_mem _ h1)
                · rcases (hpend d c).mp h1 with ⟨_, rfl⟩ | h1
                  · exact .inl List.mem_cons_self
                  · exact .inr ⟨d, hd, (hst d c).mpr (.inl h1)⟩
            · intro hm b hb
              rcases h.complete hm b hb with h1 | ⟨d, c, j, h1, h2, h3⟩
              · exact .inl (List.mem_cons_of_mem _ h1)
              · rcases (hpend d c).mp h1 with ⟨rfl, rfl⟩ | h1
                · cases h2 with
                  | refl => exact .inl List.mem_cons_self
                  | @step _ c1 _ n he hw => exact .inr ⟨rest.length + 2, c1, n, (hst _ _).mpr (.inr ⟨rfl, he⟩), hw, by omega⟩
                · exact .inr ⟨d, c, j, (hst d c).mpr (.inl h1), h2, h3⟩
            · intro hm hx b hb
              rcases h.direct hm hx b hb with h1 | h1
              · exact .inl (List.mem_cons_of_mem _ h1)
              · rcases (hpend 1 b).mp h1 with ⟨_, rfl⟩ | h1
                · exact .inl List.mem_cons_self
                · exact .inr ((hst 1 b).mpr (.inl h1))
            · intro hg m hmm k hk hkm c hc
              rcases List.mem_cons.mp hmm with rfl | hmm
              · have := hg _ _ _ hk hwalk
                subst this
                exact .inr ((hst _ _).mpr (.inr ⟨rfl, hc⟩))
              · rcases h.gradedClosed hg m hmm k hk hkm c hc with h1 | h1
                · exact .inl (List.mem_cons_of_mem _ h1)
                · rcases (hpend _ c).mp h1 with ⟨_, rfl⟩ | h1
                  · exact .inl List.mem_cons_self
                  · exact .inr ((hst _ c).mpr (.inl h1))
            · intro hg b k h1 h2 h3
              rcases h.gradedComplete hg b k h1 h2 h3 with h1 | ⟨d, c, j, h1, h2, h3⟩
              · exact .inl (List.mem_cons_of_mem _ h1)
              · rcases (hpend d c).mp h1 with ⟨rfl, rfl⟩ | h1
                · cases h2 with
                  | refl => exact .inl List.mem_cons_self
                  | @step _ c1 _ n he hw => exact .inr ⟨rest.length + 2, c1, n, (hst _ _).mpr (.inr ⟨rfl, he⟩), hw, by omega⟩
                · exact .inr ⟨d, c, j, (hst d c).mpr (.inl h1), h2, h3⟩
          cases hf : find edges child with
          | some cs =>
            refine ⟨_, rfl, key _ ?_ (by simp), ?_⟩
            · intro d c
              show (d = (more :: rest).length + 1 ∧ c ∈ iter child cs) ∨ Pend (more :: rest) d c ↔ _
              rw [or_comm, (hiter child cs).mem_iff]
              simp only [EdgeIn, hf, Option.some.injEq, exists_eq_left', List.length_cons]
            · simp only [stackM, List.length_cons]
              have h1 := hD child cs hf
              rw [(hiter child cs).length_eq, weight_ge N (d := rest.length + 1 + 1) (by omega), weight_ge N (d := rest.length + 1) hge,
                Nat.mul_one, Nat.mul_one, Nat.mul_one]
              have h5 : (T.length - marks.length) * (N + 2) = (T.length - (marks.length + 1)) * (N + 2) + (N + 2) := by
                rw [show T.length - marks.length = (T.length - (marks.length + 1)) + 1 by omega, Nat.succ_mul]
              omega
          | none =>
            refine ⟨_, rfl, key _ ?_ (by simp), ?_⟩
            · intro d c
              simp only [EdgeIn, hf, reduceCtorEq, false_and, exists_false, and_false, or_false]
            · simp only [stackM, List.length_cons, Nat.succ_mul]
              have : (T.length - (marks.length + 1)) * (N + 2) ≤ (T.length - marks.length) * (N + 2) := Nat.mul_le_mul_right _ (by omega)
              omega
        · rw [if_neg hge]
          simp only [Outcome.bind]
          have key : ∀ st', (∀ d c, Pend st' d c ↔ Pend (more :: rest) d c ∨ (d = rest.length + 2 ∧ EdgeIn edges child c)) →
              st'.length ≤ rest.length + 2 →
              Inv edges minDist maxDist e root T res0 ⟨st', marks, res⟩ := by
            intro st' hst hlen
            refine ⟨h.nodup, h.targets, h.res, ?_, ?_, h.sound, ?_, ?_, ?_, ?_, ?_⟩
            · intro d c hp
              rcases (hst d c).mp hp with hp | ⟨rfl, hc⟩
              · exact h.walks d c ((hpend d c).mpr (.inr hp))
              · exact (walk_append hwalk (walk_one hc) : Walk _ (rest.length + 1 + 1) _ _)
            · simp only; omega
            · intro hm m hmm c hc
              rcases h.closed hm m hmm c hc with h1 | ⟨d, hd, h1⟩
              · exact .inl h1
              · rcases (hpend d c).mp h1 with ⟨rfl, rfl⟩ | h1
                · omega
                · exact .inr ⟨d, hd, (hst d c).mpr (.inl h1)⟩
            · intro hm b hb
              rcases h.complete hm b hb with h1 | ⟨d, c, j, h1, h2, h3⟩
              · exact .inl h1
              · rcases (hpend d c).mp h1 with ⟨rfl, rfl⟩ | h1
                · cases h2 with
                  | refl => omega
                  | @step _ c1 _ n he hw => exact .inr ⟨rest.length + 2, c1, n, (hst _ _).mpr (.inr ⟨rfl, he⟩), hw, by omega⟩
                · exact .inr ⟨d, c, j, (hst d c).mpr (.inl h1), h2, h3⟩
            · intro hm hx b hb
              omega
            · intro hg m hmm k hk hkm c hc
              rcases h.gradedClosed hg m hmm k hk hkm c hc with h1 | h1
              · exact .inl h1
              · rcases (hpend _ c).mp h1 with ⟨h2, rfl⟩ | h1
                · obtain ⟨n, hn, _, hwn⟩ := h.sound m hmm
                  have := hg _ _ _ hk hwn
                  omega
                · exact .inr ((hst _ c).mpr (.inl h1))
            · intro hg b k h1 h2 h3
              rcases h.gradedComplete hg b k h1 h2 h3 with h1 | ⟨d, c, j, h1, h2, h3⟩
              · exact .inl h1
              · rcases (hpend d c).mp h1 with ⟨rfl, rfl⟩ | h1
                · cases h2 with
                  | refl => omega
                  | @step _ c1 _ n he hw => exact .inr ⟨rest.length + 2, c1, n, (hst _ _).mpr (.inr ⟨rfl, he⟩), hw, by omega⟩
                · exact .inr ⟨d, c, j, (hst d c).mpr (.inl h1), h2, h3⟩
          cases hf : find edges child with
          | some cs =>
            refine ⟨_, rfl, key _ ?_ (by simp), ?_⟩
            · intro d c
              show (d = (more :: rest).length + 1 ∧ c ∈ iter child cs) ∨ Pend (more :: rest) d c ↔ _
              rw [or_comm, (hiter child cs).mem_iff]
              simp only [EdgeIn, hf, Option.some.injEq, exists_eq_left', List.length_cons]
            · simp only [stackM, List.length_cons]
              have h1 := hD child cs hf
              have h2 := weight_lt N (minDist := minDist) (d := rest.length + 1) (by omega)
              have h3 := weight_pos N minDist (rest.length + 1 + 1)
              rw [(hiter child cs).length_eq, Nat.succ_mul]
              have h4 : cs.length * weight N minDist (rest.length + 1 + 1) ≤ N * weight N minDist (rest.length + 1 + 1) :=
                Nat.mul_le_mul_right _ h1
              rw [Nat.add_mul] at h2
              omega
          | none =>
            refine ⟨_, rfl, key _ ?_ (by simp), ?_⟩
            · intro d c
              simp only [EdgeIn, hf, reduceCtorEq, false_and, exists_false, and_false, or_false]
            · simp only [stackM, List.length_cons, Nat.succ_mul]
              omega
      · rw [if_neg hcond]
        refine ⟨_, rfl, ⟨h.nodup, h.targets, h.res, ?_, ?_, h.sound, ?_, ?_, ?_, ?_, ?_⟩, ?_⟩
        · exact fun d c hp => h.walks d c ((hpend d c).mpr (.inr hp))
        · simp only [List.length_cons]; exact hheight
        · intro hm m hmm c hc
          rcases h.closed hm m hmm c hc with h1 | ⟨d, hd, h1⟩
          · exact .inl h1
          · rcases (hpend d c).mp h1 with ⟨rfl, rfl⟩ | h1
            · left
              apply Classical.byContradiction
              intro hnm
              exact hcond ⟨by omega, hnm⟩
            · exact .inr ⟨d, hd, h1⟩
        · intro hm b hb
          have hmark : child ∈ marks := by
            apply Classical.byContradiction
            intro hnm
            exact hcond ⟨by omega, hnm⟩
          rcases h.complete hm b hb with h1 | ⟨d, c, j, h1, h2, h3⟩
          · exact .inl h1
          · rcases (hpend d c).mp h1 with ⟨rfl, rfl⟩ | h1
            · refine closed_walk (s := ⟨more :: rest, marks, res⟩) ?_ h2 hmark
              intro m hmm c' hc
              rcases h.closed hm m hmm c' hc with h1 | ⟨d, hd, h1⟩
              · exact .inl h1
              · rcases (hpend d c').mp h1 with ⟨rfl, rfl⟩ | h1
                · exact .inl hmark
                · exact .inr ⟨d, hd, h1⟩
            · exact .inr ⟨d, c, j, h1, h2, h3⟩
        · intro hm hx b hb
          rcases h.direct hm hx b hb with h1 | h1
          · exact .inl h1
          · rcases (hpend 1 b).mp h1 with ⟨_, rfl⟩ | h1
            · left
              apply Classical.byContradiction
              intro hnm
              exact hcond ⟨by omega, hnm⟩
            · exact .inr h1
        · intro hg m hmm k hk hkm c hc
          rcases h.gradedClosed hg m hmm k hk hkm c hc with h1 | h1
          · exact .inl h1
          · rcases (hpend _ c).mp h1 with ⟨_, rfl⟩ | h1
            · left
              apply Classical.byContradiction
              intro hnm
              exact hcond ⟨by omega, hnm⟩
            · exact .inr h1
        · intro hg b k h1 h2 h3
          rcases h.gradedComplete hg b k h1 h2 h3 with h1 | ⟨d, c, j, h1, h4, h5⟩
          · exact .inl h1
          · rcases (hpend d c).mp h1 with ⟨rfl, rfl⟩ | h1
            · have hmark : c ∈ marks := by
                apply Classical.byContradiction
                intro hnm
                exact hcond ⟨by omega, hnm⟩
              rw [← h5]
              refine graded_walk (s := ⟨more :: rest, marks, res⟩) (maxDist := maxDist) ?_ h4 hmark hwalk (by omega)
              intro m hmm k hk hkm c' hc
              rcases h.gradedClosed hg m hmm k hk hkm c' hc with h1 | h1
              · exact .inl h1
              · rcases (hpend _ c').mp h1 with ⟨_, rfl⟩ | h1
                · exact .inl hmark
                · exact .inr h1
            · exact .inr ⟨d, c, j, h1, h4, h5⟩
        · simp only [stackM, List.length_cons, Nat.succ_mul]
          omega

/-- What the search from `root` finds, in the order in which it marks. -/
structure Found (sub : Table) (leftCol rightCol minDist maxDist root : Nat) (ms : List Nat) : Prop where
  nodup : ms.Nodup
  sound : ∀ b ∈ ms, ReachesWithin (Edge sub leftCol rightCol) minDist maxDist root b
  complete : minDist + sub.length ≤ maxDist → ∀ b, Reaches (Edge sub leftCol rightCol) minDist root b → b ∈ ms
  direct : minDist = 1 → 1 ≤ maxDist → ∀ b, Edge sub leftCol rightCol root b → b ∈ ms
  graded : Graded (Edge sub leftCol rightCol) root → ∀ b, ReachesWithin (Edge sub leftCol rightCol) minDist maxDist root b → b ∈ ms

/-- More iterations than the search needs. -/
def searchBound (n minDist : Nat) : Nat := n * (n + 2) ^ minDist + n * (n + 2) + 2

theorem dfs_ok {sub : Table} {leftCol rightCol : Nat} {nodes : List Nat} (hb : Built sub leftCol rightCol edges nodes)
    (hiter : ∀ n l, (iter n l).Perm l) (hemit : ∀ c, emit c = .ok (e c)) (hmin : 1 ≤ minDist) {fuel : Nat}
    (hfuel : searchBound sub.length minDist ≤ fuel) (root : Nat) (res0 : Table) :
    ∃ ms, dfs fuel iter edges minDist maxDist emit root [] res0 = .ok ⟨[], ms.reverse, res0 ++ ms.flatMap e⟩ ∧
      Found sub leftCol rightCol minDist maxDist root ms := by
  have hE : EdgeIn edges = Edge sub leftCol rightCol := funext fun a => funext fun b => propext (hb.edge a b)
  have hT : ∀ a b, EdgeIn edges a b → b ∈ sub.map fun r => r.getD rightCol 0 := by
    intro a b h
    rw [hE] at h
    obtain ⟨r, hr, _, h2⟩ := h
    exact List.mem_map.mpr ⟨r, hr, h2⟩
  have hD : ∀ a cs, find edges a = some cs → cs.length ≤ sub.length := by
    intro a cs h
    have := marks_le (hb.sets a cs h).1 (T := sub.map fun r => r.getD rightCol 0) fun x hx => hT a x ⟨cs, h, hx⟩
    simpa using this
  have hstep := fun s => dfsStep_inv (minDist := minDist) (maxDist := maxDist) (root := root) (res0 := res0) (s := s) hiter hemit hT hD
  unfold dfs
  rw [if_neg (by omega)]
  have hpend0 : ∀ d c, Pend (startStack iter edges root) d c ↔ d = 1 ∧ EdgeIn edges root c := by
    intro d c
    unfold EdgeIn startStack
    cases hf : find edges root with
    | none => simp [Pend]
    | some cs => simp [Pend, (hiter root cs).mem_iff]
  have hinit : Inv edges minDist maxDist e root (sub.map fun r => r.getD rightCol 0) res0 ⟨startStack iter edges root, [], res0⟩ := by
    refine ⟨List.nodup_nil, by simp, by simp, ?_, ?_, by simp, by simp, ?_, ?_, by simp, ?_⟩
    · intro d c h
      obtain ⟨rfl, h'⟩ := (hpend0 d c).mp h
      exact walk_one h'
    · simp only [List.length_nil, Nat.add_zero]
      unfold startStack
      split
      · simpa using hmin
      · simp
    · intro _ b hb'
      obtain ⟨n, hn, hw⟩ := hb'
      cases hw with
      | refl => omega
      | @step _ c _ m he hw => exact .inr ⟨1, c, m, (hpend0 _ _).mpr ⟨rfl, he⟩, hw, by omega⟩
    · intro _ _ b hb'
      exact .inr ((hpend0 _ _).mpr ⟨rfl, hb'⟩)
    · intro _ b k h1 _ hw
      cases hw with
      | refl => omega
      | @step _ c _ m he hw => exact .inr ⟨1, c, m, (hpend0 _ _).mpr ⟨rfl, he⟩, hw, by omega⟩
  have hmu : stackM sub.length minDist (startStack iter edges root) +
      ((sub.map fun r => r.getD rightCol 0).length - ([] : List Nat).length) * (sub.length + 2) < fuel := by
    unfold searchBound at hfuel
    have h1 : stackM sub.length minDist (startStack iter edges root)
        ≤ sub.length * (sub.length + 2) ^ minDist + 1 := by
      unfold startStack
      cases hf : find edges root with
      | none => simp [stackM]
      | some cs =>
        simp only [stackM, List.length_nil, Nat.zero_add, Nat.add_zero, weight]
        rw [(hiter root cs).length_eq]
        have := Nat.mul_le_mul (hD root cs hf) (Nat.pow_le_pow_right (show 0 < sub.length + 2 by omega) (Nat.sub_le minDist 1))
        omega
    simp only [List.length_map, List.length_nil, Nat.sub_zero]
    omega
  obtain ⟨r, h1, h2, h3⟩ := loop_spec (Inv edges minDist maxDist e root (sub.map fun r => r.getD rightCol 0) res0)
    (fun r => Inv edges minDist maxDist e root (sub.map fun r => r.getD rightCol 0) res0 r ∧ r.stack = [])
    (fun s => stackM sub.length minDist s.stack + ((sub.map fun r => r.getD rightCol 0).length - s.marks.length) * (sub.length + 2))
    hstep fuel ⟨startStack iter edges root, [], res0⟩ hinit hmu
  · have hr : r = ⟨[], r.marks.reverse.reverse, res0 ++ r.marks.reverse.flatMap e⟩ := by
      obtain ⟨st, mk, re⟩ := r
      have := h2.res
      simp only at this h3
      simp only [this, h3, List.reverse_reverse]
    refine ⟨r.marks.reverse, by rw [h1, ← hr], ?_, ?_, ?_, ?_, ?_⟩
    · exact (List.reverse_perm _).nodup_iff.mpr h2.nodup
    · intro b hb'
      rw [← hE]
      exact h2.sound b (List.mem_reverse.mp hb')
    · intro hm b hb'
      rw [← hE] at hb'
      rw [List.mem_reverse]
      rcases h2.complete (by simpa using hm) b hb' with h | ⟨d, c, j, h, _⟩
      · exact h
      · rw [h3] at h; exact h.elim
    · intro hm hx b hb'
      rw [← hE] at hb'
      rw [List.mem_reverse]
      rcases h2.direct hm hx b hb' with h | h
      · exact h
      · rw [h3] at h; exact h.elim
    · intro hg b hb'
      rw [← hE] at hb' hg
      rw [List.mem_reverse]
      obtain ⟨k, hk1, hk2, hk3⟩ := hb'
      rcases h2.gradedComplete hg b k hk1 hk2 hk3 with h | ⟨d, c, j, h, _⟩
      · exact h
      · rw [h3] at h; exact h.elim

end dfs

theorem overNodes_ok {sub : Table} {leftCol rightCol : Nat} {edges : Edges} {allNodes : List Nat} (hb : Built sub leftCol rightCol edges allNodes)
    {iter : Nat → List Nat → List Nat} (hiter : ∀ n l, (iter n l).Perm l) {minDist maxDist : Nat} (hmin : 1 ≤ minDist) {fuel : Nat}
    (hfuel : searchBound sub.length minDist ≤ fuel) (row : Nat → Nat → Row) (nodes : List Nat) (res : Table) :
    ∃ mss : List (List Nat), overNodes fuel iter edges minDist maxDist row nodes [] res =
        .ok (res ++ ((nodes.zip mss).map fun p => p.2.map (row p.1)).flatten) ∧
      List.Forall₂ (Found sub leftCol rightCol minDist maxDist) nodes mss := by
  induction nodes generalizing res with
  | nil => exact ⟨[], by simp [overNodes], .nil⟩
  | cons n nodes ih =>
    obtain ⟨ms, h1, h2⟩ := dfs_ok (maxDist := maxDist) hb hiter (e := fun child => [row n child]) (fun _ => rfl) hmin hfuel n res
    rw [overNodes, h1]
    simp only [Outcome.bind]
    have hfm : ms.flatMap (fun child => [row n child]) = ms.map (row n) := by
      clear h1 h2
      induction ms with
      | nil => rfl
      | cons a l ih => rw [List.flatMap_cons, ih]; rfl
    rw [hfm]
    cases nodes with
    | nil => exact ⟨[ms], by simp [overNodes], .cons h2 .nil⟩
    | cons n' nodes =>
      rw [if_pos (by simp)]
      obtain ⟨mss, h3, h4⟩ := ih (res ++ ms.map (row n))
      refine ⟨ms :: mss, ?_, .cons h2 h4⟩
      rw [h3]
      simp

/-! ### The row of a bound side -/

theorem copyOthers_ok {other : Row} {col : Nat} {expected : Row} {c0 c1 : Nat} (hcol : col < other.length)
    (hexp : expected = c0 :: c1 :: other.eraseIdx col) :
    ∀ (n k : Nat) (row : Row), 2 ≤ k → k + n = other.length + 2 → row.length = expected.length →
      (∀ j, j < row.length → (j < 2 ∨ (j < k ∧ j < col + 2) ∨ j + 1 < k) → row[j]? = expected[j]?) →
      copyOthers other col row k n = .ok expected := by
  have hel : expected.length = other.length + 1 := by rw [hexp]; simp [List.length_eraseIdx, hcol]; omega
  have hget : ∀ j, j < other.length - 1 → expected[j + 2]? = if j < col then other[j]? else other[j + 1]? := by
    intro j _
    rw [hexp]
    simp only [List.getElem?_cons_succ, List.getElem?_eraseIdx]
  intro n
  induction n with
  | zero =>
    intro k row hk hkn hlen hw
    rw [copyOthers]
    congr 1
    apply List.ext_getElem?
    intro j
    by_cases hj : j < row.length
    · exact hw j hj (by omega)
    · rw [List.getElem?_eq_none (by omega), List.getElem?_eq_none (by omega)]
  | succ n ih =>
    intro k row hk hkn hlen hw
    rw [copyOthers]
    by_cases h1 : k - 2 < col
    · rw [if_pos h1, Outcome.read_lt _ _ (by omega)]
      simp only [Outcome.bind]
      rw [writeCell, if_pos (by omega)]
      simp only
      refine ih (k + 1) _ (by omega) (by omega) (by simpa using hlen) ?_
      intro j hj hjw
      rw [List.length_set] at hj
      rw [List.getElem?_set]
      by_cases hjk : k = j
      · subst hjk
        rw [if_pos rfl, if_pos hj]
        have := hget (k - 2) (by omega)
        rw [show k - 2 + 2 = k by omega, if_pos h1] at this
        rw [this, List.getElem?_eq_getElem]
      · rw [if_neg hjk]
        exact hw j hj (by omega)
    · rw [if_neg h1]
      by_cases h2 : k - 2 > col
      · rw [if_pos h2, Outcome.read_lt _ _ (by omega)]
        simp only [Outcome.bind]
        rw [writeCell, if_pos (by omega)]
        simp only
        refine ih (k + 1) _ (by omega) (by omega) (by simpa using hlen) ?_
        intro j hj hjw
        rw [List.length_set] at hj
        rw [List.getElem?_set]
        by_cases hjk : k - 1 = j
        · subst hjk
          rw [if_pos rfl, if_pos hj]
          have := hget (k - 3) (by omega)
          rw [show k - 3 + 2 = k - 1 by omega, if_neg (by omega), show k - 3 + 1 = k - 2 by omega] at this
          rw [this, List.getElem?_eq_getElem]
        · rw [if_neg hjk]
          exact hw j hj (by omega)
      · rw [if_neg h2]
        simp only [Outcome.bind]
        refine ih (k + 1) _ (by omega) (by omega) hlen ?_
        intro j hj hjw
        exact hw j hj (by omega)

theorem boundRow_ok {other : Row} {col : Nat} (hcol : col < other.length) (junk c0 c1 : Nat) :
    boundRow junk (other.length + 1) c0 c1 other col = .ok (c0 :: c1 :: other.eraseIdx col) := by
  unfold boundRow
  rw [writeCell, if_pos (by simp)]
  simp only [Outcome.bind]
  rw [writeCell, if_pos (by simp; omega)]
  simp only
  obtain ⟨m, hm⟩ : ∃ m, other.length = m + 1 := ⟨other.length - 1, by omega⟩
  rw [hm, show List.replicate (m + 1 + 1) junk = junk :: junk :: List.replicate m junk by rw [List.replicate_succ, List.replicate_succ],
    List.set_cons_zero, List.set_cons_succ, List.set_cons_zero]
  refine copyOthers_ok (c0 := c0) (c1 := c1) hcol rfl _ 2 _ (by omega) (by omega) (by simp [List.length_eraseIdx, hcol]; omega) ?_
  intro j hj hjw
  have : j < 2 := by omega
  match j, this with
  | 0, _ => rfl
  | 1, _ => rfl

/-! ### The bound side -/

/-- The row from which the other columns are really taken: the first one of the run of rows with the same join value. -/
def runHead (col : Nat) (last : Option Row) (r : Row) : Row :=
  match last with
  | none => r
  | some l => if r.getD col 0 = l.getD col 0 then l else r

def runHeads (col : Nat) : Option Row → Table → Table
  | _, [] => []
  | last, r :: t => runHead col last r :: runHeads col (some (runHead col last r)) t

theorem runHead_getD (col : Nat) (last : Option Row) (r : Row) : (runHead col last r).getD col 0 = r.getD col 0 := by
  unfold runHead
  cases last with
  | none => rfl
  | some l =>
    simp only
    by_cases h : r.getD col 0 = l.getD col 0
    · rw [if_pos h, h]
    · rw [if_neg h]

theorem runHeads_keys (col : Nat) (t : Table) : ∀ last, List.Forall₂ (fun r h => h.getD col 0 = r.getD col 0) t (runHeads col last t) := by
  induction t with
  | nil => exact fun _ => .nil
  | cons r t ih => exact fun last => .cons (runHead_getD col last r) (ih _)

theorem runHeads_chain {col : Nat} {t : Table} : ∀ {last : Option Row}, (∀ l ∈ last, (l :: t).IsChain fun a b => a.getD col 0 = b.getD col 0 → a = b) →
    (t.IsChain fun a b => a.getD col 0 = b.getD col 0 → a = b) → runHeads col last t = t := by
  induction t with
  | nil => intros; rfl
  | cons r t ih =>
    intro last hl hc
    have hr : runHead col last r = r := by
      unfold runHead
      cases last with
      | none => rfl
      | some l =>
        simp only
        by_cases h : r.getD col 0 = l.getD col 0
        · rw [if_pos h]; exact (List.isChain_cons_cons.mp (hl l rfl)).1 h.symm
        · rw [if_neg h]
    rw [runHeads, hr, ih (last := some r)]
    · intro l h; cases h; exact hc
    · cases t with
      | nil => exact .nil
      | cons b t => exact (List.isChain_cons_cons.mp hc).2

/-- The rows for one row of the bound side. -/
def segment (firstTwo : Nat → Nat → Nat × Nat) (keep : Nat → Bool) (col : Nat) (h : Row) (ms : List Nat) : Table :=
  (ms.filter keep).map fun child => (firstTwo (h.getD col 0) child).1 :: (firstTwo (h.getD col 0) child).2 :: h.eraseIdx col

theorem overSide_ok {sub : Table} {leftCol rightCol : Nat} {edges : Edges} {allNodes : List Nat} (hb : Built sub leftCol rightCol edges allNodes)
    {iter : Nat → List Nat → List Nat} (hiter : ∀ n l, (iter n l).Perm l) {minDist maxDist : Nat} (hmin : 1 ≤ minDist) {fuel : Nat}
    (hfuel : searchBound sub.length minDist ≤ fuel) {junk w col : Nat} (hcol : col < w) (firstTwo : Nat → Nat → Nat × Nat) (keep : Nat → Bool)
    (side : Table) (hw : side.WF w) (last : Option Row)
    (lastElem lastBegin lastEnd : Nat) (res : Table) (hend : lastEnd ≤ res.length)
    (hnone : last = none → ∀ r ∈ side.head?, r.getD col 0 ≠ lastElem)
    (hsome : ∀ l ∈ last, l.getD col 0 = lastElem ∧ ∃ ms, Found sub leftCol rightCol minDist maxDist lastElem ms ∧
      (res.drop lastBegin).take (lastEnd - lastBegin) = segment firstTwo keep col l ms) :
    ∃ mss : List (List Nat), overSide fuel iter edges minDist maxDist junk (w + 1) firstTwo keep col side lastElem lastBegin lastEnd [] res =
        .ok (res ++ (((runHeads col last side).zip mss).map fun p => segment firstTwo keep col p.1 p.2).flatten) ∧
      List.Forall₂ (fun r ms => Found sub leftCol rightCol minDist maxDist (r.getD col 0) ms) side mss := by
  induction side generalizing last lastElem lastBegin lastEnd res with
  | nil => exact ⟨[], by simp [overSide, runHeads], .nil⟩
  | cons other side ih =>
    have hlen : other.length = w := hw other List.mem_cons_self
    have hread : Outcome.read other col = .ok (other.getD col 0) := by
      rw [Outcome.read_lt _ _ (by omega)]; simp [List.getD, hlen, hcol]
    rw [overSide, hread]
    simp only [Outcome.bind]
    have hwt : Table.WF side w := fun x hx => hw x (List.mem_cons_of_mem _ hx)
    by_cases hx : other.getD col 0 = lastElem
    · rw [if_pos hx]
      obtain ⟨l, rfl⟩ : ∃ l, last = some l := by
        cases last with
        | none => exact absurd hx (hnone rfl other (by simp))
        | some l => exact ⟨l, rfl⟩
      obtain ⟨hl, ms, hf, hseg⟩ := hsome l rfl
      have hrh : runHead col (some l) other = l := by unfold runHead; simp only; rw [if_pos (hx.trans hl.symm)]
      obtain ⟨mss, h1, h2⟩ := ih hwt (some l) lastElem lastBegin lastEnd (res ++ (res.drop lastBegin).take (lastEnd - lastBegin))
        (by simp only [List.length_append]; omega) (by intro h; cases h) (by
          intro l' hl'
          cases hl'
          refine ⟨hl, ms, hf, ?_⟩
          rw [← hseg]
          rcases Nat.le_total lastBegin lastEnd with h | h
          · rw [List.drop_append_of_le_length (by omega), List.take_append_of_le_length (by rw [List.length_drop]; omega)]
          · rw [Nat.sub_eq_zero_of_le h]; rfl)
      refine ⟨ms :: mss, ?_, .cons (by rw [hx]; exact hf) h2⟩
      rw [h1, hseg, runHeads, hrh]
      simp
    · rw [if_neg hx]
      have hrh : runHead col last other = other := by
        unfold runHead
        cases last with
        | none => rfl
        | some l => simp only; rw [if_neg]; rw [(hsome l rfl).1]; exact hx
      obtain ⟨ms, h1, h2⟩ := dfs_ok (maxDist := maxDist) hb hiter
        (emit := fun child => if keep child then
          (boundRow junk (w + 1) (firstTwo (other.getD col 0) child).1 (firstTwo (other.getD col 0) child).2 other col).map ([·]) else .ok [])
        (e := fun child => if keep child then
          [(firstTwo (other.getD col 0) child).1 :: (firstTwo (other.getD col 0) child).2 :: other.eraseIdx col] else [])
        (by
          intro c
          by_cases hk : keep c
          · rw [if_pos hk, if_pos hk, ← hlen, boundRow_ok (by omega)]; rfl
          · rw [if_neg hk, if_neg hk]) hmin hfuel (other.getD col 0) res
      rw [h1]
      simp only
      have hfm : ms.flatMap (fun child => if keep child then
          [(firstTwo (other.getD col 0) child).1 :: (firstTwo (other.getD col 0) child).2 :: other.eraseIdx col] else [])
          = segment firstTwo keep col other ms := by
        clear h1 h2
        unfold segment
        induction ms with
        | nil => rfl
        | cons a l ih =>
          rw [List.flatMap_cons, ih]
          by_cases hk : keep a
          · rw [if_pos hk, List.filter_cons_of_pos hk]; rfl
          · rw [if_neg hk, List.filter_cons_of_neg hk]; rfl
      rw [hfm]
      cases hside : side with
      | nil => exact ⟨[ms], by simp [overSide, runHeads, hrh], .cons h2 .nil⟩
      | cons b bs =>
        rw [if_pos (by simp), ← hside]
        obtain ⟨mss, h3, h4⟩ := ih hwt (some other) (other.getD col 0) res.length (res ++ segment firstTwo keep col other ms).length
          (res ++ segment firstTwo keep col other ms) (Nat.le_refl _) (by intro h; cases h) (by
            intro l hl
            cases hl
            refine ⟨rfl, ms, h2, ?_⟩
            rw [List.drop_left, List.length_append, Nat.add_sub_cancel_left, List.take_length])
        refine ⟨ms :: mss, ?_, .cons h2 h4⟩
        rw [h3, runHeads, hrh]
        simp

end Verif.TransitivePath
