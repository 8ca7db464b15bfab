import Verif.Model.PrefixHeuristic
import Verif.Spec.PrefixChoice
import Mathlib.Tactic.Common
/-
The tree of the prefix heuristic: its shape, and what an insertion does to its nodes.
-/
namespace Verif.PrefixHeuristic
open RdfEscaping (startsWith)

/-- Neither is a prefix of the other. -/
def Apart (a b : Word) : Prop := ¬ a <+: b ∧ ¬ b <+: a

theorem Apart.symm {a b : Word} (h : Apart a b) : Apart b a := ⟨h.2, h.1⟩

theorem comparable {a b w : Word} (ha : a <+: w) (hb : b <+: w) : a <+: b ∨ b <+: a := List.prefix_or_prefix_of_prefix ha hb

theorem Apart.extend {a b c : Word} (h : Apart a b) (hc : b <+: c) : Apart a c :=
  ⟨fun hac => (comparable hac hc).elim h.1 h.2, fun hca => h.2 (hc.trans hca)⟩

theorem startsWith_iff (s p : Word) : startsWith s p = true ↔ p <+: s := by
  unfold startsWith; exact List.isPrefixOf_iff_prefix

theorem startsWith_false {s p : Word} (h : ¬ p <+: s) : startsWith s p = false := by
  cases hs : startsWith s p with
  | false => rfl
  | true => exact absurd ((startsWith_iff s p).mp hs) h

/-- Descendants extend their ancestors, and nodes that are no ancestors of each other are apart. -/
def Wf : Forest → Prop
  | .nil => True
  | .cons n cs rest =>
    (∀ m ∈ cs.nodes, n.value <+: m.value ∧ n.value ≠ m.value) ∧
      (∀ m ∈ n :: cs.nodes, ∀ k ∈ rest.nodes, Apart m.value k.value) ∧ Wf cs ∧ Wf rest

/-- The values of all nodes. -/
def vals (f : Forest) : List Word := f.nodes.map (·.value)

theorem mem_vals {f : Forest} {v : Word} : v ∈ vals f ↔ ∃ n ∈ f.nodes, n.value = v := by simp [vals]

theorem vals_cons (n : Node) (cs rest : Forest) : vals (.cons n cs rest) = n.value :: (vals cs ++ vals rest) := by
  simp [vals, Forest.nodes]

/-- `Wf` in terms of the values. -/
theorem wf_cons (n : Node) (cs rest : Forest) : Wf (.cons n cs rest) ↔
    (∀ m ∈ vals cs, n.value <+: m ∧ n.value ≠ m) ∧
      (∀ m ∈ n.value :: vals cs, ∀ k ∈ vals rest, Apart m k) ∧ Wf cs ∧ Wf rest := by
  simp [Wf, vals]

theorem nodup_vals {f : Forest} (h : Wf f) : (vals f).Nodup := by
  induction f with
  | nil => simp [vals, Forest.nodes]
  | cons n cs rest ihc ihr =>
    rw [wf_cons] at h
    obtain ⟨h1, h2, h3, h4⟩ := h
    rw [vals_cons, List.nodup_cons, List.nodup_append]
    refine ⟨?_, ihc h3, ihr h4, ?_⟩
    · intro hm
      rcases List.mem_append.mp hm with hm | hm
      · exact (h1 _ hm).2 rfl
      · exact (h2 _ (by simp) _ hm).1 (List.prefix_refl _)
    · intro a ha b hb hab
      subst hab
      exact (h2 a (by simp [ha]) a hb).1 (List.prefix_refl _)

theorem nodes_append (f g : Forest) : (f.append g).nodes = f.nodes ++ g.nodes := by
  induction f with
  | nil => simp [Forest.append, Forest.nodes]
  | cons n cs rest _ ih => simp [Forest.append, Forest.nodes, ih]

theorem vals_append (f g : Forest) : vals (f.append g) = vals f ++ vals g := by simp [vals, nodes_append]

theorem wf_append {f g : Forest} (hf : Wf f) (hg : Wf g) (h : ∀ a ∈ vals f, ∀ b ∈ vals g, Apart a b) : Wf (f.append g) := by
  induction f with
  | nil => simpa [Forest.append] using hg
  | cons n cs rest _ ih =>
    rw [wf_cons] at hf
    obtain ⟨h1, h2, h3, h4⟩ := hf
    simp only [vals_cons] at h
    rw [Forest.append, wf_cons]
    refine ⟨h1, ?_, h3, ih h4 fun a ha b hb => h a (by simp [ha]) b hb⟩
    intro m hm k hk
    rw [vals_append] at hk
    rcases List.mem_append.mp hk with hk | hk
    · exact h2 m hm k hk
    · refine h m ?_ k hk
      rcases List.mem_cons.mp hm with rfl | hm
      · simp
      · simp [hm]

theorem wf_of_append {f g : Forest} (h : Wf (f.append g)) : Wf f ∧ Wf g ∧ ∀ a ∈ vals f, ∀ b ∈ vals g, Apart a b := by
  induction f with
  | nil => exact ⟨trivial, by simpa [Forest.append] using h, by simp [vals, Forest.nodes]⟩
  | cons n cs rest _ ih =>
    rw [Forest.append, wf_cons] at h
    obtain ⟨h1, h2, h3, h4⟩ := h
    obtain ⟨i1, i2, i3⟩ := ih h4
    rw [wf_cons]
    refine ⟨⟨h1, fun m hm k hk => h2 m hm k (by rw [vals_append]; simp [hk]), h3, i1⟩, i2, ?_⟩
    intro a ha b hb
    rw [vals_cons] at ha
    rcases List.mem_cons.mp ha with rfl | ha
    · exact h2 _ (by simp) b (by rw [vals_append]; simp [hb])
    · rcases List.mem_append.mp ha with ha | ha
      · exact h2 a (by simp [ha]) b (by rw [vals_append]; simp [hb])
      · exact i3 a ha b hb

/-! ### New children -/

/-- All nodes of a list begin with `v` if those at the top do. -/
theorem allStart_vals {v : Word} {f : Forest} (hwf : Wf f) (h : f.allStart v = true) : ∀ m ∈ vals f, v <+: m := by
  induction f with
  | nil => simp [vals, Forest.nodes]
  | cons n cs rest _ ih =>
    rw [wf_cons] at hwf
    simp only [Forest.allStart, Bool.and_eq_true, startsWith_iff] at h
    intro m hm
    rw [vals_cons] at hm
    rcases List.mem_cons.mp hm with rfl | hm
    · exact h.1
    · rcases List.mem_append.mp hm with hm | hm
      · exact h.1.trans (hwf.1 m hm).1
      · exact ih hwf.2.2.2 h.2 m hm

theorem split_spec {v : Word} {f : Forest} (hwf : Wf f) (hno : ∀ m ∈ vals f, ¬ m <+: v) {a b : Forest}
    (h : splitChildren v f = .ok (a, b)) :
    f = a.append b ∧ (∀ m ∈ vals a, Apart m v) ∧ ∀ m ∈ vals b, v <+: m ∧ v ≠ m := by
  induction f generalizing a with
  | nil =>
    simp only [splitChildren, Outcome.ok.injEq, Prod.mk.injEq] at h
    obtain ⟨rfl, rfl⟩ := h
    simp [Forest.append, vals, Forest.nodes]
  | cons n cs rest _ ih =>
    have hwf' := hwf
    rw [wf_cons] at hwf
    rw [splitChildren] at h
    by_cases hs : startsWith n.value v = true
    · rw [if_pos hs] at h
      by_cases ha : rest.allStart v = true
      · rw [if_pos ha] at h
        simp only [Outcome.ok.injEq, Prod.mk.injEq] at h
        obtain ⟨rfl, rfl⟩ := h
        refine ⟨rfl, by simp [vals, Forest.nodes], fun m hm => ⟨?_, ?_⟩⟩
        · exact allStart_vals hwf' (by simp [Forest.allStart, hs, ha]) m hm
        · rintro rfl
          exact hno v hm (List.prefix_refl _)
      · rw [if_neg ha] at h
        simp at h
    · rw [if_neg hs] at h
      cases hr : splitChildren v rest with
      | throw => rw [hr] at h; simp at h
      | ub => rw [hr] at h; simp at h
      | diverge => rw [hr] at h; simp at h
      | ok r =>
        rw [hr] at h
        simp only [Outcome.map, Outcome.ok.injEq, Prod.mk.injEq] at h
        obtain ⟨rfl, rfl⟩ := h
        obtain ⟨i1, i2, i3⟩ := ih hwf.2.2.2 (fun m hm => hno m (by rw [vals_cons]; simp [hm])) hr
        have hv : ¬ v <+: n.value := fun e => hs ((startsWith_iff _ _).mpr e)
        refine ⟨by rw [Forest.append, ← i1], ?_, i3⟩
        intro m hm
        rw [vals_cons] at hm
        have hmv : ¬ m <+: v := hno m (by
          rw [vals_cons]
          rcases List.mem_cons.mp hm with rfl | hm
          · simp
          · rcases List.mem_append.mp hm with hm | hm
            · simp [hm]
            · rw [i1, vals_append]; simp [hm])
        rcases List.mem_cons.mp hm with rfl | hm
        · exact ⟨hmv, hv⟩
        · rcases List.mem_append.mp hm with hm | hm
          · refine ⟨hmv, fun e => ?_⟩
            rcases comparable e (hwf.1 m hm).1 with e' | e'
            · exact hv e'
            · exact hno n.value (by rw [vals_cons]; simp) e'
          · exact i2 m hm

theorem addChild_spec {v : Word} {f f' : Forest} (hwf : Wf f) (hno : ∀ m ∈ vals f, ¬ m <+: v)
    (h : addChild v f = .ok f') :
    Wf f' ∧ f'.nodes.Perm ({ value := v } :: f.nodes) := by
  unfold addChild at h
  cases hr : splitChildren v f with
  | throw => rw [hr] at h; simp at h
  | ub => rw [hr] at h; simp at h
  | diverge => rw [hr] at h; simp at h
  | ok r =>
    obtain ⟨a, b⟩ := r
    rw [hr] at h
    simp only [Outcome.map, Outcome.ok.injEq] at h
    subst h
    obtain ⟨h1, h2, h3⟩ := split_spec hwf hno hr
    subst h1
    obtain ⟨w1, w2, w3⟩ := wf_of_append hwf
    constructor
    · refine wf_append w1 ?_ ?_
      · rw [wf_cons]
        exact ⟨h3, by simp [vals, Forest.nodes], w2, trivial⟩
      · intro x hx y hy
        rw [vals_cons] at hy
        have hnil : vals .nil = [] := rfl
        rw [hnil, List.append_nil] at hy
        rcases List.mem_cons.mp hy with rfl | hy
        · exact h2 x hx
        · exact w3 x hx y hy
    · rw [nodes_append, nodes_append]
      simp only [Forest.nodes, List.append_nil]
      exact List.perm_middle

/-! ### Insertion -/

/-- Count an insertion of `v`. -/
def bump (v : Word) (n : Node) : Node := if n.value = v then { n with own := n.own + 1 } else n

theorem bump_value (v : Word) (n : Node) : (bump v n).value = n.value := by unfold bump; split <;> rfl

theorem map_bump_self {v : Word} {l : List Node} (h : ∀ n ∈ l, n.value ≠ v) : l.map (bump v) = l := by
  induction l with
  | nil => rfl
  | cons n l ih =>
    simp only [List.mem_cons, forall_eq_or_imp] at h
    rw [List.map_cons, ih h.2, bump, if_neg h.1]

/-- What an insertion did: it counted a node, or it made one below the node `u`. -/
def Inserted (v : Word) (f f' : Forest) : Option Word → Prop
  | none => v ∈ vals f ∧ f'.nodes = f.nodes.map (bump v)
  | some u => v ∉ vals f ∧ f'.nodes.Perm ({ value := v } :: f.nodes) ∧ u ∈ vals f ∧ u <+: v ∧ u ≠ v

theorem Inserted.vals_subset {v : Word} {f f' : Forest} {p : Option Word} (h : Inserted v f f' p) :
    ∀ m ∈ vals f', m = v ∨ m ∈ vals f := by
  intro m hm
  obtain ⟨n, hn, rfl⟩ := mem_vals.mp hm
  cases p with
  | none =>
    simp only [Inserted] at h
    rw [h.2] at hn
    obtain ⟨k, hk, rfl⟩ := List.mem_map.mp hn
    rw [bump_value]
    exact .inr (mem_vals.mpr ⟨k, hk, rfl⟩)
  | some u =>
    simp only [Inserted] at h
    rcases List.mem_cons.mp (h.2.1.mem_iff.mp hn) with rfl | hn
    · exact .inl rfl
    · exact .inr (mem_vals.mpr ⟨n, hn, rfl⟩)

theorem Inserted.vals_superset {v : Word} {f f' : Forest} {p : Option Word} (h : Inserted v f f' p) :
    v ∈ vals f' ∧ ∀ m ∈ vals f, m ∈ vals f' := by
  cases p with
  | none =>
    simp only [Inserted] at h
    have : vals f' = vals f := by
      unfold vals
      rw [h.2, List.map_map]
      refine List.map_congr_left fun n _ => ?_
      exact bump_value v n
    rw [this]
    exact ⟨h.1, fun m hm => hm⟩
  | some u =>
    simp only [Inserted] at h
    have hp : (vals f').Perm (v :: vals f) := by
      have := h.2.1.map (·.value)
      simpa [vals] using this
    exact ⟨hp.mem_iff.mpr (by simp), fun m hm => hp.mem_iff.mpr (by simp [hm])⟩

theorem insertChild_spec {v : Word} {f : Forest} (hwf : Wf f) {r : Option (Forest × Option Word)}
    (h : insertChild v f = .ok r) :
    match r with
    | none => ∀ m ∈ vals f, ¬ m <+: v
    | some (f', p) => Wf f' ∧ Inserted v f f' p ∧ ∃ m ∈ vals f, m <+: v := by
  induction f generalizing r with
  | nil =>
    simp only [insertChild, Outcome.ok.injEq] at h
    subst h
    simp [vals, Forest.nodes]
  | cons n cs rest ihc ihr =>
    have hwf' := hwf
    rw [wf_cons] at hwf
    obtain ⟨h1, h2, h3, h4⟩ := hwf
    have hin : n.value ∈ vals (.cons n cs rest) := by rw [vals_cons]; simp
    rw [insertChild] at h
    by_cases hs : startsWith v n.value = true
    · rw [if_pos hs] at h
      have hpre : n.value <+: v := (startsWith_iff _ _).mp hs
      by_cases he : v = n.value
      · rw [if_pos he] at h
        simp only [Outcome.ok.injEq] at h
        subst h
        subst he
        refine ⟨?_, ⟨hin, ?_⟩, n.value, hin, hpre⟩
        · rw [wf_cons]; exact ⟨h1, h2, h3, h4⟩
        · have e1 : cs.nodes.map (bump n.value) = cs.nodes :=
            map_bump_self fun m hm e => (h1 _ (mem_vals.mpr ⟨m, hm, rfl⟩)).2 e.symm
          have e2 : rest.nodes.map (bump n.value) = rest.nodes :=
            map_bump_self fun m hm e => (h2 n.value (by simp) _ (mem_vals.mpr ⟨m, hm, rfl⟩)).2 (e ▸ List.prefix_refl _)
          simp only [Forest.nodes, List.map_cons, List.map_append, e1, e2]
          simp [bump]
      · rw [if_neg he] at h
        have hvr : v ∉ vals rest := fun hv => (h2 n.value (by simp) v hv).1 hpre
        cases hr : insertChild v cs with
        | throw => rw [hr] at h; simp at h
        | ub => rw [hr] at h; simp at h
        | diverge => rw [hr] at h; simp at h
        | ok q =>
          rw [hr] at h
          simp only [Outcome.bind] at h
          have ih := ihc h3 hr
          -- the new forest, from the new children
          have key : ∀ (cs' : Forest) (p : Option Word), Wf cs' → (∀ m ∈ vals cs', m = v ∨ m ∈ vals cs) → Wf (.cons n cs' rest) := by
            intro cs' p hw hv
            rw [wf_cons]
            refine ⟨?_, ?_, hw, h4⟩
            · intro m hm
              rcases hv m hm with rfl | hm
              · exact ⟨hpre, fun e => he e.symm⟩
              · exact h1 m hm
            · intro m hm k hk
              rcases List.mem_cons.mp hm with rfl | hm
              · exact h2 n.value (by simp) k hk
              · rcases hv m hm with rfl | hm
                · exact ((h2 n.value (by simp) k hk).symm.extend hpre).symm
                · exact h2 m (by simp [hm]) k hk
          cases q with
          | some q =>
            obtain ⟨cs', p⟩ := q
            simp only [Outcome.ok.injEq] at h
            subst h
            simp only at ih
            obtain ⟨i1, i2, i3⟩ := ih
            refine ⟨key cs' p i1 i2.vals_subset, ?_, n.value, hin, hpre⟩
            cases p with
            | none =>
              simp only [Inserted] at i2 ⊢
              refine ⟨by rw [vals_cons]; simp [i2.1], ?_⟩
              have e2 : rest.nodes.map (bump v) = rest.nodes :=
                map_bump_self fun m hm e => hvr (mem_vals.mpr ⟨m, hm, e⟩)
              simp only [Forest.nodes, List.map_cons, List.map_append, i2.2, e2]
              rw [bump, if_neg fun e => he e.symm]
            | some u =>
              simp only [Inserted] at i2 ⊢
              refine ⟨?_, ?_, by rw [vals_cons]; simp [i2.2.2.1], i2.2.2.2.1, i2.2.2.2.2⟩
              · rw [vals_cons]
                simp only [List.mem_cons, List.mem_append, not_or]
                exact ⟨he, i2.1, hvr⟩
              · simp only [Forest.nodes]
                refine ((i2.2.1.append_right rest.nodes).cons n).trans ?_
                exact List.Perm.swap _ _ _
          | none =>
            simp only at h ih
            cases hac : addChild v cs with
            | throw => rw [hac] at h; simp at h
            | ub => rw [hac] at h; simp at h
            | diverge => rw [hac] at h; simp at h
            | ok cs' =>
              rw [hac] at h
              simp only [Outcome.map, Outcome.ok.injEq] at h
              subst h
              obtain ⟨a1, a2⟩ := addChild_spec h3 ih hac
              have hvc : v ∉ vals cs := fun hv => ih v hv (List.prefix_refl _)
              refine ⟨key cs' none a1 ?_, ⟨?_, ?_, hin, hpre, fun e => he e.symm⟩, n.value, hin, hpre⟩
              · intro m hm
                obtain ⟨k, hk, rfl⟩ := mem_vals.mp hm
                rcases List.mem_cons.mp (a2.mem_iff.mp hk) with rfl | hk
                · exact .inl rfl
                · exact .inr (mem_vals.mpr ⟨k, hk, rfl⟩)
              · rw [vals_cons]
                simp only [List.mem_cons, List.mem_append, not_or]
                exact ⟨he, hvc, hvr⟩
              · simp only [Forest.nodes]
                refine ((a2.append_right rest.nodes).cons n).trans ?_
                exact List.Perm.swap _ _ _
    · rw [if_neg hs] at h
      have hnp : ¬ n.value <+: v := fun e => hs ((startsWith_iff _ _).mpr e)
      cases hr : insertChild v rest with
      | throw => rw [hr] at h; simp at h
      | ub => rw [hr] at h; simp at h
      | diverge => rw [hr] at h; simp at h
      | ok q =>
        rw [hr] at h
        simp only [Outcome.map, Outcome.ok.injEq] at h
        subst h
        have ih := ihr h4 hr
        have hcs : ∀ m ∈ vals cs, ¬ m <+: v := fun m hm e => hnp ((h1 m hm).1.trans e)
        cases q with
        | none =>
          simp only [Option.map] at ih ⊢
          intro m hm
          rw [vals_cons] at hm
          rcases List.mem_cons.mp hm with rfl | hm
          · exact hnp
          · rcases List.mem_append.mp hm with hm | hm
            · exact hcs m hm
            · exact ih m hm
        | some q =>
          obtain ⟨f', p⟩ := q
          simp only [Option.map] at ih ⊢
          obtain ⟨i1, i2, k, hk, hkv⟩ := ih
          have hvc : v ∉ n.value :: vals cs := by
            intro hv
            rcases List.mem_cons.mp hv with rfl | hv
            · exact hnp (List.prefix_refl _)
            · exact hcs v hv (List.prefix_refl _)
          refine ⟨?_, ?_, k, by rw [vals_cons]; simp [hk], hkv⟩
          · rw [wf_cons]
            refine ⟨h1, ?_, h3, i1⟩
            intro m hm j hj
            rcases i2.vals_subset j hj with rfl | hj
            · exact (h2 m hm k hk).extend hkv
            · exact h2 m hm j hj
          · cases p with
            | none =>
              simp only [Inserted] at i2 ⊢
              refine ⟨by rw [vals_cons]; simp [i2.1], ?_⟩
              have e1 : (n :: cs.nodes).map (bump v) = n :: cs.nodes := by
                refine map_bump_self fun m hm e => hvc ?_
                rcases List.mem_cons.mp hm with rfl | hm
                · simp [e]
                · exact List.mem_cons_of_mem _ (mem_vals.mpr ⟨m, hm, e⟩)
              simp only [Forest.nodes, ← List.cons_append, List.map_append, i2.2, e1]
            | some u =>
              simp only [Inserted] at i2 ⊢
              refine ⟨?_, ?_, by rw [vals_cons]; simp [i2.2.2.1], i2.2.2.2.1, i2.2.2.2.2⟩
              · rw [vals_cons]
                simp only [List.mem_cons, List.mem_append, not_or] at hvc ⊢
                exact ⟨hvc.1, hvc.2, i2.1⟩
              · simp only [Forest.nodes, ← List.cons_append]
                refine (i2.2.1.append_left (n :: cs.nodes)).trans ?_
                exact List.perm_middle

/-- Nothing is inserted into a list without a prefix of `v`. -/
theorem insertChild_none {v : Word} {f : Forest} (h : ∀ m ∈ vals f, ¬ m <+: v) : insertChild v f = .ok none := by
  induction f with
  | nil => rfl
  | cons n cs rest _ ih =>
    rw [insertChild, startsWith_false (h n.value (by rw [vals_cons]; simp)),
      ih fun m hm => h m (by rw [vals_cons]; simp [hm])]
    simp

theorem insertAt_absent {h v : Word} {f : Forest} (hh : h ∉ vals f) : insertAt h v f = .ok none := by
  induction f with
  | nil => rfl
  | cons n cs rest ihc ihr =>
    rw [vals_cons] at hh
    simp only [List.mem_cons, List.mem_append, not_or] at hh
    rw [insertAt, if_neg fun e => hh.1 e.symm, ihc hh.2.1, ihr hh.2.2]
    rfl

/-- The start point does not matter. -/
theorem insertAt_eq {h v : Word} {f : Forest} (hwf : Wf f) (hh : h ∈ vals f) (hv : h <+: v) :
    insertAt h v f = insertChild v f := by
  induction f with
  | nil => simp [vals, Forest.nodes] at hh
  | cons n cs rest ihc ihr =>
    rw [wf_cons] at hwf
    obtain ⟨h1, h2, h3, h4⟩ := hwf
    rw [insertAt]
    by_cases he : n.value = h
    · rw [if_pos he]
    · rw [if_neg he]
      rw [vals_cons] at hh
      rcases List.mem_cons.mp hh with e | hh
      · exact absurd e.symm he
      · rcases List.mem_append.mp hh with hh | hh
        · rw [ihc h3 hh]
          have hpre : n.value <+: v := (h1 h hh).1.trans hv
          have hne : ¬ v = n.value := by
            rintro rfl
            exact (h1 h hh).2 ((h1 h hh).1.eq_of_length_le hv.length_le)
          conv_rhs => rw [insertChild, if_pos ((startsWith_iff _ _).mpr hpre), if_neg hne]
          cases hr : insertChild v cs with
          | throw => rfl
          | ub => rfl
          | diverge => rfl
          | ok q =>
            cases q with
            | some q => rfl
            | none =>
              have := insertChild_spec h3 hr
              exact absurd hv (this h hh)
        · have hc : h ∉ vals cs := fun e => (h2 h (by simp [e]) h hh).1 (List.prefix_refl _)
          rw [insertAt_absent hc, ihr h4 hh]
          have hnp : ¬ n.value <+: v := fun e => by
            rcases comparable e hv with e' | e'
            · exact (h2 n.value (by simp) h hh).1 e'
            · exact (h2 n.value (by simp) h hh).2 e'
          conv_rhs => rw [insertChild, startsWith_false hnp]
          rfl

end Verif.PrefixHeuristic
