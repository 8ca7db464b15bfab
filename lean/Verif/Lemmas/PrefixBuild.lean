import Verif.Lemmas.PrefixTree
/-
Insertions in sorted order are defined, and the tree after reading the words.
-/
namespace Verif.PrefixHeuristic
open RdfEscaping (startsWith unescapeNB)

/-! ### Order -/

theorem lt_le_trans {a b c : Word} (h : a < b) (h' : b ≤ c) : a < c := by
  by_cases hac : a < c
  · exact hac
  · exact absurd h (List.le_trans h' (List.not_lt.mp hac))

theorem interval {v m w : Word} (h1 : v ≤ m) (h2 : m ≤ w) (h : v <+: w) : v <+: m := by
  induction v generalizing m w with
  | nil => exact List.nil_prefix
  | cons a v ih =>
    cases w with
    | nil => simp at h
    | cons b w =>
      obtain ⟨rfl, h⟩ := List.cons_prefix_cons.mp h
      cases m with
      | nil => simp at h1
      | cons c m =>
        rw [List.cons_le_cons_iff] at h1 h2
        rcases h1 with h1 | ⟨rfl, h1⟩
        · rcases h2 with h2 | ⟨rfl, h2⟩
          · exact absurd (Char.lt_trans h1 h2) (Char.lt_irrefl _)
          · exact absurd h1 (Char.lt_irrefl _)
        · rcases h2 with h2 | ⟨_, h2⟩
          · exact absurd h2 (Char.lt_irrefl _)
          · exact List.cons_prefix_cons.mpr ⟨rfl, ih h1 h2 (by assumption)⟩

/-- What is not after `w` and apart from a prefix of `w` is before the prefix. -/
theorem before {m v w : Word} (hm : m ≤ w) (hv : v <+: w) (h : Apart m v) : m < v := by
  by_cases hlt : m < v
  · exact hlt
  · exact absurd (interval (List.not_lt.mp hlt) hm hv) h.2

/-- Every node of the list is before the nodes that follow. -/
def Sorted : Forest → Prop
  | .nil => True
  | .cons n cs rest => (∀ m ∈ vals rest, n.value < m) ∧ Sorted cs ∧ Sorted rest

theorem allStart_of {v w : Word} {f : Forest} {x : Word} (hx : v <+: x) (h : ∀ m ∈ vals f, x < m) (hle : ∀ m ∈ vals f, m ≤ w)
    (hv : v <+: w) : f.allStart v = true := by
  induction f with
  | nil => rfl
  | cons n cs rest _ ih =>
    rw [vals_cons] at h hle
    have h1 : v ≤ n.value := List.le_trans (List.IsPrefix.le hx) (List.le_of_lt (h n.value (by simp)))
    rw [Forest.allStart, ih (fun m hm => h m (by simp [hm])) (fun m hm => hle m (by simp [hm])),
      (startsWith_iff _ _).mpr (interval h1 (hle n.value (by simp)) hv)]
    rfl

theorem split_ok {v w : Word} {f : Forest} (hs : Sorted f) (hle : ∀ m ∈ vals f, m ≤ w) (hv : v <+: w) :
    ∃ a b, splitChildren v f = .ok (a, b) := by
  induction f with
  | nil => exact ⟨_, _, rfl⟩
  | cons n cs rest _ ih =>
    rw [splitChildren]
    by_cases h : startsWith n.value v = true
    · rw [if_pos h, if_pos (allStart_of ((startsWith_iff _ _).mp h) hs.1 (fun m hm => hle m (by rw [vals_cons]; simp [hm])) hv)]
      exact ⟨_, _, rfl⟩
    · rw [if_neg h]
      obtain ⟨a, b, hab⟩ := ih hs.2.2 fun m hm => hle m (by rw [vals_cons]; simp [hm])
      rw [hab]
      exact ⟨_, _, rfl⟩

theorem sorted_append {f g : Forest} (hf : Sorted f) (hg : Sorted g) (h : ∀ a ∈ vals f, ∀ b ∈ vals g, a < b) :
    Sorted (f.append g) := by
  induction f with
  | nil => simpa [Forest.append] using hg
  | cons n cs rest _ ih =>
    simp only [vals_cons] at h
    refine ⟨?_, hf.2.1, ih hf.2.2 fun a ha b hb => h a (by simp [ha]) b hb⟩
    intro m hm
    rw [vals_append] at hm
    rcases List.mem_append.mp hm with hm | hm
    · exact hf.1 m hm
    · exact h n.value (by simp) m hm

theorem sorted_of_append {f g : Forest} (h : Sorted (f.append g)) : Sorted f ∧ Sorted g := by
  induction f with
  | nil => exact ⟨trivial, by simpa [Forest.append] using h⟩
  | cons n cs rest _ ih =>
    obtain ⟨h1, h2, h3⟩ := h
    exact ⟨⟨fun m hm => h1 m (by rw [vals_append]; simp [hm]), h2, (ih h3).1⟩, (ih h3).2⟩

theorem addChild_ok {v w : Word} {f : Forest} (hwf : Wf f) (hs : Sorted f) (hno : ∀ m ∈ vals f, ¬ m <+: v)
    (hle : ∀ m ∈ vals f, m ≤ w) (hv : v <+: w) : ∃ f', addChild v f = .ok f' ∧ Sorted f' := by
  obtain ⟨a, b, hab⟩ := split_ok hs hle hv
  refine ⟨_, by rw [addChild, hab]; rfl, ?_⟩
  obtain ⟨h1, h2, h3⟩ := split_spec hwf hno hab
  subst h1
  obtain ⟨s1, s2⟩ := sorted_of_append hs
  refine sorted_append s1 ⟨by simp [vals, Forest.nodes], s2, trivial⟩ ?_
  intro x hx y hy
  have hxv : x < v := before (hle x (by rw [vals_append]; simp [hx])) hv (h2 x hx)
  rw [vals_cons] at hy
  have hnil : vals .nil = [] := rfl
  rw [hnil, List.append_nil] at hy
  rcases List.mem_cons.mp hy with rfl | hy
  · exact hxv
  · exact lt_le_trans hxv (List.IsPrefix.le (h3 y hy).1)

theorem insertChild_ok {v w : Word} {f : Forest} (hwf : Wf f) (hs : Sorted f) (hle : ∀ m ∈ vals f, m ≤ w) (hv : v <+: w) :
    ∃ r, insertChild v f = .ok r ∧ ∀ f' p, r = some (f', p) → Sorted f' := by
  induction f with
  | nil => exact ⟨none, rfl, by simp⟩
  | cons n cs rest ihc ihr =>
    rw [wf_cons] at hwf
    obtain ⟨h1, h2, h3, h4⟩ := hwf
    obtain ⟨s1, s2, s3⟩ := hs
    rw [vals_cons] at hle
    have hlec : ∀ m ∈ vals cs, m ≤ w := fun m hm => hle m (by simp [hm])
    have hler : ∀ m ∈ vals rest, m ≤ w := fun m hm => hle m (by simp [hm])
    rw [insertChild]
    by_cases h : startsWith v n.value = true
    · rw [if_pos h]
      by_cases he : v = n.value
      · rw [if_pos he]
        refine ⟨_, rfl, ?_⟩
        intro f' p e
        simp only [Option.some.injEq, Prod.mk.injEq] at e
        obtain ⟨rfl, _⟩ := e
        exact ⟨s1, s2, s3⟩
      · rw [if_neg he]
        obtain ⟨r, hr, hr'⟩ := ihc h3 s2 hlec
        rw [hr]
        cases r with
        | some q =>
          refine ⟨_, rfl, ?_⟩
          intro f' p e
          simp only [Option.some.injEq, Prod.mk.injEq] at e
          obtain ⟨rfl, _⟩ := e
          exact ⟨s1, hr' q.1 q.2 rfl, s3⟩
        | none =>
          obtain ⟨cs', hc, hsc⟩ := addChild_ok h3 s2 (insertChild_spec h3 hr) hlec hv
          simp only [Outcome.bind, hc, Outcome.map]
          refine ⟨_, rfl, ?_⟩
          intro f' p e
          simp only [Option.some.injEq, Prod.mk.injEq] at e
          obtain ⟨rfl, _⟩ := e
          exact ⟨s1, hsc, s3⟩
    · rw [if_neg h]
      obtain ⟨r, hr, hr'⟩ := ihr h4 s3 hler
      rw [hr]
      refine ⟨_, rfl, ?_⟩
      intro f' p e
      cases r with
      | none => simp at e
      | some q =>
        simp only [Option.map, Option.some.injEq, Prod.mk.injEq] at e
        obtain ⟨rfl, _⟩ := e
        obtain ⟨_, i2, k, hk, hkv⟩ := insertChild_spec h4 hr
        refine ⟨?_, s2, hr' q.1 q.2 rfl⟩
        intro m hm
        rcases i2.vals_subset m hm with rfl | hm
        · exact lt_le_trans (s1 k hk) (List.IsPrefix.le hkv)
        · exact s1 m hm

/-! ### The tree while the words are read -/

/-- The invariant after the insertion of the words `ls`. -/
structure Built (t : Tree) (ls : List Word) : Prop where
  wf : Wf t.root
  root : [] ∈ vals t.root
  own : ∀ n ∈ t.root.nodes, n.value ≠ [] → n.own = ls.count n.value
  fresh : ∀ n ∈ t.root.nodes, n.penalty = 0 ∧ n.active = true
  mem : ∀ l ∈ ls, l ∈ vals t.root
  only : ∀ v ∈ vals t.root, v = [] ∨ v ∈ ls
  parents : ∀ v ∈ vals t.root, v ≠ [] → ∃ p, t.parents.lookup v = some p ∧ p ∈ vals t.root ∧ p <+: v ∧ p ≠ v

theorem built_init : Built Tree.init [] := by
  constructor <;> simp [Tree.init, Wf, vals, Forest.nodes]

theorem climb_ok {t : Tree} {ls : List Word} (ht : Built t ls) (v : Word) {fuel : Nat} {h : Word} (hh : h ∈ vals t.root)
    (hf : h.length < fuel) : ∃ h', climb t.parents v fuel h = .ok h' ∧ h' ∈ vals t.root ∧ h' <+: v := by
  induction fuel generalizing h with
  | zero => omega
  | succ fuel ih =>
    rw [climb]
    by_cases hs : startsWith v h = true
    · rw [if_pos hs]
      exact ⟨h, rfl, hh, (startsWith_iff _ _).mp hs⟩
    · rw [if_neg hs]
      have hne : h ≠ [] := by
        rintro rfl
        exact hs ((startsWith_iff _ _).mpr List.nil_prefix)
      obtain ⟨p, hp, hpm, hpv, hpne⟩ := ht.parents h hh hne
      simp only [hp]
      refine ih hpm ?_
      have : p.length < h.length := by
        refine Nat.lt_of_le_of_ne hpv.length_le fun e => hpne (hpv.eq_of_length e)
      omega

/-- An insertion is `insertAfter` of the root. -/
theorem insert_eq {t : Tree} {ls : List Word} (ht : Built t ls) (v : Word) {start : Option Word}
    (hs : ∀ h, start = some h → h ∈ vals t.root) :
    t.insert v start = (insertChild v t.root).bind fun r =>
      match r with
      | none => .ub
      | some (root, none) => .ok ⟨root, t.parents⟩
      | some (root, some p) => .ok ⟨root, (v, p) :: t.parents⟩ := by
  have hm : start.getD [] ∈ vals t.root := by
    cases start with
    | none => exact ht.root
    | some h => exact hs h rfl
  obtain ⟨h', e, hm', hv'⟩ := climb_ok ht v hm (Nat.lt_succ_self _)
  rw [Tree.insert, e]
  simp only [Outcome.bind]
  rw [insertAt_eq ht.wf hm' hv']
  rfl

theorem built_insert {t t' : Tree} {ls : List Word} (ht : Built t ls) {v : Word} {start : Option Word}
    (hs : ∀ h, start = some h → h ∈ vals t.root) (h : t.insert v start = .ok t') : Built t' (ls ++ [v]) := by
  rw [insert_eq ht v hs] at h
  cases hr : insertChild v t.root with
  | throw => rw [hr] at h; simp at h
  | ub => rw [hr] at h; simp at h
  | diverge => rw [hr] at h; simp at h
  | ok r =>
    rw [hr] at h
    cases r with
    | none => simp at h
    | some q =>
      obtain ⟨f', p⟩ := q
      obtain ⟨w', hi, _⟩ := insertChild_spec ht.wf hr
      have hroot : t'.root = f' := by
        cases p <;> (simp only [Outcome.bind, Outcome.ok.injEq] at h; rw [← h])
      have hv := hi.vals_superset
      have hsub := hi.vals_subset
      refine ⟨hroot ▸ w', hroot ▸ hv.2 _ ht.root, ?_, ?_, ?_, ?_, ?_⟩
      · rw [hroot]
        intro n hn hne
        rw [List.count_append]
        cases p with
        | none =>
          simp only [Inserted] at hi
          rw [hi.2] at hn
          obtain ⟨k, hk, rfl⟩ := List.mem_map.mp hn
          rw [bump_value] at hne ⊢
          have := ht.own k hk hne
          unfold bump
          by_cases e : k.value = v
          · rw [if_pos e, e, List.count_singleton_self]
            simp only
            rw [this, e]
          · rw [if_neg e, this, List.count_singleton]
            rw [if_neg (by simpa using fun e' => e e'.symm)]
            rfl
        | some u =>
          simp only [Inserted] at hi
          rcases List.mem_cons.mp (hi.2.1.mem_iff.mp hn) with rfl | hn
          · have : v ∉ ls := fun e => hi.1 (ht.mem v e)
            rw [List.count_eq_zero_of_not_mem this, List.count_singleton_self]
          · have e : n.value ≠ v := by
              rintro rfl
              exact hi.1 (mem_vals.mpr ⟨n, hn, rfl⟩)
            rw [ht.own n hn hne, List.count_singleton, if_neg (by simpa using fun e' => e e'.symm)]
            rfl
      · rw [hroot]
        intro n hn
        cases p with
        | none =>
          simp only [Inserted] at hi
          rw [hi.2] at hn
          obtain ⟨k, hk, rfl⟩ := List.mem_map.mp hn
          have := ht.fresh k hk
          unfold bump
          split <;> exact this
        | some u =>
          simp only [Inserted] at hi
          rcases List.mem_cons.mp (hi.2.1.mem_iff.mp hn) with rfl | hn
          · exact ⟨rfl, rfl⟩
          · exact ht.fresh n hn
      · rw [hroot]
        intro l hl
        rcases List.mem_append.mp hl with hl | hl
        · exact hv.2 l (ht.mem l hl)
        · rw [List.mem_singleton.mp hl]; exact hv.1
      · rw [hroot]
        intro x hx
        rcases hsub x hx with rfl | hx
        · simp
        · rcases ht.only x hx with rfl | hx
          · simp
          · simp [hx]
      · rw [hroot]
        intro x hx hne
        have old : ∀ x ∈ vals t.root, x ≠ [] → ∃ p, t.parents.lookup x = some p ∧ p ∈ vals f' ∧ p <+: x ∧ p ≠ x := by
          intro x hx hne
          obtain ⟨p, h1, h2, h3⟩ := ht.parents x hx hne
          exact ⟨p, h1, hv.2 p h2, h3⟩
        cases p with
        | none =>
          simp only [Outcome.bind, Outcome.ok.injEq] at h
          rw [← h]
          refine old x ?_ hne
          rcases hsub x hx with rfl | hx
          · exact hi.1
          · exact hx
        | some u =>
          simp only [Outcome.bind, Outcome.ok.injEq] at h
          rw [← h]
          simp only [Inserted] at hi
          by_cases e : x = v
          · subst e
            exact ⟨u, by simp, hv.2 u hi.2.2.1, hi.2.2.2⟩
          · have hb : (x == v) = false := by simpa using e
            simp only [List.lookup, hb]
            refine old x ?_ hne
            rcases hsub x hx with e' | hx
            · exact absurd e' e
            · exact hx

theorem built_vals {t : Tree} {ls : List Word} (ht : Built t ls) {v : Word} (hv : v ∈ ls) : v ∈ vals t.root := ht.mem v hv

/-- In sorted order an insertion is defined. -/
theorem insert_ok {t : Tree} {ls : List Word} (ht : Built t ls) (hsort : Sorted t.root) {v w : Word} (hv : v <+: w)
    (hle : ∀ m ∈ vals t.root, m ≤ w) {start : Option Word} (hs : ∀ h, start = some h → h ∈ vals t.root) :
    ∃ t', t.insert v start = .ok t' ∧ Sorted t'.root ∧ ∀ m ∈ vals t'.root, m ≤ w := by
  obtain ⟨r, hr, hr'⟩ := insertChild_ok ht.wf hsort hle hv
  rw [insert_eq ht v hs, hr]
  cases r with
  | none => exact absurd List.nil_prefix (insertChild_spec ht.wf hr [] ht.root)
  | some q =>
    obtain ⟨f', p⟩ := q
    obtain ⟨_, hi, _⟩ := insertChild_spec ht.wf hr
    have hsub : ∀ m ∈ vals f', m ≤ w := by
      intro m hm
      rcases hi.vals_subset m hm with rfl | hm
      · exact List.IsPrefix.le hv
      · exact hle m hm
    cases p with
    | none => exact ⟨_, rfl, hr' f' _ rfl, hsub⟩
    | some u => exact ⟨_, rfl, hr' f' _ rfl, hsub⟩

/-! ### Reading the words -/

theorem commonPrefix_left (a b : Word) : commonPrefix a b <+: a := by
  induction a generalizing b with
  | nil => simp [commonPrefix]
  | cons x a ih =>
    cases b with
    | nil => simp [commonPrefix]
    | cons y b =>
      rw [commonPrefix]
      split
      · exact List.cons_prefix_cons.mpr ⟨rfl, ih b⟩
      · simp

theorem commonPrefix_right (a b : Word) : commonPrefix a b <+: b := by
  induction a generalizing b with
  | nil => simp [commonPrefix]
  | cons x a ih =>
    cases b with
    | nil => simp [commonPrefix]
    | cons y b =>
      rw [commonPrefix]
      split
      · rename_i h
        exact List.cons_prefix_cons.mpr ⟨h, ih b⟩
      · simp

theorem commonPrefix_longest {a b q : Word} (ha : q <+: a) (hb : q <+: b) : q <+: commonPrefix a b := by
  induction q generalizing a b with
  | nil => exact List.nil_prefix
  | cons x q ih =>
    cases a with
    | nil => simp at ha
    | cons y a =>
      cases b with
      | nil => simp at hb
      | cons z b =>
        obtain ⟨rfl, ha⟩ := List.cons_prefix_cons.mp ha
        obtain ⟨rfl, hb⟩ := List.cons_prefix_cons.mp hb
        rw [commonPrefix, if_pos rfl]
        exact List.cons_prefix_cons.mpr ⟨rfl, ih (by assumption) (by assumption)⟩

theorem longestCommon (a b : Word) : PrefixChoice.LongestCommon a b (commonPrefix a b) :=
  ⟨commonPrefix_left a b, commonPrefix_right a b, fun _ ha hb => commonPrefix_longest ha hb⟩

/-- The candidates for words `ws` after the word `last`. -/
def candidates (last : Word) : List Word → List Word
  | [] => []
  | w :: ws => commonPrefix last w :: candidates w ws

theorem candidates_spec (last : Word) (ws : List Word) : PrefixChoice.CommonPrefixes (last :: ws) (candidates last ws) := by
  induction ws generalizing last with
  | nil => exact .single last
  | cons w ws ih => exact .cons (longestCommon last w) (ih w)

/-- The words that are read from the lines after the first one. -/
def readWords : List Word → Outcome (List Word)
  | [] => .ok []
  | l :: ls => (unescapeNB l).bind fun w => (readWords ls).map (w :: ·)

theorem build_spec {minLength : Nat} {t t' : Tree} {pos : Option Word} {last : Word} {lines : List Word} {ls : List Word}
    (ht : Built t ls) (hp : ∀ h, pos = some h → h ∈ vals t.root)
    (h : build minLength t pos last lines = .ok t') :
    ∃ ws, readWords lines = .ok ws ∧ Built t' (ls ++ (candidates last ws).filter (minLength ≤ ·.length)) := by
  induction lines generalizing t pos last ls with
  | nil =>
    simp only [build, Outcome.ok.injEq] at h
    subst h
    exact ⟨[], rfl, by simpa [candidates] using ht⟩
  | cons l lines ih =>
    rw [build] at h
    cases hu : unescapeNB l with
    | throw => rw [hu] at h; simp at h
    | ub => rw [hu] at h; simp at h
    | diverge => rw [hu] at h; simp at h
    | ok next =>
      rw [hu] at h
      simp only [Outcome.bind] at h
      by_cases hm : minLength ≤ (commonPrefix last next).length
      · rw [if_pos hm] at h
        cases hi : t.insert (commonPrefix last next) pos with
        | throw => rw [hi] at h; simp at h
        | ub => rw [hi] at h; simp at h
        | diverge => rw [hi] at h; simp at h
        | ok t1 =>
          rw [hi] at h
          simp only at h
          have hb := built_insert ht hp hi
          obtain ⟨ws, h1, h2⟩ := ih hb (fun h e => by
            cases e; exact hb.mem _ (by simp)) h
          refine ⟨next :: ws, by simp [readWords, hu, h1], ?_⟩
          rw [candidates, List.filter_cons_of_pos (by simpa using hm)]
          simpa using h2
      · rw [if_neg hm] at h
        obtain ⟨ws, h1, h2⟩ := ih ht (fun h e => by cases e) h
        refine ⟨next :: ws, by simp [readWords, hu, h1], ?_⟩
        rw [candidates, List.filter_cons_of_neg (by simpa using hm)]
        exact h2

theorem build_ok {minLength : Nat} {t : Tree} {pos : Option Word} {last : Word} {lines : List Word} {ls ws : List Word}
    (ht : Built t ls) (hp : ∀ h, pos = some h → h ∈ vals t.root) (hs : Sorted t.root)
    (hle : ∀ m ∈ vals t.root, m ≤ last) (hr : readWords lines = .ok ws) (hsort : (last :: ws).Pairwise (· ≤ ·)) :
    ∃ t', build minLength t pos last lines = .ok t' := by
  induction lines generalizing t pos last ls ws with
  | nil => exact ⟨t, rfl⟩
  | cons l lines ih =>
    rw [build]
    rw [readWords] at hr
    cases hu : unescapeNB l with
    | throw => rw [hu] at hr; simp at hr
    | ub => rw [hu] at hr; simp at hr
    | diverge => rw [hu] at hr; simp at hr
    | ok next =>
      rw [hu] at hr
      simp only [Outcome.bind] at hr ⊢
      cases hr' : readWords lines with
      | throw => rw [hr'] at hr; simp at hr
      | ub => rw [hr'] at hr; simp at hr
      | diverge => rw [hr'] at hr; simp at hr
      | ok ws' =>
        rw [hr'] at hr
        simp only [Outcome.map, Outcome.ok.injEq] at hr
        subst hr
        rw [List.pairwise_cons] at hsort
        have hln : last ≤ next := hsort.1 next (by simp)
        by_cases hm : minLength ≤ (commonPrefix last next).length
        · rw [if_pos hm]
          obtain ⟨t1, h1, h2, h3⟩ := insert_ok ht hs (commonPrefix_left last next) hle hp
          rw [h1]
          have hb := built_insert ht hp h1
          exact ih hb (fun h e => by cases e; exact hb.mem _ (by simp)) h2 (fun m hm => List.le_trans (h3 m hm) hln) hr' hsort.2
        · rw [if_neg hm]
          exact ih ht (fun h e => by cases e) hs (fun m hm => List.le_trans (hle m hm) hln) hr' hsort.2

/-- The first word need not be in order. -/
theorem build_init_ok {minLength : Nat} {first : Word} {lines ws : List Word} (hr : readWords lines = .ok ws)
    (hsort : ws.Pairwise (· ≤ ·)) : ∃ t', build minLength Tree.init none first lines = .ok t' := by
  have hsr : Sorted Tree.init.root := by simp [Tree.init, Sorted, vals, Forest.nodes]
  have hle : ∀ w, ∀ m ∈ vals Tree.init.root, m ≤ w := by
    intro w m hm
    simp only [Tree.init, vals, Forest.nodes, List.append_nil, List.map_cons, List.map_nil, List.mem_singleton] at hm
    subst hm
    exact List.nil_le w
  cases lines with
  | nil => exact ⟨_, rfl⟩
  | cons l lines =>
    rw [build]
    rw [readWords] at hr
    cases hu : unescapeNB l with
    | throw => rw [hu] at hr; simp at hr
    | ub => rw [hu] at hr; simp at hr
    | diverge => rw [hu] at hr; simp at hr
    | ok next =>
      rw [hu] at hr
      simp only [Outcome.bind] at hr ⊢
      cases hr' : readWords lines with
      | throw => rw [hr'] at hr; simp at hr
      | ub => rw [hr'] at hr; simp at hr
      | diverge => rw [hr'] at hr; simp at hr
      | ok ws' =>
        rw [hr'] at hr
        simp only [Outcome.map, Outcome.ok.injEq] at hr
        subst hr
        by_cases hm : minLength ≤ (commonPrefix first next).length
        · rw [if_pos hm]
          obtain ⟨t1, h1, h2, h3⟩ := insert_ok built_init hsr (commonPrefix_right first next) (hle next) (start := none) (by simp)
          rw [h1]
          have hb := built_insert built_init (start := none) (by simp) h1
          exact build_ok hb (fun h e => by cases e; exact hb.mem _ (by simp)) h2 h3 hr' hsort
        · rw [if_neg hm]
          exact build_ok built_init (by simp) hsr (hle next) hr' hsort

end Verif.PrefixHeuristic
