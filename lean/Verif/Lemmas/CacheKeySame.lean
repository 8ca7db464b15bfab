import Verif.Lemmas.CacheKeyInj
namespace Verif.CacheKey
open Outcome

/-- The order of a full scan. -/
def fullOf : Op → Option Order
  | .scan (.full o) => some o
  | _ => none

/-- A join by the kinds of its sides. -/
def JoinOf (env : Env) (fl fr : Option Order) (L R : Outcome Table → Prop) (lc rc : Nat) (o : Outcome Table) : Prop :=
  match fl, fr with
  | some ord, _ => ∃ t, R t ∧ o = t.bind fun t => env.fullJoin ord true t rc
  | none, some ord => ∃ t, L t ∧ o = t.bind fun t => env.fullJoin ord false t lc
  | none, none => ∃ tl tr, L tl ∧ R tr ∧ o = tl.bind fun a => tr.bind fun b => Join.join env.fuel a lc b rc

theorem computes_join (env : Env) (l r : Op) (lc rc : Nat) (o : Outcome Table) :
    Computes env (.join l lc r rc) o ↔ JoinOf env (fullOf l) (fullOf r) (Computes env l) (Computes env r) lc rc o := by
  have right : ∀ (l : Op), fullOf l = none → (∀ r rc o, fullOf r = none → (Computes env (.join l lc r rc) o ↔
      ∃ tl tr, Computes env l tl ∧ Computes env r tr ∧ o = tl.bind fun a => tr.bind fun b => Join.join env.fuel a lc b rc)) →
      (∀ ord rc o, Computes env (.join l lc (.scan (.full ord)) rc) o ↔
        ∃ t, Computes env l t ∧ o = t.bind fun t => env.fullJoin ord false t lc) →
      (Computes env (.join l lc r rc) o ↔ JoinOf env (fullOf l) (fullOf r) (Computes env l) (Computes env r) lc rc o) := by
    intro l hl h1 h2
    rw [hl]
    cases hr : fullOf r with
    | none => exact h1 r rc o hr
    | some ord =>
      have : r = .scan (.full ord) := by
        cases r with
        | scan s =>
          cases s with
          | full o' => rw [show o' = ord from Option.some.inj hr]
          | _ => cases hr
        | _ => cases hr
      rw [this]
      exact h2 ord rc o
  have norm : ∀ (l : Op), fullOf l = none → (Computes env (.join l lc r rc) o ↔
      JoinOf env (fullOf l) (fullOf r) (Computes env l) (Computes env r) lc rc o) := by
    intro l hl
    apply right l hl
    · intro r rc o hr
      cases l with
      | scan s =>
        cases s with
        | full o => cases hl
        | _ =>
          cases r with
          | scan t =>
            cases t with
            | full o => cases hr
            | _ => exact Iff.rfl
          | _ => exact Iff.rfl
      | _ =>
        cases r with
        | scan t =>
          cases t with
          | full o => cases hr
          | _ => exact Iff.rfl
        | _ => exact Iff.rfl
    · intro ord rc o
      cases l with
      | scan s =>
        cases s with
        | full o => cases hl
        | _ => exact Iff.rfl
      | _ => exact Iff.rfl
  cases hl : fullOf l with
  | none => rw [← hl]; exact norm l hl
  | some ord =>
    have : l = .scan (.full ord) := by
      cases l with
      | scan s =>
        cases s with
        | full o' => rw [show o' = ord from Option.some.inj hl]
        | _ => cases hl
      | _ => cases hl
    rw [this]
    exact Iff.rfl

theorem loosen_orderBy (s : Op) (k : List (Nat × Bool)) :
    (∃ c, k = [(c, false)] ∧ loosen (.orderBy s k) = .sort (loosen s) c) ∨
      ((∀ c, k ≠ [(c, false)]) ∧ loosen (.orderBy s k) = .orderBy (loosen s) k) := by
  cases k with
  | nil => exact .inr ⟨(by intro c h; cases h), rfl⟩
  | cons x k =>
    cases k with
    | nil =>
      obtain ⟨c, d⟩ := x
      cases d with
      | false => exact .inl ⟨c, rfl, rfl⟩
      | true => exact .inr ⟨(by intro c' h; cases h), rfl⟩
    | cons y k =>
      obtain ⟨c, d⟩ := x
      exact .inr ⟨(by intro c' h; cases h), by cases d <;> rfl⟩

theorem loosen_sorts {s s' : Op} (h : loosen s = loosen s') {k k' : List (Nat × Bool)} (hk : k = k') :
    loosen (.orderBy s k) = loosen (.orderBy s' k') := by
  subst hk
  rcases loosen_orderBy s k with ⟨c, hc, e⟩ | ⟨hn, e⟩
  · rcases loosen_orderBy s' k with ⟨c', hc', e'⟩ | ⟨hn', e'⟩
    · rw [e, e', h]
      rw [hc] at hc'
      injection hc' with hc'
      rw [(Prod.mk.inj hc').1]
    · exact absurd hc (hn' c)
  · rcases loosen_orderBy s' k with ⟨c', hc', e'⟩ | ⟨hn', e'⟩
    · exact absurd hc' (hn c')
    · rw [e, e', h]

theorem fullOf_loosen (a : Op) : fullOf (loosen a) = fullOf a := by
  cases a with
  | orderBy s k =>
    rcases loosen_orderBy s k with ⟨c, hc, e⟩ | ⟨hn, e⟩ <;> rw [e] <;> rfl
  | _ => rfl

theorem width_loosen (a : Op) : width (loosen a) = width a := by
  induction a with
  | join l lc r rc hl hr => dsimp only [loosen, width]; rw [hl, hr]
  | sort s c hs => exact hs
  | orderBy s k hs => rcases loosen_orderBy s k with ⟨c, hc, e⟩ | ⟨hn, e⟩ <;> rw [e] <;> exact hs
  | distinct s c hs => exact hs
  | filter s _ _ _ _ _ _ hs => exact hs
  | minus l r j hl hr => exact hl
  | optionalJoin l r o o' j hl hr => dsimp only [loosen, width]; rw [hl, hr]
  | multiColumnJoin l r j hl hr => dsimp only [loosen, width]; rw [hl, hr]
  | twoColumnJoin l r a b c d hl hr => dsimp only [loosen, width]; rw [hl, hr]
  | hasPredicateSub s c hs => dsimp only [loosen, width]; rw [hs]
  | transitivePathLeft s l c lc rc rv mn mx hs hl => dsimp only [loosen, width]; rw [hl]
  | _ => rfl

/-- Replacing the sort does not change the key. -/
theorem key_loosen (a : Op) : ∀ i, key i (loosen a) = key i a := by
  induction a with
  | join l lc r rc hl hr => intro i; dsimp only [loosen, key]; rw [hl, hr, width_loosen, width_loosen]
  | sort s c hs => intro i; dsimp only [loosen, key]; rw [hs, width_loosen]
  | orderBy s k hs =>
    intro i
    rcases loosen_orderBy s k with ⟨c, hc, e⟩ | ⟨hn, e⟩ <;> rw [e] <;> dsimp only [key] <;> rw [hs, width_loosen]
    rw [hc]
  | distinct s c hs => intro i; dsimp only [loosen, key]; rw [hs, width_loosen]
  | filter s _ _ _ _ _ _ hs => intro i; dsimp only [loosen, key]; rw [hs, width_loosen]
  | minus l r j hl hr => intro i; dsimp only [loosen, key]; rw [hl, hr, width_loosen, width_loosen]
  | union l r j hl hr => intro i; dsimp only [loosen, key]; rw [hl, hr, width_loosen, width_loosen]
  | optionalJoin l r o o' j hl hr => intro i; dsimp only [loosen, key]; rw [hl, hr, width_loosen, width_loosen]
  | multiColumnJoin l r j hl hr => intro i; dsimp only [loosen, key]; rw [hl, hr, width_loosen, width_loosen]
  | twoColumnJoin l r a b c d hl hr => intro i; dsimp only [loosen, key]; rw [hl, hr, width_loosen, width_loosen]
  | hasPredicateSub s c hs => intro i; dsimp only [loosen, key]; rw [hs, width_loosen]
  | groupBy s g a hs => intro i; dsimp only [loosen, key]; rw [hs, width_loosen]
  | transitivePath s lc rc lv rv mn mx hs => intro i; dsimp only [loosen, key]; rw [hs, width_loosen]
  | transitivePathLeft s l c lc rc rv mn mx hs hl => intro i; dsimp only [loosen, key]; rw [hs, hl, width_loosen, width_loosen]
  | _ => intro i; rfl

theorem loosen_of_strip : ∀ (a b : Op), Complete a → Complete b → strip a = strip b → loosen a = loosen b := by
  intro a
  induction a with
  | scan s =>
    intro b _ cb h
    cases b <;> first | (exact cb.elim) | (exact h) | (cases h)
  | join l lc r rc hl hr =>
    intro b ca cb h
    cases b with
    | join l' lc' r' rc' =>
      injection h with h1 h2 h3 h4
      dsimp only [loosen]
      rw [hl _ ca.1 cb.1 h1, hr _ ca.2 cb.2 h3, h2, h4]
    | _ => cases h
  | sort s c hs =>
    intro b ca cb h
    cases b with
    | sort s' c' =>
      injection h with h1 h2
      exact loosen_sorts (k := [(c, false)]) (k' := [(c', false)]) (hs s' ca cb h1) h2
    | orderBy s' k =>
      injection h with h1 h2
      exact loosen_sorts (k := [(c, false)]) (hs s' ca cb h1) h2
    | _ => cases h
  | orderBy s k hs =>
    intro b ca cb h
    cases b with
    | sort s' c' =>
      injection h with h1 h2
      exact loosen_sorts (k' := [(c', false)]) (hs s' ca cb h1) h2
    | orderBy s' k =>
      injection h with h1 h2
      exact loosen_sorts (hs s' ca cb h1) h2
    | _ => cases h
  | multiColumnJoin l r j hl hr =>
    intro b ca cb h
    cases b with
    | multiColumnJoin l' r' j' =>
      injection h with h1 h2 h3
      dsimp only [loosen]
      rw [hl _ ca.1 cb.1 h1, hr _ ca.2 cb.2 h2, h3]
    | _ => cases h
  | twoColumnJoin l r a b c d hl hr =>
    intro b ca cb h
    cases b with
    | twoColumnJoin l' r' _ _ _ _ =>
      injection h with h1 h2 h3 h4 h5 h6
      dsimp only [loosen]
      rw [hl _ ca.1 cb.1 h1, hr _ ca.2 cb.2 h2, h3, h4, h5, h6]
    | _ => cases h
  | transitivePath s lc rc lv rv mn mx hs =>
    intro b ca cb h
    cases b with
    | transitivePath s' _ _ _ _ _ _ =>
      injection h with h1 h2 h3 h4 h5 h6 h7
      dsimp only [loosen]
      rw [hs s' ca cb h1, h2, h3, h4, h5, h6, h7]
    | _ => cases h
  | hasPredicateFreeS o =>
    intro b _ cb h
    cases b <;> first | (exact cb.elim) | (exact h) | (cases h)
  | hasPredicateFreeO o =>
    intro b _ cb h
    cases b <;> first | (exact cb.elim) | (exact h) | (cases h)
  | hasPredicateFull =>
    intro b _ cb h
    cases b <;> first | (exact cb.elim) | (exact h) | (cases h)
  | _ => intro b ca; exact ca.elim

/-! ### Sorting -/

theorem sort_of_orderBy {c : Nat} {t : Table} {t' : Table} (h : Modifiers.OrderByOp [(c, false)] t (.ok t')) :
    Modifiers.SortOp c t (.ok t') := by
  unfold Modifiers.OrderByOp at h
  rw [if_neg (by simp)] at h
  cases h with
  | sorted _ hc hp hs =>
    have rd : ∀ x ∈ t, ∃ v, Outcome.read x c = .ok v := by
      intro x hx
      obtain ⟨b, hb⟩ := hc.1 x hx x hx
      unfold Modifiers.lessKeys at hb
      cases hr : Outcome.read x c with
      | ok v => exact ⟨v, rfl⟩
      | _ => rw [hr] at hb; cases hb
    have le : ∀ x y v w, Outcome.read x c = .ok v → Outcome.read y c = .ok w → Modifiers.lessColumn c x y = .ok (v < w) := by
      intro x y v w hv hw
      unfold Modifiers.lessColumn
      rw [hv, hw]; rfl
    refine .sorted t' ⟨?_, ?_, ?_, ?_⟩ hp ?_
    · intro x hx y hy
      obtain ⟨v, hv⟩ := rd x hx
      obtain ⟨w, hw⟩ := rd y hy
      exact ⟨_, le x y v w hv hw⟩
    · intro x hx
      obtain ⟨v, hv⟩ := rd x hx
      rw [le x x v v hv hv]; simp
    · intro x hx y hy z hz
      obtain ⟨u, hu⟩ := rd x hx
      obtain ⟨v, hv⟩ := rd y hy
      obtain ⟨w, hw⟩ := rd z hz
      rw [le x y _ _ hu hv, le y z _ _ hv hw, le x z _ _ hu hw]
      simp only [Outcome.ok.injEq, decide_eq_true_eq]
      omega
    · intro x hx y hy z hz
      obtain ⟨u, hu⟩ := rd x hx
      obtain ⟨v, hv⟩ := rd y hy
      obtain ⟨w, hw⟩ := rd z hz
      rw [le x y _ _ hu hv, le y x _ _ hv hu, le y z _ _ hv hw, le z y _ _ hw hv, le x z _ _ hu hw, le z x _ _ hw hu]
      simp only [Outcome.ok.injEq, decide_eq_false_iff_not]
      omega
    · apply List.Pairwise.imp_of_mem _ hs
      intro x y hx hy h
      obtain ⟨v, hv⟩ := rd x (hp.mem_iff.mp hx)
      obtain ⟨w, hw⟩ := rd y (hp.mem_iff.mp hy)
      rw [le y x _ _ hw hv]
      unfold Modifiers.lessKeys at h
      rw [hv, hw] at h
      simp only [Outcome.bind] at h
      by_cases hlt : w < v
      · rw [if_pos hlt] at h
        cases h
      · simp [hlt]

/-- Results are results of the operation with the sorts replaced. -/
theorem computes_loosen (env : Env) : ∀ (a : Op), Complete a → ∀ t, Computes env a (.ok t) → Computes env (loosen a) (.ok t) := by
  have bind_ok : ∀ {x : Outcome Table} {f : Table → Outcome Table} {t}, Outcome.ok t = x.bind f → ∃ y, x = .ok y ∧ .ok t = f y := by
    intro x f t h
    cases x with
    | ok y => exact ⟨y, rfl, h⟩
    | _ => cases h
  intro a
  induction a with
  | scan s => intro _ t h; exact h
  | join l lc r rc hl hr =>
    intro ca t h
    rw [computes_join] at h
    show Computes env (.join (loosen l) lc (loosen r) rc) _
    rw [computes_join, fullOf_loosen, fullOf_loosen]
    cases fl : fullOf l with
    | some ord =>
      rw [fl] at h
      obtain ⟨x, hx, e⟩ := h
      obtain ⟨y, rfl, e⟩ := bind_ok e
      exact ⟨_, hr ca.2 _ hx, e⟩
    | none =>
      cases fr : fullOf r with
      | some ord =>
        rw [fl, fr] at h
        obtain ⟨x, hx, e⟩ := h
        obtain ⟨y, rfl, e⟩ := bind_ok e
        exact ⟨_, hl ca.1 _ hx, e⟩
      | none =>
        rw [fl, fr] at h
        obtain ⟨x0, y0, hx, hy, e⟩ := h
        obtain ⟨x, rfl, e⟩ := bind_ok (x := x0) e
        obtain ⟨y, rfl, e⟩ := bind_ok (x := y0) e
        exact ⟨_, _, hl ca.1 _ hx, hr ca.2 _ hy, e⟩
  | sort s c hs =>
    intro ca t h
    obtain ⟨x, hx, e⟩ := h
    cases x with
    | ok x => exact ⟨_, hs ca _ hx, e⟩
    | _ => cases e
  | orderBy s k hs =>
    intro ca t h
    obtain ⟨x, hx, e⟩ := h
    cases x with
    | ok x =>
      rcases loosen_orderBy s k with ⟨c, hc, e'⟩ | ⟨hn, e'⟩ <;> rw [e']
      · subst hc
        exact ⟨_, hs ca _ hx, sort_of_orderBy e⟩
      · exact ⟨_, hs ca _ hx, e⟩
    | _ => cases e
  | multiColumnJoin l r j hl hr =>
    intro ca t h
    obtain ⟨x0, y0, hx, hy, e⟩ := h
    obtain ⟨x, rfl, e⟩ := bind_ok (x := x0) e
    obtain ⟨y, rfl, e⟩ := bind_ok (x := y0) e
    exact ⟨_, _, hl ca.1 _ hx, hr ca.2 _ hy, by rw [width_loosen, width_loosen]; exact e⟩
  | twoColumnJoin l r a b c d hl hr =>
    intro ca t h
    obtain ⟨x0, y0, hx, hy, e⟩ := h
    obtain ⟨x, rfl, e⟩ := bind_ok (x := x0) e
    obtain ⟨y, rfl, e⟩ := bind_ok (x := y0) e
    exact ⟨_, _, hl ca.1 _ hx, hr ca.2 _ hy, by rw [width_loosen, width_loosen]; exact e⟩
  | transitivePath s lc rc lv rv mn mx hs =>
    intro ca t h
    obtain ⟨x, hx, e⟩ := h
    obtain ⟨x, rfl, e⟩ := bind_ok e
    exact ⟨_, hs ca _ hx, e⟩
  | hasPredicateFreeS o => intro _ t h; exact h
  | hasPredicateFreeO o => intro _ t h; exact h
  | hasPredicateFull => intro _ t h; exact h
  | _ => intro ca; exact ca.elim

end Verif.CacheKey
