import Verif.Lemmas.TurtlePeek
/-
Which tokens stay the same when the text is continued.
-/
namespace Verif.Turtle

/-- The token found in `x` is also found when `x` is followed by `r`. -/
def Firm (e : Re) (x r : Str) : Prop := consume e (x ++ r) = (consume e x).map (more r)

theorem firm_peek {e : Re} {x : Str} (r : Str) (h : e.peek x = false) : Firm e x r := consume_peek r h
theorem firm_stop {e : Re} {c : Char} {x : Str} (r : Str) (hx : e.accepts c = false) (hc : c ∈ x) : Firm e x r :=
  consume_stop r hx hc

/-! ### A character that no class contains is like the end of the text -/

theorem many_cut {f : Str → List Str} {r : Str} (hf : ∀ s, f (s ++ r) = (f s).map (· ++ r)) :
    ∀ (n m : Nat) (s : Str), s.length ≤ n → (s ++ r).length ≤ m → many f m (s ++ r) = (many f n s).map (· ++ r) := by
  intro n m s hn hm
  refine run_peek_many (pk := fun _ => false) r (fun s _ => hf s) n m s hn hm ?_
  clear hm
  induction n generalizing s with
  | zero => rfl
  | succ n ih =>
    simp only [peekMany, Bool.false_or]
    rw [List.any_eq_false]
    intro t ht
    have := (List.mem_filter.mp ht).2
    rw [ih t (by simp at this; omega)]
    simp

theorem run_cut {c : Char} (r : Str) : ∀ (x : Re), x.accepts c = false → ∀ s, x.run (s ++ c :: r) = (x.run s).map (· ++ c :: r)
  | .cls p, hx, s => by
    simp only [Re.accepts] at hx
    cases s with
    | nil => simp [Re.run, hx]
    | cons d s => simp only [Re.run, List.cons_append]; split <;> simp
  | .eps, _, s => by simp [Re.run]
  | .seq a b, hx, s => by
    simp only [Re.accepts, Bool.or_eq_false_iff] at hx
    simp only [Re.run, run_cut r a hx.1 s]
    generalize a.run s = l
    induction l with
    | nil => rfl
    | cons y ys ih => simp only [List.map_cons, List.flatMap_cons, List.map_append, run_cut r b hx.2 y, ih]
  | .alt a b, hx, s => by
    simp only [Re.accepts, Bool.or_eq_false_iff] at hx
    simp only [Re.run, run_cut r a hx.1 s, run_cut r b hx.2 s, List.map_append]
  | .star a, hx, s => by
    simp only [Re.run]
    exact many_cut (fun s => run_cut r a hx s) _ _ s (Nat.le_refl _) (Nat.le_refl _)

theorem firm_cut {e : Re} {c : Char} (x r : Str) (h : e.accepts c = false) : Firm e x (c :: r) := by
  simp only [Firm, consume, run_cut r e h x]
  cases hr : e.run x with
  | nil => rfl
  | cons t ts =>
    have : t.length ≤ x.length := (run_suffix e x t (by simp [hr])).length_le
    simp only [List.map_cons, List.head?_cons, Option.map_some, more, Option.some.injEq, Prod.mk.injEq, and_true]
    rw [List.take_append_of_le_length (by simp only [List.length_append, List.length_cons]; omega)]
    congr 1
    simp only [List.length_append, List.length_cons]; omega

/-- If no match starts with the first character, nothing is looked at behind it. -/
theorem peek_can {c : Char} (s : Str) : ∀ (x : Re), x.can c = false → x.peek (c :: s) = false
  | .cls p, _ => rfl
  | .eps, _ => rfl
  | .seq a b, h => by
    simp only [Re.can, Bool.or_eq_false_iff, Bool.and_eq_false_iff] at h
    simp only [Re.peek, Bool.or_eq_false_iff]
    refine ⟨peek_can s a h.1, ?_⟩
    rw [List.any_eq_false]
    intro t ht
    obtain ⟨rfl, hn⟩ := run_can_aux c s a h.1 t ht
    rcases h.2 with h2 | h2
    · rw [hn] at h2; simp at h2
    · rw [peek_can s b h2]; simp
  | .alt a b, h => by
    simp only [Re.can, Bool.or_eq_false_iff] at h
    simp only [Re.peek, Bool.or_eq_false_iff]
    exact ⟨peek_can s a h.1, peek_can s b h.2⟩
  | .star a, h => by
    simp only [Re.can] at h
    simp only [Re.peek, List.length_cons, peekMany, Bool.or_eq_false_iff]
    refine ⟨peek_can s a h, ?_⟩
    have : ((a.run (c :: s)).filter fun t => decide (t.length < s.length + 1)) = [] := by
      rw [List.filter_eq_nil_iff]
      intro u hu
      rw [(run_can_aux c s a h u hu).1]
      simp
    rw [this]
    rfl

/-! ### Local names and labels -/

/-- Characters behind which there is something to be found. -/
def marks : Str := ['.', '<', '"', '\'']

/-- The text ends with a dot, perhaps followed by the beginning of a percent code or an escape sequence. -/
def BadEnd (s : Str) : Prop := ∃ v p, s = v ++ '.' :: p ∧ (p = [] ∨ p = ['%'] ∨ (∃ h, p = ['%', h]) ∨ p = ['\\'])

theorem BadEnd.suffix {x s : Str} (h : BadEnd x) (hs : x <:+ s) : BadEnd s := by
  obtain ⟨v, p, rfl, hp⟩ := h
  obtain ⟨u, rfl⟩ := hs
  exact ⟨u ++ v, p, by simp, hp⟩

/-- The text can be continued by `r` without changing a name at its end. -/
def CleanCut (t r : Str) : Prop := ¬ BadEnd t ∨ ∃ c u, r = c :: u ∧ isWs c = true

/-- dots followed by something -/
def dotted (y : Re) : Re := .seq (.star (.chr '.')) y

theorem star_dot (s : Str) : (Re.star (.chr '.')).run ('.' :: s) = (Re.star (.chr '.')).run s ++ ['.' :: s] := by
  simp [Re.run, Re.chr, many]

theorem star_dot_peek (s : Str) : (Re.star (.chr '.')).peek ('.' :: s) = (Re.star (.chr '.')).peek s := by
  simp [Re.run, Re.peek, Re.chr, peekMany]

theorem star_nodot {c : Char} (s : Str) (h : c ≠ '.') : (Re.star (.chr '.')).run (c :: s) = [c :: s] := by
  simp [Re.run, Re.chr, many, h]

theorem star_nodot_peek {c : Char} (s : Str) (h : c ≠ '.') : (Re.star (.chr '.')).peek (c :: s) = false := by
  simp [Re.run, Re.peek, Re.chr, peekMany, h]

theorem dotted_dot {y : Re} (s : Str) (hn : y.nullable = false) (hy : y.can '.' = false) :
    (dotted y).run ('.' :: s) = (dotted y).run s ∧ (dotted y).peek ('.' :: s) = (dotted y).peek s := by
  constructor
  · show ((Re.star (.chr '.')).run ('.' :: s)).flatMap y.run = ((Re.star (.chr '.')).run s).flatMap y.run
    rw [star_dot, List.flatMap_append]
    simp [run_can hn hy]
  · show ((Re.star (.chr '.')).peek ('.' :: s) || ((Re.star (.chr '.')).run ('.' :: s)).any y.peek) =
      ((Re.star (.chr '.')).peek s || ((Re.star (.chr '.')).run s).any y.peek)
    rw [star_dot, star_dot_peek, List.any_append]
    simp [peek_can s y hy]

theorem dotted_nodot {y : Re} {c : Char} (s : Str) (hc : c ≠ '.') :
    (dotted y).run (c :: s) = y.run (c :: s) ∧ (dotted y).peek (c :: s) = y.peek (c :: s) := by
  constructor
  · show ((Re.star (.chr '.')).run (c :: s)).flatMap y.run = _
    rw [star_nodot s hc]
    simp
  · show ((Re.star (.chr '.')).peek (c :: s) || ((Re.star (.chr '.')).run (c :: s)).any y.peek) = _
    rw [star_nodot s hc, star_nodot_peek s hc]
    simp

/-- What a part of a name is: at most one match, and the beginning of a part contains no dot. -/
structure NamePart (y : Re) : Prop where
  nullable : y.nullable = false
  dot : y.can '.' = false
  one : ∀ s, y.run s = [] ∨ ∃ u, y.run s = [u]
  peek : ∀ s, y.peek s = true → (∀ d ∈ marks, d ∉ s) ∧ ∀ v, BadEnd (v ++ '.' :: s)

theorem dotted_one {y : Re} (h : NamePart y) : ∀ s, (dotted y).run s = [] ∨ ∃ u, (dotted y).run s = [u]
  | [] => by
    left
    show ((Re.star (.chr '.')).run []).flatMap y.run = []
    simp [Re.run, many, run_nil h.nullable]
  | c :: s => by
    by_cases hc : c = '.'
    · subst hc
      rw [(dotted_dot s h.nullable h.dot).1]
      exact dotted_one h s
    · rw [(dotted_nodot s hc).1]
      exact h.one _

theorem dotted_peek {y : Re} (h : NamePart y) {d : Char} (hm : d ∈ marks) : ∀ s, (dotted y).peek s = true → d ∈ s → BadEnd s
  | [], _, hd => by simp at hd
  | c :: s, hp, hd => by
    by_cases hc : c = '.'
    · subst hc
      rw [(dotted_dot s h.nullable h.dot).2] at hp
      by_cases hs : d ∈ s
      · exact (dotted_peek h hm s hp hs).suffix (List.suffix_cons _ _)
      · have hdd : d = '.' := by simpa [hs] using hd
        subst hdd
        cases s with
        | nil => exact ⟨[], [], rfl, .inl rfl⟩
        | cons d s =>
          rw [(dotted_nodot s (by rintro rfl; simp at hs)).2] at hp
          exact (h.peek _ hp).2 []
    · rw [(dotted_nodot s hc).2] at hp
      exact absurd hd ((h.peek _ hp).1 _ hm)

theorem dotted_nullable {y : Re} (h : NamePart y) : (dotted y).nullable = false := by
  simp [dotted, Re.nullable, h.nullable]

/-- The repetition of such parts does not look behind the end, if a dot remains. -/
theorem many_firm {y : Re} (h : NamePart y) {d : Char} (hm : d ∈ marks) : ∀ (n : Nat) (s x : Str), s.length ≤ n →
    (many (dotted y).run n s).head? = some x → d ∈ x → ¬ BadEnd s → peekMany (dotted y).peek (dotted y).run n s = false := by
  intro n
  induction n with
  | zero =>
    intro s x hn hx hd hb
    simp only [many, List.head?_cons, Option.some.injEq] at hx
    subst hx
    have : s = [] := List.eq_nil_of_length_eq_zero (by omega)
    subst this
    simp at hd
  | succ n ih =>
    intro s x hn hx hd hb
    simp only [peekMany, Bool.or_eq_false_iff]
    have hxs : x <:+ s := run_many_suffix (run_suffix (dotted y)) (n + 1) s x (List.mem_of_mem_head? hx)
    refine ⟨?_, ?_⟩
    · rw [Bool.eq_false_iff]
      intro hp
      exact hb (dotted_peek h hm s hp (hxs.subset hd))
    · rcases dotted_one h s with hr | ⟨u, hr⟩
      · simp [hr]
      · have hu := run_length (dotted y) s u (by simp [hr])
        have hlt := hu.2 (dotted_nullable h)
        rw [hr]
        simp only [List.filter_cons_of_pos (p := fun t : Str => decide (t.length < s.length)) (a := u) (by simpa using hlt),
          List.filter_nil, List.any_cons, List.any_nil, Bool.or_false]
        refine ih u x (by omega) ?_ hd ?_
        · simp only [many, hr] at hx
          rw [List.filter_cons_of_pos (p := fun t : Str => decide (t.length < s.length)) (a := u) (by simpa using hlt)] at hx
          simp only [List.filter_nil, List.flatMap_cons, List.flatMap_nil, List.append_nil] at hx
          have hne := many_ne_nil (dotted y).run n u
          cases hu : many (dotted y).run n u with
          | nil => exact absurd hu hne
          | cons a as => rw [hu] at hx; simpa using hx
        · intro hbu
          exact hb (hbu.suffix (run_suffix (dotted y) s u (by simp [hr])))

theorem part_cls {p : Char → Bool} (h : p '.' = false) : NamePart (.cls p) := by
  refine ⟨rfl, h, ?_, ?_⟩
  · intro s
    cases s with
    | nil => exact .inl rfl
    | cons c s =>
      simp only [Re.run]
      split
      · exact .inr ⟨_, rfl⟩
      · exact .inl rfl
  · intro s hs
    simp only [Re.peek, List.isEmpty_iff] at hs
    subst hs
    exact ⟨by simp, fun v => ⟨v, [], rfl, .inl rfl⟩⟩

theorem hex_mark {c : Char} (h : isHex c = true) : c ∉ marks := by
  intro hc
  have : ∀ c ∈ marks, isHex c = false := by decide
  rw [this c hc] at h; simp at h

theorem plx_one (s : Str) : plx.run s = [] ∨ ∃ u, plx.run s = [u] := by
  match s with
  | [] => exact .inl rfl
  | [c] =>
    by_cases h1 : c = '%'
    · subst h1; exact .inl rfl
    · by_cases h2 : c = '\\'
      · subst h2; exact .inl rfl
      · left; simp [plx, Re.run, Re.chr, h1, h2]
  | c :: d :: s =>
    by_cases h1 : c = '%'
    · subst h1
      cases hd : isHex d with
      | false => left; simp [plx, Re.run, Re.chr, Re.times, hd]
      | true =>
        cases s with
        | nil => left; simp [plx, Re.run, Re.chr, Re.times, hd]
        | cons b s =>
          cases hb : isHex b with
          | false => left; simp [plx, Re.run, Re.chr, Re.times, hd, hb]
          | true => right; exact ⟨s, by simp [plx, Re.run, Re.chr, Re.times, hd, hb]⟩
    · by_cases h2 : c = '\\'
      · subst h2
        cases hd : isLocalEsc d with
        | false => left; simp [plx, Re.run, Re.chr, Re.times, hd]
        | true => right; exact ⟨s, by simp [plx, Re.run, Re.chr, Re.times, hd]⟩
      · left; simp [plx, Re.run, Re.chr, Re.times, h1, h2]

theorem plx_peek (s : Str) (h : plx.peek s = true) : s = [] ∨ s = ['%'] ∨ (∃ c, s = ['%', c] ∧ c ∉ marks) ∨ s = ['\\'] := by
  match s with
  | [] => exact .inl rfl
  | [c] =>
    by_cases h1 : c = '%'
    · subst h1; simp
    · by_cases h2 : c = '\\'
      · subst h2; simp
      · simp [plx, Re.peek, Re.run, Re.chr, h1, h2] at h
  | c :: d :: s =>
    by_cases h1 : c = '%'
    · subst h1
      cases hd : isHex d with
      | false => simp [plx, Re.peek, Re.run, Re.chr, Re.times, hd] at h
      | true =>
        cases s with
        | nil => exact .inr (.inr (.inl ⟨d, rfl, hex_mark hd⟩))
        | cons b s =>
          cases hb : isHex b <;> simp [plx, Re.peek, Re.run, Re.chr, Re.times, hd, hb] at h
    · by_cases h2 : c = '\\'
      · subst h2; simp [plx, Re.peek, Re.run, Re.chr] at h
      · simp [plx, Re.peek, Re.run, Re.chr, h1, h2] at h

theorem part_plx {p : Char → Bool} (h : p '.' = false) (h1 : p '%' = false) (h2 : p '\\' = false) : NamePart (.alt (.cls p) plx) := by
  refine ⟨rfl, ?_, ?_, ?_⟩
  · show (p '.' || plx.can '.') = false
    rw [h]; decide
  · intro s
    show (Re.cls p).run s ++ plx.run s = [] ∨ ∃ u, (Re.cls p).run s ++ plx.run s = [u]
    cases s with
    | nil => exact .inl rfl
    | cons c s =>
      cases hp : p c with
      | false => simpa [Re.run, hp] using plx_one (c :: s)
      | true =>
        right
        have : plx.run (c :: s) = [] := by
          have hc1 : c ≠ '%' := by rintro rfl; rw [h1] at hp; simp at hp
          have hc2 : c ≠ '\\' := by rintro rfl; rw [h2] at hp; simp at hp
          simp [plx, Re.run, Re.chr, hc1, hc2]
        exact ⟨s, by simp [Re.run, hp, this]⟩
  · intro s hs
    have hs : (s.isEmpty || plx.peek s) = true := hs
    have : s = [] ∨ s = ['%'] ∨ (∃ c, s = ['%', c] ∧ c ∉ marks) ∨ s = ['\\'] := by
      rcases Bool.or_eq_true_iff.mp hs with hs | hs
      · left; simpa using hs
      · exact plx_peek s hs
    rcases this with rfl | rfl | ⟨c, rfl, hc⟩ | rfl
    · exact ⟨by simp, fun v => ⟨v, _, rfl, .inl rfl⟩⟩
    · exact ⟨by decide, fun v => ⟨v, _, rfl, .inr (.inl rfl)⟩⟩
    · refine ⟨?_, fun v => ⟨v, _, rfl, .inr (.inr (.inl ⟨c, rfl⟩))⟩⟩
      intro d hd hds
      simp only [List.mem_cons, List.not_mem_nil, or_false] at hds
      rcases hds with rfl | rfl
      · revert hd; decide
      · exact hc hd
    · exact ⟨by decide, fun v => ⟨v, _, rfl, .inr (.inr (.inr rfl))⟩⟩

/-- A first part and then further parts. -/
theorem name_peek {a y : Re} (ha : NamePart a) (hy : NamePart y) {d : Char} (hm : d ∈ marks) {s : Str} (hd : d ∈ s)
    (h : ∀ x, ((Re.seq a (.star (dotted y))).run s).head? = some x → d ∈ x ∧ ¬ BadEnd s) :
    (Re.seq a (.star (dotted y))).peek s = false := by
  simp only [Re.peek, Bool.or_eq_false_iff]
  refine ⟨?_, ?_⟩
  · rw [Bool.eq_false_iff]
    intro hp
    exact (ha.peek s hp).1 d hm hd
  · rcases ha.one s with hr | ⟨u, hr⟩
    · simp [hr]
    · simp only [hr, List.any_cons, List.any_nil, Bool.or_false]
      have hrun : (Re.seq a (.star (dotted y))).run s = many (dotted y).run u.length u := by simp [Re.run, hr]
      have hne := many_ne_nil (dotted y).run u.length u
      cases hu : many (dotted y).run u.length u with
      | nil => exact absurd hu hne
      | cons x xs =>
        obtain ⟨h1, h2⟩ := h x (by rw [hrun, hu]; rfl)
        exact many_firm hy hm u.length u x (Nat.le_refl _) (by rw [hu]; rfl) h1
          fun hb => h2 (hb.suffix (run_suffix a s u (by simp [hr])))

theorem ws_ind {P : Char → Prop} (h : ∀ c ∈ [' ', '\t', '\r', '\n'], P c) {c : Char} (hc : isWs c = true) : P c := by
  apply h
  simp only [isWs, Bool.or_eq_true, beq_iff_eq] at hc
  simp only [List.mem_cons, List.not_mem_nil, or_false]
  rcases hc with ((h | h) | h) | h <;> simp [h]

theorem firm_local {x t r : Str} (hx : x <:+ t) (hc : CleanCut t r) {d : Char} (hm : d ∈ marks) (hd : d ∈ x)
    (h : ∀ w y, consume (regex .pnLocal) x = some (w, y) → d ∈ y) : Firm (regex .pnLocal) x r := by
  rcases hc with hb | ⟨c, u, rfl, hc⟩
  · apply firm_peek
    refine name_peek (part_plx (by decide) (by decide) (by decide)) (part_plx (by decide) (by decide) (by decide)) hm hd ?_
    intro y hy
    refine ⟨h (x.take (x.length - y.length)) y ?_, fun hbx => hb (hbx.suffix hx)⟩
    have hy : ((regex .pnLocal).run x).head? = some y := hy
    simp [consume, hy]
  · exact firm_cut x u (ws_ind (P := fun c => (regex .pnLocal).accepts c = false) (by decide) hc)

theorem firm_label {x t r : Str} (hx : x <:+ t) (hc : CleanCut t r) {d : Char} (hm : d ∈ marks) (hd : d ∈ x)
    (h : ∀ w y, consume (regex .blankNodeLabel) x = some (w, y) → d ∈ y) : Firm (regex .blankNodeLabel) x r := by
  rcases hc with hb | ⟨c, u, rfl, hc⟩
  · apply firm_peek
    have hl : (Re.lit ['_', ':']).peek x = false := peek_stop _
      ((by decide : ∀ d ∈ marks, (Re.lit ['_', ':']).accepts d = false) d hm) x hd
    show ((Re.lit ['_', ':']).peek x || ((Re.lit ['_', ':']).run x).any (Re.peek _)) = false
    rw [hl, Bool.false_or, run_lit]
    split
    · rename_i hp
      simp only [List.any_cons, List.any_nil, Bool.or_false]
      have hd' : d ∈ x.drop 2 := by
        obtain ⟨v, rfl⟩ := List.isPrefixOf_iff_prefix.mp hp
        simp only [List.cons_append, List.nil_append, List.mem_cons] at hd
        rcases hd with rfl | rfl | hd
        · exact absurd hm (by decide)
        · exact absurd hm (by decide)
        · simpa using hd
      refine name_peek (part_cls (by decide)) (part_cls (by decide)) hm hd' ?_
      intro y hy
      refine ⟨h (x.take (x.length - y.length)) y ?_, fun hbx => hb ((hbx.suffix (List.drop_suffix _ _)).suffix hx)⟩
      have : ((regex .blankNodeLabel).run x).head? = some y := by
        show (((Re.lit ['_', ':']).run x).flatMap (Re.run _)).head? = some y
        rw [run_lit, if_pos hp, List.flatMap_singleton]
        exact hy
      simp [consume, this]
    · rfl
  · exact firm_cut x u (ws_ind (P := fun c => (regex .blankNodeLabel).accepts c = false) (by decide) hc)

/-! ### Numbers -/

/-- a sign or a digit -/
def isNum (c : Char) : Bool := isSign c || isDigit c

theorem run_within {p : Char → Bool} : ∀ (a : Re), (∀ c, a.accepts c = true → p c = true) → ∀ s u, u ∈ a.run s →
    ∃ w, s = w ++ u ∧ ∀ c ∈ w, p c = true
  | .cls q, h, s, u, hu => by
    cases s with
    | nil => simp [Re.run] at hu
    | cons c s =>
      simp only [Re.run] at hu
      split at hu
      · simp at hu; subst hu
        exact ⟨[c], rfl, by simpa using h c (by assumption)⟩
      · simp at hu
  | .eps, _, s, u, hu => by simp [Re.run] at hu; exact ⟨[], by simp [hu], by simp⟩
  | .seq a b, h, s, u, hu => by
    simp only [Re.run, List.mem_flatMap] at hu
    obtain ⟨v, hv, hu⟩ := hu
    obtain ⟨w1, rfl, h1⟩ := run_within a (fun c hc => h c (by simp [Re.accepts, hc])) s v hv
    obtain ⟨w2, rfl, h2⟩ := run_within b (fun c hc => h c (by simp [Re.accepts, hc])) v u hu
    exact ⟨w1 ++ w2, by simp, by
      intro c hc
      rcases List.mem_append.mp hc with hc | hc
      · exact h1 c hc
      · exact h2 c hc⟩
  | .alt a b, h, s, u, hu => by
    simp only [Re.run, List.mem_append] at hu
    rcases hu with hu | hu
    · exact run_within a (fun c hc => h c (by simp [Re.accepts, hc])) s u hu
    · exact run_within b (fun c hc => h c (by simp [Re.accepts, hc])) s u hu
  | .star a, h, s, u, hu => by
    simp only [Re.run] at hu
    have key : ∀ (n : Nat) (s u : Str), u ∈ many a.run n s → ∃ w, s = w ++ u ∧ ∀ c ∈ w, p c = true := by
      intro n
      induction n with
      | zero => intro s u hu; simp [many] at hu; exact ⟨[], by simp [hu], by simp⟩
      | succ n ih =>
        intro s u hu
        simp only [many, List.mem_append, List.mem_flatMap, List.mem_filter, List.mem_singleton] at hu
        rcases hu with ⟨v, ⟨hv, _⟩, hu⟩ | rfl
        · obtain ⟨w1, rfl, h1⟩ := run_within a h s v hv
          obtain ⟨w2, rfl, h2⟩ := ih v u hu
          exact ⟨w1 ++ w2, by simp, by
            intro c hc
            rcases List.mem_append.mp hc with hc | hc
            · exact h1 c hc
            · exact h2 c hc⟩
        · exact ⟨[], rfl, by simp⟩
    exact key _ s u hu

/-- A number before a dot, and after it something that looks behind the end of the text. -/
theorem number_peek {a b : Re} (ha : ∀ c, a.accepts c = true → isNum c = true) (hb : b.accepts '.' = false) {s : Str}
    (hd : '.' ∈ s) (hp : (Re.seq a (.seq (.chr '.') b)).peek s = true) :
    ∃ v u, s = v ++ '.' :: u ∧ '.' ∉ u ∧ ∀ c ∈ v, isNum c = true := by
  have had : a.accepts '.' = false := by
    rw [Bool.eq_false_iff]; intro h
    exact absurd (ha _ h) (by decide)
  simp only [Re.peek, Bool.or_eq_true, List.any_eq_true] at hp
  rcases hp with hp | ⟨y, hy, hp⟩
  · rw [peek_stop a had s hd] at hp; simp at hp
  · obtain ⟨v, rfl, hv⟩ := run_within a ha s y hy
    have hdy := mem_run a had _ y hd hy
    cases y with
    | nil => simp at hdy
    | cons c y =>
      rcases hp with hp | ⟨z, hz, hp⟩
      · simp [Re.chr, Re.peek] at hp
      · simp only [Re.chr, Re.run] at hz
        split at hz
        · rename_i hc
          simp at hc hz
          subst hc; subst hz
          refine ⟨v, z, rfl, ?_, hv⟩
          intro hz
          rw [peek_stop b hb z hz] at hp; simp at hp
        · simp at hz

theorem num_sign (c : Char) (h : (Re.opt (.cls isSign)).accepts c = true) : isNum c = true := by
  simp only [Re.opt, Re.accepts, Bool.or_false] at h
  simp [isNum, h]

theorem num_digits (c : Char) (h : (Re.star (.cls isDigit)).accepts c = true) : isNum c = true := by
  simp only [Re.accepts] at h
  simp [isNum, h]

theorem num_plus (c : Char) (h : (Re.plus (.cls isDigit)).accepts c = true) : isNum c = true := by
  simp only [Re.plus, Re.accepts, Bool.or_self] at h
  simp [isNum, h]

/-- The beginning of a number up to the dot, without a dot behind it. -/
def Cut (s : Str) : Prop := ∃ v u, s = v ++ '.' :: u ∧ '.' ∉ u ∧ ∀ c ∈ v, isNum c = true

theorem Cut.sign {s y : Str} (hy : y ∈ (Re.opt (.cls isSign)).run s) (h : Cut y) : Cut s := by
  obtain ⟨w, rfl, hw⟩ := run_within _ num_sign s y hy
  obtain ⟨v, u, rfl, hu, hv⟩ := h
  refine ⟨w ++ v, u, by simp, hu, ?_⟩
  intro c hc
  rcases List.mem_append.mp hc with hc | hc
  · exact hw c hc
  · exact hv c hc

theorem decimal_peek {s : Str} (hd : '.' ∈ s) (hp : (regex .decimal).peek s = true) : Cut s := by
  simp only [regex] at hp
  rw [Re.peek, Bool.or_eq_true, List.any_eq_true] at hp
  rcases hp with hp | ⟨y, hy, hp⟩
  · rw [peek_stop _ (by decide) s hd] at hp; simp at hp
  · have hdy := mem_run _ (by decide) s y hd hy
    exact Cut.sign hy (number_peek num_digits (by decide) hdy hp)

theorem double_peek {s : Str} (hd : '.' ∈ s) (hp : (regex .double).peek s = true) : Cut s := by
  simp only [regex] at hp
  rw [Re.peek, Bool.or_eq_true, List.any_eq_true] at hp
  rcases hp with hp | ⟨y, hy, hp⟩
  · rw [peek_stop _ (by decide) s hd] at hp; simp at hp
  · have hdy := mem_run _ (by decide) s y hd hy
    rw [Re.peek, Bool.or_eq_true] at hp
    rcases hp with hp | hp
    · exact Cut.sign hy (number_peek num_plus (by decide) hdy hp)
    · rw [peek_stop _ (by decide) y hdy] at hp; simp at hp

/-- Some character of every match satisfies `p`. -/
def Re.has (p : Char → Bool) : Re → Prop
  | .cls q => ∀ c, q c = true → p c = true
  | .eps => False
  | .seq a b => a.has p ∨ b.has p
  | .alt a b => a.has p ∧ b.has p
  | .star _ => False

theorem run_has {p : Char → Bool} : ∀ (a : Re), a.has p → ∀ s u, u ∈ a.run s → ∃ w, s = w ++ u ∧ ∃ c ∈ w, p c = true
  | .cls q, h, s, u, hu => by
    cases s with
    | nil => simp [Re.run] at hu
    | cons c s =>
      simp only [Re.run] at hu
      split at hu
      · simp at hu; subst hu
        exact ⟨[c], rfl, c, by simp, h c (by assumption)⟩
      · simp at hu
  | .seq a b, h, s, u, hu => by
    simp only [Re.run, List.mem_flatMap] at hu
    obtain ⟨v, hv, hu⟩ := hu
    rcases h with h | h
    · obtain ⟨w1, rfl, c, hc, hp⟩ := run_has a h s v hv
      obtain ⟨w2, rfl⟩ := run_suffix b v u hu
      exact ⟨w1 ++ w2, by simp, c, by simp [hc], hp⟩
    · obtain ⟨w2, rfl, c, hc, hp⟩ := run_has b h v u hu
      obtain ⟨w1, rfl⟩ := run_suffix a s _ hv
      exact ⟨w1 ++ w2, by simp, c, by simp [hc], hp⟩
  | .alt a b, h, s, u, hu => by
    simp only [Re.run, List.mem_append] at hu
    rcases hu with hu | hu
    · exact run_has a h.1 s u hu
    · exact run_has b h.2 s u hu

/-- A match of a number with a dot behind it is not a match of such a beginning. -/
theorem no_cut {e : Re} (he : e.has fun c => !isNum c) {s w y : Str} (h : consume e s = some (w, y)) (hd : '.' ∈ y) : ¬ Cut s := by
  rintro ⟨v, u, rfl, hu, hv⟩
  obtain ⟨hm, hs⟩ := mem_consume h
  obtain ⟨w', hw', c, hc, hp⟩ := run_has e he _ _ hm
  have : w = w' := List.append_cancel_right (hs.symm.trans hw')
  subst this
  rcases List.append_eq_append_iff.mp hs with ⟨z, h1, h2⟩ | ⟨z, h1, h2⟩
  · -- the match goes beyond the dot
    cases z with
    | nil =>
      have hcv : c ∈ v := by simpa [h1] using hc
      rw [hv c hcv] at hp; simp at hp
    | cons d z =>
      simp only [List.cons_append, List.cons.injEq] at h2
      exact hu (by rw [h2.2]; simp [hd])
  · have hcv : c ∈ v := by rw [h1]; simp [hc]
    rw [hv c hcv] at hp; simp at hp

theorem has_decimal : (regex .decimal).has fun c => !isNum c := by
  refine .inr (.inr (.inl ?_))
  intro c hc
  simp at hc; subst hc; decide

theorem has_exponent : exponent.has fun c => !isNum c := by
  refine .inl ?_
  intro c hc
  simp at hc
  rcases hc with rfl | rfl <;> decide

theorem has_double : (regex .double).has fun c => !isNum c := by
  refine .inr ⟨.inr (.inl ?_), has_exponent⟩
  intro c hc
  simp at hc; subst hc; decide

theorem cut_head {s : Str} (h : Cut s) : ∃ c x, s = c :: x ∧ (isNum c = true ∨ c = '.') := by
  obtain ⟨v, u, rfl, _, hv⟩ := h
  cases v with
  | nil => exact ⟨'.', u, rfl, .inr rfl⟩
  | cons c v => exact ⟨c, v ++ '.' :: u, rfl, .inl (hv c (by simp))⟩

end Verif.Turtle
