import Verif.Lemmas.TurtleFirm
import Verif.Lemmas.TurtleParse
/-
A function of the parser gives the same result when the text is continued, provided that there is something behind the
text that it has read.
-/
namespace Verif.Turtle
open Verif.RdfEscaping

/-- The same state with a longer text. -/
def State.add (s : State) (r : Str) : State := { s with input := s.input ++ r }

def Res.add : Res α → Str → Res α
  | .ok a s, r => .ok a (s.add r)
  | .error s, r => .error (s.add r)
  | .abort, _ => .abort
  | .ub, _ => .ub
  | .diverge, _ => .diverge

/-- The result is the same with a longer text. -/
def Same (r : Str) (f : P) (s : State) : Prop := f (s.add r) = (f s).add r

theorem add_bind {r : Str} {x : Res α} {f g : α → State → Res β}
    (h : ∀ a s, x = .ok a s → g a (s.add r) = (f a s).add r) : (x.add r).bind g = (x.bind f).add r := by
  cases x with
  | ok a s => exact h a s rfl
  | error s => rfl
  | abort => rfl
  | ub => rfl
  | diverge => rfl

theorem Same.bind {r : Str} {f : P} {s : State} {g : Bool → State → Res Bool} (hf : Same r f s)
    (hg : ∀ b s1, f s = .ok b s1 → g b (s1.add r) = (g b s1).add r) :
    Same r (fun s => (f s).bind g) s := by
  show (f (s.add r)).bind g = ((f s).bind g).add r
  rw [hf]
  exact add_bind hg

theorem Same.por {r : Str} {f g : P} {s : State} (hf : Same r f s) (hg : ∀ s1, f s = .ok false s1 → Same r g s1) :
    Same r (por f g) s := by
  refine hf.bind fun b s1 h => ?_
  cases b with
  | true => rfl
  | false => exact hg s1 h

theorem Same.pand {r : Str} {f g : P} {s : State} (hf : Same r f s) (hg : ∀ s1, f s = .ok true s1 → Same r g s1) :
    Same r (pand f g) s := by
  refine hf.bind fun b s1 h => ?_
  cases b with
  | false => rfl
  | true => exact hg s1 h

theorem Same.check {r : Str} {f : P} {s : State} (hf : Same r f s) : Same r (check f) s := by
  refine hf.bind fun b s1 h => ?_
  cases b <;> rfl

/-! ### White space -/

/-- Nothing but a comment whose line is not complete. -/
def Stuck (x : Str) : Prop := ∃ u, skipWC x = '#' :: u ∧ '\n' ∉ u

/-- There is a `d` behind white space and a comment. -/
def Live (d : Char) (x : Str) : Prop := d ∈ skipWC x ∧ ¬ Stuck x

/-- There is something of interest behind white space and a comment. -/
def Alive (x : Str) : Prop := ∃ d ∈ marks, Live d x

theorem dropWhile_add {p : Char → Bool} {x : Str} (r : Str) (h : x.dropWhile p ≠ []) : (x ++ r).dropWhile p = x.dropWhile p ++ r := by
  induction x with
  | nil => simp at h
  | cons c x ih =>
    by_cases hc : p c = true
    · rw [List.dropWhile_cons_of_pos hc] at h ⊢
      rw [List.cons_append, List.dropWhile_cons_of_pos hc]
      exact ih h
    · rw [List.dropWhile_cons_of_neg hc, List.cons_append, List.dropWhile_cons_of_neg hc]


theorem skipComments_suffix (x : Str) : skipComments x <:+ x := by
  unfold skipComments
  split
  · split
    · exact (List.drop_suffix _ _).trans (List.dropWhile_suffix _)
    · exact List.suffix_refl _
  · exact List.suffix_refl _

theorem skipWC_suffix (x : Str) : skipWC x <:+ x :=
  (List.dropWhile_suffix _).trans ((skipComments_suffix _).trans (List.dropWhile_suffix _))

theorem skipWC_hash {u : Str} (h : '\n' ∉ u) : skipWC ('#' :: u) = '#' :: u := by
  have h1 : skipWhitespace ('#' :: u) = '#' :: u := by
    simp only [skipWhitespace]; rw [List.dropWhile_cons_of_neg (by decide)]
  have h2 : skipComments ('#' :: u) = '#' :: u := by
    simp only [skipComments]
    rw [if_neg]
    simp [h]
  simp only [skipWC, h1, h2]

theorem stuck_skip {x : Str} (h : Stuck x) : Stuck (skipWC x) := by
  obtain ⟨u, hu, hn⟩ := h
  exact ⟨u, by rw [hu, skipWC_hash hn], hn⟩

theorem skipWC_cons {c : Char} (x : Str) (h1 : isWs c = false) (h2 : c ≠ '#') : skipWC (c :: x) = c :: x :=
  skipWC_bare (by intro d hd; simp at hd; subst hd; exact ⟨h1, h2⟩)

theorem Live.of_head {d c : Char} {x y : Str} (h : skipWC x = c :: y) (hc : c ≠ '#') (hd : d ∈ c :: y) : Live d x := by
  refine ⟨by rw [h]; exact hd, ?_⟩
  rintro ⟨u, hu, _⟩
  rw [h] at hu
  simp at hu
  exact hc hu.1

theorem Live.skip {d : Char} {x : Str} (r : Str) (h : Live d x) : skipWC (x ++ r) = skipWC x ++ r := by
  obtain ⟨h1, h2⟩ := h
  have hne : skipWC x ≠ [] := fun h => by rw [h] at h1; simp at h1
  have hne' : skipComments (skipWhitespace x) ≠ [] := by
    intro h; apply hne; simp only [skipWC, h]; rfl
  have hne'' : x.dropWhile isWs ≠ [] := by
    intro h; apply hne'; simp only [skipWhitespace, h, skipComments]
  have e1 : skipWhitespace (x ++ r) = skipWhitespace x ++ r := dropWhile_add r hne''
  have e2 : skipComments (skipWhitespace x ++ r) = skipComments (skipWhitespace x) ++ r := by
    cases hx : skipWhitespace x with
    | nil => exact absurd hx hne''
    | cons c u =>
      by_cases hc : c = '#'
      · subst hc
        by_cases hn : '\n' ∈ '#' :: u
        · simp only [skipComments, List.cons_append]
          rw [if_pos hn, if_pos (by
            rw [← List.cons_append]; exact List.mem_append_left _ hn), ← List.cons_append]
          have : ('#' :: u).dropWhile (fun x => decide (x ≠ '\n')) ≠ [] := by
            intro h
            have key : ∀ l : Str, l.dropWhile (fun x => decide (x ≠ '\n')) = [] → '\n' ∉ l := by
              intro l
              induction l with
              | nil => simp
              | cons a l ih =>
                intro hl
                by_cases ha : a = '\n'
                · rw [List.dropWhile_cons_of_neg (by simp [ha])] at hl; simp at hl
                · rw [List.dropWhile_cons_of_pos (by simp [ha])] at hl
                  simp [Ne.symm ha, ih hl]
            exact key _ h hn
          rw [dropWhile_add r this]
          cases hd : ('#' :: u).dropWhile (fun x => decide (x ≠ '\n')) with
          | nil => exact absurd hd this
          | cons a as => rfl
        · exfalso
          apply h2
          refine ⟨u, ?_, fun h => hn (by simp [h])⟩
          have h2 : skipComments ('#' :: u) = '#' :: u := by simp only [skipComments]; rw [if_neg hn]
          simp only [skipWC, hx, h2]
          simp only [skipWhitespace]; rw [List.dropWhile_cons_of_neg (by decide)]
      · have : ∀ v, skipComments (c :: v) = c :: v := by
          intro v
          unfold skipComments
          split
          · rename_i heq; simp at heq; exact absurd heq.1 hc
          · rfl
        rw [List.cons_append, this, this, List.cons_append]
  show skipWhitespace (skipComments (skipWhitespace (x ++ r))) = _
  rw [e1, e2]
  exact dropWhile_add r hne

theorem Alive.skip {x : Str} (r : Str) (h : Alive x) : skipWC (x ++ r) = skipWC x ++ r := by
  obtain ⟨d, _, h⟩ := h
  exact h.skip r

theorem Alive.mem {x : Str} (h : Alive x) : ∃ d ∈ marks, d ∈ skipWC x := by
  obtain ⟨d, h1, h2, _⟩ := h
  exact ⟨d, h1, h2⟩

theorem Alive.ne {x : Str} (h : Alive x) : x ≠ [] := by
  rintro rfl
  obtain ⟨d, _, h, _⟩ := h
  simp [skipWC, skipWhitespace, skipComments] at h

/-! ### What comes next -/

/-- Behind white space and comments there is a character satisfying `p`. -/
inductive Ahead (p : Char → Prop) : Str → Prop
  | here {c x} : p c → Ahead p (c :: x)
  | skip {x} : Ahead p (skipWC x) → Ahead p x

theorem Ahead.mono {p q : Char → Prop} {x : Str} (h : Ahead p x) (hpq : ∀ c, p c → q c) : Ahead q x := by
  induction h with
  | here hc => exact .here (hpq _ hc)
  | skip _ ih => exact .skip ih

theorem Ahead.head {p : Char → Prop} {c : Char} {x : Str} (h : Ahead p (c :: x)) (h1 : isWs c = false) (h2 : c ≠ '#') : p c := by
  generalize hy : c :: x = y at h
  induction h with
  | here hc => simp at hy; rw [hy.1]; exact hc
  | skip _ ih =>
    subst hy
    exact ih (by rw [skipWC_cons x h1 h2])

/-! ### Functions in general -/

/-- The function reads the text from left to right. -/
structure Back (f : P) : Prop where
  ok : ∀ s b s', f s = .ok b s' → s'.input <:+ s.input ∧ ∀ d, Live d s'.input → Live d s.input
  abort : ∀ s, f s = .abort → Alive s.input

theorem Back.suffix {f : P} (h : Back f) {s : State} {b : Bool} {s' : State} (hf : f s = .ok b s') : s'.input <:+ s.input :=
  (h.ok s b s' hf).1
theorem Back.alive {f : P} (h : Back f) {s : State} {b : Bool} {s' : State} (hf : f s = .ok b s') (ha : Alive s'.input) :
    Alive s.input := by
  obtain ⟨d, hd, ha⟩ := ha
  exact ⟨d, hd, (h.ok s b s' hf).2 d ha⟩

theorem bind_ok {x : Res α} {f : α → State → Res β} {b : β} {s' : State} (h : x.bind f = .ok b s') :
    ∃ a s1, x = .ok a s1 ∧ f a s1 = .ok b s' := by
  cases x with
  | ok a s => exact ⟨a, s, rfl, h⟩
  | error s => simp [Res.bind] at h
  | abort => simp [Res.bind] at h
  | ub => simp [Res.bind] at h
  | diverge => simp [Res.bind] at h

theorem bind_abort {x : Res α} {f : α → State → Res β} (h : x.bind f = .abort) :
    x = .abort ∨ ∃ a s1, x = .ok a s1 ∧ f a s1 = .abort := by
  cases x with
  | ok a s => exact .inr ⟨a, s, rfl, h⟩
  | error s => simp [Res.bind] at h
  | abort => exact .inl rfl
  | ub => simp [Res.bind] at h
  | diverge => simp [Res.bind] at h

/-- A function followed by others. -/
theorem Back.bind {f : P} {g : Bool → State → Res Bool} (hf : Back f) (hg : ∀ b, Back (g b)) : Back fun s => (f s).bind g := by
  refine ⟨?_, ?_⟩
  · intro s b s' h
    obtain ⟨a, s1, h1, h2⟩ := bind_ok h
    have a1 := hf.ok _ _ _ h1
    have a2 := (hg a).ok _ _ _ h2
    exact ⟨a2.1.trans a1.1, fun d hd => a1.2 d (a2.2 d hd)⟩
  · intro s h
    rcases bind_abort h with h | ⟨a, s1, h1, h2⟩
    · exact hf.abort s h
    · exact hf.alive h1 ((hg a).abort s1 h2)

/-- The text is not looked at. -/
theorem back_const {f : P} (h : ∀ s, (∃ b s', f s = .ok b s' ∧ s'.input = s.input) ∨ ∃ s', f s = .error s') : Back f := by
  refine ⟨?_, ?_⟩
  · intro s b s' hs
    rcases h s with ⟨b1, s1, h1, h2⟩ | ⟨s1, h1⟩
    · rw [h1] at hs
      simp at hs
      obtain ⟨rfl, rfl⟩ := hs
      rw [h2]
      exact ⟨List.suffix_refl _, fun d h => h⟩
    · rw [h1] at hs; simp at hs
  · intro s hs
    rcases h s with ⟨b1, s1, h1, h2⟩ | ⟨s1, h1⟩
    · rw [h1] at hs; simp at hs
    · rw [h1] at hs; simp at hs

theorem back_ok (g : State → State) (b : Bool) (h : ∀ s, (g s).input = s.input) : Back fun s => .ok b (g s) :=
  back_const fun s => .inl ⟨b, g s, rfl, h s⟩

theorem back_error : Back fun s => .error s := back_const fun s => .inr ⟨s, rfl⟩

theorem back_ite {b : Bool} {f g : P} (hf : Back f) (hg : Back g) : Back fun s => if b then f s else g s := by
  cases b
  · exact hg
  · exact hf

theorem Back.por {f g : P} (hf : Back f) (hg : Back g) : Back (por f g) :=
  hf.bind fun _ => back_ite (back_ok (fun s => s) true fun _ => rfl) hg
theorem Back.pand {f g : P} (hf : Back f) (hg : Back g) : Back (pand f g) :=
  hf.bind fun _ => back_ite hg (back_ok (fun s => s) false fun _ => rfl)
theorem Back.check {f : P} (hf : Back f) : Back (check f) :=
  hf.bind fun _ => back_ite (back_ok (fun s => s) true fun _ => rfl) back_error
/-- The state is changed after success. -/
theorem Back.set {f : P} (hf : Back f) (g : State → State) (hg : ∀ s, (g s).input = s.input) :
    Back fun s => (f s).bind fun b s => if b then .ok true (g s) else .ok false s :=
  hf.bind fun _ => back_ite (back_ok g true hg) (back_ok (fun s => s) false fun _ => rfl)

theorem Back.set' {f : P} (hf : Back f) (g : State → State) (hg : ∀ s, (g s).input = s.input) : Back fun s => f (g s) := by
  refine ⟨?_, ?_⟩
  · intro s b s' h
    have := hf.ok _ _ _ h
    rwa [hg] at this
  · intro s h
    have := hf.abort _ h
    rwa [hg] at this

/-- The result says that there is something behind the text that has been read, and the condition `q` holds. -/
def Fine (q : Bool → Str → Prop) : Res Bool → Prop
  | .ok b s => Alive s.input ∧ q b s.input
  | .abort => True
  | _ => False

/-- In the text `t`, which is followed by `r`: whenever the result is fine, it is the same with the longer text. -/
def Sure (t r : Str) (q : Bool → Str → Prop) (f : P) : Prop := ∀ s, s.input <:+ t → Fine q (f s) → Same r f s

/-- no condition -/
def any : Bool → Str → Prop := fun _ _ => True
/-- If the function does not succeed, a character satisfying `p` comes next. -/
def missing (p : Char → Prop) : Bool → Str → Prop := fun b x => b = false → Ahead p x

theorem Fine.back {q : Bool → Str → Prop} {f : P} (hb : Back f) {s : State} (h : Fine q (f s)) : Alive s.input := by
  cases hf : f s with
  | ok b s' => rw [hf] at h; exact hb.alive hf h.1
  | error s' => rw [hf] at h; exact h.elim
  | abort => exact hb.abort s hf
  | ub => rw [hf] at h; exact h.elim
  | diverge => rw [hf] at h; exact h.elim

theorem Fine.mono {q q' : Bool → Str → Prop} {x : Res Bool} (h : Fine q x) (hq : ∀ b y, q b y → q' b y) : Fine q' x := by
  cases x with
  | ok b s => exact ⟨h.1, hq _ _ h.2⟩
  | abort => trivial
  | error s => exact h.elim
  | ub => exact h.elim
  | diverge => exact h.elim

variable {t r : Str}

theorem Sure.mono {q q' : Bool → Str → Prop} {f : P} (h : Sure t r q f) (hq : ∀ b y, q' b y → q b y) : Sure t r q' f :=
  fun s hs hf => h s hs (hf.mono hq)

/-- `f` and then, depending on the result, something else. -/
theorem Sure.bind {q1 q : Bool → Str → Prop} {f : P} {g : Bool → State → Res Bool} (hf : Sure t r q1 f) (bf : Back f)
    (hg : ∀ b, Sure t r q (g b)) (bg : ∀ b, Back (g b)) (h : ∀ b s, Fine q (g b s) → q1 b s.input) :
    Sure t r q fun s => (f s).bind g := by
  intro s hs hfine
  have hfine : Fine q ((f s).bind g) := hfine
  have key : ∀ b s1, f s = .ok b s1 → Fine q (g b s1) := by
    intro b s1 h1
    rw [h1] at hfine
    exact hfine
  refine (hf s hs ?_).bind fun b s1 h1 => hg b s1 ((bf.suffix h1).trans hs) (key b s1 h1)
  cases hfs : f s with
  | ok b s1 => exact ⟨(key b s1 hfs).back (bg b), h b s1 (key b s1 hfs)⟩
  | error s1 => rw [hfs] at hfine; exact hfine.elim
  | abort => trivial
  | ub => rw [hfs] at hfine; exact hfine.elim
  | diverge => rw [hfs] at hfine; exact hfine.elim

theorem sure_const {q : Bool → Str → Prop} {f : P} (h : ∀ s, Same r f s) : Sure t r q f := fun s _ _ => h s

theorem Sure.ite {q : Bool → Str → Prop} {b : Bool} {f g : P} (hf : Sure t r q f) (hg : Sure t r q g) :
    Sure t r q fun s => if b then f s else g s := by
  cases b
  · exact hg
  · exact hf

theorem Sure.por {q1 q : Bool → Str → Prop} {f g : P} (hf : Sure t r q1 f) (bf : Back f) (hg : Sure t r q g) (bg : Back g)
    (h1 : ∀ x, q true x → q1 true x) (h2 : ∀ s, Fine q (g s) → q1 false s.input) : Sure t r q (por f g) := by
  refine Sure.bind hf bf (fun b => ?_) (fun b => ?_) ?_
  · exact Sure.ite (sure_const fun s => rfl) hg
  · exact back_ite (back_ok (fun s => s) true fun _ => rfl) bg
  · intro b s h
    cases b with
    | true => exact h1 _ h.2
    | false => exact h2 s h

theorem Sure.pand {q1 q : Bool → Str → Prop} {f g : P} (hf : Sure t r q1 f) (bf : Back f) (hg : Sure t r q g) (bg : Back g)
    (h1 : ∀ x, q false x → q1 false x) (h2 : ∀ s, Fine q (g s) → q1 true s.input) : Sure t r q (pand f g) := by
  refine Sure.bind hf bf (fun b => ?_) (fun b => ?_) ?_
  · exact Sure.ite hg (sure_const fun s => rfl)
  · exact back_ite bg (back_ok (fun s => s) false fun _ => rfl)
  · intro b s h
    cases b with
    | false => exact h1 _ h.2
    | true => exact h2 s h

theorem Sure.check {q1 q : Bool → Str → Prop} {f : P} (hf : Sure t r q1 f) (bf : Back f) (h1 : ∀ x, q true x → q1 true x) :
    Sure t r q (check f) := by
  refine Sure.bind hf bf (fun b => ?_) (fun b => ?_) ?_
  · exact Sure.ite (sure_const fun s => rfl) (sure_const fun s => rfl)
  · exact back_ite (back_ok (fun s => s) true fun _ => rfl) back_error
  · intro b s h
    cases b with
    | true => exact h1 _ h.2
    | false => exact h.elim

theorem Sure.set {q : Bool → Str → Prop} {f : P} (hf : Sure t r q f) (bf : Back f) (g : State → State)
    (hg : ∀ s, (g s).input = s.input) (hadd : ∀ s, g (s.add r) = (g s).add r) :
    Sure t r q fun s => (f s).bind fun b s => if b then .ok true (g s) else .ok false s := by
  refine Sure.bind hf bf (fun b => ?_) (fun b => ?_) ?_
  · refine Sure.ite (sure_const fun s => ?_) (sure_const fun s => rfl)
    show Res.ok true (g (s.add r)) = Res.ok true ((g s).add r)
    rw [hadd]
  · exact back_ite (back_ok g true hg) (back_ok (fun s => s) false fun _ => rfl)
  · intro b s h
    cases b with
    | true =>
      have h : Alive (g s).input ∧ q true (g s).input := h
      rw [hg] at h
      exact h.2
    | false => exact h.2

/-- A failing function only skips white space and comments. -/
def Skips (f : P) : Prop := ∀ s s', f s = .ok false s' → ∀ p, Ahead p s'.input → Ahead p s.input
/-- If the function succeeds (or throws), the text starts with a character satisfying `p`. -/
def Starts (p : Char → Prop) (f : P) : Prop := ∀ s, (∃ s', f s = .ok true s') ∨ f s = .abort → Ahead p s.input

theorem Starts.mono {p q : Char → Prop} {f : P} (h : Starts p f) (hpq : ∀ c, p c → q c) : Starts q f :=
  fun s hs => (h s hs).mono hpq

/-- What comes next before a function. -/
theorem next {p p' q : Char → Prop} {f : P} (hk : Skips f) (hs : Starts p' f) (h1 : ∀ c, p' c → p c) (h2 : ∀ c, q c → p c)
    (s : State) (h : Fine (missing q) (f s)) : Ahead p s.input := by
  cases hf : f s with
  | ok b s' =>
    rw [hf] at h
    cases b with
    | true => exact (hs s (.inl ⟨s', hf⟩)).mono h1
    | false => exact (hk s s' hf q (h.2 rfl)).mono h2
  | error s' => rw [hf] at h; exact h.elim
  | abort => exact (hs s (.inr hf)).mono h1
  | ub => rw [hf] at h; exact h.elim
  | diverge => rw [hf] at h; exact h.elim

theorem Skips.por {f g : P} (hf : Skips f) (hg : Skips g) : Skips (por f g) := by
  intro s s' h p hp
  obtain ⟨b, s1, h1, h2⟩ := bind_ok h
  cases b with
  | true => simp at h2
  | false => exact hf s s1 h1 p (hg s1 s' h2 p hp)

theorem Starts.por {p : Char → Prop} {f g : P} (kf : Skips f) (hf : Starts p f) (hg : Starts p g) : Starts p (por f g) := by
  intro s h
  rcases h with ⟨s', h⟩ | h
  · obtain ⟨b, s1, h1, h2⟩ := bind_ok h
    cases b with
    | true => exact hf s (.inl ⟨s1, h1⟩)
    | false => exact kf s s1 h1 p (hg s1 (.inl ⟨s', h2⟩))
  · rcases bind_abort h with h | ⟨b, s1, h1, h2⟩
    · exact hf s (.inr h)
    · cases b with
      | true => simp at h2
      | false => exact kf s s1 h1 p (hg s1 (.inr h2))

theorem Skips.set {f : P} (hf : Skips f) (g : State → State) :
    Skips fun s => (f s).bind fun b s => if b then .ok true (g s) else .ok false s := by
  intro s s' h p hp
  obtain ⟨b, s1, h1, h2⟩ := bind_ok h
  cases b with
  | true => simp at h2
  | false =>
    simp at h2
    subst h2
    exact hf s s1 h1 p hp

theorem Starts.set {p : Char → Prop} {f : P} (hf : Starts p f) (g : State → State) :
    Starts p fun s => (f s).bind fun b s => if b then .ok true (g s) else .ok false s := by
  intro s h
  rcases h with ⟨s', h⟩ | h
  · obtain ⟨b, s1, h1, h2⟩ := bind_ok h
    cases b with
    | true => exact hf s (.inl ⟨s1, h1⟩)
    | false => simp at h2
  · rcases bind_abort h with h | ⟨b, s1, h1, h2⟩
    · exact hf s (.inr h)
    · cases b <;> simp at h2

/-! ### Tokens -/

theorem consume_can {id : TokId} {x w y : Str} (h : consume (regex id) x = some (w, y)) :
    ∃ c u, x = c :: u ∧ (regex id).can c = true := by
  have hn : (regex id).nullable = false := by cases id <;> rfl
  cases x with
  | nil => rw [consume_none (run_nil hn)] at h; simp at h
  | cons c u =>
    refine ⟨c, u, rfl, ?_⟩
    cases hc : (regex id).can c with
    | true => rfl
    | false => rw [consume_none (run_can hn hc)] at h; simp at h

theorem can_ws (id : TokId) {c : Char} (h : (regex id).can c = true) : isWs c = false ∧ c ≠ '#' := by
  have key : ∀ c ∈ [' ', '\t', '\r', '\n', '#'], (regex id).can c = false := by cases id <;> decide
  refine ⟨?_, ?_⟩
  · rw [Bool.eq_false_iff]
    intro hw
    have := ws_ind (P := fun c => (regex id).can c = false) (fun c hc => key c (by simp at hc ⊢; rcases hc with h | h | h | h <;> simp [h])) hw
    rw [this] at h; simp at h
  · rintro rfl
    rw [key '#' (by simp)] at h; simp at h

theorem live_hit {id : TokId} {d : Char} {x w y : Str} (h : consume (regex id) (skipWC x) = some (w, y)) (hd : Live d y) : Live d x := by
  obtain ⟨c, u, hx, hc⟩ := consume_can h
  have := (mem_consume h).2
  refine Live.of_head hx (can_ws id hc).2 ?_
  rw [← hx, this]
  exact List.mem_append_right _ ((skipWC_suffix y).subset hd.1)

theorem live_miss {d : Char} {x : Str} (h : Live d (skipWC x)) : Live d x :=
  ⟨(skipWC_suffix _).subset h.1, fun hs => h.2 (stuck_skip hs)⟩

/-- Functions that look for a token. -/
structure IsTok (id : TokId) (f : P) (g : Str → State → State) : Prop where
  hit : ∀ s w y, consume (regex id) (skipWC s.input) = some (w, y) → f s = .ok true (g w { s with input := y })
  miss : ∀ s, consume (regex id) (skipWC s.input) = none → f s = .ok false { s with input := skipWC s.input }
  input : ∀ w s, (g w s).input = s.input
  add : ∀ w s, g w (s.add r) = (g w s).add r

theorem tok_skip (id : TokId) : IsTok (r := r) id (skip id) fun _ s => s :=
  ⟨fun s w y h => by simp only [skip, h], fun s h => by simp only [skip, h], fun _ _ => rfl, fun _ _ => rfl⟩
theorem tok_term (id : TokId) : IsTok (r := r) id (parseTerminal id) fun w s => { s with last := w } :=
  ⟨fun s w y h => by simp only [parseTerminal, parseTerminalWs, if_true, h], fun s h => by simp only [parseTerminal, parseTerminalWs, if_true, h],
    fun _ _ => rfl, fun _ _ => rfl⟩
theorem tok_a : IsTok (r := r) .a predicateSpecialA fun _ s => { s with activePredicate := rdfType } :=
  ⟨fun s w y h => by simp only [predicateSpecialA, h], fun s h => by simp only [predicateSpecialA, h],
    fun _ _ => rfl, fun _ _ => rfl⟩

theorem IsTok.cases {id : TokId} {f : P} {g : Str → State → State} (h : IsTok (r := r) id f g) (s : State) :
    (∃ w y, consume (regex id) (skipWC s.input) = some (w, y) ∧ f s = .ok true (g w { s with input := y })) ∨
      (consume (regex id) (skipWC s.input) = none ∧ f s = .ok false { s with input := skipWC s.input }) := by
  cases hc : consume (regex id) (skipWC s.input) with
  | none => exact .inr ⟨rfl, h.miss s hc⟩
  | some x => exact .inl ⟨x.1, x.2, rfl, h.hit s x.1 x.2 hc⟩

theorem IsTok.back {id : TokId} {f : P} {g : Str → State → State} (h : IsTok (r := r) id f g) : Back f := by
  refine ⟨?_, ?_⟩
  · intro s b s' hs
    rcases h.cases s with ⟨w, y, h1, h2⟩ | ⟨h1, h2⟩
    · rw [h2] at hs
      simp at hs
      obtain ⟨_, rfl⟩ := hs
      rw [h.input]
      obtain ⟨hm, _⟩ := mem_consume h1
      exact ⟨(run_suffix _ _ _ hm).trans (skipWC_suffix _), fun d hd => live_hit h1 hd⟩
    · rw [h2] at hs
      simp at hs
      obtain ⟨_, rfl⟩ := hs
      exact ⟨skipWC_suffix _, fun d hd => live_miss hd⟩
  · intro s hs
    rcases h.cases s with ⟨w, y, h1, h2⟩ | ⟨h1, h2⟩ <;> (rw [h2] at hs; simp at hs)

theorem IsTok.same {id : TokId} {f : P} {g : Str → State → State} (h : IsTok (r := r) id f g) {s : State} (ha : Alive s.input)
    (hf : Firm (regex id) (skipWC s.input) r) : Same r f s := by
  have hk : skipWC (s.add r).input = skipWC s.input ++ r := ha.skip r
  rcases h.cases s with ⟨w, y, h1, h2⟩ | ⟨h1, h2⟩
  · have : consume (regex id) (skipWC (s.add r).input) = some (w, y ++ r) := by
      rw [hk, hf, h1]; rfl
    rw [Same, h2, h.hit _ _ _ this]
    show Res.ok true (g w (State.add { s with input := y } r)) = _
    rw [h.add]
    rfl
  · have : consume (regex id) (skipWC (s.add r).input) = none := by
      rw [hk, hf, h1]; rfl
    rw [Same, h2, h.miss _ this, hk]
    rfl

theorem IsTok.skips {id : TokId} {f : P} {g : Str → State → State} (h : IsTok (r := r) id f g) : Skips f := by
  intro s s' hs p hp
  rcases h.cases s with ⟨w, y, h1, h2⟩ | ⟨h1, h2⟩
  · rw [h2] at hs; simp at hs
  · rw [h2] at hs
    simp at hs
    subst hs
    exact .skip hp

theorem IsTok.starts {id : TokId} {f : P} {g : Str → State → State} (h : IsTok (r := r) id f g) :
    Starts (fun c => (regex id).can c = true) f := by
  intro s hs
  rcases h.cases s with ⟨w, y, h1, h2⟩ | ⟨h1, h2⟩
  · obtain ⟨c, u, hx, hc⟩ := consume_can h1
    refine .skip ?_
    rw [hx]
    exact .here hc
  · rw [h2] at hs; simp at hs

/-- Tokens without one of the characters of interest. -/
def Plain (id : TokId) : Prop := ∀ d ∈ marks, (regex id).accepts d = false

theorem IsTok.plain {id : TokId} {f : P} {g : Str → State → State} (h : IsTok (r := r) id f g) (hp : Plain id) {q : Bool → Str → Prop} :
    Sure t r q f := by
  intro s _ hf
  have ha := hf.back h.back
  obtain ⟨d, hd, hm⟩ := ha.mem
  exact h.same ha (firm_stop r (hp d hd) hm)

theorem IsTok.dot {f : P} {g : Str → State → State} (h : IsTok (r := r) .dot f g) {s : State} (ha : Alive s.input) : Same r f s := by
  apply h.same ha
  apply firm_peek
  obtain ⟨d, _, hm⟩ := ha.mem
  cases hx : skipWC s.input with
  | nil => rw [hx] at hm; simp at hm
  | cons c u => rfl

/-- Tokens that may contain one of these characters: if found, then regardless of the continuation; otherwise something
else must come next. -/
theorem IsTok.odd {id : TokId} {f : P} {g : Str → State → State} (h : IsTok (r := r) id f g) {p : Char → Prop}
    (hhit : ∀ x w y, consume (regex id) x = some (w, y) → (regex id).peek x = false) (hp : ∀ c, p c → (regex id).can c = false) :
    Sure t r (Turtle.missing p) f := by
  intro s _ hf
  have ha := hf.back h.back
  apply h.same ha
  apply firm_peek
  rcases h.cases s with ⟨w, y, h1, h2⟩ | ⟨h1, h2⟩
  · exact hhit _ _ _ h1
  · rw [h2] at hf
    obtain ⟨d, _, hm⟩ := ha.mem
    have := hf.2 rfl
    simp only at this
    cases hx : skipWC s.input with
    | nil => rw [hx] at hm; simp at hm
    | cons c u =>
      apply peek_can
      cases hc : (regex id).can c with
      | false => rfl
      | true =>
        rw [hx] at this
        have := hp c (this.head (can_ws id hc).1 (can_ws id hc).2)
        rw [hc] at this; exact this

/-- Labels. -/
theorem IsTok.label (hcut : CleanCut t r) {f : P} {g : Str → State → State} (h : IsTok (r := r) .blankNodeLabel f g) : Sure t r any f := by
  intro s hs hf
  have ha := hf.back h.back
  rcases h.cases s with ⟨w, y, h1, h2⟩ | ⟨h1, h2⟩
  · rw [h2] at hf
    obtain ⟨d, hd, hm⟩ := hf.1.mem
    rw [h.input] at hm
    have hm : d ∈ y := (skipWC_suffix _).subset hm
    refine h.same ha (firm_label ((skipWC_suffix _).trans hs) hcut hd ?_ ?_)
    · rw [(mem_consume h1).2]; exact List.mem_append_right _ hm
    · intro w' y' h'
      rw [h1] at h'; simp at h'
      rw [← h'.2]; exact hm
  · obtain ⟨d, hd, hm⟩ := ha.mem
    refine h.same ha (firm_label ((skipWC_suffix _).trans hs) hcut hd hm ?_)
    intro w' y' h'
    rw [h1] at h'; simp at h'

end Verif.Turtle
