import Verif.Lemmas.TurtleRegex
/-
Every token is recognised exactly when it is followed by something that cannot belong to it.
-/
namespace Verif.Turtle
open Verif.TurtleSpec

/-- Characters that end a word. -/
def ender (c : Char) : Bool := [' ', '\t', '\r', '\n', '#', ',', ';', ']'].contains c

theorem ends_cases {r : Str} (h : Ends r) :
    r = [] ∨ (∃ c t, r = c :: t ∧ ender c = true) ∨ r = ['.'] ∨ ∃ c t, r = '.' :: c :: t ∧ ender c = true := by
  cases r with
  | nil => exact .inl rfl
  | cons c r =>
    by_cases hc : c = '.'
    · subst hc
      right; right
      cases r with
      | nil => exact .inl rfl
      | cons d r =>
        right
        refine ⟨d, r, rfl, ?_⟩
        simp only [Ends, blank] at h
        simp [ender] at h ⊢
        rcases h with (h | h | h | h) | h <;> simp [h]
    · right; left
      refine ⟨c, r, rfl, ?_⟩
      unfold Ends at h
      split at h
      · rename_i heq; cases heq
      · rename_i heq; simp at heq; exact absurd heq.1 hc
      · rename_i heq
        simp at heq
        obtain ⟨rfl, rfl⟩ := heq
        simp [ender, blank] at h ⊢
        rcases h with (h | h | h | h) | h | h | h | h <;> simp [h]

theorem ender_ind {P : Char → Prop} (h : ∀ c ∈ [' ', '\t', '\r', '\n', '#', ',', ';', ']'], P c) {c : Char}
    (hc : ender c = true) : P c := h c (by simpa [ender] using hc)

/-- The character after a word is not of a class that contains no ender and no dot. -/
theorem ends_head {r : Str} (h : Ends r) (p : Char → Bool)
    (hp : ∀ c ∈ ['.', ' ', '\t', '\r', '\n', '#', ',', ';', ']'], p c = false) : ∀ c, r.head? = some c → p c = false := by
  intro c hc
  rcases ends_cases h with rfl | ⟨d, t, rfl, hd⟩ | rfl | ⟨d, t, rfl, hd⟩
  · simp at hc
  · simp at hc; subst hc
    exact ender_ind (P := fun c => p c = false) (fun c hc => hp c (by simp only [List.mem_cons] at hc ⊢; exact .inr hc)) hd
  · simp at hc; subst hc; exact hp '.' (by simp)
  · simp at hc; subst hc; exact hp '.' (by simp)

theorem run_cls_false {p : Char → Bool} {c : Char} (s : Str) (h : p c = false) : (Re.cls p).run (c :: s) = [] := by
  simp [Re.run, h]

/-! ### Numbers and language tags -/

theorem digit_sign {c : Char} (h : isDigit c = true) : isSign c = false := by
  simp only [isDigit, between, Bool.and_eq_true, decide_eq_true_eq] at h
  simp only [isSign, Bool.or_eq_false_iff, beq_eq_false_iff_ne, ne_eq]
  constructor <;> (rintro rfl; revert h; decide)

theorem consume_integer {t r : Str} (ht : Integer t) (hr : Ends r) : consume (regex .integer) (t ++ r) = some (t, r) := by
  apply consume_first
  obtain ⟨sign, digits, hs, hne, hd, rfl⟩ := ht
  have hd' : ∀ c ∈ digits, isDigit c = true := fun c hc => by rw [← digit_eq]; exact hd c hc
  have hplus := first_plus_cls (t := r) hne hd' (ends_head hr isDigit (by decide))
  rw [List.append_assoc]
  simp only [List.mem_cons, List.not_mem_nil, or_false] at hs
  rcases hs with rfl | rfl | rfl
  · refine first_seq (t := digits ++ r) ?_ hplus
    cases digits with
    | nil => exact absurd rfl hne
    | cons c ds =>
      rw [List.nil_append, Re.opt, first_alt_right]
      · rfl
      · exact run_cls_false _ (digit_sign (hd' c (by simp)))
  · exact first_seq (t := digits ++ r) (first_alt_left (first_cls _ (by decide))) hplus
  · exact first_seq (t := digits ++ r) (first_alt_left (first_cls _ (by decide))) hplus

theorem head_flatMap_dash (parts : List Str) (r : Str) (p : Char → Bool) (hp : p '-' = false)
    (hr : ∀ c, r.head? = some c → p c = false) : ∀ c, (parts.flatMap ('-' :: ·) ++ r).head? = some c → p c = false := by
  cases parts with
  | nil => simpa using hr
  | cons y ys =>
    intro c hc
    simp at hc
    subst hc; exact hp

theorem consume_langtag {t r : Str} (ht : LangTag t) (hr : Ends r) : consume (regex .langtag) (t ++ r) = some (t, r) := by
  apply consume_first
  obtain ⟨x, parts, hne, hx, hparts, rfl⟩ := ht
  simp only [List.cons_append, List.append_assoc]
  refine first_seq (first_chr _ _) (first_seq (t := parts.flatMap ('-' :: ·) ++ r) ?_ ?_)
  · exact first_plus_cls hne (fun c hc => by rw [← letter_eq]; exact hx c hc)
      (head_flatMap_dash parts r isAlpha (by decide) (ends_head hr _ (by decide)))
  · clear hx hne
    induction parts with
    | nil =>
      apply first_star_stop
      simp only [List.flatMap_nil, List.nil_append]
      have := ends_head hr (· == '-') (by decide)
      cases r with
      | nil => rfl
      | cons c r => simp [Re.run, Re.chr, this c rfl]
    | cons y ys ih =>
      have hy := hparts y (by simp)
      simp only [List.flatMap_cons, List.append_assoc, List.cons_append]
      rw [first_star_step (t := ys.flatMap ('-' :: ·) ++ r)]
      · exact ih (fun z hz => hparts z (by simp [hz]))
      · refine first_seq (first_chr _ _) (first_plus_cls hy.1 (fun c hc => ?_) ?_)
        · rw [← letter_eq, ← digit_eq]; exact hy.2 c hc
        · exact head_flatMap_dash ys r _ (by decide) (ends_head hr _ (by decide))
      · simp; omega

/-! ### IRIs and names -/

theorem first_uchar4 {d t : Str} (hl : d.length = 4) (hd : ∀ c ∈ d, hexDigit c = true) :
    uchar.first ('\\' :: 'u' :: (d ++ t)) = some t := by
  refine first_alt_left (first_seq (t := d ++ t) ?_ ?_)
  · exact first_lit ['\\', 'u'] (d ++ t)
  · have := first_times_cls (p := isUcharHex) (t := t) fun c hc => hex_uchar c (hd c hc)
    rwa [hl] at this

theorem first_uchar8 {d t : Str} (hl : d.length = 8) (hd : ∀ c ∈ d, hexDigit c = true) :
    uchar.first ('\\' :: 'U' :: (d ++ t)) = some t := by
  unfold uchar
  rw [first_alt_right]
  · refine first_seq (t := d ++ t) ?_ ?_
    · exact first_lit ['\\', 'U'] (d ++ t)
    · have := first_times_cls (p := isUcharHex) (t := t) fun c hc => hex_uchar c (hd c hc)
      rwa [hl] at this
  · simp [Re.run, run_lit, List.isPrefixOf]

theorem consume_iriref {t : Str} (r : Str) (ht : IriText t) :
    consume (regex .iriref) ((['<'] ++ t ++ ['>']) ++ r) = some (['<'] ++ t ++ ['>'], r) := by
  apply consume_first
  simp only [List.append_assoc, List.singleton_append]
  refine first_seq (first_chr _ _) (first_seq (t := '>' :: r) ?_ (first_chr _ _))
  show (Re.star (.alt (.cls isIriChar) uchar)).first (t ++ '>' :: r) = some ('>' :: r)
  induction ht with
  | nil =>
    apply first_star_stop
    exact run_can rfl (by decide)
  | chr hc _ ih =>
    rw [List.cons_append, first_star_step (first_alt_left (first_cls _ (by rw [← iriChar_eq]; exact hc))) (by simp)]
    exact ih
  | @u4 d s hl hd _ ih =>
    simp only [List.cons_append, List.append_assoc]
    rw [first_star_step (t := s ++ '>' :: r)]
    · exact ih
    · rw [first_alt_right (run_cls_false _ (by decide))]
      exact first_uchar4 hl hd
    · simp; omega
  | @u8 d s hl hd _ ih =>
    simp only [List.cons_append, List.append_assoc]
    rw [first_star_step (t := s ++ '>' :: r)]
    · exact ih
    · rw [first_alt_right (run_cls_false _ (by decide))]
      exact first_uchar8 hl hd
    · simp; omega

theorem isPn_dot {c : Char} (h : isPn c = true) : c ≠ '.' := by rintro rfl; revert h; decide

theorem consume_pnameNS {p : Str} (r : Str) (hp : Prefix p) :
    consume (regex .pnameNS) (p ++ ':' :: r) = some (p ++ [':'], r) := by
  have hgoal : (regex .pnameNS).first ((p ++ [':']) ++ r) = some r := by
    obtain ⟨c, s, rfl, hc, hs⟩ := hp
    simp only [List.append_assoc, List.cons_append]
    refine first_seq (first_cls _ (by rw [← nameStart_eq]; exact hc)) (first_seq (t := ':' :: r) ?_ (first_chr _ _))
    induction hs with
    | nil =>
      apply first_star_stop
      exact run_can rfl (by decide)
    | @chr c s hc _ ih =>
      have hc' : isPn c = true := by rw [← nameChar_eq]; exact hc
      rw [List.cons_append, first_star_step (t := s ++ ':' :: r)]
      · exact ih
      · rw [first_alt_right]
        · exact first_cls _ hc'
        · apply run_can rfl
          simp [Re.can, Re.chr, Re.nullable, isPn_dot hc']
      · simp
    | @dot c s hc _ ih =>
      rw [List.cons_append, List.cons_append, first_star_step (t := s ++ ':' :: r)]
      · exact ih
      · exact first_alt_left (first_seq (first_chr _ _) (first_cls _ (by rw [← nameChar_eq]; exact hc)))
      · simp; omega
  have := consume_first hgoal
  simpa using this

theorem first_star_dots (n : Nat) {s : Str} (hs : s.head? ≠ some '.') :
    (Re.star (.chr '.')).first (List.replicate n '.' ++ s) = some s := by
  apply first_star_cls (p := (· == '.'))
  · intro c hc; simp [List.mem_replicate] at hc; simp [hc.2]
  · intro c hc
    simp only [beq_eq_false_iff_ne, ne_eq]
    rintro rfl
    exact hs hc

/-- After a word there is no further part of it. -/
theorem run_dots_none {r : Str} (hr : Ends r) (x : Re) (hn : x.nullable = false)
    (hx : ∀ c ∈ ['.', ' ', '\t', '\r', '\n', '#', ',', ';', ']'], x.can c = false) :
    (Re.seq (.star (.chr '.')) x).run r = [] := by
  have key : ∀ c s, ender c = true → (Re.seq (.star (.chr '.')) x).run (c :: s) = [] := by
    intro c s hc
    apply run_can
    · simp [Re.nullable, hn]
    · have h1 : x.can c = false := ender_ind (P := fun c => x.can c = false)
        (fun c hc => hx c (by simp only [List.mem_cons] at hc ⊢; exact .inr hc)) hc
      have h2 : (c == '.') = false := ender_ind (P := fun c => (c == '.') = false) (by decide) hc
      simp [Re.can, h1, h2, Re.chr]
  rcases ends_cases hr with rfl | ⟨c, t, rfl, hc⟩ | rfl | ⟨c, t, rfl, hc⟩
  · exact run_nil (by simp [Re.nullable, hn])
  · exact key c t hc
  · simp only [Re.run, Re.chr, List.length_cons, List.length_nil, many]
    simp [run_nil hn, run_can (s := []) hn (hx '.' (by simp))]
  · have h1 : x.run (c :: t) = [] := by
      apply run_can hn
      exact ender_ind (P := fun c => x.can c = false)
        (fun c hc => hx c (by simp only [List.mem_cons] at hc ⊢; exact .inr hc)) hc
    have h2 : x.run ('.' :: c :: t) = [] := run_can hn (hx '.' (by simp))
    have h3 : c ≠ '.' := ender_ind (P := fun c => c ≠ '.') (by decide) hc
    simp only [Re.run, Re.chr, List.length_cons, many]
    simp [h1, h2, h3]

theorem plx_first {p w t : Str} (h : Plx p w) : plx.first (p ++ t) = some t := by
  cases h with
  | percent ha hb =>
    refine first_alt_left (first_seq (first_chr _ _) ?_)
    rw [hex_eq] at ha hb
    exact first_times_cls (p := isHex) (w := [_, _]) (t := t) (by simp [ha, hb])
  | escaped hc =>
    unfold plx
    rw [first_alt_right]
    · exact first_seq (first_chr _ _) (first_cls _ (by rw [← escapable_eq]; exact hc))
    · exact run_can rfl (by decide)

/-- the repeated part of local names -/
def localPart : Re := .seq (.star (.chr '.')) (.alt (.cls fun c => isPn c || c == ':') plx)

theorem first_localTail {t v r : Str} (ht : LocalTail t v) (hr : Ends r) :
    (Re.star localPart).first (t ++ r) = some r := by
  induction ht with
  | nil =>
    apply first_star_stop
    exact run_dots_none hr _ rfl (by decide)
  | @chr n c s v hc _ ih =>
    simp only [List.append_assoc, List.cons_append]
    rw [first_star_step (t := s ++ r)]
    · exact ih
    · have hc' : (isPn c || c == ':') = true := by
        rw [← nameChar_eq]; rcases hc with hc | hc <;> simp [hc]
      refine first_seq (first_star_dots n (s := c :: (s ++ r)) ?_) (first_alt_left (first_cls _ hc'))
      simp only [List.head?_cons, ne_eq, Option.some.injEq]
      rintro rfl
      revert hc'; decide
    · simp; omega
  | @plx n p w s v hp _ ih =>
    simp only [List.append_assoc]
    rw [first_star_step (t := s ++ r)]
    · exact ih
    · have hd : ∃ d q, p = d :: q ∧ (d = '%' ∨ d = '\\') := by cases hp <;> simp
      obtain ⟨d, q, hpq, hd⟩ := hd
      refine first_seq (first_star_dots n (s := p ++ (s ++ r)) ?_) ?_
      · rw [hpq]; rcases hd with rfl | rfl <;> simp
      · rw [first_alt_right]
        · exact plx_first hp
        · rw [hpq, List.cons_append]
          apply run_cls_false
          rcases hd with rfl | rfl <;> decide
    · have : 0 < p.length := by cases hp <;> simp
      simp; omega

theorem consume_pnLocal {t v r : Str} (ht : Local t v) (hr : Ends r) :
    consume (regex .pnLocal) (t ++ r) = if t = [] then none else some (t, r) := by
  cases ht with
  | nil =>
    simp only [List.nil_append, if_true]
    apply consume_none
    have key : ∀ c ∈ ['.', ' ', '\t', '\r', '\n', '#', ',', ';', ']'], (regex .pnLocal).can c = false := by decide
    cases r with
    | nil => exact run_nil rfl
    | cons c r => exact run_can rfl (ends_head hr (fun c => (regex .pnLocal).can c) key c rfl)
  | @chr c s v hc hs =>
    rw [if_neg (by simp)]
    apply consume_first
    refine first_seq (first_alt_left (first_cls _ ?_)) (first_localTail hs hr)
    simp only [isBaseU, ← nameStart_eq, ← digit_eq]
    rcases hc with hc | hc | hc | hc <;> simp [hc]
  | @plx p w s v hp hs =>
    have hne : p ≠ [] := by cases hp <;> simp
    rw [if_neg (by simp [hne])]
    apply consume_first
    rw [List.append_assoc]
    refine first_seq ?_ (first_localTail hs hr)
    rw [first_alt_right]
    · exact plx_first hp
    · have hd : ∃ d q, p = d :: q ∧ (d = '%' ∨ d = '\\') := by cases hp <;> simp
      obtain ⟨d, q, hpq, hd⟩ := hd
      rw [hpq, List.cons_append]
      apply run_cls_false
      rcases hd with rfl | rfl <;> decide

theorem consume_label {l r : Str} (hl : Label l) (hr : Ends r) :
    consume (regex .blankNodeLabel) (('_' :: ':' :: l) ++ r) = some ('_' :: ':' :: l, r) := by
  apply consume_first
  obtain ⟨c, s, rfl, hc, hs⟩ := hl
  refine first_seq (t := (c :: s) ++ r) ?_ (first_seq (first_cls _ ?_) ?_)
  · exact first_lit ['_', ':'] ((c :: s) ++ r)
  · simp only [isBaseU, ← nameStart_eq, ← digit_eq]
    rcases hc with hc | hc | hc <;> simp [hc]
  · clear hc
    show (Re.star (.seq (.star (.chr '.')) (.cls isPn))).first (s ++ r) = some r
    induction hs with
    | nil =>
      apply first_star_stop
      exact run_dots_none hr _ rfl (by decide)
    | @chr n c s hc _ ih =>
      simp only [List.append_assoc, List.cons_append]
      rw [first_star_step (t := s ++ r)]
      · exact ih
      · have hc' : isPn c = true := by rw [← nameChar_eq]; exact hc
        refine first_seq (first_star_dots n (s := c :: (s ++ r)) ?_) (first_cls _ hc')
        simp only [List.head?_cons, ne_eq, Option.some.injEq]
        exact isPn_dot hc'
      · simp; omega

theorem consume_anon {ws : Str} (r : Str) (h : blanks ws) :
    consume (regex .anon) (('[' :: ws ++ [']']) ++ r) = some ('[' :: ws ++ [']'], r) := by
  apply consume_first
  simp only [List.cons_append, List.append_assoc]
  refine first_seq (first_chr _ _) (first_seq (t := ']' :: r) ?_ (first_chr _ _))
  exact first_star_cls (fun c hc => by rw [← blank_eq]; exact h c hc) (by simp; decide)

theorem consume_lit (w r : Str) : consume (Re.lit w) (w ++ r) = some (w, r) := consume_first (first_lit w r)

theorem consume_lit_none {w s : Str} (h : ¬ w <+: s) : consume (Re.lit w) s = none := by
  apply consume_none
  rw [run_lit, if_neg]
  rwa [List.isPrefixOf_iff_prefix]

theorem consume_chr (c : Char) (r : Str) : consume (Re.chr c) (c :: r) = some ([c], r) :=
  consume_first (w := [c]) (first_chr c r)

theorem consume_cannot {id : TokId} {c : Char} (s : Str) (hn : (regex id).nullable = false) (h : (regex id).can c = false) :
    consume (regex id) (c :: s) = none := consume_none (run_can hn h)

theorem consume_empty (id : TokId) : consume (regex id) [] = none := by
  cases id <;> exact consume_none (run_nil rfl)

/-- `[` is taken for an anonymous node only if white space and `]` follow. -/
theorem consume_anon_none {s : Str} {c : Char} (t : Str) (hs : blanks s) (hc : isWs c = false) (hc' : c ≠ ']') :
    consume (regex .anon) ('[' :: (s ++ c :: t)) = none := by
  apply consume_none
  have h1 : ∀ u ∈ (Re.star (.cls isWs)).run (s ++ c :: t), (Re.chr ']').run u = [] := by
    have gen : ∀ (n : Nat) (s : Str), blanks s → ∀ u ∈ many (Re.cls isWs).run n (s ++ c :: t),
        (Re.chr ']').run u = [] := by
      intro n
      induction n with
      | zero =>
        intro s hs u hu
        simp [many] at hu
        subst hu
        cases s with
        | nil => simp [Re.chr, Re.run, hc']
        | cons d s =>
          have : d ≠ ']' := by
            rintro rfl
            have := hs ']' (by simp)
            revert this; decide
          simp [Re.chr, Re.run, this]
      | succ n ih =>
        intro s hs u hu
        simp only [many, List.mem_append, List.mem_flatMap, List.mem_filter, List.mem_singleton] at hu
        rcases hu with ⟨v, ⟨hv, _⟩, hu⟩ | rfl
        · cases s with
          | nil => simp [Re.run, hc] at hv
          | cons d s =>
            simp only [List.cons_append, Re.run] at hv
            split at hv
            · simp at hv; subst hv
              exact ih s (fun x hx => hs x (by simp [hx])) u hu
            · simp at hv
        · cases s with
          | nil => simp [Re.chr, Re.run, hc']
          | cons d s =>
            have : d ≠ ']' := by
              rintro rfl
              have := hs ']' (by simp)
              revert this; decide
            simp [Re.chr, Re.run, this]
    exact gen _ s hs
  simp only [regex, Re.run, Re.chr]
  simp only [beq_self_eq_true, if_true, List.flatMap_cons, List.flatMap_nil, List.append_nil]
  rw [List.flatMap_eq_nil_iff]
  intro u hu
  exact h1 u hu

/-- What is not an exponent is not taken for a double. -/
theorem consume_double_none {p : Str} (r : Str) (hp : Prefix p) (he : Exponential p = false) :
    consume (regex .double) (p ++ ':' :: r) = none := by
  apply consume_none
  obtain ⟨c, s, rfl, hc, hs⟩ := hp
  rw [nameStart_eq] at hc
  have hbase : ∀ d ∈ ['+', '-', '0', '1', '2', '3', '4', '5', '6', '7', '8', '9'], isBase d = false := by decide
  have hsign : isSign c = false := by
    simp only [isSign, Bool.or_eq_false_iff, beq_eq_false_iff_ne, ne_eq]
    constructor <;> (rintro rfl; revert hc; decide)
  have hdig : isDigit c = false := by
    cases hd : isDigit c with
    | false => rfl
    | true =>
      exfalso
      simp only [isDigit, isBase, isAlpha, between, Bool.or_eq_true, Bool.and_eq_true, decide_eq_true_eq] at *
      omega
  simp only [List.cons_append]
  have hexp : exponent.run (c :: (s ++ ':' :: r)) = [] := by
    by_cases hce : c == 'e' || c == 'E'
    · have step : ∀ u, (∀ d v, u = d :: v → isSign d = false ∧ isDigit d = false ∨
          isSign d = true ∧ ∀ e w, v = e :: w → isDigit e = false) → u ≠ [] →
          (Re.seq (.opt (.cls isSign)) (.plus (.cls isDigit))).run u = [] := by
        intro u hu hne
        cases u with
        | nil => exact absurd rfl hne
        | cons d v =>
          rcases hu d v rfl with ⟨h1, h2⟩ | ⟨h1, h2⟩
          · apply run_can rfl
            simp [Re.can, Re.opt, Re.plus, Re.nullable, h1, h2]
          · have h3 : isDigit d = false := by
              cases hd : isDigit d with
              | false => rfl
              | true => rw [digit_sign hd] at h1; simp at h1
            cases v with
            | nil => simp [Re.run, Re.opt, Re.plus, h1, h3]
            | cons e w => simp [Re.run, Re.opt, Re.plus, h1, h3, h2 e w rfl]
      have : (Re.seq (.opt (.cls isSign)) (.plus (.cls isDigit))).run (s ++ ':' :: r) = [] := by
        apply step
        · intro d v huv
          cases hs with
          | nil => simp at huv; obtain ⟨rfl, rfl⟩ := huv; left; decide
          | @chr d' s hd hs =>
            simp at huv
            obtain ⟨rfl, rfl⟩ := huv
            by_cases hm : d' = '-'
            · subst hm
              right
              refine ⟨by decide, fun e w hew => ?_⟩
              cases hs with
              | nil => simp at hew; obtain ⟨rfl, _⟩ := hew; decide
              | @chr e' s _ _ =>
                simp at hew; obtain ⟨rfl, _⟩ := hew
                rw [Exponential, Bool.and_eq_false_iff] at he
                rw [← digit_eq]
                rcases he with he | he
                · rw [hce] at he; simp at he
                · exact he
              | dot _ _ => simp at hew; obtain ⟨rfl, _⟩ := hew; decide
            · left
              have hd2 : digit d' = false := by
                have : Exponential (c :: d' :: s) = ((c == 'e' || c == 'E') && digit d') := by
                  rw [Exponential.eq_def]
                  split
                  · rename_i heq; simp at heq; exact absurd heq.2.1 hm
                  · rename_i heq; simp at heq; obtain ⟨rfl, rfl, _⟩ := heq; rfl
                  · rename_i h1 h2; exact absurd rfl (h2 _ _ _)
                rw [this, hce] at he
                simpa using he
              refine ⟨?_, by rw [← digit_eq]; exact hd2⟩
              simp only [isSign, Bool.or_eq_false_iff, beq_eq_false_iff_ne, ne_eq]
              refine ⟨?_, hm⟩
              rintro rfl
              revert hd; decide
          | dot _ _ => simp at huv; obtain ⟨rfl, rfl⟩ := huv; left; decide
        · cases s <;> simp
      simp only [exponent, Re.run] at this ⊢
      simp [hce, this]
    · apply run_can rfl
      simp only [exponent, Re.can, Re.nullable, Bool.false_and, Bool.or_false]
      simpa using hce
  simp only [regex, Re.opt, Re.run, hsign]
  simp only [Bool.false_eq_true, if_false, List.nil_append, List.flatMap_cons, List.flatMap_nil, List.append_nil, hexp,
    Re.plus, Re.run, hdig]

end Verif.Turtle
