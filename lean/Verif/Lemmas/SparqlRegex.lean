import Mathlib.Tactic.Tauto
import Mathlib.Tactic.ByContra
import Verif.Lemmas.TurtleTokens
import Verif.Spec.SparqlText
/-
The regular expressions of the SPARQL lexer: which text is consumed.
-/
namespace Verif.SparqlLexer
open Turtle
open Verif.SparqlSpec (small Spells varChar VarName IriText Prefix Local StringText EndsName)

/-! ### What a match can consume -/

/-- All characters that an expression can consume satisfy `q`. -/
def Over (q : Char → Prop) : Re → Prop
  | .cls p => ∀ c, p c = true → q c
  | .eps => True
  | .seq a b => Over q a ∧ Over q b
  | .alt a b => Over q a ∧ Over q b
  | .star a => Over q a

theorem many_over {q : Char → Prop} {f : Str → List Str} (hf : ∀ s, ∀ t ∈ f s, ∃ w, s = w ++ t ∧ ∀ c ∈ w, q c) :
    ∀ n s, ∀ t ∈ many f n s, ∃ w, s = w ++ t ∧ ∀ c ∈ w, q c
  | 0, s, t, ht => by
    simp [many] at ht
    exact ⟨[], by simp [ht], by simp⟩
  | n + 1, s, t, ht => by
    simp only [many, List.mem_append, List.mem_flatMap, List.mem_filter, List.mem_singleton] at ht
    rcases ht with ⟨u, ⟨hu, _⟩, ht⟩ | rfl
    · obtain ⟨w, rfl, hw⟩ := hf s u hu
      obtain ⟨w', rfl, hw'⟩ := many_over hf n u t ht
      exact ⟨w ++ w', by simp, by simp only [List.mem_append]; rintro c (h | h); exacts [hw c h, hw' c h]⟩
    · exact ⟨[], by simp, by simp⟩

theorem run_over {q : Char → Prop} : ∀ (r : Re), Over q r → ∀ s, ∀ t ∈ r.run s, ∃ w, s = w ++ t ∧ ∀ c ∈ w, q c
  | .cls p, h, s, t, ht => by
    cases s with
    | nil => simp [Re.run] at ht
    | cons c s =>
      by_cases hp : p c = true
      · simp [Re.run, hp] at ht
        exact ⟨[c], by simp [ht], by simpa using h c hp⟩
      · simp [Re.run, hp] at ht
  | .eps, _, s, t, ht => by
    simp [Re.run] at ht
    exact ⟨[], by simp [ht], by simp⟩
  | .seq a b, h, s, t, ht => by
    simp only [Re.run, List.mem_flatMap] at ht
    obtain ⟨u, hu, ht⟩ := ht
    obtain ⟨w, rfl, hw⟩ := run_over a h.1 s u hu
    obtain ⟨w', rfl, hw'⟩ := run_over b h.2 u t ht
    exact ⟨w ++ w', by simp, by simp only [List.mem_append]; rintro c (h | h); exacts [hw c h, hw' c h]⟩
  | .alt a b, h, s, t, ht => by
    simp only [Re.run, List.mem_append] at ht
    exact ht.elim (run_over a h.1 s t) (run_over b h.2 s t)
  | .star a, h, s, t, ht => many_over (run_over a h) _ _ _ ht

/-! ### Repetition with backtracking -/

/-- The suffixes of a text, the shortest first. -/
def suffixes : Str → List Str
  | [] => [[]]
  | c :: s => suffixes s ++ [c :: s]

theorem many_det {f : Str → List Str} {t : Str} (ht : f t = []) : ∀ (n : Nat) (w : Str), (∀ c ∈ w, ∀ s, f (c :: s) = [s]) →
    (w ++ t).length ≤ n → many f n (w ++ t) = (suffixes w).map (· ++ t)
  | n, [], _, _ => by
    cases n <;> simp [many, ht, suffixes]
  | 0, c :: w, _, h => by simp at h
  | n + 1, c :: w, hw, h => by
    rw [List.cons_append, many, hw c (by simp)]
    simp only [List.length_cons, Nat.lt_succ_self, decide_true, List.filter_cons_of_pos, List.filter_nil, List.flatMap_cons,
      List.flatMap_nil, List.append_nil]
    rw [many_det ht n w (fun d hd => hw d (by simp [hd])) (by simp at h ⊢; omega)]
    simp [suffixes]

theorem run_star_det {e : Re} {w t : Str} (hw : ∀ c ∈ w, ∀ s, e.run (c :: s) = [s]) (ht : e.run t = []) :
    (Re.star e).run (w ++ t) = (suffixes w).map (· ++ t) := by
  show many e.run (w ++ t).length (w ++ t) = _
  exact many_det ht _ w hw (Nat.le_refl _)

theorem suffixes_append : ∀ (u v : Str), ∃ l, suffixes (u ++ v) = suffixes v ++ l
  | [], v => ⟨[], by simp⟩
  | c :: u, v => by
    obtain ⟨l, hl⟩ := suffixes_append u v
    exact ⟨l ++ [c :: (u ++ v)], by simp [suffixes, hl]⟩

/-- A repetition followed by one more character: the last character that fits is the last one. -/
theorem first_star_last {e f : Re} {u d t : Str} {c : Char} (hw : ∀ x ∈ u ++ c :: d, ∀ s, e.run (x :: s) = [s]) (ht : e.run t = [])
    (hc : ∀ s, f.run (c :: s) = [s]) (hd : ∀ x ∈ d, ∀ s, f.run (x :: s) = []) (hft : f.run t = []) :
    (Re.seq (.star e) f).first (u ++ c :: d ++ t) = some (d ++ t) := by
  unfold Re.first
  show (((Re.star e).run (u ++ c :: d ++ t)).flatMap f.run).head? = _
  rw [run_star_det hw ht]
  obtain ⟨l, hl⟩ := suffixes_append u (c :: d)
  rw [hl]
  have key : ∀ d, (∀ x ∈ d, ∀ s, f.run (x :: s) = []) → ((suffixes d).map (· ++ t)).flatMap f.run = [] := by
    intro d
    induction d with
    | nil => intro _; simp [suffixes, hft]
    | cons x d ih =>
      intro hd
      simp only [suffixes, List.map_append, List.flatMap_append, ih fun y hy => hd y (by simp [hy])]
      simp [hd x (by simp)]
  simp only [suffixes, List.map_append, List.flatMap_append, key d hd]
  simp [hc]

theorem run_star_last_none {e f : Re} {d t : Str} (hw : ∀ x ∈ d, ∀ s, e.run (x :: s) = [s]) (ht : e.run t = [])
    (hd : ∀ x ∈ d, ∀ s, f.run (x :: s) = []) (hft : f.run t = []) : (Re.seq (.star e) f).run (d ++ t) = [] := by
  show ((Re.star e).run (d ++ t)).flatMap f.run = _
  rw [run_star_det hw ht]
  induction d with
  | nil => simp [suffixes, hft]
  | cons x d ih =>
    simp only [suffixes, List.map_append, List.flatMap_append, ih (fun y hy => hw y (by simp [hy])) fun y hy => hd y (by simp [hy])]
    simp [hd x (by simp)]

theorem first_opt_some {r : Re} {s t : Str} (h : r.first s = some t) : r.opt.first s = some t := first_alt_left h
theorem first_opt_none {r : Re} {s : Str} (h : r.run s = []) : r.opt.first s = some s := by
  unfold Re.opt
  rw [first_alt_right h]
  rfl

/-! ### Classes of characters -/

theorem small_eq (c : Char) : small c = lower c := by
  unfold small lower between
  have h1 : ('A' ≤ c) ↔ 0x41 ≤ c.toNat := Char.le_def.trans UInt32.le_iff_toNat_le
  have h2 : (c ≤ 'Z') ↔ c.toNat ≤ 0x5A := Char.le_def.trans UInt32.le_iff_toNat_le
  simp only [h1, h2, Bool.and_eq_true, decide_eq_true_eq]

theorem varChar_eq (c : Char) : varChar c = isVarChar c := by
  have h : ((decide (0xB7 ≤ c.toNat) && decide (c.toNat ≤ 0xB7)) : Bool) = (c.toNat == 0xB7) := by
    rw [Bool.eq_iff_iff]; simp; omega
  simp only [varChar, isVarChar, isBaseU, nameStart_eq, digit_eq, TurtleSpec.inRanges, between, List.any_cons, List.any_nil, h,
    Bool.or_false, Bool.or_assoc]

theorem iriChar_of {c : Char} (h : TurtleSpec.iriChar c = true) (h1 : c ≠ '[') (h2 : c ≠ ']') : isIriChar c = true := by
  simp [TurtleSpec.iriChar, isIriChar] at h ⊢
  simp_all

theorem iriChar_inv {c : Char} (h : isIriChar c = true) : TurtleSpec.iriChar c = true ∧ c ≠ '[' ∧ c ≠ ']' := by
  simp [TurtleSpec.iriChar, isIriChar] at h ⊢
  simp_all

/-- A name character is none of some other characters. -/
theorem pn_ne {c d : Char} (h : isPn c = true) (hd : isPn d = false) : c ≠ d := fun hcd => by
  subst hcd
  rw [h] at hd
  cases hd

theorem base_pn {c : Char} (h : isBase c = true) : isPn c = true := by simp [isPn, isBaseU, h]
theorem baseU_pn {c : Char} (h : isBaseU c = true) : isPn c = true := by simp [isPn, h]
theorem digit_pn {c : Char} (h : isDigit c = true) : isPn c = true := by simp [isPn, h]

/-! ### Variables and IRIs -/

theorem consume_var {n s : Str} (hn : VarName n) (hs : ∀ c, s.head? = some c → ¬ varChar c) :
    consume varRe ('?' :: n ++ s) = some ('?' :: n, s) := by
  apply consume_first
  obtain ⟨c, m, rfl, hc, hm⟩ := hn
  simp only [List.cons_append]
  refine first_seq (first_chr _ _) (first_seq (first_cls _ ?_) (first_star_cls (fun d hd => ?_) fun d hd => ?_))
  · simpa [isVarStart, isBaseU, nameStart_eq, digit_eq] using hc
  · rw [← varChar_eq]; exact hm d hd
  · rw [← varChar_eq]; simpa using hs d hd

theorem first_iriref {t : Str} (s : Str) (ht : IriText t) : iriref.first ('<' :: t ++ '>' :: s) = some s := by
  rw [List.cons_append]
  refine first_seq (first_chr _ _) (first_seq (t := '>' :: s) (first_star_cls (fun c hc => ?_) fun c hc => ?_) (first_chr _ _))
  · exact iriChar_of (ht c hc).1 (ht c hc).2.1 (ht c hc).2.2
  · simp at hc; subst hc; decide

theorem run_iriref_none {s : Str} (h : ∀ u v, s = u ++ '>' :: v → ¬ IriText u) : iriref.run ('<' :: s) = [] := by
  rw [List.eq_nil_iff_forall_not_mem]
  intro t ht
  simp only [iriref, Re.chr, Re.run, List.mem_flatMap] at ht
  obtain ⟨a, ha, b, hb, ht⟩ := ht
  simp at ha
  subst ha
  obtain ⟨w, hw, hq⟩ := run_over (q := fun c => isIriChar c = true) (.star (.cls isIriChar)) (fun c h => h) _ b hb
  cases b with
  | nil => simp at ht
  | cons c b =>
    by_cases hc : c = '>'
    · subst hc
      exact h w b hw fun d hd => iriChar_inv (hq d hd)
    · simp [hc] at ht

/-! ### Prefixed names -/

theorem isPn_colon : isPn ':' = false := by decide
theorem isPn_dot : isPn '.' = false := by decide

theorem last_split {s : Str} {c : Char} (hl : (c :: s).getLast? ≠ some '.') (hs : s ≠ []) : ∃ u d, s = u ++ [d] ∧ d ≠ '.' := by
  refine ⟨s.dropLast, s.getLast hs, (List.dropLast_concat_getLast hs).symm, ?_⟩
  intro h
  apply hl
  rw [List.getLast?_cons_of_ne_nil hs]
  rw [List.getLast?_eq_some_getLast hs, h]

theorem first_pnPrefix {p s : Str} (hp : Prefix p) : (Re.opt pnPrefix).first (p ++ ':' :: s) = some (':' :: s) := by
  rcases hp with rfl | ⟨c, q, rfl, hc, hq, hl⟩
  · exact first_opt_none (run_can rfl (by decide))
  · apply first_opt_some
    have hq' : ∀ d ∈ q, (isPn d || d == '.') = true := fun d hd => by rw [← nameChar_eq]; exact hq d hd
    refine first_seq (first_cls _ (by rw [← nameStart_eq]; exact hc)) ?_
    by_cases hne : q = []
    · subst hne
      apply first_opt_none
      refine run_star_last_none (d := []) (by simp) ?_ (by simp) ?_
      · simp [Re.run]; decide
      · simp [Re.run]; decide
    · apply first_opt_some
      obtain ⟨u, d, rfl, hd⟩ := last_split hl hne
      have hdp : isPn d = true := by simpa [hd] using hq' d (by simp)
      have := first_star_last (e := .cls fun c => isPn c || c == '.') (f := .cls isPn) (u := u) (c := d) (d := [])
        (t := ':' :: s) (fun x hx s => by simp only [Re.run, hq' x hx, if_true]) (by simp [Re.run]; decide)
        (fun s => by simp [Re.run, hdp]) (by simp) (by simp [Re.run]; decide)
      simpa using this

theorem first_pnameNS {p s : Str} (hp : Prefix p) : pnameNS.first (p ++ ':' :: s) = some s :=
  first_seq (first_pnPrefix hp) (first_chr _ _)

/-- What `PN_LOCAL` is made of. -/
theorem run_local {q : Char → Bool} {c : Char} (hc : q c = true) (h1 : c ≠ '%') (h2 : c ≠ '\\') (s : Str) :
    (Re.alt (.cls q) plx).run (c :: s) = [s] := by
  have : plx.run (c :: s) = [] := run_can rfl (by simp [plx, Re.can, Re.chr, Re.nullable, h1, h2])
  simp [Re.run, hc, this]

theorem run_local_none {q : Char → Bool} {s : Str} (h : ∀ c, s.head? = some c → q c = false ∧ c ≠ '%' ∧ c ≠ '\\') :
    (Re.alt (.cls q) plx).run s = [] := by
  cases s with
  | nil => exact run_nil rfl
  | cons c s =>
    obtain ⟨h0, h1, h2⟩ := h c rfl
    exact run_can rfl (by simp [Re.can, plx, Re.chr, Re.nullable, h0, h1, h2])

theorem mem_replicate_dot {n : Nat} {c : Char} (h : c ∈ List.replicate n '.') : c = '.' := List.eq_of_mem_replicate h

theorem first_pnLocal {c : Char} {q s : Str} (hc : (isBaseU c || c == ':' || isDigit c) = true)
    (hq : ∀ d ∈ q, (isPn d || d == '.' || d == ':') = true) (hl : (c :: q).getLast? ≠ some '.') (hs : EndsName s) :
    pnLocal.first (c :: q ++ s) = some s := by
  have hcne : c ≠ '%' ∧ c ≠ '\\' := by constructor <;> (rintro rfl; revert hc; decide)
  have hstart : localStart.first (c :: (q ++ s)) = some (q ++ s) := by
    unfold Re.first localStart
    rw [run_local hc hcne.1 hcne.2]
    rfl
  refine first_seq hstart ?_
  obtain ⟨n, t, rfl, ht⟩ := hs
  have hstop : ∀ r : Char → Bool, (∀ c, r c = true → isPn c = true ∨ c = '.' ∨ c = ':') → (Re.alt (.cls r) plx).run t = [] := by
    intro r hr
    refine run_local_none fun d hd => ?_
    obtain ⟨h1, h2⟩ := ht d hd
    rw [nameChar_eq] at h1
    simp only [List.mem_cons, List.not_mem_nil, or_false, not_or] at h2
    refine ⟨?_, h2.2.2.1, h2.2.2.2⟩
    by_contra hne
    rcases hr d (by simpa using hne) with h | h | h
    · exact h1 h
    · exact h2.1 h
    · exact h2.2.1 h
  have hin : ∀ d, (isPn d || d == '.' || d == ':') = true → ∀ s, localInner.run (d :: s) = [s] := by
    intro d hd s
    refine run_local hd ?_ ?_ s <;> (rintro rfl; revert hd; decide)
  have hdot : ∀ s, localEnd.run ('.' :: s) = [] := fun s => run_local_none fun c hc => by
    simp at hc; subst hc; decide
  by_cases hne : q = []
  · subst hne
    rw [List.nil_append]
    apply first_opt_none
    refine run_star_last_none (fun x hx => hin x (by rw [mem_replicate_dot hx]; decide)) (hstop _ (by simp; tauto))
      (fun x hx => by rw [mem_replicate_dot hx]; exact hdot) (hstop _ (by simp; tauto))
  · apply first_opt_some
    obtain ⟨u, d, rfl, hd⟩ := last_split hl hne
    have := first_star_last (e := localInner) (f := localEnd) (u := u) (c := d) (d := List.replicate n '.') (t := t)
      (fun x hx => hin x ?_) (hstop _ (by simp; tauto)) ?_ (fun x hx => by rw [mem_replicate_dot hx]; exact hdot)
      (hstop _ (by simp; tauto))
    · simpa using this
    · simp only [List.mem_append, List.mem_cons] at hx
      rcases hx with hx | rfl | hx
      · exact hq x (by simp [hx])
      · exact hq x (by simp)
      · rw [mem_replicate_dot hx]; decide
    · intro s
      have h := hq d (by simp)
      have h' : (isPn d || d == ':') = true := by simpa [hd] using h
      refine run_local h' ?_ ?_ s <;> (rintro rfl; revert h'; decide)

theorem run_pnLocal_none {s : Str} (hs : EndsName s) : pnLocal.run s = [] := by
  have : localStart.run s = [] := by
    refine run_local_none fun c hc => ?_
    obtain ⟨n, t, rfl, ht⟩ := hs
    cases n with
    | succ n => simp [List.replicate_succ] at hc; subst hc; decide
    | zero =>
      obtain ⟨h1, h2⟩ := ht c (by simpa using hc)
      rw [nameChar_eq] at h1
      simp only [List.mem_cons, List.not_mem_nil, or_false, not_or] at h2
      refine ⟨?_, h2.2.2.1, h2.2.2.2⟩
      by_contra hne
      have hne : (isBaseU c || c == ':' || isDigit c) = true := (Bool.not_eq_false _).mp hne
      simp only [Bool.or_eq_true, beq_iff_eq] at hne
      rcases hne with (h | h) | h
      · exact h1 (baseU_pn h)
      · exact h2.2.1 h
      · exact h1 (digit_pn h)
  simp [pnLocal, Re.run, this]

theorem prefix_no_colon {p : Str} (hp : Prefix p) : ∀ c ∈ p, c ≠ ':' := by
  rcases hp with rfl | ⟨c, q, rfl, hc, hq, -⟩
  · simp
  · intro d hd
    rcases List.mem_cons.mp hd with rfl | hd
    · rw [nameStart_eq] at hc; exact pn_ne (base_pn hc) isPn_colon
    · have := hq d hd
      rw [nameChar_eq] at this
      simp only [Bool.or_eq_true, beq_iff_eq] at this
      rcases this with h | rfl
      · exact pn_ne h isPn_colon
      · decide

theorem split_colon {p w : Str} {s t : Str} (hp : ∀ c ∈ p, c ≠ ':') (hw : ∀ c ∈ w, c ≠ ':') (h : p ++ ':' :: s = w ++ ':' :: t) :
    s = t := by
  induction p generalizing w with
  | nil =>
    cases w with
    | nil => simpa using h
    | cons d w => simp at h; exact absurd h.1.symm (hw d (by simp))
  | cons c p ih =>
    cases w with
    | nil => simp at h; exact absurd h.1 (hp c (by simp))
    | cons d w =>
      simp at h
      exact ih (fun x hx => hp x (by simp [hx])) (fun x hx => hw x (by simp [hx])) h.2

theorem run_pnameLN_none {p s : Str} (hp : Prefix p) (hs : EndsName s) : pnameLN.run (p ++ ':' :: s) = [] := by
  rw [List.eq_nil_iff_forall_not_mem]
  intro t ht
  simp only [pnameLN, pnameNS, Re.run, List.mem_flatMap] at ht
  obtain ⟨b, ⟨a, ha, hb⟩, ht⟩ := ht
  have hover : Over (fun c => c ≠ ':') (Re.opt pnPrefix) := by
    refine ⟨⟨fun c h => pn_ne (base_pn h) isPn_colon, ⟨⟨fun c h => ?_, fun c h => pn_ne h isPn_colon⟩, trivial⟩⟩, trivial⟩
    simp only [Bool.or_eq_true, beq_iff_eq] at h
    rcases h with h | rfl
    · exact pn_ne h isPn_colon
    · decide
  obtain ⟨w, hw, hq⟩ := run_over _ hover _ a ha
  cases a with
  | nil => simp [Re.chr, Re.run] at hb
  | cons c a =>
    by_cases hc : c = ':'
    · subst hc
      simp [Re.chr, Re.run] at hb
      subst hb
      have := split_colon (prefix_no_colon hp) hq hw
      subst this
      rw [run_pnLocal_none hs] at ht
      simp at ht
    · simp [Re.chr, Re.run, hc] at hb

theorem first_pname {p l s : Str} (hp : Prefix p) (hl : Local l) (hs : EndsName s) :
    (Re.alt pnameLN pnameNS).first (p ++ ':' :: l ++ s) = some s := by
  rcases hl with rfl | ⟨c, q, rfl, hc, hq, hlast⟩
  · rw [show p ++ [':'] ++ s = p ++ ':' :: s by simp, first_alt_right (run_pnameLN_none hp hs)]
    exact first_pnameNS hp
  · apply first_alt_left
    rw [show p ++ ':' :: c :: q ++ s = p ++ ':' :: (c :: q ++ s) by simp]
    refine first_seq (first_pnameNS hp) (first_pnLocal ?_ (fun d hd => ?_) hlast hs)
    · simpa [isBaseU, nameStart_eq, digit_eq] using hc
    · rw [← nameChar_eq]; exact hq d hd

/-- The beginning of a prefixed name. -/
theorem pname_head {p : Str} (l : Str) (hp : Prefix p) : ∃ c t, p ++ ':' :: l = c :: t ∧ (isBase c = true ∨ c = ':') := by
  rcases hp with rfl | ⟨c, q, rfl, hc, -⟩
  · exact ⟨':', l, rfl, .inr rfl⟩
  · exact ⟨c, q ++ ':' :: l, rfl, .inl (by rw [← nameStart_eq]; exact hc)⟩

theorem first_iri {u s : Str} (hu : u.head? ≠ some '@') (hne : u ≠ [])
    (h : (Re.alt iriref (.alt pnameLN pnameNS)).first (u ++ s) = some s) : iri.first (u ++ s) = some s := by
  refine first_seq (first_opt_none ?_) h
  cases u with
  | nil => exact absurd rfl hne
  | cons c u =>
    have : c ≠ '@' := fun h => hu (by simp [h])
    exact run_can rfl (by simp [Re.can, langtag, Re.chr, Re.nullable, this])

theorem first_iri_ref {t : Str} (s : Str) (ht : IriText t) : iri.first (('<' :: t ++ ['>']) ++ s) = some s := by
  refine first_iri (by simp) (by simp) (first_alt_left ?_)
  simpa using first_iriref s ht

theorem base_ne {c : Char} (h : isBase c = true ∨ c = ':') {d : Char} (hd : isPn d = false) (hd' : d ≠ ':') : c ≠ d := by
  rcases h with h | rfl
  · exact pn_ne (base_pn h) hd
  · exact fun h => hd' h.symm

theorem first_iri_pname {p l s : Str} (hp : Prefix p) (hl : Local l) (hs : EndsName s) :
    iri.first ((p ++ ':' :: l) ++ s) = some s := by
  obtain ⟨c, t, he, hc⟩ := pname_head l hp
  refine first_iri ?_ (by simp) ?_
  · rw [he]; simpa using base_ne hc (d := '@') (by decide) (by decide)
  · rw [first_alt_right]
    · exact first_pname hp hl hs
    · rw [he]
      exact run_can rfl (by simp [Re.can, iriref, Re.chr, Re.nullable]; exact base_ne hc (by decide) (by decide))

end Verif.SparqlLexer
