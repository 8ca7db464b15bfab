import Verif.Lemmas.TurtleStrings
/-
The parser always ends, and it never has undefined behaviour.
-/
namespace Verif.Turtle
open Verif.RdfEscaping

/-! ### Matches -/

theorem many_length {f : Str → List Str} : ∀ (n : Nat) (s t : Str), t ∈ many f n s → t.length ≤ s.length
  | 0, s, t, h => by simp [many] at h; subst h; omega
  | n + 1, s, t, h => by
    simp only [many, List.mem_append, List.mem_flatMap, List.mem_filter, decide_eq_true_eq, List.mem_singleton] at h
    rcases h with ⟨u, ⟨_, hu⟩, ht⟩ | rfl
    · have := many_length n u t ht; omega
    · omega

theorem run_length : ∀ (r : Re) (s t : Str), t ∈ r.run s → t.length ≤ s.length ∧ (r.nullable = false → t.length < s.length)
  | .cls p, s, t, h => by
    cases s with
    | nil => simp [Re.run] at h
    | cons c s =>
      simp only [Re.run] at h
      split at h <;> simp at h
      subst h
      simp
  | .eps, s, t, h => by simp [Re.run] at h; subst h; simp [Re.nullable]
  | .seq a b, s, t, h => by
    simp only [Re.run, List.mem_flatMap] at h
    obtain ⟨u, hu, ht⟩ := h
    have h1 := run_length a s u hu
    have h2 := run_length b u t ht
    refine ⟨by omega, fun hn => ?_⟩
    simp only [Re.nullable, Bool.and_eq_false_iff] at hn
    rcases hn with hn | hn
    · have := h1.2 hn; omega
    · have := h2.2 hn; omega
  | .alt a b, s, t, h => by
    simp only [Re.run, List.mem_append] at h
    simp only [Re.nullable, Bool.or_eq_false_iff]
    rcases h with h | h
    · have := run_length a s t h; exact ⟨this.1, fun hn => this.2 hn.1⟩
    · have := run_length b s t h; exact ⟨this.1, fun hn => this.2 hn.2⟩
  | .star a, s, t, h => by
    simp only [Re.run] at h
    exact ⟨many_length _ _ _ h, by simp [Re.nullable]⟩

theorem consume_length {id : TokId} {s w r : Str} (h : consume (regex id) s = some (w, r)) : r.length < s.length := by
  simp only [consume, Option.map_eq_some_iff, Prod.mk.injEq] at h
  obtain ⟨t, ht, _, rfl⟩ := h
  have := run_length (regex id) s t (List.mem_of_mem_head? ht)
  exact this.2 (by cases id <;> rfl)

theorem dropWhile_length (p : Char → Bool) (s : Str) : (s.dropWhile p).length ≤ s.length := by
  induction s with
  | nil => simp
  | cons c s ih =>
    by_cases h : p c
    · rw [List.dropWhile_cons_of_pos h]; simp; omega
    · rw [List.dropWhile_cons_of_neg h]; omega

theorem skipWC_length (s : Str) : (skipWC s).length ≤ s.length := by
  have h1 : ∀ s : Str, (skipComments s).length ≤ s.length := by
    intro s
    unfold skipComments
    split
    · split
      · rename_i u _
        have := dropWhile_length (· ≠ '\n') ('#' :: u)
        simp only [List.length_drop]; omega
      · omega
    · omega
  have a := dropWhile_length isWs s
  have b := h1 (s.dropWhile isWs)
  have c := dropWhile_length isWs (skipComments (s.dropWhile isWs))
  show (List.dropWhile isWs (skipComments (s.dropWhile isWs))).length ≤ _
  omega

/-! ### Results -/

/-- The result of a function called in a state with `k` characters: it ends, without undefined behaviour, no characters
are added, and if it succeeds and `strict`, characters have been read. -/
def Good (strict : Bool) (k : Nat) (r : Res Bool) : Prop :=
  match r with
  | .ok b s => s.input.length ≤ k ∧ (strict = true → b = true → s.input.length < k)
  | .error _ => True
  | .abort => True
  | .ub => False
  | .diverge => False

/-- Like `Good`, for all states. -/
def Total (f : P) : Prop := ∀ s, Good true s.input.length (f s)

theorem Good.mono {a b : Bool} {k l : Nat} {r : Res Bool} (h : Good a k r) (hk : k ≤ l) (hab : b = true → a = true) :
    Good b l r := by
  cases r with
  | ok x s => exact ⟨by have := h.1; omega, fun hb hx => by have := h.2 (hab hb) hx; omega⟩
  | error s => trivial
  | abort => trivial
  | ub => exact h
  | diverge => exact h

theorem Good.bind {a : Bool} {k l : Nat} {b : Bool} {r : Res Bool} {f : Bool → State → Res Bool} (h : Good a k r)
    (hf : ∀ x s, s.input.length ≤ k → (a = true → x = true → s.input.length < k) → Good b l (f x s)) : Good b l (r.bind f) := by
  cases r with
  | ok x s => exact hf x s h.1 h.2
  | error s => trivial
  | abort => trivial
  | ub => exact h
  | diverge => exact h

theorem total_por {f g : P} (hf : Total f) (hg : Total g) : Total (por f g) := by
  intro s
  refine (hf s).bind fun x s' h1 h2 => ?_
  cases x with
  | true => exact ⟨h1, fun _ _ => h2 rfl rfl⟩
  | false => exact (hg s').mono h1 id

/-- `f() && g()` -/
theorem good_pand {f g : P} {s : State} {k : Nat} {b : Bool} (hf : Good true k (f s))
    (hg : ∀ s', s'.input.length < k → Good b k (g s')) : Good b k (pand f g s) := by
  refine hf.bind fun x s' h1 h2 => ?_
  cases x with
  | true => exact hg s' (h2 rfl rfl)
  | false => exact ⟨h1, fun _ h => by simp at h⟩

theorem total_pand {f g : P} (hf : Total f) (hg : Total g) : Total (pand f g) := fun s =>
  good_pand (hf s) fun s' h => (hg s').mono (by omega) id

theorem good_check {f : P} {s : State} {a : Bool} {k : Nat} (h : Good a k (f s)) : Good a k (check f s) := by
  refine h.bind fun x s' h1 h2 => ?_
  cases x with
  | true => exact ⟨h1, fun ha _ => h2 ha rfl⟩
  | false => trivial

theorem total_check {f : P} (hf : Total f) : Total (check f) := fun s => good_check (hf s)

theorem total_skip (id : TokId) : Total (skip id) := by
  intro s
  have hs := skipWC_length s.input
  simp only [skip]
  cases h : consume (regex id) (skipWC s.input) with
  | none => exact ⟨hs, fun _ h => by simp at h⟩
  | some x =>
    obtain ⟨w, r⟩ := x
    have := consume_length h
    exact ⟨by simp only; omega, fun _ _ => by simp only; omega⟩

theorem total_term (ws : Bool) (id : TokId) : Total (parseTerminalWs ws id) := by
  intro s
  have hs := skipWC_length s.input
  have hs' : (if ws = true then skipWC s.input else s.input).length ≤ s.input.length := by split <;> omega
  simp only [parseTerminalWs]
  cases h : consume (regex id) (if ws = true then skipWC s.input else s.input) with
  | none => exact ⟨hs', fun _ h => by simp at h⟩
  | some x =>
    obtain ⟨w, r⟩ := x
    have := consume_length h
    exact ⟨by simp only; omega, fun _ _ => by simp only; omega⟩

/-- The result is post-processed. -/
theorem Total.post {f : P} (hf : Total f) {g : Bool → State → Res Bool}
    (hg : ∀ x s k, s.input.length ≤ k → (x = true → s.input.length < k) → Good true k (g x s)) :
    Total fun s => (f s).bind g := by
  intro s
  exact (hf s).bind fun x s' h1 h2 => hg x s' _ h1 (h2 rfl)

theorem total_set {f : P} (hf : Total f) {g : State → State} (hg : ∀ s, (g s).input = s.input) :
    Total fun s => (f s).bind fun b s => if b then .ok true (g s) else .ok false s := by
  refine hf.post fun x s k h1 h2 => ?_
  cases x with
  | true => exact ⟨by rw [hg]; exact h1, fun _ _ => by rw [hg]; exact h2 rfl⟩
  | false => exact ⟨h1, fun _ h => by simp at h⟩

/-! ### The functions for escapes -/

/-- ends, without undefined behaviour -/
def Safe (o : Outcome Str) : Prop := o ≠ .ub ∧ o ≠ .diverge

theorem safe_map {o : Outcome Str} {f : Str → Str} (h : Safe o) : Safe (o.map f) := by
  cases o with
  | ok a => exact ⟨by simp, by simp⟩
  | throw => exact ⟨by simp, by simp⟩
  | ub => exact absurd rfl h.1
  | diverge => exact absurd rfl h.2

theorem safe_throw : Safe .throw := ⟨by simp, by simp⟩

theorem safe_ite {p : Prop} [Decidable p] {a b : Outcome Str} (ha : Safe a) (hb : Safe b) : Safe (if p then a else b) := by
  split
  · exact ha
  · exact hb

theorem safe_unescape (m : Mode) (hex : Str → Str) : ∀ (n : Nat) (s : Str), s.length ≤ n → Safe (unescapeGen m hex s) := by
  intro n
  induction n with
  | zero =>
    intro s h
    have : s = [] := List.eq_nil_of_length_eq_zero (by omega)
    subst this
    rw [unescapeGen.eq_def]
    exact ⟨by simp, by simp⟩
  | succ n ih =>
    intro s h
    rw [unescapeGen.eq_def]
    cases s with
    | nil => exact ⟨by simp, by simp⟩
    | cons c cs =>
      simp only [List.length_cons] at h
      by_cases hc : c ≠ '\\'
      · simp only [hc, if_true, ne_eq, not_false_eq_true]
        exact safe_map (ih cs (by omega))
      · simp only [hc, if_false]
        cases cs with
        | nil => exact safe_throw
        | cons e rest =>
          simp only [List.length_cons] at h
          have hp : ∀ (ok : Bool) (x : Char), Safe (if ok = true then (unescapeGen m hex rest).map (x :: ·) else .throw) := by
            intro ok x
            split
            · exact safe_map (ih rest (by omega))
            · exact safe_throw
          have hn : ∀ len : Nat, Safe (if m.numericOk = true then
              if len < rest.length then (unescapeGen m hex (rest.drop len)).map (hex (rest.take len) ++ ·) else .throw
              else .throw) := by
            intro len
            split
            · split
              · exact safe_map (ih _ (by rw [List.length_drop]; omega))
              · exact safe_throw
            · exact safe_throw
          dsimp only
          exact safe_ite (hp _ _) (safe_ite (hp _ _) (safe_ite (hp _ _) (safe_ite (hp _ _) (safe_ite (hp _ _)
            (safe_ite (hp _ _) (safe_ite (hp _ _) (safe_ite (hp _ _) (safe_ite (hn 4) (safe_ite (hn 8) safe_throw)))))))))

theorem safe_prefixed (n : Nat) : ∀ s : Str, s.length ≤ n → Safe (unescapePrefixedIri s) := by
  induction n with
  | zero =>
    intro s h
    have : s = [] := List.eq_nil_of_length_eq_zero (by omega)
    subst this
    rw [unescapePrefixedIri.eq_def]
    exact ⟨by simp, by simp⟩
  | succ n ih =>
    intro s h
    rw [unescapePrefixedIri.eq_def]
    cases s with
    | nil => exact ⟨by simp, by simp⟩
    | cons c cs =>
      simp only [List.length_cons] at h
      by_cases hc : c ≠ '\\'
      · simp only [hc, if_true, ne_eq, not_false_eq_true]
        exact safe_map (ih cs (by omega))
      · simp only [hc, if_false]
        cases cs with
        | nil => exact safe_throw
        | cons e rest =>
          simp only [List.length_cons] at h
          dsimp only
          split
          · exact safe_map (ih rest (by omega))
          · exact safe_throw

theorem safe_removeBoth {n : Nat} {s : Str} (h : n + n ≤ s.length) {f : Str → Outcome Str} (hf : ∀ t, Safe (f t)) :
    Safe ((removeBoth n s).bind f) := by
  rw [removeBoth, if_pos h]
  exact hf _

theorem safe_iriref (hex : Str → Str) (s : Str) : Safe (unescapeIriref hex s) := by
  unfold unescapeIriref
  by_cases h1 : startsWith s ['<'] = true
  · rw [if_pos h1]
    by_cases h2 : endsWith s ['>'] = true
    · rw [if_pos h2]
      refine safe_removeBoth ?_ fun t => safe_map (safe_unescape _ _ _ t (Nat.le_refl _))
      simp only [startsWith, endsWith, List.isPrefixOf_iff_prefix, List.isSuffixOf_iff_suffix] at h1 h2
      obtain ⟨t, rfl⟩ := h1
      obtain ⟨u, hu⟩ := h2
      cases t with
      | nil =>
        cases u with
        | nil => simp at hu
        | cons c u => simp at hu
      | cons c t => simp
    · rw [if_neg h2]; exact safe_throw
  · rw [if_neg h1]; exact safe_throw

theorem safe_normalize (hex : Str → Str) (s : Str)
    (h : s.length ≥ 6 ∨ (s.length ≥ 2 ∧ startsWith s ['"', '"', '"'] = false ∧ startsWith s ['\'', '\'', '\''] = false)) :
    Safe (normalizeRDFLiteral hex s) := by
  have hu : ∀ t, Safe ((unescapeGen ⟨false, false⟩ hex t).map fun r => ['"'] ++ r ++ ['"']) := fun t =>
    safe_map (safe_unescape _ _ _ t (Nat.le_refl _))
  unfold normalizeRDFLiteral
  simp only
  by_cases h1 : (startsWith s ['"', '"', '"'] || startsWith s ['\'', '\'', '\'']) = true
  · rw [if_pos h1]
    have h6 : s.length ≥ 6 := by
      rcases h with h | ⟨_, ha, hb⟩
      · exact h
      · rw [ha, hb] at h1; simp at h1
    split
    · exact safe_removeBoth (by omega) hu
    · exact safe_throw
  · rw [if_neg h1]
    have h2 : s.length ≥ 2 := by omega
    split
    · split
      · exact safe_removeBoth (by omega) hu
      · exact safe_throw
    · exact safe_throw

/-! ### Strings -/

theorem find_some {q v : Str} : ∀ (n pos p : Nat), find q v n pos = some p → pos ≤ p ∧ q.isPrefixOf (v.drop p) = true := by
  intro n
  induction n with
  | zero => intro pos p h; simp [find] at h
  | succ n ih =>
    intro pos p h
    rw [find] at h
    split at h
    · simp at h; subst h; exact ⟨Nat.le_refl _, by assumption⟩
    · have := ih _ _ h; exact ⟨by omega, this.2⟩

theorem closing_some {q v : Str} : ∀ (n : Nat) (o : Option Nat) (p lo : Nat), (∀ x, o = some x → lo ≤ x ∧ q.isPrefixOf (v.drop x) = true) →
    closing q v n o = some p → lo ≤ p ∧ q.isPrefixOf (v.drop p) = true := by
  intro n
  induction n with
  | zero => intro o p lo _ h; simp [closing] at h
  | succ n ih =>
    intro o p lo ho h
    cases o with
    | none => simp [closing] at h
    | some x =>
      rw [closing] at h
      have hx := ho x rfl
      split at h
      · simp at h; subst h; exact hx
      · refine ih _ p lo ?_ h
        intro y hy
        have := find_some _ _ _ hy
        exact ⟨by omega, this.2⟩

/-- What `stringParse` returns. -/
theorem stringParse_good (hex : Str → Str) (s : State) :
    match stringParse s with
    | .ok true s' => s'.input.length < s.input.length ∧ Safe (normalizeRDFLiteral hex s'.last)
    | .ok false s' => s' = s
    | .error _ => True
    | _ => False := by
  unfold stringParse
  cases hq : quoteOf s.input with
  | none => rfl
  | some q =>
    simp only
    cases hc : closing q s.input (s.input.length + 1) (find q s.input (s.input.length + 1 - q.length) q.length) with
    | none => trivial
    | some pos =>
      simp only
      have h1 := closing_some _ _ pos q.length (fun x hx => find_some _ _ _ hx) hc
      have hlen : q.length ≤ (s.input.drop pos).length := by
        have := List.isPrefixOf_iff_prefix.mp h1.2
        exact this.length_le
      simp only [List.length_drop] at hlen ⊢
      have hq1 : q.length ≥ 1 := by
        have := List.mem_of_find?_eq_some hq
        simp only [List.mem_cons, List.not_mem_nil, or_false] at this
        rcases this with rfl | rfl | rfl | rfl <;> simp
      refine ⟨by omega, safe_normalize hex _ ?_⟩
      simp only [List.length_take]
      simp only [quoteOf, List.find?_cons] at hq
      split at hq
      · simp at hq; subst hq
        left
        have := h1.1; simp only [List.length_cons, List.length_nil] at *; omega
      · split at hq
        · simp at hq; subst hq
          left
          have := h1.1; simp only [List.length_cons, List.length_nil] at *; omega
        · right
          rename_i hn1 _ hn2
          have key : ∀ p : Str, p.isPrefixOf s.input = false → ∀ k, startsWith (s.input.take k) p = false := by
            intro p hp k
            rw [startsWith, Bool.eq_false_iff]
            intro hpre
            have h := List.isPrefixOf_iff_prefix.mp hpre
            have := List.isPrefixOf_iff_prefix.mpr (h.trans (List.take_prefix _ _))
            rw [hp] at this; simp at this
          refine ⟨?_, key _ (by simpa using hn1) _, key _ (by simpa using hn2) _⟩
          have := h1.1
          omega

/-! ### The functions of the parser -/

variable {hex : Str → Str}

theorem good_lift {o : Outcome Str} {f : Str → Res Bool} {k : Nat} {b : Bool} (ho : Safe o) (hf : ∀ v, Good b k (f v)) :
    Good b k (lift o f) := by
  cases o with
  | ok v => exact hf v
  | throw => trivial
  | ub => exact absurd rfl ho.1
  | diverge => exact absurd rfl ho.2

theorem total_pnameNS : Total pnameNS := total_set (total_term true .pnameNS) fun _ => rfl
theorem total_anon : Total anon := total_set (total_term true .anon) fun _ => rfl
theorem total_blankNode : Total blankNode := total_por (total_term true _) total_anon

theorem total_iriref : Total (iriref (escapes hex)) := by
  refine (total_term true .iriref).post fun x s k h1 h2 => ?_
  cases x with
  | true => exact good_lift (safe_iriref hex _) fun v => ⟨h1, fun _ _ => h2 rfl⟩
  | false => exact ⟨h1, fun _ h => by simp at h⟩

theorem total_prefixedName : Total (prefixedName (escapes hex)) := by
  refine total_pnameNS.post fun x s k h1 h2 => ?_
  cases x with
  | true =>
    refine (total_term false .pnLocal s).bind fun y s' h3 h4 => ?_
    have := h2 rfl
    split
    · trivial
    · exact good_lift (safe_prefixed _ _ (Nat.le_refl _)) fun v => ⟨by simp only; omega, fun _ _ => by simp only; omega⟩
  | false => exact ⟨h1, fun _ h => by simp at h⟩

theorem total_iri : Total (iri (escapes hex)) := total_por total_iriref total_prefixedName

theorem total_rdfLiteral : Total (rdfLiteral (escapes hex)) := by
  intro s
  have h := stringParse_good hex s
  unfold rdfLiteral
  cases hs : stringParse s with
  | ok b s' =>
    rw [hs] at h
    cases b with
    | true =>
      simp only at h
      simp only [Res.bind, if_true]
      refine good_lift h.2 fun v => ?_
      refine (total_term true .langtag { s' with last := v }).bind fun x s1 h1 h2 => ?_
      have h1 : s1.input.length ≤ s'.input.length := h1
      cases x with
      | true => exact ⟨by simp only; omega, fun _ _ => by simp only; omega⟩
      | false =>
        refine (total_pand (total_skip .doubleCircumflex) (total_check total_iri) s1).bind fun y s2 h3 h4 => ?_
        cases y with
        | true => exact ⟨by simp only; omega, fun _ _ => by simp only; omega⟩
        | false => exact ⟨by omega, fun _ _ => by omega⟩
    | false =>
      simp only at h
      subst h
      exact ⟨Nat.le_refl _, fun _ h => by simp at h⟩
  | error s' => trivial
  | abort => rw [hs] at h; exact h.elim
  | ub => rw [hs] at h; exact h.elim
  | diverge => rw [hs] at h; exact h.elim

theorem total_literal : Total (literal (escapes hex)) :=
  total_por total_rdfLiteral (total_por
    (total_por (total_term true _) (total_por (total_term true _) (total_term true _)))
    (total_por (total_term true _) (total_term true _)))

theorem total_collection : Total collection := by
  refine (total_skip .openRound).post fun x s k h1 h2 => ?_
  cases x with
  | true => trivial
  | false => exact ⟨h1, fun _ h => by simp at h⟩

theorem total_verb : Total (verb (escapes hex)) := by
  refine total_por ?_ (total_set total_iri fun _ => rfl)
  intro s
  have hs := skipWC_length s.input
  simp only [predicateSpecialA]
  cases h : consume (regex .a) (skipWC s.input) with
  | none => exact ⟨hs, fun _ h => by simp at h⟩
  | some x =>
    obtain ⟨w, r⟩ := x
    have := consume_length h
    exact ⟨by simp only; omega, fun _ _ => by simp only; omega⟩

theorem total_subject : Total (subject (escapes hex)) :=
  total_set (total_por total_blankNode (total_por total_iri total_collection)) fun _ => rfl

/-- The depth of the calls of a function on the same text. -/
def Task.rank : Task → Nat
  | .objectList => 3
  | .object => 2
  | _ => 1

/-- The function has read something when it succeeds. -/
def Task.strict : Task → Bool
  | .semicolons => false
  | .commas => false
  | _ => true

theorem Good.strict {a b : Bool} {k l : Nat} {r : Res Bool} (h : Good a k r) (hk : k < l) : Good b l r := by
  cases r with
  | ok x s => exact ⟨by have := h.1; omega, fun _ _ => by have := h.1; omega⟩
  | error s => trivial
  | abort => trivial
  | ub => exact h
  | diverge => exact h

theorem run_good : ∀ (fuel : Nat) (t : Task) (s : State), 3 * s.input.length + t.rank ≤ fuel →
    Good t.strict s.input.length (run (escapes hex) fuel t s) := by
  intro fuel
  induction fuel with
  | zero => intro t s h; cases t <;> simp [Task.rank] at h
  | succ n ih =>
    intro t s h
    rw [run]
    cases t with
    | predicateObjectList =>
      simp only [Task.rank] at h
      refine good_pand (total_verb s) fun s1 h1 => ?_
      refine Good.mono (k := s1.input.length) (a := true) ?_ (by omega) id
      refine good_pand (good_check (ih .objectList s1 (by simp only [Task.rank]; omega))) fun s2 h2 => ?_
      exact (ih .semicolons s2 (by simp only [Task.rank]; omega)).strict h2
    | semicolons =>
      simp only [Task.rank] at h
      refine (total_skip .semicolon s).bind fun x s1 h1 h2 => ?_
      cases x with
      | false => exact ⟨h1, by simp [Task.strict]⟩
      | true =>
        have h2 := h2 rfl rfl
        have h3 : Good true s1.input.length
            (pand (verb (escapes hex)) (check (run (escapes hex) n .objectList)) s1) :=
          good_pand (total_verb s1) fun s2 h3 =>
            (good_check (ih .objectList s2 (by simp only [Task.rank]; omega))).mono (by omega) fun _ => rfl
        refine h3.bind fun y s2 h4 _ => ?_
        exact (ih .semicolons s2 (by simp only [Task.rank]; omega)).strict (by omega)
    | objectList =>
      simp only [Task.rank] at h
      refine good_pand (ih .object s (by simp only [Task.rank]; omega)) fun s1 h1 => ?_
      exact (ih .commas s1 (by simp only [Task.rank]; omega)).strict h1
    | commas =>
      simp only [Task.rank] at h
      have h3 : Good true s.input.length (pand (skip .comma) (check (run (escapes hex) n .object)) s) :=
        good_pand (total_skip .comma s) fun s2 h3 =>
          (good_check (ih .object s2 (by simp only [Task.rank]; omega))).mono (by omega) fun _ => rfl
      refine h3.bind fun x s1 h1 h2 => ?_
      cases x with
      | false => exact ⟨h1, by simp [Task.strict]⟩
      | true => exact (ih .commas s1 (by have := h2 rfl rfl; simp only [Task.rank]; omega)).strict (h2 rfl rfl)
    | object =>
      simp only [Task.rank] at h
      refine (total_por total_blankNode (total_por total_literal total_iri) s).bind fun x s1 h1 h2 => ?_
      cases x with
      | true => exact ⟨h1, fun _ _ => h2 rfl rfl⟩
      | false =>
        simp only [Bool.false_eq_true, if_false]
        refine (total_collection s1).bind fun y s2 h3 h4 => ?_
        cases y with
        | true => exact ⟨by omega, fun _ _ => by have := h4 rfl rfl; omega⟩
        | false =>
          exact (ih .blankNodePropertyList s2 (by simp only [Task.rank]; omega)).mono (by omega) fun _ => rfl
    | blankNodePropertyList =>
      simp only [Task.rank] at h
      refine (total_skip .openSquared s).bind fun x s1 h1 h2 => ?_
      cases x with
      | false => exact ⟨h1, fun _ h => by simp at h⟩
      | true =>
        have h2 := h2 rfl rfl
        simp only [if_true]
        refine (good_check (ih .predicateObjectList _ ?_)).bind fun y s2 h3 _ => ?_
        · simp only [Task.rank, emitTriple]; omega
        · have h3 : s2.input.length ≤ s1.input.length := h3
          refine (total_check (total_skip .closeSquared) s2).bind fun z s3 h4 _ => ?_
          exact ⟨by simp only; omega, fun _ _ => by simp only; omega⟩

theorem triples_good {fuel : Nat} (s : State) (h : 3 * s.input.length + 1 ≤ fuel) :
    Good true s.input.length (triples (escapes hex) fuel s) := by
  refine (total_subject s).bind fun x s1 h1 h2 => ?_
  cases x with
  | true =>
    refine (run_good fuel .predicateObjectList s1 (by simp only [Task.rank]; omega)).bind fun y s2 h3 h4 => ?_
    have := h2 rfl rfl
    cases y with
    | true => exact ⟨by omega, fun _ _ => by omega⟩
    | false => trivial
  | false =>
    refine (run_good fuel .blankNodePropertyList s1 (by simp only [Task.rank]; omega)).bind fun y s2 h3 h4 => ?_
    cases y with
    | true =>
      have := h4 rfl rfl
      refine (run_good fuel .predicateObjectList s2 (by simp only [Task.rank]; omega)).bind fun z s3 h5 h6 => ?_
      exact ⟨by omega, fun _ _ => by omega⟩
    | false => exact ⟨by omega, fun _ h => by simp at h⟩

theorem safe_stripBrackets (w : Str) : Safe (stripBrackets w) := by
  unfold stripBrackets
  split
  · exact safe_throw
  · exact ⟨by simp, by simp⟩

theorem total_directive : Total (directive (escapes hex)) := by
  have hb : ∀ id, Total (baseDirective (escapes hex) id) := by
    intro id
    refine (total_skip id).post fun x s k h1 h2 => ?_
    cases x with
    | true =>
      refine (total_iriref s).bind fun y s1 h3 h4 => ?_
      have := h2 rfl
      cases y with
      | true => exact ⟨by simp only; omega, fun _ _ => by simp only; omega⟩
      | false => trivial
    | false => exact ⟨h1, fun _ h => by simp at h⟩
  refine total_por ?_ (total_por (hb _) (total_por ?_ (hb _)))
  · refine (total_skip .turtlePrefix).post fun x s k h1 h2 => ?_
    cases x with
    | true =>
      refine (total_pand (total_check total_pnameNS) (total_pand (total_check total_iriref)
        (total_check (total_skip .dot))) s).bind fun y s1 h3 h4 => ?_
      have := h2 rfl
      cases y with
      | true => exact good_lift (safe_stripBrackets _) fun v => ⟨by simp only; omega, fun _ _ => by simp only; omega⟩
      | false => trivial
    | false => exact ⟨h1, fun _ h => by simp at h⟩
  · refine (total_skip .sparqlPrefix).post fun x s k h1 h2 => ?_
    cases x with
    | true =>
      refine (total_pand total_pnameNS total_iriref s).bind fun y s1 h3 h4 => ?_
      have := h2 rfl
      cases y with
      | true => exact ⟨by simp only; omega, fun _ _ => by simp only; omega⟩
      | false => trivial
    | false => exact ⟨h1, fun _ h => by simp at h⟩

theorem statement_good {fuel : Nat} (s : State) (h : 3 * s.input.length + 1 ≤ fuel) :
    Good true s.input.length (statement (escapes hex) fuel s) := by
  have hs := skipWC_length s.input
  refine Good.mono (k := (skipWC s.input).length) (a := true) ?_ hs id
  refine Good.bind (total_directive { s with input := skipWC s.input }) fun x s1 h1 h2 => ?_
  have h1 : s1.input.length ≤ (skipWC s.input).length := h1
  cases x with
  | true => exact ⟨h1, fun _ _ => h2 rfl rfl⟩
  | false =>
    refine Good.mono (k := s1.input.length) (a := true) ?_ h1 id
    exact good_pand (triples_good s1 (by omega)) fun s2 h3 => (total_skip .dot s2).mono (by omega) id

/-- The parser ends, without undefined behaviour. -/
theorem turtleDoc_safe : ∀ (n fuel : Nat) (s : State), 3 * s.input.length + 1 ≤ fuel → s.input.length < n →
    turtleDoc (escapes hex) fuel n s ≠ .ub ∧ turtleDoc (escapes hex) fuel n s ≠ .diverge := by
  intro n
  induction n with
  | zero => intro fuel s _ h; omega
  | succ n ih =>
    intro fuel s hf hn
    have h := statement_good (hex := hex) s hf
    rw [turtleDoc]
    cases hs : statement (escapes hex) fuel s with
    | ok b s' =>
      rw [hs] at h
      cases b with
      | true =>
        have := h.2 rfl rfl
        simp only [Res.bind, if_true]
        exact ih fuel s' (by omega) (by omega)
      | false => simp [Res.bind]
    | error s' => simp [Res.bind]
    | abort => simp [Res.bind]
    | ub => rw [hs] at h; exact absurd h id
    | diverge => rw [hs] at h; exact absurd h id

end Verif.Turtle
