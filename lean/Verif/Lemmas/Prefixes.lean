import Verif.Model.Prefixes
import Verif.Spec.Prefixes
import Verif.Lemmas.SparqlParser
import Verif.Lemmas.TurtleParse
/-
Lemmas for C69.
-/
namespace Verif.Prefixes
open Verif.SparqlParser (Triple FilterType Filter BindExpr Info Op Pattern Query)
open Verif.PropertyPath (Path)
open Verif.SparqlSpec (Str Prefix IriText Suffix)
open Verif.TurtleSpec (Local nameStart nameChar digit)
open Verif.PrefixSpec

/-! ### Characters -/

theorem nameChar_ne {c d : Char} (h : nameChar c = true) (hd : d ∈ [':', '^', '?', '<', '@', '"', '\\', ' ']) : c ≠ d := by
  rintro rfl
  have : ∀ d ∈ [':', '^', '?', '<', '@', '"', '\\', ' '], nameChar d = false := by decide
  rw [this _ hd] at h
  cases h

theorem nameStart_char {c : Char} (h : nameStart c = true) : nameChar c = true := by simp [nameChar, h]

theorem prefix_ne {p : Str} (hp : Prefix p) {d : Char} (hd : d ∈ [':', '^', '?', '<', '@', '"', '\\', ' ']) : d ∉ p := by
  intro hm
  rcases hp with rfl | ⟨c, s, rfl, hc, hs, _⟩
  · cases hm
  · rcases List.mem_cons.1 hm with rfl | hm
    · exact nameChar_ne (nameStart_char hc) hd rfl
    · have := hs d hm
      rw [Bool.or_eq_true] at this
      rcases this with h | h
      · exact nameChar_ne h hd rfl
      · revert hd; rw [beq_iff_eq] at h; subst h; decide

theorem plx_caret {p v : Str} (h : TurtleSpec.Plx p v) : '^' ∉ p := by
  cases h with
  | @percent a b ha hb =>
    have : ∀ x, TurtleSpec.hexDigit x = true → '^' ≠ x := by rintro x hx rfl; revert hx; decide
    simp [this a ha, this b hb]
  | @escaped c hc =>
    have : '^' ≠ c := by rintro rfl; revert hc; decide
    simp [this]

theorem localTail_caret {l v : Str} (h : TurtleSpec.LocalTail l v) : '^' ∉ l := by
  induction h with
  | nil => simp
  | @chr n c s v hc _ ih =>
    have : '^' ≠ c := by
      rcases hc with hc | rfl
      · exact (nameChar_ne hc (by decide)).symm
      · decide
    simp [ih, this]
  | plx hp _ ih => simp [ih, plx_caret hp]

theorem local_caret {l v : Str} (h : Local l v) : '^' ∉ l := by
  cases h with
  | nil => simp
  | @chr c s v hc hl =>
    have : '^' ≠ c := by
      rcases hc with hc | rfl | rfl | hc
      · exact (nameChar_ne (nameStart_char hc) (by decide)).symm
      · decide
      · decide
      · rintro rfl; revert hc; decide
    simp [localTail_caret hl, this]
  | plx hp hl => simp [localTail_caret hl, plx_caret hp]

theorem iri_ne {t : Str} (h : IriText t) {d : Char} (hd : d ∈ ['^', '\\', '"', '<', ' ']) : d ∉ t := by
  intro hm
  have := (h d hm).1
  have h2 : ∀ d ∈ ['^', '\\', '"', '<', ' '], TurtleSpec.iriChar d = false := by decide
  rw [h2 d hd] at this
  cases this

/-! ### Unescaping -/

theorem unescape_app {a s v : Str} (ha : '\\' ∉ a) (h : RdfEscaping.unescapePrefixedIri s = .ok v) :
    RdfEscaping.unescapePrefixedIri (a ++ s) = .ok (a ++ v) := by
  induction a with
  | nil => exact h
  | cons c a ih =>
    rw [List.mem_cons, not_or] at ha
    rw [List.cons_append, Turtle.unescape_plain _ _ (Ne.symm ha.1), ih ha.2]
    rfl

theorem unescape_local {l v : Str} (h : Local l v) : RdfEscaping.unescapePrefixedIri (l ++ ['>']) = .ok (v ++ ['>']) := by
  have hd : ∀ (n : Nat) {s v : Str}, RdfEscaping.unescapePrefixedIri s = .ok v →
      RdfEscaping.unescapePrefixedIri (List.replicate n '.' ++ s) = .ok (List.replicate n '.' ++ v) := fun n _ _ => Turtle.unescape_dots n _ _
  have ht : ∀ {l v : Str}, TurtleSpec.LocalTail l v → RdfEscaping.unescapePrefixedIri (l ++ ['>']) = .ok (v ++ ['>']) := by
    intro l v h
    induction h with
    | nil => rfl
    | @chr n c s v hc _ ih =>
      rw [List.append_assoc, List.append_assoc]
      apply hd
      have : c ≠ '\\' := by
        rcases hc with hc | rfl
        · exact nameChar_ne hc (by decide)
        · decide
      rw [List.cons_append, Turtle.unescape_plain _ _ this, ih]
      rfl
    | plx hp _ ih =>
      simp only [List.append_assoc]
      apply hd
      exact Turtle.unescape_plx hp ih
  cases h with
  | nil => rfl
  | @chr c s v hc hl =>
    have : c ≠ '\\' := by
      rcases hc with hc | rfl | rfl | hc
      · exact nameChar_ne (nameStart_char hc) (by decide)
      · decide
      · decide
      · rintro rfl; revert hc; decide
    rw [List.cons_append, Turtle.unescape_plain _ _ this, ht hl]
    rfl
  | plx hp hl =>
    rw [List.append_assoc, List.append_assoc]
    exact Turtle.unescape_plx hp (ht hl)

/-! ### The map of prefixes -/

theorem lookup_declared {ps : List (Str × Str)} {p u : Str} (h : Declared ps p u) : prefixMap ps p = some ('<' :: u ++ ['>']) := by
  have hn : ∀ l : List (Str × Str), p ∉ l.map Prod.fst → l.reverse.lookup p = none := by
    intro l hl
    rw [List.lookup_eq_none_iff]
    intro x hx
    rw [bne_iff_ne]
    rintro rfl
    exact hl (List.mem_map_of_mem (List.mem_reverse.1 hx))
  unfold prefixMap
  rcases h with ⟨a, b, rfl, hb⟩ | ⟨h1, rfl, rfl⟩
  · rw [← List.cons_append, List.reverse_append, List.reverse_cons, List.append_assoc, List.lookup_append, hn b hb]
    simp
  · rw [List.reverse_cons, List.lookup_append, hn ps h1]
    decide

theorem lookup_prefix {ps : List (Str × Str)} (hps : PrefixesOk ps) {c : Char} {s : Str} (hc : c ∈ [':', '^', '?', '<', '@', '"', '\\', ' ']) :
    prefixMap ps (c :: s) = none := by
  cases h : prefixMap ps (c :: s) with
  | none => rfl
  | some u =>
    exfalso
    unfold prefixMap at h
    obtain ⟨l1, l2, h, _⟩ := List.lookup_eq_some_iff.1 h
    have hm : (c :: s, u) ∈ (("ql".toList, "<QLever-internal-function/>".toList) :: ps) := by
      rw [← List.mem_reverse, h]
      simp
    rcases List.mem_cons.1 hm with h | hm
    · have : c = 'q' := by
        have := congrArg (fun x => x.1.head?) h
        simpa using this
      subst this
      revert hc
      decide
    · exact prefix_ne (hps _ hm).1 hc (by simp)

theorem declared_uri {ps : List (Str × Str)} (hps : PrefixesOk ps) {p u : Str} (h : Declared ps p u) : '\\' ∉ u := by
  rcases h with ⟨a, b, rfl, hb⟩ | ⟨h1, rfl, rfl⟩
  · obtain ⟨_, u', hu, ht⟩ := hps (p, '<' :: u ++ ['>']) (by simp)
    have : u = u' := by simpa using hu
    subst this
    exact iri_ne ht (by decide)
  · decide

/-! ### Items -/

theorem find_none {s : Str} (h : ¬ Carets s) : behindCarets.find s = none := by
  induction s with
  | nil => rfl
  | cons c s ih =>
    have ih := ih fun ⟨a, b, e⟩ => h ⟨c :: a, b, by rw [e]; rfl⟩
    rw [behindCarets.find.eq_def]
    split
    · rename_i t he
      exact absurd ⟨[], t, he⟩ h
    · rfl
    · rename_i he
      cases he
      rw [ih]
      rfl

theorem carets_none {s : Str} (h : '^' ∉ s) : ¬ Carets s := by
  rintro ⟨a, b, rfl⟩
  exact h (by simp)

theorem find_app {a : Str} (h : ¬ Carets a) (s : Str) : behindCarets.find (a ++ '"' :: s) = (behindCarets.find s).map (· + (a.length + 1)) := by
  have hq : behindCarets.find ('"' :: s) = (behindCarets.find s).map (· + 1) := by
    rw [behindCarets.find.eq_def]
    split
    · rename_i he; cases he
    · rename_i he; cases he
    · rename_i he; cases he; rfl
  induction a with
  | nil => exact hq
  | cons c a ih =>
    have ih := ih fun ⟨x, y, e⟩ => h ⟨c :: x, y, by rw [e]; rfl⟩
    have hs : behindCarets.find (c :: (a ++ '"' :: s)) = (behindCarets.find (a ++ '"' :: s)).map (· + 1) := by
      rw [behindCarets.find.eq_def]
      split
      · rename_i t he
        cases a with
        | nil => cases he
        | cons d a => cases he; exact absurd ⟨[], a, rfl⟩ h
      · rename_i he; cases he
      · rename_i he; cases he; rfl
    rw [List.cons_append, hs, ih, Option.map_map]
    rfl

theorem idxOf_colon {a : Str} (h : ':' ∉ a) (s : Str) : (a ++ ':' :: s).idxOf? ':' = some a.length := by
  induction a with
  | nil => rfl
  | cons c a ih =>
    rw [List.mem_cons, not_or] at h
    rw [List.cons_append, List.idxOf?_cons, if_neg (by simpa using Ne.symm h.1), ih h.2]
    rfl

variable {ps : List (Str × Str)}

/-- A prefixed name behind `a`. -/
theorem expand_name (hps : PrefixesOk ps) {a p l v u : Str} (ha : behindCarets (a ++ (p ++ ':' :: l)) = a.length) (h1 : ':' ∉ a) (h2 : '\\' ∉ a)
    (hp : Prefix p) (hl : Local l v) (hu : Declared ps p u) :
    expandPlain (prefixMap ps) (a ++ (p ++ ':' :: l)) = .ok (a ++ ('<' :: u ++ v ++ ['>'])) := by
  have hi : (a ++ (p ++ ':' :: l)).idxOf? ':' = some (a.length + p.length) := by
    rw [← List.append_assoc, idxOf_colon, List.length_append]
    rw [List.mem_append, not_or]
    exact ⟨h1, prefix_ne hp (by decide)⟩
  have e1 : (((a ++ (p ++ ':' :: l)).drop a.length).take (a.length + p.length - a.length)) = p := by
    rw [List.drop_left, Nat.add_sub_cancel_left, List.take_left]
  have e2 : (a ++ (p ++ ':' :: l)).drop (a.length + p.length + 1) = l := by
    rw [← List.append_assoc, Nat.add_assoc, ← List.drop_drop, List.append_assoc, List.drop_left, ← List.drop_drop, List.drop_left]
    rfl
  have e3 : (a ++ (p ++ ':' :: l)).take a.length = a := List.take_left
  have e4 : ('<' :: u ++ ['>']).dropLast = '<' :: u := List.dropLast_concat
  unfold expandPlain
  simp only [hi, ha]
  rw [if_neg (by omega), e1, lookup_declared hu]
  simp only [e2, e3, e4]
  rw [List.append_assoc, List.append_assoc]
  refine unescape_app h2 ?_
  have := unescape_app (a := '<' :: u) (s := l ++ ['>']) (by simpa using declared_uri hps hu) (unescape_local hl)
  simpa using this

/-- A text in which no prefix can begin where the code looks for it. -/
theorem expand_same (hps : PrefixesOk ps) {s : Str} {c : Char} (hc : c ∈ ['^', '?', '<', '@', '"', '\\', ' '])
    (h : s[behindCarets s]? = some c) : expandPlain (prefixMap ps) s = .ok s := by
  unfold expandPlain
  cases hi : s.idxOf? ':' with
  | none => rfl
  | some i =>
    simp only
    by_cases h1 : i < behindCarets s
    · rw [if_pos h1]
    · rw [if_neg h1]
      have hsi : s[i]? = some ':' := by
        rw [List.idxOf?, List.findIdx?_eq_some_iff_getElem] at hi
        obtain ⟨h, h2, _⟩ := hi
        rw [List.getElem?_eq_getElem h]
        simpa using h2
      have hne : i ≠ behindCarets s := by
        intro he
        rw [he, h] at hsi
        cases hsi
        revert hc
        decide
      have hd : ∃ t, (s.drop (behindCarets s)).take (i - behindCarets s) = c :: t := by
        have hlt : behindCarets s < s.length := by
          rcases Nat.lt_or_ge (behindCarets s) s.length with h' | h'
          · exact h'
          · rw [List.getElem?_eq_none h'] at h; cases h
        rw [List.drop_eq_getElem_cons hlt, show i - behindCarets s = (i - behindCarets s - 1) + 1 by omega, List.take_succ_cons]
        rw [List.getElem?_eq_getElem hlt] at h
        exact ⟨_, by rw [Option.some.inj h]⟩
      obtain ⟨t, ht⟩ := hd
      rw [ht, lookup_prefix hps (List.mem_cons_of_mem _ hc)]

theorem expand_colon {pm : Str → Option Str} {s : Str} (h : ':' ∉ s) : expandPlain pm s = .ok s := by
  unfold expandPlain
  rw [show s.idxOf? ':' = none by rwa [List.idxOf?_eq_none_iff]]

theorem item_plain {pm : Str → Option Str} {s : Str} (h : ∀ c ∈ ['?', '<', '@'], s.head? ≠ some c) : expandItem pm s = expandPlain pm s := by
  unfold expandItem
  split
  · exact absurd rfl (h '?' (by decide))
  · exact absurd rfl (h '<' (by decide))
  · exact absurd rfl (h '@' (by decide))
  · rfl

theorem item_tagged {pm : Str → Option Str} {tag s : Str} (h : '@' ∉ tag) :
    expandItem pm ('@' :: tag ++ '@' :: s) = (expandPlain pm s).map fun r => '@' :: tag ++ '@' :: r := by
  have h1 : ∀ s : Str, (tag ++ '@' :: s).takeWhile (fun c => decide (c ≠ '@')) = tag := by
    intro s
    rw [List.takeWhile_append_of_pos]
    · simp
    · intro c hc
      simp only [decide_eq_true_eq]
      rintro rfl
      exact h hc
  have h2 : ∀ s : Str, (tag ++ '@' :: s).dropWhile (fun c => decide (c ≠ '@')) = '@' :: s := by
    intro s
    rw [List.dropWhile_append_of_pos]
    · simp
    · intro c hc
      simp only [decide_eq_true_eq]
      rintro rfl
      exact h hc
  rw [List.cons_append]
  show (match (tag ++ '@' :: s).dropWhile (fun c => decide (c ≠ '@')) with | [] => _ | _ :: item => _) = _
  rw [h2, h1]

theorem behind_none {s : Str} (h : ¬ Carets s) : behindCarets s = 0 := by
  unfold behindCarets
  rw [find_none h]

theorem name_carets {p l v : Str} (hp : Prefix p) (hl : Local l v) : ¬ Carets (p ++ ':' :: l) := by
  apply carets_none
  rw [List.mem_append, List.mem_cons]
  rintro (h | h | h)
  · exact prefix_ne hp (by decide) h
  · cases h
  · exact local_caret hl h

theorem name_head {p l : Str} (hp : Prefix p) {c : Char} (hc : c ∈ ['?', '<', '@']) : (p ++ ':' :: l).head? ≠ some c := by
  cases p with
  | nil => intro h; simp at h; subst h; revert hc; decide
  | cons d p =>
    intro h
    simp at h
    subst h
    refine prefix_ne hp (d := d) ?_ (by simp)
    revert hc
    simp only [List.mem_cons, List.not_mem_nil, or_false]
    rintro (rfl | rfl | rfl) <;> simp

theorem suffix_find {x : Suffix} (hx : x.Ok) (hn : ∀ p l, x ≠ .pname p l) (v : Str) (hv : ¬ Carets v) :
    ∃ c ∈ ['^', '?', '<', '@', '"', '\\', ' '], ('"' :: v ++ '"' :: x.text)[behindCarets ('"' :: v ++ '"' :: x.text)]? = some c := by
  have hv' : ¬ Carets ('"' :: v) := by
    rintro ⟨a, b, e⟩
    cases a with
    | nil => cases e
    | cons d a => exact hv ⟨a, b, by cases e; rfl⟩
  have hf := find_app hv' x.text
  cases x with
  | none => exact ⟨'"', by decide, by unfold behindCarets; rw [hf]; rfl⟩
  | lang t parts =>
    have hc : '^' ∉ (Suffix.lang t parts).text := by
      intro h
      simp only [Suffix.text, List.mem_append, List.mem_cons, List.mem_flatMap] at h
      rcases h with (h | h) | ⟨y, hy, h | h⟩
      · cases h
      · have := hx.2.1 _ h; revert this; decide
      · cases h
      · have := (hx.2.2 y hy).2 _ h; revert this; decide
    exact ⟨'"', by decide, by unfold behindCarets; rw [hf, find_none (carets_none hc)]; rfl⟩
  | ref t =>
    refine ⟨'<', by decide, ?_⟩
    have : behindCarets.find (Suffix.ref t).text = some 0 := rfl
    unfold behindCarets
    rw [hf, this]
    show ('"' :: v ++ '"' :: (Suffix.ref t).text)[0 + (('"' :: v).length + 1) + 2]? = _
    rw [List.getElem?_append_right (by omega), show 0 + (('"' :: v).length + 1) + 2 - ('"' :: v).length = 3 by omega]
    rfl
  | pname p l => exact absurd rfl (hn p l)

theorem names_eq (hps : PrefixesOk ps) {s t : Str} (h : Names true ps s t) : expandItem (prefixMap ps) s = .ok t := by
  cases h with
  | var n => rfl
  | iri t => rfl
  | @name p l v u hp hl hu =>
    rw [item_plain fun c hc => name_head hp hc]
    exact expand_name (a := []) hps (behind_none (name_carets hp hl)) (by simp) (by simp) hp hl hu
  | @literal v x hx hn hv =>
    obtain ⟨c, hc, h⟩ := suffix_find hx hn v (hv rfl)
    rw [item_plain (by intro c hc; simp only [List.cons_append, List.head?_cons]; intro he; cases he; revert hc; decide)]
    exact expand_same hps hc h
  | @typed v p l w u hp hl hu hv =>
    obtain ⟨h1, h2, h3⟩ := hv rfl
    rw [item_plain (by intro c hc; simp only [List.cons_append, List.head?_cons]; intro he; cases he; revert hc; decide)]
    have e : ∀ r : Str, '"' :: v ++ '"' :: '^' :: '^' :: r = ('"' :: v ++ ['"', '^', '^']) ++ r := by intro r; simp
    rw [e (p ++ ':' :: l), e ('<' :: u ++ w ++ ['>'])]
    refine expand_name hps ?_ (by simpa using h2) (by simpa using h3) hp hl hu
    have hv' : ¬ Carets ('"' :: v) := by
      rintro ⟨a, b, e⟩
      cases a with
      | nil => cases e
      | cons d a => exact h1 ⟨a, b, by cases e; rfl⟩
    have hf := find_app hv' ('^' :: '^' :: (p ++ ':' :: l))
    rw [← e]
    unfold behindCarets
    rw [hf]
    show 0 + (('"' :: v).length + 1) + 2 = _
    simp
  | number hs =>
    have hd : ∀ c ∈ ['?', '<', '@', ':'], digit c = false ∧ c ≠ '-' ∧ c ≠ '.' := by decide
    have hno : ∀ c ∈ ['?', '<', '@', ':'], c ∉ s := by
      intro c hc hm
      obtain ⟨h1, h2, h3⟩ := hd c hc
      rcases hs c hm with h | h | h
      · rw [h1] at h; cases h
      · exact h2 h
      · exact h3 h
    rw [item_plain, expand_colon (hno ':' (by decide))]
    intro c hc he
    refine hno c ?_ (List.mem_of_mem_head? he)
    revert hc
    simp only [List.mem_cons, List.not_mem_nil, or_false]
    rintro (rfl | rfl | rfl) <;> simp
  | @tagged tag t htag ht =>
    have : ¬ Carets ('<' :: t ++ ['>']) := by
      apply carets_none
      have := iri_ne ht (d := '^') (by decide)
      simpa using this
    rw [item_tagged htag, expand_same (c := '<') hps (by decide) (by rw [behind_none this]; rfl)]
    rfl
  | @taggedName tag p l v u htag hp hl hu =>
    rw [item_tagged htag]
    have := expand_name (a := []) hps (behind_none (name_carets hp hl)) (by simp) (by simp) hp hl hu
    rw [List.nil_append] at this
    rw [this]
    rfl

/-! ### Queries -/

theorem each_eq {α : Type} {f : α → Outcome α} {R : α → α → Prop} (hf : ∀ a b, R a b → f a = .ok b) {as bs : List α} (h : Each R as bs) :
    each f as = .ok bs := by
  induction h with
  | nil => rfl
  | cons h _ ih => simp only [each, hf _ _ h, ih, Outcome.bind, Outcome.map]

mutual
theorem path_eq (hps : PrefixesOk ps) : ∀ {p q : Path}, PathNames true ps p q → expandPath (prefixMap ps) p = .ok q
  | _, _, .iri h => by simp only [expandPath, names_eq hps h, Outcome.map]
  | _, _, .node (op := op) ho h => by
    cases op with
    | iri => exact absurd rfl ho
    | _ => simp only [expandPath, paths_eq hps h, Outcome.map]
theorem paths_eq (hps : PrefixesOk ps) : ∀ {p q : List Path}, PathsNames true ps p q → expandPaths (prefixMap ps) p = .ok q
  | _, _, .nil => rfl
  | _, _, .cons h h' => by simp only [expandPaths, path_eq hps h, paths_eq hps h', Outcome.bind, Outcome.map]
end

theorem split_one {s : Str} (h : ' ' ∉ s) : splitBlanks s = [s] := by
  induction s with
  | nil => rfl
  | cons c s ih =>
    rw [List.mem_cons, not_or] at h
    rw [splitBlanks, if_neg (Ne.symm h.1), ih h.2]

theorem inContext_occurs {s : Str} (h : inContext s = true) : Occurs "in-context".toList s := by
  induction s with
  | nil => cases h
  | cons c s ih =>
    rw [inContext, Bool.or_eq_true] at h
    rcases h with h | h
    · obtain ⟨t, ht⟩ := List.isPrefixOf_iff_prefix.1 h
      exact ⟨[], t, ht.symm⟩
    · obtain ⟨a, b, e⟩ := ih h
      exact ⟨c :: a, b, by rw [e]; rfl⟩

theorem names_nil {t : Str} (h : Names true ps [] t) : t = [] := by
  generalize he : ([] : Str) = s at h
  cases h with
  | var | iri | literal | typed | tagged | taggedName => cases he
  | @name p l v u hp =>
    have := congrArg List.length he
    simp at this
  | number => rfl

theorem triple_eq (hps : PrefixesOk ps) {t t' : Triple} (h : TripleNames true ps t t') : expandTriple (prefixMap ps) t = .ok t' := by
  cases h with
  | @mk s s' p p' o o' h1 h2 h3 h4 =>
    simp only [expandTriple, names_eq hps h1, path_eq hps h2, Outcome.bind]
    by_cases hc : p'.op = .iri ∧ inContext p'.iri = true
    · rw [if_pos hc]
      by_cases ho : o = []
      · subst ho
        rw [if_pos rfl, names_nil h3]
      · rw [if_neg ho]
        rcases h4 rfl with h | h
        · simp only [split_one h, each, names_eq hps h3, Outcome.bind, Outcome.map, joinBlanks]
        · exact absurd (inContext_occurs hc.2) h
    · rw [if_neg hc, names_eq hps h3]
      rfl
  | @words s s' p p' w h1 h2 h3 h4 h5 =>
    obtain ⟨h5, h6⟩ := h5 rfl
    have hn : ¬ (p'.op = .iri ∧ inContext p'.iri = true) := by
      rw [h4]
      intro h
      exact absurd h.2 (by decide)
    simp only [expandTriple, names_eq hps h1, path_eq hps h2, Outcome.bind]
    rw [if_neg hn]
    have : expandItem (prefixMap ps) w = .ok w := by
      cases w with
      | nil => rfl
      | cons c w =>
        by_cases hq : c = '?' ∨ c = '<'
        · rcases hq with rfl | rfl <;> rfl
        · rw [item_plain, expand_colon h5]
          intro d hd he
          simp only [List.head?_cons, Option.some.injEq] at he
          subst he
          simp only [List.mem_cons, List.not_mem_nil, or_false] at hd
          rcases hd with rfl | rfl | rfl
          · exact hq (.inl rfl)
          · exact hq (.inr rfl)
          · exact h6 rfl
    rw [this]
    rfl

theorem filter_eq (hps : PrefixesOk ps) {f f' : Filter} (h : FilterNames true ps f f') : expandFilter (prefixMap ps) f = .ok f' := by
  cases h with
  | compare h1 h2 h3 h4 =>
    simp only [expandFilter, names_eq hps h3, Outcome.bind]
    rw [if_neg h1, names_eq hps h4]
    rfl
  | regex h1 h2 =>
    simp only [expandFilter, names_eq hps h2, Outcome.bind]
    rw [if_pos h1]
  | start h1 h2 h3 h4 =>
    have : expandItem (prefixMap ps) f.rhs = .ok f.rhs := by
      rw [item_plain]
      · refine expand_same (c := '^') hps (by decide) ?_
        rw [behind_none (h4 rfl), ← List.head?_eq_getElem?, h2]
      · intro c hc he
        rw [h2] at he
        cases he
        revert hc
        decide
    simp only [expandFilter, names_eq hps h3, Outcome.bind]
    rw [if_neg (by rw [h1]; decide), this]
    rfl

theorem bind_eq (hps : PrefixesOk ps) {e e' : BindExpr} (h : BindNames true ps e e') : expandBind (prefixMap ps) e = .ok e' := by
  cases h with
  | rename h => simp only [expandBind, names_eq hps h, Outcome.map]
  | binary h h' => simp only [expandBind, names_eq hps h, names_eq hps h', Outcome.bind, Outcome.map]
  | word h => simp only [expandBind, names_eq hps h, Outcome.map]
  | int n => rfl

mutual
theorem op_eq (hps : PrefixesOk ps) : ∀ {o o' : Op}, OpNames true ps o o' → expandOp ps o = .ok o'
  | _, _, .basic h => by simp only [expandOp, each_eq (fun _ _ h => triple_eq hps h) h, Outcome.map]
  | _, _, .optional h => by simp only [expandOp, group_eq hps h, Outcome.map]
  | _, _, .minus h => by simp only [expandOp, group_eq hps h, Outcome.map]
  | _, _, .union h h' => by simp only [expandOp, group_eq hps h, group_eq hps h', Outcome.bind, Outcome.map]
  | _, _, .subquery h => by simp only [expandOp, query_eq hps h, Outcome.map]
  | _, _, .bind h => by simp only [expandOp, bind_eq hps h, Outcome.map]
  | _, _, .values h => by simp only [expandOp, each_eq (fun _ _ h => each_eq (fun _ _ h => names_eq hps h) h) h, Outcome.map]
theorem ops_eq (hps : PrefixesOk ps) : ∀ {o o' : List Op}, OpsNames true ps o o' → expandOps ps o = .ok o'
  | _, _, .nil => rfl
  | _, _, .cons h h' => by simp only [expandOps, op_eq hps h, ops_eq hps h', Outcome.bind, Outcome.map]
theorem group_eq (hps : PrefixesOk ps) : ∀ {g g' : Pattern}, GroupNames true ps g g' → expandNested ps g = .ok g'
  | _, _, .mk h h' => by rw [expandNested, ops_eq hps h', h.2 rfl]; rfl
theorem query_eq (hps : PrefixesOk ps) : ∀ {q q' : Query}, QueryNames true ps q q' → expandQuery ps q = .ok q'
  | _, _, .mk h h' h'' => by
    rw [expandQuery, each_eq (fun _ _ h => filter_eq hps h) h', ops_eq hps h'', h.2 rfl]
    rfl
end

end Verif.Prefixes
