import Verif.Lemmas.SparqlModifiers
/-
Groups and queries.
-/
namespace Verif.SparqlParser
open Verif.SparqlSpec
open Verif.SparqlLexer (Ty Token Lexer isSpace)

attribute [local congr] thenW_congr

variable {E : Env} (tr : Bool) [Lawful E]

/-! ### Triples -/

/-- what follows a triple -/
def after (E : Env) (n : Nat) (fs : List Filter) (cs : List Op) (s p : Str) : Prog Pattern := do
  if ← accept E ";" then parseWhere E n fs cs s []
  else if ← accept E "," then parseWhere E n fs cs s p
  else if ← accept E "}" then pure (.mk fs cs)
  else
    expect E "."
    parseWhere E n fs cs [] []

/-- the words at which something else than a triple begins -/
def starts : List String := ["}", "optional", "bind", "minus", "{", "filter", "values"]

omit [Lawful E] in
theorem where_triple {ws ws' : List Word} (hs : ∀ w ∈ starts, ¬ Is E (nextOf ws) w) (he : emptyOf tr ws = false) {n : Nat} {fs : List Filter}
    {cs cs' : List Op} {subj pred s p : Str} (h : runW tr (parseTriple E subj pred cs) ws = .ok ((s, p, cs'), ws')) :
    runW tr (parseWhere E (n + 1) fs cs subj pred) ws = runW tr (after E n fs cs' s p) ws' := by
  have h1 := accept_no (E := E) tr (hs "}" (by simp [starts]))
  have h2 := accept_no (E := E) tr (hs "optional" (by simp [starts]))
  have h3 := accept_no (E := E) tr (hs "bind" (by simp [starts]))
  have h4 := accept_no (E := E) tr (hs "minus" (by simp [starts]))
  have h5 := accept_no (E := E) tr (hs "{" (by simp [starts]))
  have h6 := accept_no (E := E) tr (hs "filter" (by simp [starts]))
  have h7 := accept_no (E := E) tr (hs "values" (by simp [starts]))
  rw [parseWhere]
  pwsimp [h1, h2, h3, h4, h5, h6, h7, he, h, after]

theorem starts_word : ∀ w ∈ starts, IsWord w := by unfold IsWord; decide

theorem term_starts (x : Term) (ws : List Word) : ∀ w ∈ starts, ¬ Is E (nextOf (x.word :: ws)) w :=
  fun w hw => not_is_term E x (starts_word w hw)

theorem pred_starts {p : Pred} (hp : p.Ok) (ws : List Word) : ∀ w ∈ starts, ¬ Is E (nextOf (p.word :: ws)) w := by
  intro w hw
  cases p with
  | var n => exact not_is_var E (starts_word w hw)
  | path s l m =>
    obtain ⟨_, _, _, hl⟩ := hp
    cases l with
    | iri t => exact not_is_term E (.iri t) (starts_word w hw)
    | pname p l => exact not_is_term E (.pname p l) (starts_word w hw)
    | symbol c =>
      have hc : c ∈ ['^', '('] := hl
      rintro (h : [E.low c] = w.toList)
      have hlow : E.low c = c := by
        simp only [List.mem_cons, List.not_mem_nil, or_false] at hc
        rcases hc with rfl | rfl <;> rw [Lawful.low _ (by decide)] <;> decide
      rw [hlow] at h
      exact (by decide : ∀ w ∈ starts, ∀ c ∈ ['^', '('], [c] ≠ w.toList) w hw c hc h
    | _ => exact hl.elim

omit [Lawful E] in
theorem pred_empty (p : Pred) (w : Word) (ws : List Word) : emptyOf tr (p.word :: w :: ws) = false := by
  cases p <;> rfl

theorem after_comma {n : Nat} (fs : List Filter) (cs : List Op) {s : Str} (hs : s ≠ []) {p : Pred} (hp : p.Ok) {o : Term} (ho : o.Simple)
    (w : Word) (ws : List Word) : runW tr (after E (n + 1) fs cs s p.text) (sym ',' :: o.word :: w :: ws) =
      runW tr (after E n fs (addTriple cs ⟨s, p.tree, objectStr E.low p o⟩) s p.text) (w :: ws) := by
  have h := where_triple (E := E) tr (term_starts o (w :: ws)) rfl (n := n) (fs := fs) (parseTriple_o tr hs hp ho cs (w :: ws))
  rw [after]
  pwsimp [h]

theorem after_semicolon {n : Nat} (fs : List Filter) (cs : List Op) {s : Str} (hs : s ≠ []) (q : Str) {p : Pred} (hp : p.Ok) {o : Term} (ho : o.Simple)
    (ws : List Word) : runW tr (after E (n + 1) fs cs s q) (sym ';' :: p.word :: o.word :: ws) =
      runW tr (after E n fs (addTriple cs ⟨s, p.tree, objectStr E.low p o⟩) s p.text) ws := by
  have h := where_triple (E := E) tr (pred_starts hp (o.word :: ws)) (pred_empty tr ..) (n := n) (fs := fs) (parseTriple_po tr hs hp ho cs ws)
  rw [after]
  pwsimp [h]

/-- the triples of a property -/
def propTriples (low : Char → Char) (s : Str) (p : Property) : List Triple :=
  (p.obj :: p.objs).map fun o => ⟨s, p.pred.tree, objectStr low p.pred o⟩

theorem objs_eq (fs : List Filter) {s : Str} (hs : s ≠ []) {p : Pred} (hp : p.Ok) (w : Word) (ws : List Word) (objs : List Term)
    (ho : ∀ o ∈ objs, o.Simple) (cs : List Op) (n : Nat) :
    runW tr (after E (n + objs.length) fs cs s p.text) ((objs.flatMap fun o => [sym ',', o.word]) ++ w :: ws) =
      runW tr (after E n fs ((objs.map fun o => ⟨s, p.tree, objectStr E.low p o⟩).foldl addTriple cs) s p.text) (w :: ws) := by
  induction objs generalizing cs with
  | nil => rfl
  | cons o objs ih =>
    have ih := ih (fun x hx => ho x (by simp [hx])) (addTriple cs ⟨s, p.tree, objectStr E.low p o⟩)
    obtain ⟨w', ws', hw⟩ : ∃ w' ws', (objs.flatMap fun o => [sym ',', o.word]) ++ w :: ws = w' :: ws' := by
      cases objs with
      | nil => exact ⟨_, _, rfl⟩
      | cons _ _ => exact ⟨_, _, rfl⟩
    rw [List.flatMap_cons, List.append_assoc, List.length_cons, ← Nat.add_assoc]
    show runW tr (after E (n + objs.length + 1) fs cs s p.text) (sym ',' :: o.word :: ((objs.flatMap fun o => [sym ',', o.word]) ++ w :: ws)) = _
    rw [hw] at ih ⊢
    rw [after_comma tr fs cs hs hp (ho o (by simp)), ih, List.map_cons, List.foldl_cons]

theorem props_eq (fs : List Filter) {s : Str} (hs : s ≠ []) (w : Word) (ws : List Word) (ps : List Property) (hp : ∀ p ∈ ps, p.Ok) (cs : List Op)
    (n : Nat) (q : Str) : ∃ q', runW tr (after E (n + (ps.flatMap (propTriples E.low s)).length) fs cs s q) ((ps.flatMap fun p => sym ';' :: p.words) ++ w :: ws) =
      runW tr (after E n fs ((ps.flatMap (propTriples E.low s)).foldl addTriple cs) s q') (w :: ws) := by
  induction ps generalizing cs q with
  | nil => exact ⟨q, rfl⟩
  | cons p ps ih =>
    obtain ⟨h1, h2⟩ := hp p (by simp)
    obtain ⟨q', ih⟩ := ih (fun x hx => hp x (by simp [hx])) ((propTriples E.low s p).foldl addTriple cs) p.pred.text
    refine ⟨q', ?_⟩
    obtain ⟨w', ws', hw⟩ : ∃ w' ws', (ps.flatMap fun p => sym ';' :: p.words) ++ w :: ws = w' :: ws' := by
      cases ps with
      | nil => exact ⟨_, _, rfl⟩
      | cons _ _ => exact ⟨_, _, rfl⟩
    have e : ((p :: ps).flatMap fun p => sym ';' :: p.words) ++ w :: ws =
        sym ';' :: p.pred.word :: p.obj.word :: ((p.objs.flatMap fun o => [sym ',', o.word]) ++ ((ps.flatMap fun p => sym ';' :: p.words) ++ w :: ws)) := by
      simp [Property.words]
    have en : n + ((p :: ps).flatMap (propTriples E.low s)).length = n + (ps.flatMap (propTriples E.low s)).length + p.objs.length + 1 := by
      simp [propTriples]; omega
    rw [e, en, after_semicolon tr fs cs hs q h1 (h2 p.obj (by simp))]
    rw [hw] at ih ⊢
    rw [objs_eq tr fs hs h1 w' ws' p.objs (fun o ho => h2 o (by simp [ho])), List.flatMap_cons, List.foldl_append, ← ih]
    rfl

theorem block_eq (fs : List Filter) {b : Block} (hb : b.Ok) (w : Word) (ws : List Word) (cs : List Op) (n : Nat) :
    ∃ q, runW tr (parseWhere E (n + (b.triples E.low).length) fs cs [] []) (b.words ++ w :: ws) =
      runW tr (after E n fs ((b.triples E.low).foldl addTriple cs) b.subject.str q) (w :: ws) := by
  obtain ⟨subject, prop, props⟩ := b
  obtain ⟨hs, hp⟩ := hb
  obtain ⟨h1, h2⟩ := hp prop (by simp)
  obtain ⟨q, hq⟩ := props_eq (E := E) tr fs (term_str_ne subject) w ws props (fun p h => hp p (by simp [h]))
    ((propTriples E.low subject.str prop).foldl addTriple cs) n prop.pred.text
  refine ⟨q, ?_⟩
  obtain ⟨w', ws', hw⟩ : ∃ w' ws', (props.flatMap fun p => sym ';' :: p.words) ++ w :: ws = w' :: ws' := by
    cases props with
    | nil => exact ⟨_, _, rfl⟩
    | cons _ _ => exact ⟨_, _, rfl⟩
  have e : (Block.mk subject prop props).words ++ w :: ws = subject.word :: prop.pred.word :: prop.obj.word ::
      ((prop.objs.flatMap fun o => [sym ',', o.word]) ++ ((props.flatMap fun p => sym ';' :: p.words) ++ w :: ws)) := by
    simp [Block.words, Property.words]
  have et : (Block.mk subject prop props).triples E.low = propTriples E.low subject.str prop ++ props.flatMap (propTriples E.low subject.str) := rfl
  have en : n + ((Block.mk subject prop props).triples E.low).length =
      n + (props.flatMap (propTriples E.low subject.str)).length + prop.objs.length + 1 := by
    rw [et]; simp [propTriples]; omega
  rw [e, en, where_triple tr (term_starts subject _) rfl (parseTriple_spo tr hs h1 (h2 prop.obj (by simp)) cs _)]
  rw [hw] at hq ⊢
  rw [objs_eq tr fs (term_str_ne subject) h1 w' ws' prop.objs (fun o ho => h2 o (by simp [ho])), et, List.foldl_append, ← hq]
  rfl

theorem triples_le (low : Char → Char) (b : Block) : (b.triples low).length ≤ b.words.length := by
  have h1 : ∀ objs : List Term, objs.length ≤ (objs.flatMap fun o => [sym ',', o.word]).length := by
    intro objs
    induction objs with
    | nil => simp
    | cons o objs ih => simp only [List.flatMap_cons, List.length_append, List.length_cons] at ih ⊢; omega
  have h2 : ∀ ps : List Property, (ps.flatMap (propTriples low b.subject.str)).length ≤ (ps.flatMap fun p => sym ';' :: p.words).length := by
    intro ps
    induction ps with
    | nil => simp
    | cons p ps ih =>
      have := h1 p.objs
      simp only [List.flatMap_cons, List.length_append, List.length_cons, propTriples, Property.words, List.length_map] at ih this ⊢
      omega
  have e : b.triples low = propTriples low b.subject.str b.prop ++ b.props.flatMap (propTriples low b.subject.str) := rfl
  have := h1 b.prop.objs
  have := h2 b.props
  rw [e]
  simp only [Block.words, List.length_append, List.length_cons, propTriples, Property.words, List.length_map] at *
  omega

theorem after_dot (n : Nat) (fs : List Filter) (cs : List Op) (s p : Str) (ws : List Word) :
    runW tr (after E n fs cs s p) (sym '.' :: ws) = runW tr (parseWhere E n fs cs [] []) ws := by
  rw [after]
  pwsimp []

theorem after_close (n : Nat) (fs : List Filter) (cs : List Op) (s p : Str) (ws : List Word) :
    runW tr (after E n fs cs s p) (sym '}' :: ws) = .ok (.mk fs cs, ws) := by
  rw [after]
  pwsimp []

/-! ### The other parts of a group -/

/-- the rest of a group behind a part -/
structure Rest (E : Env) (ws : List Word) : Prop where
  ne : ws ≠ []
  dot : ¬ Is E (nextOf ws) "."
  select : ¬ Is E (nextOf ws) "select"

theorem where_close (n : Nat) (fs : List Filter) (cs : List Op) (ws : List Word) :
    runW tr (parseWhere E (n + 1) fs cs [] []) (sym '}' :: ws) = .ok (.mk fs cs, ws) := by
  rw [parseWhere]
  pwsimp []

theorem where_optional {n : Nat} {fs : List Filter} {cs : List Op} {w rest : List Word} {dot : Bool} {g : Pattern} (hr : Rest E rest)
    (h : runW tr (parseWhere E n [] [] [] []) (w ++ (dots dot ++ rest)) = .ok (g, dots dot ++ rest)) :
    runW tr (parseWhere E (n + 1) fs cs [] []) (kw "optional" :: sym '{' :: (w ++ (dots dot ++ rest))) =
      runW tr (parseWhere E n fs (cs ++ [.optional g]) [] []) rest := by
  have hd := dot_dots (E := E) tr (dot := dot) hr.dot
  rw [parseWhere]
  pwsimp [h, hd]

theorem where_minus {n : Nat} {fs : List Filter} {cs : List Op} {w rest : List Word} {dot : Bool} {g : Pattern} (hr : Rest E rest)
    (h : runW tr (parseWhere E n [] [] [] []) (w ++ (dots dot ++ rest)) = .ok (g, dots dot ++ rest)) :
    runW tr (parseWhere E (n + 1) fs cs [] []) (kw "minus" :: sym '{' :: (w ++ (dots dot ++ rest))) =
      runW tr (parseWhere E n fs (cs ++ [.minus g]) [] []) rest := by
  have hd := dot_dots (E := E) tr (dot := dot) hr.dot
  rw [parseWhere]
  pwsimp [h, hd]

theorem where_union {n : Nat} {fs : List Filter} {cs : List Op} {a b rest : List Word} {dot : Bool} {g g' : Pattern} (hr : Rest E rest)
    (hw : Rest E (a ++ (kw "union" :: sym '{' :: (b ++ (dots dot ++ rest)))))
    (h : runW tr (parseWhere E n [] [] [] []) (a ++ (kw "union" :: sym '{' :: (b ++ (dots dot ++ rest)))) = .ok (g, kw "union" :: sym '{' :: (b ++ (dots dot ++ rest))))
    (h' : runW tr (parseWhere E n [] [] [] []) (b ++ (dots dot ++ rest)) = .ok (g', dots dot ++ rest)) :
    runW tr (parseWhere E (n + 1) fs cs [] []) (sym '{' :: (a ++ (kw "union" :: sym '{' :: (b ++ (dots dot ++ rest))))) =
      runW tr (parseWhere E n fs (cs ++ [.union g g']) [] []) rest := by
  have hd := dot_dots (E := E) tr (dot := dot) hr.dot
  have hs := accept_no (E := E) tr hw.select
  rw [parseWhere]
  pwsimp [h, h', hd, hs]

theorem where_subquery {n : Nat} {fs : List Filter} {cs : List Op} {w rest : List Word} {dot : Bool} {q : Query} (hr : Rest E rest)
    (h : runW tr (parseQuery E n {}) w = .ok (q, dots dot ++ rest)) :
    runW tr (parseWhere E (n + 1) fs cs [] []) (sym '{' :: kw "select" :: w) =
      runW tr (parseWhere E n fs (cs ++ [.subquery q]) [] []) rest := by
  have hd := dot_dots (E := E) tr (dot := dot) hr.dot
  rw [parseWhere]
  pwsimp [h, hd]

theorem where_bind {n : Nat} {fs : List Filter} {cs : List Op} {w rest : List Word} {dot : Bool} {b : Op} (hr : Rest E rest) (hw : w.isEmpty = false)
    (h : runW tr (parseBind E) w = .ok (b, dots dot ++ rest)) :
    runW tr (parseWhere E (n + 1) fs cs [] []) (kw "bind" :: w) = runW tr (parseWhere E n fs (cs ++ [b]) [] []) rest := by
  have hd := dot_dots (E := E) tr (dot := dot) hr.dot
  rw [parseWhere]
  pwsimp [h, hd, hw]

theorem where_values {n : Nat} {fs : List Filter} {cs : List Op} {w rest : List Word} {dot : Bool} {b : Op} (hr : Rest E rest) (hw : w.isEmpty = false)
    (h : runW tr (parseValues E n) w = .ok (b, dots dot ++ rest)) :
    runW tr (parseWhere E (n + 1) fs cs [] []) (kw "values" :: w) = runW tr (parseWhere E n fs (cs ++ [b]) [] []) rest := by
  have hd := dot_dots (E := E) tr (dot := dot) hr.dot
  rw [parseWhere]
  pwsimp [h, hd, hw]

theorem where_filter {n : Nat} {fs fs' : List Filter} {cs : List Op} {w rest : List Word} {dot : Bool} (hr : Rest E rest) (hw : w.isEmpty = false)
    (h : runW tr (parseFilter E n fs cs) w = .ok (some (fs', cs), dots dot ++ rest)) :
    runW tr (parseWhere E (n + 1) fs cs [] []) (kw "filter" :: w) = runW tr (parseWhere E n fs' cs [] []) rest := by
  have hd := dot_dots (E := E) tr (dot := dot) hr.dot
  rw [parseWhere]
  pwsimp [h, hd, hw]

theorem group_rest (g : Group) (ws : List Word) : Rest E (g.words ++ ws) := by
  have hkw : ∀ (ty : Ty) (v : String) (ws : List Word), IsWord v → v ≠ "." → v ≠ "select" → Rest E (.tok ⟨ty, v.toList⟩ :: ws) :=
    fun ty v ws h h1 h2 => ⟨by simp, fun h' => h1 ((is_word E h).1 h'), fun h' => h2 ((is_word E h).1 h')⟩
  have hb : ∀ (b : Block) (ws : List Word), Rest E (b.words ++ ws) :=
    fun b ws => ⟨by simp [Block.words], not_is_term E b.subject (by simp), not_is_term E b.subject (by simp)⟩
  cases g with
  | last b =>
    cases b with
    | none => exact hkw .symbol "}" ws (by simp) (by decide) (by decide)
    | some b => rw [Group.words, List.append_assoc]; exact hb b _
  | triples b g => rw [Group.words, List.append_assoc]; exact hb b _
  | optional h dot g => exact hkw .keyword "optional" _ (by simp) (by decide) (by decide)
  | minus h dot g => exact hkw .keyword "minus" _ (by simp) (by decide) (by decide)
  | union a b dot g => exact hkw .symbol "{" _ (by simp) (by decide) (by decide)
  | subquery q dot g => exact hkw .symbol "{" _ (by simp) (by decide) (by decide)
  | bind e v dot g => exact hkw .keyword "bind" _ (by simp) (by decide) (by decide)
  | values vs rows dot g => exact hkw .keyword "values" _ (by simp) (by decide) (by decide)
  | valuesOne v xs dot g => exact hkw .keyword "values" _ (by simp) (by decide) (by decide)
  | filter f dot g => exact hkw .keyword "filter" _ (by simp) (by decide) (by decide)

theorem group_pos (g : Group) : 0 < g.words.length := by
  cases g with
  | last b => cases b <;> simp [Group.words]
  | _ => simp [Group.words]; try omega

theorem closed_append (cs : List Op) {o : Op} (h : ∀ ts, o ≠ .basic ts) : Closed (cs ++ [o]) := by
  intro ts he
  rw [List.getLast?_concat] at he
  exact h ts (Option.some.inj he)

theorem closed_nil : Closed [] := fun ts h => by cases h

theorem rows_le (rows : List (List Term)) : rows.length ≤ (rows.flatMap fun r => sym '(' :: (r.map Term.word ++ [sym ')'])).length := by
  induction rows with
  | nil => simp
  | cons r rows ih => simp only [List.flatMap_cons, List.length_append, List.length_cons] at ih ⊢; omega

theorem sels_le (sels : List Sel) : sels.length ≤ (sels.flatMap Sel.words).length := by
  induction sels with
  | nil => simp
  | cons x sels ih =>
    have : 0 < x.words.length := by cases x <;> simp [Sel.words]
    simp only [List.flatMap_cons, List.length_append, List.length_cons] at ih ⊢
    omega

mutual
theorem group_eq : ∀ (g : Group), g.Ok → ∀ (n : Nat), g.words.length ≤ n → ∀ (fs : List Filter) (done : List Op), Closed done →
    ∀ (pend : List Triple) (ws : List Word), runW tr (parseWhere E n fs (done ++ basics pend) [] []) (g.words ++ ws) =
      .ok (.mk (fs ++ g.filters) (done ++ g.ops E.low pend), ws)
  | .last none, _, n, hn, fs, done, hd, pend, ws => by
    obtain ⟨n, rfl⟩ : ∃ m, n = m + 1 := ⟨n - 1, by simp [Group.words] at hn; omega⟩
    rw [Group.filters, List.append_nil]
    exact where_close tr n fs _ ws
  | .last (some b), hg, n, hn, fs, done, hd, pend, ws => by
    have hl := triples_le E.low b
    simp only [Group.words, List.length_append, List.length_cons] at hn
    obtain ⟨n, rfl⟩ : ∃ m, n = m + (b.triples E.low).length := ⟨n - (b.triples E.low).length, by omega⟩
    obtain ⟨q, hq⟩ := block_eq (E := E) tr fs hg (sym '}') ws (done ++ basics pend) n
    rw [Group.words, List.append_assoc]
    show runW tr _ (b.words ++ sym '}' :: ws) = _
    rw [hq, after_close, foldl_basics hd, Group.filters, List.append_nil, Group.ops]
  | .triples b g, hg, n, hn, fs, done, hd, pend, ws => by
    have hl := triples_le E.low b
    simp only [Group.words, List.length_append, List.length_cons] at hn
    obtain ⟨n, rfl⟩ : ∃ m, n = m + (b.triples E.low).length := ⟨n - (b.triples E.low).length, by omega⟩
    obtain ⟨q, hq⟩ := block_eq (E := E) tr fs hg.1 (sym '.') (g.words ++ ws) (done ++ basics pend) n
    rw [Group.words, List.append_assoc, List.cons_append, hq, after_dot, foldl_basics hd, group_eq g hg.2 n (by omega) fs done hd]
    rfl
  | .optional h dot g, hg, n, hn, fs, done, hd, pend, ws => by
    simp only [Group.words, List.length_append, List.length_cons] at hn
    obtain ⟨n, rfl⟩ : ∃ m, n = m + 1 := ⟨n - 1, by omega⟩
    have h1 := group_eq h hg.1 n (by omega) [] [] closed_nil [] (dots dot ++ (g.words ++ ws))
    have h2 := where_optional tr (fs := fs) (cs := done ++ basics pend) (group_rest g ws) h1
    have h3 := group_eq g hg.2 n (by omega) fs (done ++ basics pend ++ [.optional (.mk h.filters (h.ops E.low []))]) (closed_append _ (by simp)) [] ws
    have e : (Group.optional h dot g).words ++ ws = kw "optional" :: sym '{' :: (h.words ++ (dots dot ++ (g.words ++ ws))) := by
      simp [Group.words]
    rw [e, h2]
    simp only [basics, if_true, List.append_nil] at h3
    refine Eq.trans h3 ?_
    simp [Group.filters, Group.ops, basics]
  | .minus h dot g, hg, n, hn, fs, done, hd, pend, ws => by
    simp only [Group.words, List.length_append, List.length_cons] at hn
    obtain ⟨n, rfl⟩ : ∃ m, n = m + 1 := ⟨n - 1, by omega⟩
    have h1 := group_eq h hg.1 n (by omega) [] [] closed_nil [] (dots dot ++ (g.words ++ ws))
    have h2 := where_minus tr (fs := fs) (cs := done ++ basics pend) (group_rest g ws) h1
    have h3 := group_eq g hg.2 n (by omega) fs (done ++ basics pend ++ [.minus (.mk h.filters (h.ops E.low []))]) (closed_append _ (by simp)) [] ws
    have e : (Group.minus h dot g).words ++ ws = kw "minus" :: sym '{' :: (h.words ++ (dots dot ++ (g.words ++ ws))) := by
      simp [Group.words]
    rw [e, h2]
    simp only [basics, if_true, List.append_nil] at h3
    refine Eq.trans h3 ?_
    simp [Group.filters, Group.ops, basics]
  | .union a b dot g, hg, n, hn, fs, done, hd, pend, ws => by
    simp only [Group.words, List.length_append, List.length_cons] at hn
    obtain ⟨n, rfl⟩ : ∃ m, n = m + 1 := ⟨n - 1, by omega⟩
    have h1 := group_eq a hg.1 n (by omega) [] [] closed_nil [] (kw "union" :: sym '{' :: (b.words ++ (dots dot ++ (g.words ++ ws))))
    have h1' := group_eq b hg.2.1 n (by omega) [] [] closed_nil [] (dots dot ++ (g.words ++ ws))
    have h2 := where_union tr (fs := fs) (cs := done ++ basics pend) (group_rest g ws) (group_rest a _) h1 h1'
    have h3 := group_eq g hg.2.2 n (by omega) fs (done ++ basics pend ++ [.union (.mk a.filters (a.ops E.low [])) (.mk b.filters (b.ops E.low []))])
      (closed_append _ (by simp)) [] ws
    have e : (Group.union a b dot g).words ++ ws = sym '{' :: (a.words ++ (kw "union" :: sym '{' :: (b.words ++ (dots dot ++ (g.words ++ ws))))) := by
      simp [Group.words]
    rw [e, h2]
    simp only [basics, if_true, List.append_nil] at h3
    refine Eq.trans h3 ?_
    simp [Group.filters, Group.ops, basics]
  | .subquery q dot g, hg, n, hn, fs, done, hd, pend, ws => by
    simp only [Group.words, List.length_append, List.length_cons] at hn
    obtain ⟨n, rfl⟩ : ∃ m, n = m + 1 := ⟨n - 1, by omega⟩
    obtain ⟨w, ws', hw⟩ : ∃ w ws', dots dot ++ (g.words ++ ws) = w :: ws' := by
      apply List.exists_cons_of_ne_nil
      have := (group_rest (E := E) g ws).ne
      cases dot with
      | true => simp [dots]
      | false => exact this
    have h1 := query_eq q hg.1 n (by omega) (End.bracket (w := w) (ws := ws')) []
    rw [← hw] at h1
    have h2 := where_subquery tr (fs := fs) (cs := done ++ basics pend) (group_rest g ws) h1
    have h3 := group_eq g hg.2 n (by omega) fs (done ++ basics pend ++ [.subquery (q.query E.low [])]) (closed_append _ (by simp)) [] ws
    have e : (Group.subquery q dot g).words ++ ws = sym '{' :: kw "select" :: (q.words ++ sym '}' :: (dots dot ++ (g.words ++ ws))) := by
      simp [Group.words]
    rw [e, h2]
    simp only [basics, if_true, List.append_nil] at h3
    refine Eq.trans h3 ?_
    simp [Group.filters, Group.ops, basics]
  | .bind x v dot g, hg, n, hn, fs, done, hd, pend, ws => by
    simp only [Group.words, List.length_append, List.length_cons] at hn
    obtain ⟨n, rfl⟩ : ∃ m, n = m + 1 := ⟨n - 1, by omega⟩
    have h1 := parseBind_eq (E := E) tr hg.1 v (dots dot ++ (g.words ++ ws))
    have h2 := where_bind tr (n := n) (fs := fs) (cs := done ++ basics pend) (group_rest g ws) rfl h1
    have h3 := group_eq g hg.2 n (by omega) fs (done ++ basics pend ++ [.bind x.expr ('?' :: v)]) (closed_append _ (by simp)) [] ws
    have e : (Group.bind x v dot g).words ++ ws = kw "bind" :: sym '(' :: (x.words ++ (kw "as" :: varWord v :: sym ')' :: (dots dot ++ (g.words ++ ws)))) := by
      simp [Group.words]
    rw [e, h2]
    simp only [basics, if_true, List.append_nil] at h3
    refine Eq.trans h3 ?_
    simp [Group.filters, Group.ops, basics]
  | .values vs rows dot g, hg, n, hn, fs, done, hd, pend, ws => by
    have hrow := rows_le rows
    simp only [Group.words, List.length_append, List.length_cons, List.length_map] at hn
    obtain ⟨n, rfl⟩ : ∃ m, n = m + 1 := ⟨n - 1, by omega⟩
    have h1 := parseValues_eq (E := E) tr hg.1 (n := n) (by omega) (by omega) (dots dot ++ (g.words ++ ws))
    have h2 := where_values tr (n := n) (fs := fs) (cs := done ++ basics pend) (group_rest g ws) rfl h1
    have h3 := group_eq g hg.2 n (by omega) fs (done ++ basics pend ++ [.values (vs.map ('?' :: ·)) (rows.map (·.map Term.str))])
      (closed_append _ (by simp)) [] ws
    have e : (Group.values vs rows dot g).words ++ ws = kw "values" :: sym '(' :: (vs.map varWord ++ (sym ')' :: sym '{' ::
      (rows.flatMap (fun r => sym '(' :: (r.map Term.word ++ [sym ')'])) ++ (sym '}' :: (dots dot ++ (g.words ++ ws)))))) := by
      simp [Group.words]
    rw [e, h2]
    simp only [basics, if_true, List.append_nil] at h3
    refine Eq.trans h3 ?_
    simp [Group.filters, Group.ops, basics]
  | .valuesOne v xs dot g, hg, n, hn, fs, done, hd, pend, ws => by
    simp only [Group.words, List.length_append, List.length_cons, List.length_map] at hn
    obtain ⟨n, rfl⟩ : ∃ m, n = m + 1 := ⟨n - 1, by omega⟩
    have h1 := parseValuesOne_eq (E := E) tr v hg.1 (n := n) (by omega) (dots dot ++ (g.words ++ ws))
    have h2 := where_values tr (n := n) (fs := fs) (cs := done ++ basics pend) (group_rest g ws) rfl h1
    have h3 := group_eq g hg.2 n (by omega) fs (done ++ basics pend ++ [.values ['?' :: v] (xs.map fun x => [x.str])])
      (closed_append _ (by simp)) [] ws
    have e : (Group.valuesOne v xs dot g).words ++ ws =
        kw "values" :: varWord v :: sym '{' :: (xs.map Term.word ++ (sym '}' :: (dots dot ++ (g.words ++ ws)))) := by
      simp [Group.words]
    rw [e, h2]
    simp only [basics, if_true, List.append_nil] at h3
    refine Eq.trans h3 ?_
    simp [Group.filters, Group.ops, basics]
  | .filter f dot g, hg, n, hn, fs, done, hd, pend, ws => by
    simp only [Group.words, List.length_append, List.length_cons] at hn
    obtain ⟨n, rfl⟩ : ∃ m, n = m + 1 := ⟨n - 1, by omega⟩
    have h0 : (f.words ++ (dots dot ++ (g.words ++ ws))).isEmpty = false := by
      have : f.words ≠ [] := by cases f <;> simp [FilterE.words]
      cases hx : f.words with
      | nil => exact absurd hx this
      | cons a b => rfl
    have h1 := parseFilter_eq (E := E) tr hg.1 (n := n) (by omega) fs (done ++ basics pend) (dots dot ++ (g.words ++ ws))
    have h2 := where_filter tr (n := n) (fs := fs) (cs := done ++ basics pend) (group_rest g ws) h0 h1
    have h3 := group_eq g hg.2 n (by omega) (fs ++ [f.filter]) done hd pend ws
    have e : (Group.filter f dot g).words ++ ws = kw "filter" :: (f.words ++ (dots dot ++ (g.words ++ ws))) := by
      simp [Group.words]
    rw [e, h2, h3]
    simp [Group.filters, Group.ops]
theorem query_eq : ∀ (q : QueryE), q.Ok → ∀ (n : Nat), q.words.length ≤ n → ∀ {ws ws' : List Word}, End ws ws' → ∀ (prefixes : List (Str × Str)),
    runW tr (parseQuery E n { prefixes := prefixes }) (q.words ++ ws) = .ok (q.query E.low prefixes, ws')
  | .mk distinct reduced sels g mods, hq, n, hn, ws, ws', hw, prefixes => by
    obtain ⟨h1, h2, h3, h4, h5⟩ := hq
    have hsel := sels_le sels
    have hpos := group_pos g
    simp only [QueryE.words, List.length_append, List.length_cons] at hn
    obtain ⟨n, rfl⟩ : ∃ m, n = m + 1 := ⟨n - 1, by omega⟩
    have e1 := fun w => parseSelect_eq (E := E) tr (distinct := distinct) (reduced := reduced) (sels := sels) (n := n) (q := { prefixes := prefixes })
      (ws := w) rfl rfl h1 (by omega)
    have e2 := group_eq g h2 n (by omega) [] [] closed_nil [] (mods.flatMap Mod.words ++ ws)
    have e3 := parseModifiers_eq (E := E) tr hw mods n { ({ prefixes := prefixes } : Info) with
      selected := sels.map Sel.name, aliases := sels.flatMap Sel.aliases, distinct := distinct, reduced := reduced } g.filters (g.ops E.low []) h3 h4 (by omega)
    rw [infoOf_eq] at e3
    have e4 := selected_ok h5 h3 prefixes distinct reduced
    simp only [List.nil_append, basics, if_true] at e1 e2 e3
    rw [parseQuery, QueryE.words]
    pwsimp [e1, e2, e3, e4, QueryE.query]
end

/-! ### The whole query -/

theorem prologue_eq (ws : List Word) (ps : List (Str × Str)) (n : Nat) (q : Info) (hn : ps.length < n) :
    runW tr (parsePrologue E n q) (ps.flatMap (fun p => [kw "prefix", .tok ⟨.iri, p.1 ++ [':']⟩, .tok ⟨.iri, '<' :: p.2 ++ ['>']⟩]) ++ kw "select" :: ws) =
      .ok ({ q with prefixes := q.prefixes ++ ps.map fun p => (p.1, '<' :: p.2 ++ ['>']) }, kw "select" :: ws) := by
  induction ps generalizing n q with
  | nil =>
    obtain ⟨n, rfl⟩ : ∃ m, n = m + 1 := ⟨n - 1, by simp at hn; omega⟩
    rw [parsePrologue]
    pwsimp [List.map_nil]
  | cons p ps ih =>
    obtain ⟨n, rfl⟩ : ∃ m, n = m + 1 := ⟨n - 1, by simp at hn; omega⟩
    have ih := ih n { q with prefixes := q.prefixes ++ [(p.1, '<' :: p.2 ++ ['>'])] } (by simpa using hn)
    simp only [List.append_assoc, List.cons_append, List.nil_append] at ih
    have hd : (p.1 ++ [':']).dropLast = p.1 := List.dropLast_concat
    rw [parsePrologue]
    pwsimp [ih, hd, List.map_cons]

theorem whole_eq (q : Whole) (hq : q.query.Ok) (n : Nat) (hn : q.words.length ≤ n) :
    runW tr (parseProg E n) q.words = .ok (q.parsed E.low, []) := by
  have hp : q.prefixes.length ≤ (q.prefixes.flatMap (fun p => [kw "prefix", .tok ⟨.iri, p.1 ++ [':']⟩, .tok ⟨.iri, '<' :: p.2 ++ ['>']⟩])).length := by
    induction q.prefixes with
    | nil => simp
    | cons p ps ih => simp only [List.flatMap_cons, List.length_append, List.length_cons] at ih ⊢; omega
  simp only [Whole.words, List.length_append, List.length_cons] at hn
  have e1 := prologue_eq (E := E) tr q.query.words q.prefixes n {} (by omega)
  have e2 := query_eq (E := E) tr q.query hq n (by omega) End.nil (q.prefixes.map fun p => (p.1, '<' :: p.2 ++ ['>']))
  rw [List.append_nil] at e2
  simp only [List.cons_append, List.nil_append] at e1 e2
  have e3 : emptyOf tr [] = true := rfl
  rw [parseProg, Whole.words]
  pwsimp [e1, e2, e3, Whole.parsed]

end Verif.SparqlParser
