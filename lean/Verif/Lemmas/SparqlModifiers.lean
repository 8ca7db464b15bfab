import Verif.Lemmas.SparqlParser
/-
The solution modifiers.
-/
namespace Verif.SparqlParser
open Verif.SparqlSpec
open Verif.SparqlLexer (Ty Token Lexer isSpace)

attribute [local congr] thenW_congr

variable {E : Env} (tr : Bool) [Lawful E]

/-! ### Keys -/

theorem low_as (c : Char) (h : c.toNat < 128) : E.low c = SparqlLexer.lower c := Lawful.low c h

omit [Lawful E] in
theorem word_eq {n : Str} (hn : OrderE.Name n) {s : Str} (hs : ∀ c, s.head? = some c → c = ')') : orderKeyOf.word (n ++ s) = n := by
  unfold orderKeyOf.word
  induction n with
  | nil =>
    cases s with
    | nil => rfl
    | cons c s =>
      obtain rfl := hs c rfl
      rfl
  | cons c n ih =>
    obtain ⟨h1, h2⟩ := hn c (by simp)
    have h3 : isSpace c = false := by rw [← space_iff]; simpa using h2
    rw [List.cons_append, List.takeWhile_cons_of_pos (by simp [h1, h3]), ih (fun d hd => hn d (by simp [hd]))]

theorem orderKey_var {n : Str} (hn : OrderE.Name n) : orderKeyOf E ('?' :: n) = .ok ⟨'?' :: n, false⟩ := by
  have h := word_eq hn (s := []) (by simp)
  rw [List.append_nil] at h
  have e : E.low '?' = '?' := by rw [low_as _ (by decide)]; decide
  unfold orderKeyOf
  simp [e, h, List.isPrefixOf]

/-- the text behind `ASC(` or `DESC(` -/
theorem orderKey_dir (d : Bool) (c : Char) (s : Str) (hc : isSpace c = false) :
    orderKeyOf E ((if d then "DESC" else "ASC").toList ++ '(' :: c :: s) =
      match (c :: s).map E.low with
      | '(' :: _ => (orderKeyOf.brackets 1 s).map fun k => ⟨'(' :: k, d⟩
      | 's' :: r =>
        if "core(".toList.isPrefixOf r then
          .ok ⟨"SCORE(".toList ++ ((c :: s).drop 6).take 1 ++ orderKeyOf.word ((c :: s).drop 7) ++ [')'], d⟩
        else .throw
      | '?' :: _ => .ok ⟨[c] ++ orderKeyOf.word s, d⟩
      | _ => .ok ⟨[], d⟩ := by
  have e1 : E.low 'A' = 'a' := by rw [low_as _ (by decide)]; decide
  have e2 : E.low 'S' = 's' := by rw [low_as _ (by decide)]; decide
  have e3 : E.low 'C' = 'c' := by rw [low_as _ (by decide)]; decide
  have e4 : E.low 'D' = 'd' := by rw [low_as _ (by decide)]; decide
  have e5 : E.low 'E' = 'e' := by rw [low_as _ (by decide)]; decide
  have e6 : E.low '(' = '(' := by rw [low_as _ (by decide)]; decide
  cases d with
  | true =>
    show orderKeyOf E ("DESC".toList ++ '(' :: c :: s) = _
    unfold orderKeyOf
    have h : ("DESC".toList ++ '(' :: c :: s).map E.low = "desc(".toList ++ (c :: s).map E.low := by
      simp [e2, e3, e4, e5, e6]
    have h1 : "desc(".toList.isPrefixOf ("desc(".toList ++ (c :: s).map E.low) = true := by simp [List.isPrefixOf]
    have h2 : (("DESC".toList ++ '(' :: c :: s).drop 5).dropWhile isSpace = c :: s := by
      show (c :: s).dropWhile isSpace = _
      rw [List.dropWhile_cons_of_neg (by simp [hc])]
    simp only [h, h1, if_true, h2]
    rfl
  | false =>
    show orderKeyOf E ("ASC".toList ++ '(' :: c :: s) = _
    unfold orderKeyOf
    have h : ("ASC".toList ++ '(' :: c :: s).map E.low = "asc(".toList ++ (c :: s).map E.low := by
      simp [e1, e2, e3, e6]
    have h0 : "desc(".toList.isPrefixOf ("asc(".toList ++ (c :: s).map E.low) = false := by simp [List.isPrefixOf]
    have h1 : "asc(".toList.isPrefixOf ("asc(".toList ++ (c :: s).map E.low) = true := by simp [List.isPrefixOf]
    have h2 : (("ASC".toList ++ '(' :: c :: s).drop 4).dropWhile isSpace = c :: s := by
      show (c :: s).dropWhile isSpace = _
      rw [List.dropWhile_cons_of_neg (by simp [hc])]
    simp only [h, h0, h1, if_true, h2, Bool.false_eq_true, if_false]
    rfl

theorem orderKey_key (d : Bool) {n : Str} (hn : OrderE.Name n) :
    orderKeyOf E ((if d then "DESC" else "ASC").toList ++ '(' :: ('?' :: n) ++ [')']) = .ok ⟨'?' :: n, d⟩ := by
  have h := word_eq hn (s := [')']) (by simp)
  have e : E.low '?' = '?' := by rw [low_as _ (by decide)]; decide
  have := orderKey_dir (E := E) d '?' (n ++ [')']) (by decide)
  simp only [List.append_assoc, List.cons_append] at this ⊢
  rw [this, List.map_cons, e, h]
  rfl

theorem orderKey_score (d : Bool) {n : Str} (hn : OrderE.Name n) :
    orderKeyOf E ((if d then "DESC" else "ASC").toList ++ '(' :: ("SCORE(".toList ++ ('?' :: n) ++ [')']) ++ [')']) =
      .ok ⟨"SCORE(?".toList ++ n ++ [')'], d⟩ := by
  have h := word_eq hn (s := [')', ')']) (by simp)
  have e1 : E.low 'S' = 's' := by rw [low_as _ (by decide)]; decide
  have e2 : E.low 'C' = 'c' := by rw [low_as _ (by decide)]; decide
  have e3 : E.low 'O' = 'o' := by rw [low_as _ (by decide)]; decide
  have e4 : E.low 'R' = 'r' := by rw [low_as _ (by decide)]; decide
  have e5 : E.low 'E' = 'e' := by rw [low_as _ (by decide)]; decide
  have e6 : E.low '(' = '(' := by rw [low_as _ (by decide)]; decide
  have := orderKey_dir (E := E) d 'S' ("CORE(".toList ++ '?' :: (n ++ [')', ')'])) (by decide)
  have hs : "SCORE(".toList ++ ('?' :: n) ++ [')'] ++ [')'] = 'S' :: ("CORE(".toList ++ '?' :: (n ++ [')', ')'])) := by simp
  rw [List.append_assoc, List.cons_append, hs, this, List.map_cons, e1]
  have hm : ("CORE(".toList ++ '?' :: (n ++ [')', ')'])).map E.low = "core(".toList ++ ('?' :: (n ++ [')', ')'])).map E.low := by
    simp [e2, e3, e4, e5, e6]
  rw [hm]
  have h1 : "core(".toList.isPrefixOf ("core(".toList ++ ('?' :: (n ++ [')', ')'])).map E.low) = true := by simp [List.isPrefixOf]
  have h2 : ('S' :: ("CORE(".toList ++ '?' :: (n ++ [')', ')']))).drop 7 = n ++ [')', ')'] := rfl
  simp only [h1, if_true, h2, h]
  simp

/-! ### ORDER BY -/

/-- the query with a further key -/
def addKey (q : Info) (k : OrderE) : Info := { q with orderBy := q.orderBy ++ [k.key'], aliases := q.aliases ++ k.aliases }

theorem orderKey_eq' (d : Bool) {n : Str} (hn : OrderE.Name n) :
    orderKeyOf E ((if d then "DESC" else "ASC").toList ++ '(' :: '?' :: (n ++ [')'])) = .ok ⟨'?' :: n, d⟩ := by
  have := orderKey_key (E := E) d hn
  simpa only [List.append_assoc, List.cons_append] using this

theorem parseOrderKey_key' (d : Bool) {n : Str} (hn : OrderE.Name n) (q : Info) (ws : List Word) :
    runW tr (parseOrderKey E (if d then "DESC" else "ASC") q) (sym '(' :: varWord n :: sym ')' :: ws) =
      .ok ({ q with orderBy := q.orderBy ++ [⟨'?' :: n, d⟩] }, ws) := by
  have h := orderKey_eq' (E := E) d hn
  rw [parseOrderKey]
  pwsimp [h]

theorem parseOrderKey_score' (d : Bool) {n : Str} (hn : OrderE.Name n) (q : Info) (ws : List Word) :
    runW tr (parseOrderKey E (if d then "DESC" else "ASC") q) (sym '(' :: kw "score" :: sym '(' :: varWord n :: sym ')' :: sym ')' :: ws) =
      .ok ({ q with orderBy := q.orderBy ++ [⟨"SCORE(?".toList ++ n ++ [')'], d⟩] }, ws) := by
  have h := orderKey_score (E := E) d hn
  simp only [List.append_assoc, List.cons_append, List.nil_append] at h
  have hp := parenVar_eq (E := E) tr n
  rw [parseOrderKey]
  pwsimp [h, hp]

theorem addKey_noAlias (q : Info) {k : OrderE} (h : k.aliases = []) : addKey q k = { q with orderBy := q.orderBy ++ [k.key'] } := by
  rw [addKey, h, List.append_nil]

theorem parseOrderKey_key (d : Bool) {n : Str} (hn : OrderE.Name n) (q : Info) (ws : List Word) :
    runW tr (parseOrderKey E (if d then "DESC" else "ASC") q) (sym '(' :: varWord n :: sym ')' :: ws) = .ok (addKey q (.key d n), ws) := by
  rw [addKey_noAlias q rfl]
  exact parseOrderKey_key' tr d hn q ws

theorem parseOrderKey_score (d : Bool) {n : Str} (hn : OrderE.Name n) (q : Info) (ws : List Word) :
    runW tr (parseOrderKey E (if d then "DESC" else "ASC") q) (sym '(' :: kw "score" :: sym '(' :: varWord n :: sym ')' :: sym ')' :: ws) =
      .ok (addKey q (.score d n), ws) := by
  rw [addKey_noAlias q rfl]
  exact parseOrderKey_score' tr d hn q ws

theorem parseOrderKey_alias (d : Bool) {a : AliasE} (ha : a.Ok) (hn : OrderE.Name a.out) (q : Info) (hq : '?' :: a.out ∉ q.selected) (ws : List Word) :
    runW tr (parseOrderKey E (if d then "DESC" else "ASC") q) (sym '(' :: sym '(' :: (a.words ++ (sym ')' :: sym ')' :: ws))) =
      .ok (addKey q (.aliased d a), ws) := by
  have h := orderKey_eq' (E := E) d hn
  have e := parseAlias_eq (E := E) tr ha
  have ho : a.alias_.outVar = '?' :: a.out := rfl
  rw [parseOrderKey]
  pwsimp [e, ho, hq, h]
  rfl

theorem orderLoop_var {v : Str} (hv : OrderE.Name v) (n : Nat) (q : Info) (ws : List Word) :
    runW tr (orderLoop E (n + 1) q) (varWord v :: ws) = runW tr (orderLoop E n { q with orderBy := q.orderBy ++ [⟨'?' :: v, false⟩] }) ws := by
  have h := orderKey_var (E := E) hv
  rw [orderLoop]
  pwsimp [h]

theorem orderLoop_asc {q q' : Info} {w ws : List Word} (h : runW tr (parseOrderKey E "ASC" q) (w ++ ws) = .ok (q', ws)) (n : Nat) :
    runW tr (orderLoop E (n + 1) q) (kw "asc" :: (w ++ ws)) = runW tr (orderLoop E n q') ws := by
  rw [orderLoop]
  pwsimp [h]

theorem orderLoop_desc {q q' : Info} {w ws : List Word} (h : runW tr (parseOrderKey E "DESC" q) (w ++ ws) = .ok (q', ws)) (n : Nat) :
    runW tr (orderLoop E (n + 1) q) (kw "desc" :: (w ++ ws)) = runW tr (orderLoop E n q') ws := by
  rw [orderLoop]
  pwsimp [h]

theorem orderLoop_dir {d : Bool} {q q' : Info} {w ws : List Word} (h : runW tr (parseOrderKey E (if d then "DESC" else "ASC") q) (w ++ ws) = .ok (q', ws))
    (n : Nat) : runW tr (orderLoop E (n + 1) q) (OrderE.direction d :: (w ++ ws)) = runW tr (orderLoop E n q') ws := by
  cases d with
  | true => exact orderLoop_desc tr h n
  | false => exact orderLoop_asc tr h n

theorem orderLoop_step {k : OrderE} {q : Info} (hk : k.Ok q.selected) (n : Nat) (ws : List Word) :
    runW tr (orderLoop E (n + 1) q) (k.words ++ ws) = runW tr (orderLoop E n (addKey q k)) ws := by
  cases k with
  | var v =>
    rw [addKey_noAlias q rfl]
    exact orderLoop_var tr hk n q ws
  | key d v => exact orderLoop_dir tr (w := [sym '(', varWord v, sym ')']) (parseOrderKey_key tr d hk q ws) n
  | score d v => exact orderLoop_dir tr (w := [sym '(', kw "score", sym '(', varWord v, sym ')', sym ')']) (parseOrderKey_score tr d hk q ws) n
  | aliased d a =>
    have h := parseOrderKey_alias (E := E) tr d hk.1 hk.2.1 q hk.2.2 ws
    have e : sym '(' :: sym '(' :: (a.words ++ (sym ')' :: sym ')' :: ws)) = (sym '(' :: sym '(' :: (a.words ++ [sym ')', sym ')'])) ++ ws := by simp
    rw [e] at h
    exact orderLoop_dir tr h n

/-- What may follow a modifier. -/
structure Fresh (E : Env) (ws : List Word) : Prop where
  type : (nextOf ws).type ≠ .var
  no : ∀ w ∈ ["asc", "desc", "(", "lang", "langmatches", "regex", "prefix"], ¬ Is E (nextOf ws) w

theorem orderLoop_eq {ws : List Word} (hw : Fresh E ws) (ks : List OrderE) (n : Nat) (q : Info) (hk : ∀ k ∈ ks, k.Ok q.selected)
    (hn : ks.length < n) (hne : q.orderBy ≠ [] ∨ ks ≠ []) :
    runW tr (orderLoop E n q) (ks.flatMap OrderE.words ++ ws) = .ok (ks.foldl addKey q, ws) := by
  induction ks generalizing n q with
  | nil =>
    obtain ⟨n, rfl⟩ : ∃ m, n = m + 1 := ⟨n - 1, by simp at hn; omega⟩
    have h1 := acceptTy_no tr hw.type
    have h2 := accept_no (E := E) tr (hw.no "asc" (by simp))
    have h3 := accept_no (E := E) tr (hw.no "desc" (by simp))
    have h4 : q.orderBy ≠ [] := hne.resolve_right (by simp)
    rw [orderLoop]
    pwsimp [h1, h2, h3, h4, List.foldl_nil]
  | cons k ks ih =>
    obtain ⟨n, rfl⟩ : ∃ m, n = m + 1 := ⟨n - 1, by simp at hn; omega⟩
    rw [List.flatMap_cons, List.append_assoc, orderLoop_step tr (hk k (by simp)), ih _ (addKey q k) (fun x hx => hk x (by simp [hx]))
      (by simpa using hn) (Or.inl (by simp [addKey]))]
    rfl

/-! ### HAVING -/

theorem parseFilter_none {ws : List Word} (hw : Fresh E ws) {n : Nat} (hn : 0 < n) (fs : List Filter) (cs : List Op) :
    runW tr (parseFilter E n fs cs) ws = .ok (none, ws) := by
  have h0 := openParens_eq (E := E) tr (accept_no tr (hw.no "(" (by simp))) 0 n hn
  rw [List.replicate_zero, List.nil_append] at h0
  have h1 := accept_no (E := E) tr (hw.no "lang" (by simp))
  have h2 := accept_no (E := E) tr (hw.no "langmatches" (by simp))
  have h3 := accept_no (E := E) tr (hw.no "regex" (by simp))
  have h4 := accept_no (E := E) tr (hw.no "prefix" (by simp))
  rw [parseFilter]
  pwsimp [h0, h1, h2, h3, h4]

theorem havingLoop_eq {ws : List Word} (hw : Fresh E ws) {m : Nat} (xs : List FilterE) (n : Nat) (fs : List Filter) (cs : List Op)
    (hx : ∀ f ∈ xs, f.Ok ∧ f.words.length ≤ m) (hm : 0 < m) (hn : xs.length < n) :
    runW tr (havingLoop E m n fs cs) (xs.flatMap FilterE.words ++ ws) = .ok ((fs ++ xs.map FilterE.filter, cs), ws) := by
  induction xs generalizing n fs with
  | nil =>
    obtain ⟨n, rfl⟩ : ∃ m, n = m + 1 := ⟨n - 1, by simp at hn; omega⟩
    have h := parseFilter_none tr hw hm fs cs
    rw [havingLoop]
    pwsimp [h, List.map_nil]
  | cons x xs ih =>
    obtain ⟨n, rfl⟩ : ∃ m, n = m + 1 := ⟨n - 1, by simp at hn; omega⟩
    have h := hx x (by simp)
    have h := parseFilter_eq (E := E) tr h.1 h.2 fs cs
    have ih := ih n (fs ++ [x.filter]) (fun f hf => hx f (by simp [hf])) (by simpa using hn)
    rw [havingLoop]
    pwsimp [h, ih, List.map_cons]

/-! ### All modifiers -/

/-- the query with a further modifier -/
def addMod (q : Info) (m : Mod) : Info :=
  { q with
    having := q.having ++ m.havings.map FilterE.filter
    orderBy := q.orderBy ++ m.orders.map OrderE.key'
    groupBy := q.groupBy ++ m.groups
    limit := m.limit?.getD q.limit
    textLimit := m.textLimit?.getD q.textLimit
    offset := m.offset?.getD q.offset
    aliases := q.aliases ++ m.orders.flatMap OrderE.aliases }

theorem foldl_addKey (ks : List OrderE) (q : Info) : ks.foldl addKey q =
    { q with orderBy := q.orderBy ++ ks.map OrderE.key', aliases := q.aliases ++ ks.flatMap OrderE.aliases } := by
  induction ks generalizing q with
  | nil => simp
  | cons k ks ih =>
    rw [List.foldl_cons, ih]
    simp [addKey]

theorem empty_tok {t : Token} {ws : List Word} (h : ws.isEmpty = false) : emptyOf tr (.tok t :: ws) = false := by
  show (ws.isEmpty && !tr) = false
  rw [h, Bool.false_and]

omit [Lawful E] in
theorem step_order {r : Str} (hr : ∀ w, IsWord w → ¬ Is E ⟨.orderBy, r⟩ w) {n : Nat} {q q' : Info} {w ws : List Word}
    (h : runW tr (orderLoop E n q) w = .ok (q', ws)) (hw : w.isEmpty = false) (fs : List Filter) (cs : List Op) :
    runW tr (parseModifiers E (n + 1) q fs cs) (.tok ⟨.orderBy, r⟩ :: w) = runW tr (parseModifiers E n q' fs cs) ws := by
  have e0 := empty_tok tr (t := ⟨.orderBy, r⟩) hw
  have e1 := fun s hs rest => accept_no (E := E) tr (ws := .tok ⟨.orderBy, r⟩ :: rest) (hr s hs)
  rw [parseModifiers]
  pwsimp [e0, e1, h]

omit [Lawful E] in
theorem step_group {r : Str} (hr : ∀ w, IsWord w → ¬ Is E ⟨.groupBy, r⟩ w) {n : Nat} {q : Info} {v : Str} {vs : List Str} {w ws : List Word}
    (h : runW tr (varList n) w = .ok (vs, ws)) (fs : List Filter) (cs : List Op) :
    runW tr (parseModifiers E (n + 1) q fs cs) (.tok ⟨.groupBy, r⟩ :: varWord v :: w) =
      runW tr (parseModifiers E n { q with groupBy := q.groupBy ++ ('?' :: v) :: vs } fs cs) ws := by
  have e0 := empty_tok tr (t := ⟨.groupBy, r⟩) (ws := varWord v :: w) rfl
  have e1 := fun s hs rest => accept_no (E := E) tr (ws := .tok ⟨.groupBy, r⟩ :: rest) (hr s hs)
  rw [parseModifiers]
  pwsimp [e0, e1, h]

theorem step_having {n : Nat} {q : Info} {w w' ws : List Word} {r r' : List Filter × List Op} {fs : List Filter} {cs : List Op}
    (h : runW tr (parseFilter E n q.having cs) w = .ok (some r, w')) (h' : runW tr (havingLoop E n n r.1 r.2) w' = .ok (r', ws)) (hw : w.isEmpty = false) :
    runW tr (parseModifiers E (n + 1) q fs cs) (kw "having" :: w) = runW tr (parseModifiers E n { q with having := r'.1 } fs r'.2) ws := by
  rw [parseModifiers]
  pwsimp [h, h', hw]

theorem step_limit (n : Nat) (q : Info) (x : Str) (fs : List Filter) (cs : List Op) (ws : List Word) :
    runW tr (parseModifiers E (n + 1) q fs cs) (kw "limit" :: .tok ⟨.integer, x⟩ :: ws) =
      runW tr (parseModifiers E n { q with limit := x } fs cs) ws := by
  rw [parseModifiers]
  pwsimp []

theorem step_textLimit (n : Nat) (q : Info) (x : Str) (fs : List Filter) (cs : List Op) (ws : List Word) :
    runW tr (parseModifiers E (n + 1) q fs cs) (kw "textlimit" :: .tok ⟨.integer, x⟩ :: ws) =
      runW tr (parseModifiers E n { q with textLimit := x } fs cs) ws := by
  rw [parseModifiers]
  pwsimp []

theorem step_offset (n : Nat) (q : Info) (x : Str) (fs : List Filter) (cs : List Op) (ws : List Word) :
    runW tr (parseModifiers E (n + 1) q fs cs) (kw "offset" :: .tok ⟨.integer, x⟩ :: ws) =
      runW tr (parseModifiers E n { q with offset := x } fs cs) ws := by
  rw [parseModifiers]
  pwsimp []

theorem mod_step {m : Mod} {n : Nat} {q : Info} (fs : List Filter) (cs : List Op) {ws : List Word} (hw : Fresh E ws)
    (hk : ∀ x ∈ m.orders, x.Ok q.selected) (hf : ∀ f ∈ m.havings, f.Ok) (hn : m.words.length ≤ n) :
    runW tr (parseModifiers E (n + 1) q fs cs) (m.words ++ ws) = runW tr (parseModifiers E n (addMod q m) fs cs) ws := by
  cases m with
  | orderBy sp k ks =>
    have hl : (k :: ks).length ≤ ((k :: ks).flatMap OrderE.words).length := by
      clear hk hf hn
      generalize k :: ks = l
      induction l with
      | nil => simp
      | cons x l ih =>
        have : 0 < x.words.length := by cases x <;> simp [OrderE.words]
        simp only [List.flatMap_cons, List.length_append, List.length_cons]
        omega
    have h := orderLoop_eq tr hw (k :: ks) n q hk (by simp only [Mod.words, List.length_cons] at hn hl ⊢; omega) (Or.inr (by simp))
    rw [foldl_addKey] at h
    rw [Mod.words, List.cons_append, step_order tr (fun w hw => not_is_orderBy E hw) h]
    · have : addMod q (.orderBy sp k ks) = { q with
          orderBy := q.orderBy ++ (k :: ks).map OrderE.key', aliases := q.aliases ++ (k :: ks).flatMap OrderE.aliases } := by
        simp [addMod, Mod.havings, Mod.orders, Mod.groups, Mod.limit?, Mod.offset?, Mod.textLimit?]
      rw [this]
    · cases k <;> rfl
  | groupBy sp v vs =>
    have h := varList_eq tr hw.type vs n (by simp only [Mod.words, List.length_cons, List.length_map] at hn; omega)
    rw [Mod.words, List.cons_append, List.map_cons, List.cons_append, step_group tr (fun w hw => not_is_groupBy E hw) h]
    have : addMod q (.groupBy sp v vs) = { q with groupBy := q.groupBy ++ ('?' :: v) :: vs.map ('?' :: ·) } := by
      simp [addMod, Mod.havings, Mod.orders, Mod.groups, Mod.limit?, Mod.offset?, Mod.textLimit?]
    rw [this]
  | having f xs =>
    have hl : xs.length ≤ (xs.flatMap FilterE.words).length ∧ ∀ x ∈ xs, x.words.length ≤ (xs.flatMap FilterE.words).length := by
      clear hk hf hn
      induction xs with
      | nil => simp
      | cons x l ih =>
        have : 0 < x.words.length := by cases x <;> simp [FilterE.words] <;> omega
        simp only [List.flatMap_cons, List.length_append, List.length_cons]
        refine ⟨by omega, ?_⟩
        intro y hy
        rcases List.mem_cons.1 hy with rfl | hy
        · omega
        · have := ih.2 y hy; omega
    simp only [Mod.words, List.flatMap_cons, List.length_cons, List.length_append] at hn
    have h1 := parseFilter_eq (E := E) tr (hf f (by simp [Mod.havings])) (n := n) (by omega) q.having cs (xs.flatMap FilterE.words ++ ws)
    have h2 := havingLoop_eq tr hw (m := n) xs n (q.having ++ [f.filter]) cs
      (fun x hx => ⟨hf x (by simp [Mod.havings, hx]), by have := hl.2 x hx; omega⟩) (by omega) (by omega)
    have h3 : (f.words ++ (xs.flatMap FilterE.words ++ ws)).isEmpty = false := by
      have : f.words ≠ [] := by cases f <;> simp [FilterE.words]
      cases hx : f.words with
      | nil => exact absurd hx this
      | cons a b => rfl
    rw [Mod.words, List.cons_append, List.flatMap_cons, List.append_assoc, step_having tr h1 h2 h3]
    have : addMod q (.having f xs) = { q with having := q.having ++ [f.filter] ++ xs.map FilterE.filter } := by
      simp [addMod, Mod.havings, Mod.orders, Mod.groups, Mod.limit?, Mod.offset?, Mod.textLimit?]
    rw [this]
  | limit x =>
    have : addMod q (.limit x) = { q with limit := x } := by
      simp [addMod, Mod.havings, Mod.orders, Mod.groups, Mod.limit?, Mod.offset?, Mod.textLimit?]
    rw [this]
    exact step_limit tr n q x fs cs ws
  | offset x =>
    have : addMod q (.offset x) = { q with offset := x } := by
      simp [addMod, Mod.havings, Mod.orders, Mod.groups, Mod.limit?, Mod.offset?, Mod.textLimit?]
    rw [this]
    exact step_offset tr n q x fs cs ws
  | textLimit x =>
    have : addMod q (.textLimit x) = { q with textLimit := x } := by
      simp [addMod, Mod.havings, Mod.orders, Mod.groups, Mod.limit?, Mod.offset?, Mod.textLimit?]
    rw [this]
    exact step_textLimit tr n q x fs cs ws

/-- How modifiers end: at the end of the query or with the bracket of a subquery. -/
inductive End : List Word → List Word → Prop
  | nil : End [] []
  | bracket {w ws} : End (sym '}' :: w :: ws) (w :: ws)

theorem end_fresh {ws ws' : List Word} (h : End ws ws') : Fresh E ws := by
  cases h with
  | nil => exact ⟨by decide, fun w hw h => by
      have h0 : (w.toList : Str) = [] := h.symm
      exact absurd h0 ((by decide : ∀ w ∈ ["asc", "desc", "(", "lang", "langmatches", "regex", "prefix"], w.toList ≠ []) w hw)⟩
  | bracket => exact ⟨by exact (by decide : Ty.symbol ≠ .var), fun w hw h => by
      have := (is_word (v := "}") E (by simp)).1 h
      subst this
      revert hw
      decide⟩

theorem mod_fresh (m : Mod) (ws : List Word) : Fresh E (m.words ++ ws) := by
  have hI : ∀ w ∈ ["asc", "desc", "(", "lang", "langmatches", "regex", "prefix"], IsWord w := by unfold IsWord; decide
  cases m with
  | orderBy sp k ks => exact ⟨by exact (by decide : Ty.orderBy ≠ .var), fun w hw => not_is_orderBy E (hI w hw)⟩
  | groupBy sp v vs => exact ⟨by exact (by decide : Ty.groupBy ≠ .var), fun w hw => not_is_groupBy E (hI w hw)⟩
  | having f fs => exact ⟨by exact (by decide : Ty.keyword ≠ .var), fun w hw h => by
      have := (is_word (v := "having") E (by simp)).1 h
      subst this
      revert hw
      decide⟩
  | limit x => exact ⟨by exact (by decide : Ty.keyword ≠ .var), fun w hw h => by
      have := (is_word (v := "limit") E (by simp)).1 h
      subst this
      revert hw
      decide⟩
  | offset x => exact ⟨by exact (by decide : Ty.keyword ≠ .var), fun w hw h => by
      have := (is_word (v := "offset") E (by simp)).1 h
      subst this
      revert hw
      decide⟩
  | textLimit x => exact ⟨by exact (by decide : Ty.keyword ≠ .var), fun w hw h => by
      have := (is_word (v := "textlimit") E (by simp)).1 h
      subst this
      revert hw
      decide⟩

theorem parseModifiers_eq {ws ws' : List Word} (hw : End ws ws') (mods : List Mod) (n : Nat) (q : Info) (fs : List Filter) (cs : List Op)
    (hk : ∀ x ∈ mods.flatMap Mod.orders, x.Ok q.selected) (hf : ∀ f ∈ mods.flatMap Mod.havings, f.Ok)
    (hn : (mods.flatMap Mod.words).length < n) :
    runW tr (parseModifiers E n q fs cs) (mods.flatMap Mod.words ++ ws) = .ok ((mods.foldl addMod q, .mk fs cs), ws') := by
  induction mods generalizing n q with
  | nil =>
    obtain ⟨n, rfl⟩ : ∃ m, n = m + 1 := ⟨n - 1, by simp at hn; omega⟩
    rw [parseModifiers]
    cases hw with
    | nil => rfl
    | bracket => pwsimp [List.foldl_nil]
  | cons m mods ih =>
    obtain ⟨n, rfl⟩ : ∃ m, n = m + 1 := ⟨n - 1, by simp at hn; omega⟩
    have hlen : (m.words).length + (mods.flatMap Mod.words).length < n + 1 := by simpa using hn
    have hpos : 0 < m.words.length := by cases m <;> simp [Mod.words]
    have hfresh : Fresh E (mods.flatMap Mod.words ++ ws) := by
      cases mods with
      | nil => exact end_fresh hw
      | cons x l => rw [List.flatMap_cons, List.append_assoc]; exact mod_fresh x _
    rw [List.flatMap_cons, List.append_assoc, mod_step tr fs cs hfresh (fun x hx => hk x (by simp [hx])) (fun f h => hf f (by simp [h])) (by omega),
      ih n (addMod q m) (fun x hx => hk x (by rw [List.flatMap_cons]; exact List.mem_append_right _ hx))
        (fun x hx => hf x (by rw [List.flatMap_cons]; exact List.mem_append_right _ hx)) (by omega)]
    rfl

theorem getLast_getD (f : Mod → Option Str) (m : Mod) (mods : List Mod) (d : Str) :
    (((m :: mods).filterMap f).getLast?).getD d = ((mods.filterMap f).getLast?).getD ((f m).getD d) := by
  rw [List.filterMap_cons]
  cases h : f m with
  | none => rfl
  | some x =>
    show ((x :: mods.filterMap f).getLast?).getD d = _
    rw [List.getLast?_cons]
    rfl

theorem foldl_addMod (mods : List Mod) (q : Info) : mods.foldl addMod q = { q with
    having := q.having ++ (mods.flatMap Mod.havings).map FilterE.filter
    orderBy := q.orderBy ++ (mods.flatMap Mod.orders).map OrderE.key'
    groupBy := q.groupBy ++ mods.flatMap Mod.groups
    limit := (mods.filterMap Mod.limit?).getLast?.getD q.limit
    textLimit := (mods.filterMap Mod.textLimit?).getLast?.getD q.textLimit
    offset := (mods.filterMap Mod.offset?).getLast?.getD q.offset
    aliases := q.aliases ++ (mods.flatMap Mod.orders).flatMap OrderE.aliases } := by
  induction mods generalizing q with
  | nil => simp
  | cons m mods ih =>
    rw [List.foldl_cons, ih, getLast_getD, getLast_getD, getLast_getD]
    simp [addMod, List.flatMap_append]

theorem infoOf_eq (prefixes : List (Str × Str)) (distinct reduced : Bool) (sels : List Sel) (mods : List Mod) :
    mods.foldl addMod { ({ prefixes := prefixes } : Info) with
      selected := sels.map Sel.name, aliases := sels.flatMap Sel.aliases, distinct := distinct, reduced := reduced } =
      infoOf prefixes distinct reduced sels mods := by
  rw [foldl_addMod, infoOf]
  simp

theorem selected_ok {sels : List Sel} {mods : List Mod} (hs : SelectOk sels mods) (ho : ∀ k ∈ mods.flatMap Mod.orders, k.Ok (sels.map Sel.name))
    (prefixes : List (Str × Str)) (distinct reduced : Bool) : checkSelected (infoOf prefixes distinct reduced sels mods) = true := by
  rw [checkSelected, Bool.and_eq_true]
  constructor
  · rw [Bool.or_eq_true]
    by_cases hg : mods.flatMap Mod.groups = []
    · left
      show (mods.flatMap Mod.groups).isEmpty = true
      rw [hg]; rfl
    · right
      rw [List.all_eq_true]
      intro v hv
      obtain ⟨x, hx, rfl⟩ := List.mem_map.1 hv
      rw [Bool.or_eq_true, Bool.or_eq_true]
      cases x with
      | var n => exact Or.inr (List.contains_iff_mem.2 (hs.1 hg n hx))
      | text n => exact Or.inl (Or.inl rfl)
      | score n => exact Or.inl (Or.inl rfl)
      | aliased a =>
        refine Or.inl (Or.inr (List.any_eq_true.2 ⟨a.alias_, ?_, ?_⟩))
        · exact List.mem_append_left _ (List.mem_flatMap.2 ⟨_, hx, by simp [Sel.aliases]⟩)
        · exact beq_iff_eq.2 rfl
  · rw [List.all_eq_true]
    intro a ha
    apply decide_eq_true
    rcases List.mem_append.1 ha with ha | ha
    · obtain ⟨x, hx, ha⟩ := List.mem_flatMap.1 ha
      cases x with
      | aliased b =>
        simp only [Sel.aliases, List.mem_singleton] at ha
        subst ha
        exact Nat.le_of_eq (hs.2 b hx)
      | _ => simp [Sel.aliases] at ha
    · obtain ⟨x, hx, ha⟩ := List.mem_flatMap.1 ha
      cases x with
      | aliased d b =>
        simp only [OrderE.aliases, List.mem_singleton] at ha
        subst ha
        have := (ho _ hx).2.2
        show List.count ('?' :: b.out) (sels.map Sel.name) ≤ 1
        rw [List.count_eq_zero_of_not_mem this]
        omega
      | _ => simp [OrderE.aliases] at ha

end Verif.SparqlParser
