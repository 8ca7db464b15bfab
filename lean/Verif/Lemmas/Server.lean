import Verif.Lemmas.ServerRead
/-
The request line, the choice of the answer, and the answer to a query.
-/
namespace Verif.Server
open ServerSpec StringUtils
open Http (Params cGET cHTTP createQuery)

/-! ### The request line -/

/-- The connection stays open: `recv` returns bytes or asks to try again. -/
def Open (rs : List Recv) : Prop := ∀ r ∈ rs, r = .again ∨ ∃ b, b ≠ [] ∧ r = .bytes b

/-- The bytes that arrive. -/
def received (rs : List Recv) : Str := rs.flatMap fun
  | .bytes b => b
  | _ => []

theorem find_infix {sub s : Str} : find sub s 0 = none ↔ ¬ sub <:+: s := by
  constructor
  · rintro h ⟨a, b, rfl⟩
    refine find_none h a.length (by omega) (by simp) ?_
    rw [List.append_assoc, List.drop_left]
    exact List.prefix_append _ _
  · intro h
    cases hf : find sub s 0 with
    | none => rfl
    | some i =>
      obtain ⟨_, _, h3, _⟩ := find_some hf
      exact absurd (h3.isInfix.trans (List.drop_suffix i s).isInfix) h

/-- The end of the headers is waited for. -/
theorem get_headers {req : Str} (hne : req ≠ []) (hh : find cHTTP req 0 ≠ none) : ∀ (rs : List Recv) (data : Str), Open rs →
    find ['\r', '\n', '\r', '\n'] data 0 = none → ['\r', '\n', '\r', '\n'] <:+: data ++ received rs → ∃ h, getLoop rs data req = .ok (req, h) := by
  intro rs
  induction rs with
  | nil =>
    intro data _ h1 h2
    rw [received, List.flatMap_nil, List.append_nil] at h2
    exact absurd h2 (find_infix.mp h1)
  | cons r rs ih =>
    intro data ho h1 h2
    have ho' : Open rs := fun x hx => ho x (List.mem_cons_of_mem _ hx)
    rcases ho r (List.mem_cons_self ..) with rfl | ⟨b, hb, rfl⟩
    · exact ih data ho' h1 (by simpa [received] using h2)
    · rw [getLoop, if_neg hb]
      simp only [if_neg hne]
      rw [if_pos hne, if_neg hh]
      by_cases h3 : find ['\r', '\n', '\r', '\n'] (data ++ b) 0 = none
      · rw [if_pos h3]
        exact ih _ ho' h3 (by simpa [received, List.append_assoc] using h2)
      · rw [if_neg h3]
        exact ⟨_, rfl⟩

theorem prefix_cases {a b c d : Str} (h : a ++ b = c ++ d) (hl : c.length ≤ a.length) : ∃ e, a = c ++ e ∧ d = e ++ b := by
  rcases List.append_eq_append_iff.mp h with ⟨x, h1, h2⟩ | ⟨x, h1, h2⟩
  · have : x = [] := List.length_eq_zero_iff.mp (by have := congrArg List.length h1; simp only [List.length_append] at this; omega)
    subst this
    simp only [List.append_nil, List.nil_append] at h1 h2
    exact ⟨[], by simp [h1], by simp [h2]⟩
  · exact ⟨x, h1, h2⟩

theorem find_crlf {line x : Str} (h : '\r' ∉ line) : find ['\r', '\n'] (line ++ ('\r' :: '\n' :: x)) 0 = some line.length := by
  refine find_eq (by omega) (by simp) (by rw [List.drop_left]; exact ⟨x, rfl⟩) ?_
  intro j _ hj hp
  obtain ⟨t, ht⟩ := hp
  have h1 : (line ++ ('\r' :: '\n' :: x))[j]? = some '\r' := by
    have := congrArg (fun l : Str => l[0]?) ht
    simpa using this.symm
  rw [List.getElem?_append_left hj] at h1
  exact h (List.mem_of_getElem? h1)

theorem find_crlf_none {line a b x : Str} (h : '\r' ∉ line) (he : a ++ b = line ++ ('\r' :: '\n' :: x)) (hl : a.length < line.length + 2) :
    find ['\r', '\n'] a 0 = none := by
  rw [find_infix]
  rintro ⟨u, v, rfl⟩
  have h1 : (line ++ ('\r' :: '\n' :: x))[u.length]? = some '\r' := by
    rw [← he]; simp
  simp only [List.length_append, List.length_cons, List.length_nil] at hl
  rw [List.getElem?_append_left (by omega)] at h1
  exact h (List.mem_of_getElem? h1)

/-- The request line does not depend on how the bytes arrive. -/
theorem get_line {line rest : Str} (hline : '\r' ∉ line) (hne : line ≠ []) (hend : ['\r', '\n', '\r', '\n'] <:+: '\r' :: '\n' :: rest) :
    ∀ (rs : List Recv) (data : Str), Open rs → data.length < line.length + 2 →
    data ++ received rs = line ++ ('\r' :: '\n' :: rest) → ∃ h, getLoop rs data [] = .ok (line, h) := by
  intro rs
  induction rs with
  | nil =>
    intro data _ hl he
    rw [received, List.flatMap_nil, List.append_nil] at he
    rw [he] at hl
    simp only [List.length_append, List.length_cons] at hl
    omega
  | cons r rs ih =>
    intro data ho hl he
    have ho' : Open rs := fun x hx => ho x (List.mem_cons_of_mem _ hx)
    rcases ho r (List.mem_cons_self ..) with rfl | ⟨b, hb, rfl⟩
    · exact ih data ho' hl (by simpa [received] using he)
    · have he2 : data ++ b ++ received rs = line ++ ('\r' :: '\n' :: rest) := by simpa [received, List.append_assoc] using he
      rw [getLoop, if_neg hb]
      simp only [if_true]
      by_cases hlen : (data ++ b).length < line.length + 2
      · rw [find_crlf_none hline he2 hlen]
        simp only [ne_eq, not_true, if_false]
        exact ih _ ho' hlen he2
      · obtain ⟨x, hx, hx2⟩ := prefix_cases (c := line ++ ['\r', '\n']) (d := rest) (by rw [he2]; simp)
          (by simp only [List.length_append, List.length_cons, List.length_nil] at hlen ⊢; omega)
        have hx' : data ++ b = line ++ ('\r' :: '\n' :: x) := by rw [hx]; simp
        rw [hx', find_crlf hline]
        simp only [List.take_left, List.drop_left]
        rw [if_pos hne]
        by_cases hh : find cHTTP line 0 = none
        · rw [if_pos hh]; exact ⟨_, rfl⟩
        · rw [if_neg hh]
          by_cases h3 : find ['\r', '\n', '\r', '\n'] ('\r' :: '\n' :: x) 0 = none
          · rw [if_pos h3]
            refine get_headers hne hh rs _ ho' h3 ?_
            rw [hx2] at hend
            simpa using hend
          · rw [if_neg h3]; exact ⟨_, rfl⟩

/-- An empty line before the request line: the request line is never found. -/
theorem get_blank : ∀ (rs : List Recv) (data : Str), Open rs → (data = [] ∨ data = ['\r'] ∨ ['\r', '\n'] <+: data) →
    (∃ rest, data ++ received rs = '\r' :: '\n' :: rest) → getLoop rs data [] = .diverge := by
  intro rs
  induction rs with
  | nil => intro data _ _ _; rfl
  | cons r rs ih =>
    intro data ho hd ⟨rest, he⟩
    have ho' : Open rs := fun x hx => ho x (List.mem_cons_of_mem _ hx)
    rcases ho r (List.mem_cons_self ..) with rfl | ⟨b, hb, rfl⟩
    · exact ih data ho' hd ⟨rest, by simpa [received] using he⟩
    · have he2 : data ++ b ++ received rs = '\r' :: '\n' :: rest := by simpa [received, List.append_assoc] using he
      rw [getLoop, if_neg hb]
      simp only [if_true]
      by_cases hlen : (data ++ b).length < 2
      · rw [find_crlf_none (line := []) (by simp) he2 (by simpa using hlen)]
        simp only [ne_eq, not_true, if_false]
        refine ih _ ho' ?_ ⟨rest, he2⟩
        revert hlen he2
        generalize data ++ b = a
        intro he2 hlen
        match a with
        | [] => exact .inl rfl
        | [x] =>
          simp only [List.cons_append, List.nil_append, List.cons.injEq] at he2
          rw [he2.1]; exact .inr (.inl rfl)
        | _ :: _ :: _ => simp only [List.length_cons] at hlen; omega
      · obtain ⟨x, hx, hx2⟩ := prefix_cases (c := ['\r', '\n']) (d := rest) (by rw [he2]; simp) (by simpa using hlen)
        have : find ['\r', '\n'] (data ++ b) 0 = some 0 := by rw [hx]; exact find_crlf (line := []) (by simp)
        rw [this]
        simp only [List.take_zero, List.drop_zero, ne_eq, not_true, if_false]
        exact ih _ ho' (.inr (.inr (by rw [hx]; exact List.prefix_append _ _))) ⟨rest, he2⟩

/-- The connection is closed before the end of the first line. -/
theorem get_closed : ∀ (rs more : List Recv) (data : Str), Open rs → ¬ ['\r', '\n'] <:+: data ++ received rs →
    getLoop (rs ++ .bytes [] :: more) data [] = .ok ([], []) := by
  intro rs
  induction rs with
  | nil => intro more data _ _; simp [getLoop]
  | cons r rs ih =>
    intro more data ho hd
    have ho' : Open rs := fun x hx => ho x (List.mem_cons_of_mem _ hx)
    rcases ho r (List.mem_cons_self ..) with rfl | ⟨b, hb, rfl⟩
    · exact ih more data ho' (by simpa [received] using hd)
    · have he2 : ¬ ['\r', '\n'] <:+: data ++ b ++ received rs := by simpa [received, List.append_assoc] using hd
      rw [List.cons_append, getLoop, if_neg hb]
      simp only [if_true]
      have : find ['\r', '\n'] (data ++ b) 0 = none := by
        rw [find_infix]
        intro h
        exact he2 (h.trans (List.prefix_append _ _).isInfix)
      rw [this]
      simp only [ne_eq, not_true, if_false]
      exact ih more _ ho' he2

/-! ### The choice of the answer -/

/-- A request line with a path and without parameters. -/
theorem process_path (E : Engine) (fuel : Nat) (path tail : Str) (hq : '?' ∉ path) (hh : ¬ cHTTP <:+: "GET /".toList ++ path)
    (hsize : ("GET /".toList ++ path).length + 1 < 2 ^ 64) :
    process E fuel ("GET /".toList ++ path ++ ' ' :: (cHTTP ++ tail)) =
      .ok (if path = [] then serveFile E.files "index.html".toList
        else if path ∈ whiteList then serveFile E.files path else response404) := by
  generalize hg : "GET /".toList = g at hh hsize ⊢
  have hgl : g.length = 5 := by rw [← hg]; rfl
  have hget : find cGET (g ++ path ++ ' ' :: (cHTTP ++ tail)) 0 = some 0 :=
    find_eq (by omega) (by omega) (by rw [List.drop_zero, ← hg]; exact ⟨_, rfl⟩) (by omega)
  have hfh : find cHTTP (g ++ path ++ ' ' :: (cHTTP ++ tail)) 0 = some ((g ++ path).length + 1) := by
    refine find_eq (by omega) (by simp; omega) ?_ ?_
    · rw [List.drop_append, List.drop_eq_nil_of_le (by omega), show (g ++ path).length + 1 - (g ++ path).length = 1 by omega]
      exact List.prefix_append _ _
    · intro j _ hj h
      exact hh (Http.find_space (by decide) j (by omega) h)
  have hup : upper (g ++ path ++ ' ' :: (cHTTP ++ tail)) 0 ((g ++ path).length + 1) = (g ++ path).length + 1 := by
    unfold upper
    cases hf : findPos (· == '?') (g ++ path ++ ' ' :: (cHTTP ++ tail)) 0 with
    | none => rfl
    | some q =>
      simp only
      rw [if_neg]
      intro hlt
      obtain ⟨h1, h2, h3, h4⟩ := findPos_some hf
      have hm : ∀ c ∈ g ++ path ++ [' '], c ≠ '?' := by
        intro c hc
        simp only [List.mem_append, List.mem_singleton] at hc
        rcases hc with (hc | hc) | hc
        · rw [← hg] at hc
          revert c; decide
        · rintro rfl; exact hq hc
        · rw [hc]; decide
      have e : (g ++ path ++ ' ' :: (cHTTP ++ tail)) = (g ++ path ++ [' ']) ++ (cHTTP ++ tail) := by simp
      simp only [e] at h3
      have hlt2 : q < (g ++ path ++ [' ']).length := by simp only [List.length_append, List.length_singleton] at hlt ⊢; omega
      rw [List.getElem_append_left hlt2] at h3
      exact hm _ (List.getElem_mem hlt2) (by simpa using h3)
  have hsub : substr (g ++ path ++ ' ' :: (cHTTP ++ tail)) (0 + 5) (sub64 (sub64 ((g ++ path).length + 1) (0 + 5)) 1) = .ok path := by
    rw [Http.sub64_le (by simp only [List.length_append]; omega) hsize, Http.sub64_le (by simp only [List.length_append]; omega) (by omega),
      List.append_assoc, show 0 + 5 = g.length by omega]
    exact Http.substr_mid g path _ _ (by simp only [List.length_append]; omega)
  rw [process, hget, hfh]
  simp only
  rw [requested, hup, hsub]
  simp only [Run.lift, Run.bind]
  by_cases hp : path = []
  · subst hp
    have : (g ++ [] ++ ' ' :: (cHTTP ++ tail))[0 + 5]? = some ' ' := by
      rw [List.append_nil, List.getElem?_append_right (by omega), hgl]; rfl
    rw [respond, if_pos ⟨rfl, by rw [this]; decide⟩, if_pos rfl]
  · rw [respond, if_neg (fun h => hp h.1), if_neg hp, if_neg hp]
    by_cases hw : path ∈ whiteList
    · rw [if_pos hw, if_pos hw]
    · rw [if_neg hw, if_neg hw]

/-- A request line with a path and parameters. -/
theorem process_params (E : Engine) (fuel : Nat) (path params tail : Str) (hq : '?' ∉ path)
    (hh : ¬ cHTTP <:+: "GET /".toList ++ (path ++ '?' :: params))
    (hsize : ("GET /".toList ++ (path ++ '?' :: params)).length + 1 < 2 ^ 64) :
    process E fuel ("GET /".toList ++ (path ++ '?' :: params) ++ ' ' :: (cHTTP ++ tail)) =
      if path = [] then (answer E fuel ("GET /".toList ++ (path ++ '?' :: params) ++ ' ' :: (cHTTP ++ tail))).map fun r => createHttpResponse r.1 r.2
      else .ok (if path ∈ whiteList then serveFile E.files path else response404) := by
  generalize hg : "GET /".toList = g at hh hsize ⊢
  have hgl : g.length = 5 := by rw [← hg]; rfl
  have hget : find cGET (g ++ (path ++ '?' :: params) ++ ' ' :: (cHTTP ++ tail)) 0 = some 0 :=
    find_eq (by omega) (by omega) (by rw [List.drop_zero, ← hg]; exact ⟨_, rfl⟩) (by omega)
  have hfh : find cHTTP (g ++ (path ++ '?' :: params) ++ ' ' :: (cHTTP ++ tail)) 0 = some ((g ++ (path ++ '?' :: params)).length + 1) := by
    refine find_eq (by omega) (by simp; omega) ?_ ?_
    · rw [List.drop_append, List.drop_eq_nil_of_le (by omega),
        show (g ++ (path ++ '?' :: params)).length + 1 - (g ++ (path ++ '?' :: params)).length = 1 by omega]
      exact List.prefix_append _ _
    · intro j _ hj h
      exact hh (Http.find_space (by decide) j (by omega) h)
  have hqp : findPos (· == '?') (g ++ (path ++ '?' :: params) ++ ' ' :: (cHTTP ++ tail)) 0 = some (5 + path.length) := by
    have := Http.findPos_append (p := (· == '?')) (a := []) (x := g ++ path) (y := params ++ ' ' :: (cHTTP ++ tail)) (c := '?') (by
      intro c hc
      simp only [beq_eq_false_iff_ne]
      rcases List.mem_append.mp hc with hc | hc
      · rw [← hg] at hc
        have hgq : ∀ c ∈ "GET /".toList, c ≠ '?' := by decide
        exact hgq c hc
      · rintro rfl; exact hq hc) rfl
    simp only [List.nil_append, List.length_nil, Nat.zero_add, List.length_append, hgl] at this
    rw [← this]
    congr 1
    simp
  have hsub : substr (g ++ (path ++ '?' :: params) ++ ' ' :: (cHTTP ++ tail)) (0 + 5) (sub64 (sub64 (5 + path.length + 1) (0 + 5)) 1) = .ok path := by
    simp only [List.length_append, List.length_cons] at hsize
    rw [Http.sub64_le (a := 5 + path.length + 1) (by omega) (by omega), Http.sub64_le (by omega) (by omega), show 0 + 5 = g.length by omega,
      show g ++ (path ++ '?' :: params) ++ ' ' :: (cHTTP ++ tail) = g ++ (path ++ ('?' :: params ++ ' ' :: (cHTTP ++ tail))) by simp]
    exact Http.substr_mid g path _ _ (by omega)
  rw [process, hget, hfh]
  simp only
  rw [requested, upper, hqp]
  simp only
  rw [if_pos (by simp only [List.length_append, List.length_cons]; omega), hsub]
  simp only [Run.lift, Run.bind]
  by_cases hp : path = []
  · subst hp
    have : (g ++ ([] ++ '?' :: params) ++ ' ' :: (cHTTP ++ tail))[0 + 5]? = some '?' := by
      rw [List.append_assoc, List.getElem?_append_right (by omega), hgl]; rfl
    rw [respond, if_neg (fun h => h.2 this), if_pos rfl, if_pos rfl]
  · rw [respond, if_neg (fun h => hp h.1), if_neg hp, if_neg hp]
    by_cases hw : path ∈ whiteList
    · rw [if_pos hw, if_pos hw]
    · rw [if_neg hw, if_neg hw]

/-! ### Parsing a request line of ASCII characters -/

/-- The result without the text of an exception. -/
def forget : Run α → Outcome α
  | .ok a => .ok a
  | .throw _ => .throw
  | .ub => .ub
  | .diverge => .diverge

theorem forget_bind (x : Run α) (f : α → Run β) : forget (x.bind f) = (forget x).bind fun a => forget (f a) := by
  cases x <;> rfl

theorem forget_lift (w : Str) (x : Outcome α) : forget (Run.lift w x) = x := by
  cases x <;> rfl

theorem ascii_sublist {a b : Str} (h : a.Sublist b) (hb : Ascii b) : Ascii a := fun c hc => hb c (h.subset hc)

theorem substr_ascii {s r : Str} {p n : Nat} (hs : Ascii s) (h : substr s p n = .ok r) : Ascii r := by
  unfold substr at h
  by_cases hp : p ≤ s.length
  · rw [if_pos hp] at h
    cases h
    exact ascii_sublist ((List.take_sublist _ _).trans (List.drop_sublist _ _)) hs
  · rw [if_neg hp] at h; cases h

theorem lowerUtf8_ascii (lower : Str → Str) {s : Str} (h : Ascii s) : lowerUtf8 lower s = .ok (lower s) := by
  obtain ⟨cs, h1, h2⟩ := utf8_of_ascii h
  obtain ⟨ws, _, _, e3⟩ := dump_ok cs s h1 h2 0 []
  rw [lowerUtf8, e3]

theorem param_forget (lower : Str → Str) (fuel : Nat) (noEq : Str) (dup : Str → Str) {request : Str} (ha : Ascii request) (params : Params)
    (index stop : Nat) : forget (param lower fuel noEq dup request params index stop) = Http.param lower fuel request params index stop := by
  unfold param Http.param
  cases findPos (· == '=') request (index + 1) with
  | none => rfl
  | some posOfEq =>
    simp only
    cases hn : substr request (index + 1) (sub64 posOfEq (index + 1)) with
    | ok name =>
      simp only [Run.lift, Run.bind, Outcome.bind, lowerUtf8_ascii lower (substr_ascii ha hn)]
      cases substr request (posOfEq + 1) (sub64 stop (posOfEq + 1)) with
      | ok value =>
        simp only
        cases decodeUrl fuel value with
        | ok v =>
          simp only
          by_cases hd : (params.any fun p => p.1 == lower name) = true
          · rw [if_pos hd, if_pos hd]; rfl
          · rw [if_neg hd, if_neg hd]; rfl
        | throw => rfl
        | ub => rfl
        | diverge => rfl
      | throw => rfl
      | ub => rfl
      | diverge => rfl
    | throw => rfl
    | ub => rfl
    | diverge => rfl

theorem loop_forget (lower : Str → Str) (fuel : Nat) (raw : Str) {request : Str} (ha : Ascii request) : ∀ (n : Nat) (params : Params)
    (index : Nat) (next : Option Nat), forget (paramsLoop lower fuel raw request n params index next) =
      loop n (Http.paramsBody lower fuel request) (params, index, next) := by
  intro n
  induction n with
  | zero => intro params index next; rfl
  | succ n ih =>
    intro params index next
    cases next with
    | none => rfl
    | some next =>
      rw [paramsLoop, loop, Http.paramsBody, forget_bind, param_forget lower fuel _ _ ha]
      simp only
      cases Http.param lower fuel request params index next with
      | ok p =>
        simp only [Outcome.bind, Outcome.map]
        exact ih _ _ _
      | throw => rfl
      | ub => rfl
      | diverge => rfl

/-- For ASCII characters, this is the function of `Model/Http.lean`. -/
theorem parse_forget (lower : Str → Str) (fuel : Nat) {raw : Str} (ha : Ascii raw) :
    forget (parseHttpRequest lower fuel raw) = Http.parseHttpRequest lower fuel raw := by
  unfold parseHttpRequest Http.parseHttpRequest
  cases find cGET raw 0 with
  | none => rfl
  | some get =>
    cases find cHTTP raw 0 with
    | none => rfl
    | some http =>
      simp only
      rw [forget_bind, forget_lift]
      cases hs : substr raw (get + 3) (sub64 http (get + 3)) with
      | ok request =>
        have hra := substr_ascii ha hs
        simp only [Outcome.bind]
        cases findPos (· == '?') request 0 with
        | none => rfl
        | some index =>
          simp only
          rw [forget_bind, loop_forget lower fuel raw hra]
          cases loop fuel (Http.paramsBody lower fuel request) ([], index, findPos (· == '&') request (index + 1)) with
          | ok r => exact param_forget lower fuel _ _ hra _ _ _
          | throw => rfl
          | ub => rfl
          | diverge => rfl
      | throw => rfl
      | ub => rfl
      | diverge => rfl

theorem forget_ok {x : Run α} {a : α} (h : forget x = .ok a) : x = .ok a := by
  cases x with
  | ok b => cases h; rfl
  | throw w => cases h
  | ub => cases h
  | diverge => cases h

/-! ### Exceptions have ASCII texts -/

/-- A result that is either returned or an exception with a text in ASCII. -/
def Fine (P : α → Prop) (x : Run α) : Prop := (∃ a, x = .ok a ∧ P a) ∨ ∃ w, x = .throw w ∧ Ascii w

theorem fine_bind {P : α → Prop} {Q : β → Prop} {x : Run α} {f : α → Run β} (hx : Fine P x) (hf : ∀ a, P a → Fine Q (f a)) : Fine Q (x.bind f) := by
  rcases hx with ⟨a, rfl, ha⟩ | ⟨w, rfl, hw⟩
  · exact hf a ha
  · exact .inr ⟨w, rfl, hw⟩

theorem ascii_append {a b : Str} (ha : Ascii a) (hb : Ascii b) : Ascii (a ++ b) := by
  intro c hc
  rcases List.mem_append.mp hc with h | h
  · exact ha c h
  · exact hb c h

theorem ascii_bad {d : Str} (h : Ascii d) : Ascii (badRequest d) :=
  ascii_append (ascii_append (by unfold Ascii; decide) h) (by unfold Ascii; decide)

theorem ascii_range : Ascii outOfRange := by unfold Ascii; decide

theorem fine_substr {s : Str} (hs : Ascii s) (p n : Nat) : Fine (fun r => Ascii r ∧ r.length ≤ s.length) (Run.lift outOfRange (substr s p n)) := by
  cases h : substr s p n with
  | ok r =>
    refine .inl ⟨r, rfl, substr_ascii hs h, ?_⟩
    unfold substr at h
    by_cases hp : p ≤ s.length
    · rw [if_pos hp] at h
      cases h
      simp only [List.length_take, List.length_drop]; omega
    · rw [if_neg hp] at h; cases h
  | throw => exact .inr ⟨_, rfl, ascii_range⟩
  | ub => unfold substr at h; split at h <;> cases h
  | diverge => unfold substr at h; split at h <;> cases h

theorem fine_param (lower : Str → Str) (hlow : ∀ s, Ascii s → Ascii (lower s)) (fuel : Nat) {noEq : Str} {dup : Str → Str} (hn : Ascii noEq)
    (hd : ∀ s, Ascii s → Ascii (dup s)) {request : Str} (ha : Ascii request) (hf : request.length < fuel) (params : Params) (index stop : Nat) :
    Fine (fun _ => True) (param lower fuel noEq dup request params index stop) := by
  unfold param
  cases findPos (· == '=') request (index + 1) with
  | none => exact .inr ⟨_, rfl, ascii_bad hn⟩
  | some posOfEq =>
    refine fine_bind (fine_substr ha _ _) ?_
    intro name hname
    rw [lowerUtf8_ascii lower hname.1]
    simp only [Run.bind]
    refine fine_bind (fine_substr ha _ _) ?_
    intro value hv
    obtain ⟨v, h1, _⟩ := decode_ok value fuel (by omega)
    rw [h1]
    simp only [Run.lift]
    by_cases hdup : (params.any fun p => p.1 == lower name) = true
    · rw [if_pos hdup]; exact .inr ⟨_, rfl, ascii_bad (hd _ (hlow _ hname.1))⟩
    · rw [if_neg hdup]; exact .inl ⟨_, rfl, trivial⟩

theorem fine_loop (lower : Str → Str) (hlow : ∀ s, Ascii s → Ascii (lower s)) (fuel : Nat) {raw request : Str} (hraw : Ascii raw)
    (ha : Ascii request) (hf : request.length < fuel) : ∀ (n : Nat) (params : Params) (index : Nat) (next : Option Nat),
    (∀ i, next = some i → i < request.length ∧ request.length < n + i) → 1 ≤ n →
    Fine (fun _ => True) (paramsLoop lower fuel raw request n params index next) := by
  intro n
  induction n with
  | zero => intro _ _ _ _ h; omega
  | succ n ih =>
    intro params index next hnext _
    cases next with
    | none => exact .inl ⟨_, rfl, trivial⟩
    | some next =>
      have hn := hnext next rfl
      refine fine_bind (fine_param lower hlow fuel (ascii_append (by unfold Ascii; decide) hraw)
        (fun s hs => ascii_append (by unfold Ascii; decide) hs) ha hf _ _ _) ?_
      intro p _
      refine ih _ _ _ ?_ (by omega)
      intro i hi
      obtain ⟨h1, h2, _⟩ := findPos_some hi
      omega

/-- Parsing a request line of ASCII characters returns parameters or throws an exception with a text in ASCII. -/
theorem fine_parse (lower : Str → Str) (hlow : ∀ s, Ascii s → Ascii (lower s)) (fuel : Nat) {raw : Str} (hraw : Ascii raw)
    (hf : raw.length + 1 < fuel) : Fine (fun _ => True) (parseHttpRequest lower fuel raw) := by
  unfold parseHttpRequest
  cases find cGET raw 0 with
  | none => exact .inr ⟨_, rfl, ascii_bad (ascii_append (by unfold Ascii; decide) hraw)⟩
  | some get =>
    cases find cHTTP raw 0 with
    | none => exact .inr ⟨_, rfl, ascii_bad (ascii_append (by unfold Ascii; decide) hraw)⟩
    | some http =>
      refine fine_bind (fine_substr hraw _ _) ?_
      intro request hr
      cases findPos (· == '?') request 0 with
      | none => exact .inr ⟨_, rfl, ascii_bad (ascii_append (by unfold Ascii; decide) hraw)⟩
      | some index =>
        refine fine_bind (fine_loop lower hlow fuel hraw hr.1 (by omega) fuel _ _ _ ?_ (by omega)) ?_
        · intro i hi
          obtain ⟨h1, h2, _⟩ := findPos_some hi
          omega
        · intro r _
          exact fine_param lower hlow fuel (ascii_append (by unfold Ascii; decide) hraw) (fun s _ => by unfold Ascii; decide) hr.1 (by omega) _ _ _

/-! ### The answer to a query -/

theorem toLower_eq (s : Str) : s.map toLower = lowerAscii s := by
  unfold lowerAscii
  apply List.map_congr_left
  intro c _
  unfold toLower
  have h1 : ('A' ≤ c) ↔ 65 ≤ c.toNat := by
    constructor
    · intro h; exact h
    · intro h; exact h
  have h2 : (c ≤ 'Z') ↔ c.toNat ≤ 90 := by
    constructor
    · intro h; exact h
    · intro h; exact h
  simp only [h1, h2]

theorem find_name {params : Params} {key v : Str} (hnd : (params.map Prod.fst).Nodup) (h : (key, v) ∈ params) :
    (params.find? fun p => p.1 == key) = some (key, v) := by
  induction params with
  | nil => cases h
  | cons p params ih =>
    simp only [List.map_cons, List.nodup_cons] at hnd
    rw [List.find?_cons]
    rcases List.mem_cons.mp h with rfl | h
    · simp
    · have : (p.1 == key) = false := by
        simp only [beq_eq_false_iff_ne]
        rintro rfl
        exact hnd.1 (List.mem_map.mpr ⟨_, h, rfl⟩)
      rw [this]
      exact ih hnd.2 h

theorem lowerValue_mem {params : Params} {key v : Str} (hnd : (params.map Prod.fst).Nodup) (h : (key, v) ∈ params) :
    lowerValue params key = lowerAscii v := by
  rw [lowerValue, find_name hnd h]
  exact toLower_eq v

theorem lowerValue_or (params : Params) (key : Str) :
    lowerValue params key = [] ∨ ∃ v, (key, v) ∈ params ∧ lowerValue params key = lowerAscii v := by
  unfold lowerValue
  cases h : params.find? fun p => p.1 == key with
  | none => exact .inl rfl
  | some p =>
    refine .inr ⟨p.2, ?_, toLower_eq _⟩
    have h1 := List.find?_some h
    simp only [beq_iff_eq] at h1
    rw [← h1]
    exact List.mem_of_find?_eq_some h

theorem lowerValue_ne {params : Params} {key w : Str} (hw : w ≠ []) (h : ∀ v, (key, v) ∈ params → lowerAscii v ≠ w) :
    lowerValue params key ≠ w := by
  rcases lowerValue_or params key with h1 | ⟨v, h1, h2⟩
  · rw [h1]; exact fun he => hw he.symm
  · rw [h2]; exact h v h1

theorem createQuery_mem {params : Params} {q : Str} (hnd : (params.map Prod.fst).Nodup) (h : ("query".toList, q) ∈ params) (hq : q ≠ []) :
    createQuery params = .ok q := by
  unfold createQuery
  rw [show Http.cQuery = "query".toList from rfl, find_name hnd h]
  simp only
  rw [if_neg hq]

/-- What the `try` block does with a query. -/
theorem attempt_query (E : Engine) (fuel : Nat) {raw : Str} {params : Params} {q : Str} (hp : parseHttpRequest E.lower fuel raw = .ok params)
    (hnd : (params.map Prod.fst).Nodup) (hq : ("query".toList, q) ∈ params) (hne : q ≠ [])
    (hcmd : ∀ v, ("cmd".toList, v) ∈ params → lowerAscii v ≠ "stats".toList ∧ lowerAscii v ≠ "cachestats".toList) :
    (attempt E fuel raw).query = q ∧ (attempt E fuel raw).result = execute E params q := by
  unfold attempt
  rw [hp]
  simp only
  rw [if_neg (lowerValue_ne (by decide) fun v hv => (hcmd v hv).1), if_neg (lowerValue_ne (by decide) fun v hv => (hcmd v hv).2),
    createQuery_mem hnd hq hne]
  exact ⟨rfl, rfl⟩

theorem answer_query (E : Engine) (fuel : Nat) {raw : Str} {params : Params} {q : Str} (hp : parseHttpRequest E.lower fuel raw = .ok params)
    (hnd : (params.map Prod.fst).Nodup) (hq : ("query".toList, q) ∈ params) (hne : q ≠ [])
    (hcmd : ∀ v, ("cmd".toList, v) ∈ params → lowerAscii v ≠ "stats".toList ∧ lowerAscii v ≠ "cachestats".toList) :
    answer E fuel raw = match execute E params q with
      | .throw w => (errorJson E.msecs q w).map fun j => (j, [])
      | r => r := by
  obtain ⟨h1, h2⟩ := attempt_query E fuel hp hnd hq hne hcmd
  unfold answer caught
  simp only [h1, h2]
  cases execute E params q <;> rfl

/-- The text of an error. -/
theorem errorJson_members (msecs : Nat) {q w : Str} (hq : Utf8 q) (hw : Utf8 w) : ∃ j, errorJson msecs q w = .ok j ∧
    Member j "exception".toList (w.takeWhile (· != '\x00')) ∧ Member j "query".toList q := by
  obtain ⟨tw, h1, h2⟩ := dumpString_read (utf8_cut hw)
  obtain ⟨tq, h3, h4⟩ := dumpString_read hq
  refine ⟨_, by rw [errorJson, h1, h3]; rfl, ?_, ?_⟩
  all_goals
    generalize ",\n    \"resultsize\": 0,\n    \"status\": \"ERROR\",\n    \"time\": {\n        \"computeResult\": ".toList = t1
    generalize ",\n        \"total\": ".toList = t2
    generalize "\n    }\n}".toList = t3
    generalize decimal msecs = d
  · refine ⟨"{\n    ".toList, tw ++ (",\n    \"query\": ".toList ++ tq ++ t1 ++ d ++ t2 ++ d ++ t3), _, ?_, h2 _⟩
    rw [show "{\n    \"exception\": ".toList = "{\n    ".toList ++ ('"' :: "exception".toList ++ ['"', ':', ' ']) by decide]
    simp only [List.append_assoc]
  · refine ⟨"{\n    \"exception\": ".toList ++ tw ++ ",\n    ".toList, tq ++ (t1 ++ d ++ t2 ++ d ++ t3), _, ?_, h4 _⟩
    rw [show ",\n    \"query\": ".toList = ",\n    ".toList ++ ('"' :: "query".toList ++ ['"', ':', ' ']) by decide]
    simp only [List.append_assoc]

end Verif.Server
