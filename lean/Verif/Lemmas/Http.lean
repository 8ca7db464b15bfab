import Verif.Lemmas.Url
import Verif.Model.Http
/- Helper lemmas for `Props/C44_Url.lean`. -/
namespace Verif.Http
open Outcome StringSpec StringUtils

theorem findPos_eq {p : Char → Bool} {s : List Char} {k i : Nat} (hk : k ≤ i) (hi : i < s.length) (hp : p s[i] = true)
    (hb : ∀ c ∈ (s.drop k).take (i - k), p c = false) : findPos p s k = some i := by
  rw [findPos, Option.map_eq_some_iff]
  refine ⟨i - k, ?_, by omega⟩
  rw [List.findIdx?_eq_some_iff_getElem]
  refine ⟨by simp; omega, ?_, ?_⟩
  · simp only [List.getElem_drop, show k + (i - k) = i by omega]
    exact hp
  · intro j hj
    have := hb ((s.drop k)[j]'(by simp; omega)) (by rw [List.mem_take_iff_getElem]; exact ⟨j, by simp; omega, rfl⟩)
    simp only [List.getElem_drop] at this ⊢
    rw [this]; simp

theorem findPos_append {p : Char → Bool} {a x y : List Char} {c : Char} (hx : ∀ d ∈ x, p d = false) (hc : p c = true) :
    findPos p (a ++ (x ++ c :: y)) a.length = some (a.length + x.length) := by
  apply findPos_eq
  · omega
  · have h : (a ++ (x ++ c :: y))[a.length + x.length]? = some c := by
      rw [List.getElem?_append_right (by omega), List.getElem?_append_right (by omega)]
      simp
    obtain ⟨h1, h2⟩ := List.getElem?_eq_some_iff.mp h
    simp only [h2]; exact hc
  · rw [List.drop_left, show a.length + x.length - a.length = x.length by omega, List.take_left]
    exact hx
  · simp

theorem findPos_append_none {p : Char → Bool} {a x : List Char} (hx : ∀ d ∈ x, p d = false) :
    findPos p (a ++ x) a.length = none := by
  simp only [findPos, List.drop_left, Option.map_eq_none_iff, List.findIdx?_eq_none_iff]
  exact hx

theorem sub64_le {a b : Nat} (h : b ≤ a) (ha : a < 2 ^ 64) : sub64 a b = a - b := by
  rw [sub64, show a + 2 ^ 64 - b = (a - b) + 2 ^ 64 by omega, Nat.add_mod_right, Nat.mod_eq_of_lt (by omega)]

theorem substr_mid (a x y : List Char) (n : Nat) (hn : n = x.length) : substr (a ++ (x ++ y)) a.length n = .ok x := by
  subst hn
  rw [substr_ok _ (by simp), List.drop_left, List.take_left]

/-- A parameter in its place. -/
theorem param_ok (lower : List Char → List Char) (fuel : Nat) (a n e y v : List Char) (d : Char) (acc : Params)
    (hsize : (a ++ d :: (n ++ '=' :: (e ++ y))).length < 2 ^ 64) (hn : '=' ∉ n) (he : Encodes v e) (hf : e.length < fuel) :
    param lower fuel (a ++ d :: (n ++ '=' :: (e ++ y))) acc a.length (a.length + 1 + n.length + 1 + e.length) =
      if acc.any fun p => p.1 == lower n then .throw else .ok (acc ++ [(lower n, v)]) := by
  have e1 : a ++ d :: (n ++ '=' :: (e ++ y)) = (a ++ [d]) ++ (n ++ '=' :: (e ++ y)) := by simp
  have e2 : a ++ d :: (n ++ '=' :: (e ++ y)) = (a ++ [d] ++ n ++ ['=']) ++ (e ++ y) := by simp
  have l1 : a.length + 1 = (a ++ [d]).length := by simp
  have l2 : a.length + 1 + n.length + 1 = (a ++ [d] ++ n ++ ['=']).length := by simp; omega
  have hfind : findPos (· == '=') (a ++ d :: (n ++ '=' :: (e ++ y))) (a.length + 1) = some (a.length + 1 + n.length) := by
    rw [e1, l1]
    apply findPos_append
    · intro c hc
      simp only [beq_eq_false_iff_ne]
      rintro rfl
      exact hn hc
    · rfl
  have hlen : a.length + 1 + n.length + 1 + e.length < 2 ^ 64 := by
    rw [e2] at hsize
    simp at hsize
    omega
  have s1 : substr (a ++ d :: (n ++ '=' :: (e ++ y))) (a.length + 1) (sub64 (a.length + 1 + n.length) (a.length + 1)) = .ok n := by
    rw [sub64_le (by omega) (by omega), e1, l1]
    exact substr_mid _ _ _ _ (by omega)
  have s2 : substr (a ++ d :: (n ++ '=' :: (e ++ y))) (a.length + 1 + n.length + 1)
      (sub64 (a.length + 1 + n.length + 1 + e.length) (a.length + 1 + n.length + 1)) = .ok e := by
    rw [sub64_le (by omega) (by omega), e2, l2]
    exact substr_mid _ _ _ _ (by omega)
  obtain ⟨v', h1, h2⟩ := decode_ok e fuel hf
  have hv : v' = v := encodes_unique h2 he
  subst hv
  rw [param, hfind]
  dsimp only
  rw [s1, Outcome.bind, s2, Outcome.bind, h1, Outcome.bind]

/-- A parameter: name, value, and the encoded form of the value. -/
structure Param where
  name : List Char
  value : List Char
  encoded : List Char

/-- A parameter as it is written. -/
def Param.text (p : Param) : List Char := p.name ++ '=' :: p.encoded

/-- A parameter that can be written: the name has no delimiters, the encoded value no ampersand. -/
def Param.WF (p : Param) : Prop := '=' ∉ p.name ∧ '&' ∉ p.name ∧ '&' ∉ p.encoded ∧ Encodes p.value p.encoded

theorem amp_text {p : Param} (h : p.WF) : ∀ c ∈ p.text, (c == '&') = false := by
  intro c hc
  simp only [beq_eq_false_iff_ne]
  rintro rfl
  simp only [Param.text, List.mem_append, List.mem_cons] at hc
  rcases hc with hc | hc | hc
  · exact h.2.1 hc
  · exact absurd hc (by decide)
  · exact h.2.2.1 hc

/-- The parameters one after the other; `none` for a name that was there before. -/
def collect (lower : List Char → List Char) : Params → List Param → Option Params
  | acc, [] => some acc
  | acc, p :: ps => if acc.any fun q => q.1 == lower p.name then none else collect lower (acc ++ [(lower p.name, p.value)]) ps

theorem collect_append (lower : List Char → List Char) : ∀ (ps qs : List Param) (acc : Params),
    collect lower acc (ps ++ qs) = (collect lower acc ps).bind fun acc => collect lower acc qs := by
  intro ps
  induction ps with
  | nil => intro qs acc; rfl
  | cons p ps ih =>
    intro qs acc
    rw [List.cons_append, collect, collect]
    by_cases h : (acc.any fun q => q.1 == lower p.name) = true
    · rw [if_pos h, if_pos h]; rfl
    · rw [if_neg h, if_neg h, ih]

theorem collect_eq (lower : List Char → List Char) : ∀ (ps : List Param) (acc : Params), (acc.map Prod.fst).Nodup →
    collect lower acc ps =
      if (acc.map Prod.fst ++ ps.map fun p => lower p.name).Nodup then some (acc ++ ps.map fun p => (lower p.name, p.value)) else none := by
  intro ps
  induction ps with
  | nil => intro acc h; simp [collect, h]
  | cons p ps ih =>
    intro acc h
    rw [collect]
    by_cases h1 : (acc.any fun q => q.1 == lower p.name) = true
    · rw [if_pos h1, if_neg]
      simp only [List.any_eq_true, beq_iff_eq] at h1
      obtain ⟨q, hq, hn⟩ := h1
      intro hnd
      rw [List.nodup_append] at hnd
      exact hnd.2.2 q.1 (List.mem_map.mpr ⟨q, hq, rfl⟩) (lower p.name) (by simp) hn
    · rw [if_neg h1]
      have hn : lower p.name ∉ acc.map Prod.fst := by
        intro hm
        obtain ⟨q, hq, hn⟩ := List.mem_map.mp hm
        apply h1
        simp only [List.any_eq_true, beq_iff_eq]
        exact ⟨q, hq, hn⟩
      rw [ih _ (by
        rw [List.map_append, List.nodup_append]
        refine ⟨h, by simp, ?_⟩
        intro x hx y hy
        simp only [List.map_cons, List.map_nil, List.mem_singleton] at hy
        subst hy
        rintro rfl
        exact hn hx)]
      simp

theorem params_loop (lower : List Char → List Char) (fuel : Nat) (req : List Char) (last : Param) (hlast : last.WF)
    (hsize : req.length < 2 ^ 64) (hfuel : req.length < fuel) :
    ∀ (init : List Param) (a : List Char) (d : Char) (acc : Params) (g : Nat), init.length < g →
    req = a ++ d :: ((init.map fun p => p.text ++ ['&']).flatten ++ (last.text ++ [' '])) → (∀ p ∈ init, p.WF) →
    ∃ a' d', loop g (paramsBody lower fuel req) (acc, a.length, findPos (· == '&') req (a.length + 1)) =
        (match collect lower acc init with | some r => .ok (r, a'.length) | none => .throw) ∧ req = a' ++ d' :: (last.text ++ [' ']) := by
  intro init
  induction init with
  | nil =>
    intro a d acc g hg hreq _
    cases g with
    | zero => simp at hg
    | succ g =>
      simp only [List.map_nil, List.flatten_nil, List.nil_append] at hreq
      have : findPos (· == '&') req (a.length + 1) = none := by
        have e1 : req = (a ++ [d]) ++ (last.text ++ [' ']) := by rw [hreq]; simp
        rw [e1, show a.length + 1 = (a ++ [d]).length by simp]
        apply findPos_append_none
        intro c hc
        rcases List.mem_append.mp hc with hc | hc
        · exact amp_text hlast c hc
        · simp only [List.mem_singleton] at hc
          subst hc; rfl
      refine ⟨a, d, ?_, hreq⟩
      rw [this]
      simp [loop, paramsBody, collect]
  | cons p init ih =>
    intro a d acc g hg hreq hwf
    cases g with
    | zero => simp at hg
    | succ g =>
      simp only [List.length_cons, Nat.add_lt_add_iff_right] at hg
      generalize hrest : (init.map fun p => p.text ++ ['&']).flatten ++ (last.text ++ [' ']) = rest at hreq
      have e1 : req = (a ++ [d]) ++ (p.text ++ '&' :: rest) := by
        rw [hreq, ← hrest]; simp
      have e2 : req = a ++ d :: (p.name ++ '=' :: (p.encoded ++ ('&' :: rest))) := by
        rw [e1, Param.text]; simp
      have e3 : req = (a ++ d :: p.text) ++ '&' :: ((init.map fun p => p.text ++ ['&']).flatten ++ (last.text ++ [' '])) := by
        rw [e1, hrest]; simp
      have hp := hwf p (by simp)
      have hfind : findPos (· == '&') req (a.length + 1) = some (a.length + 1 + p.name.length + 1 + p.encoded.length) := by
        have := findPos_append (p := (· == '&')) (a := a ++ [d]) (x := p.text) (y := rest) (c := '&') (amp_text hp) rfl
        rw [← e1] at this
        rw [show a.length + 1 = (a ++ [d]).length by simp, this, Param.text]
        simp only [List.length_append, List.length_cons, List.length_nil]
        congr 1
        omega
      have hlen : p.encoded.length < fuel := by
        rw [e2] at hfuel
        simp at hfuel
        omega
      have hparam := param_ok lower fuel a p.name p.encoded ('&' :: rest) p.value d acc (by rw [← e2]; exact hsize) hp.1
        hp.2.2.2 hlen
      rw [← e2] at hparam
      obtain ⟨a', d', h1, h2⟩ := ih (a ++ d :: p.text) '&' (acc ++ [(lower p.name, p.value)]) g hg e3
        (fun q hq => hwf q (by simp [hq]))
      have hl : (a ++ d :: p.text).length = a.length + 1 + p.name.length + 1 + p.encoded.length := by
        rw [Param.text]; simp; omega
      refine ⟨a', d', ?_, h2⟩
      rw [hfind, loop, collect]
      simp only [paramsBody, hparam]
      by_cases hdup : (acc.any fun q => q.1 == lower p.name) = true
      · rw [if_pos hdup, if_pos hdup]
        rfl
      · rw [if_neg hdup, if_neg hdup]
        simp only [Outcome.map, Outcome.bind]
        rw [hl] at h1
        rw [h1]

theorem find_space {w g r : List Char} (hw : ' ' ∉ w) (j : Nat) (hj : j ≤ g.length) (h : w <+: (g ++ ' ' :: r).drop j) :
    w <:+: g := by
  rw [List.drop_append_of_le_length hj] at h
  have h2 : g.drop j ++ [' '] <+: g.drop j ++ ' ' :: r := ⟨r, by simp⟩
  have h3 : w <+: g.drop j := by
    rcases List.prefix_or_prefix_of_prefix h (List.prefix_append (g.drop j) (' ' :: r)) with h4 | h4
    · exact h4
    · rcases List.prefix_or_prefix_of_prefix h h2 with h5 | h5
      · rcases Nat.lt_or_ge (g.drop j).length w.length with h6 | h6
        · have : w = g.drop j ++ [' '] := h5.eq_of_length_le (by simp only [List.length_append, List.length_singleton]; omega)
          exact absurd (by rw [this]; simp) hw
        · have : g.drop j = w := h4.eq_of_length_le h6
          rw [this]; exact List.prefix_rfl
      · exact absurd (h5.subset (by simp)) hw
  exact h3.isInfix.trans (List.drop_suffix j g).isInfix

theorem length_texts (l : List Param) : l.length ≤ ((l.map fun p => p.text ++ ['&']).flatten).length := by
  induction l with
  | nil => simp
  | cons p l ih => simp only [List.map_cons, List.flatten_cons, List.length_append, List.length_cons, List.length_nil]; omega

/-- The part of the request line before the version. -/
def line (path : List Char) (ps : List Param) : List Char := cGET ++ (path ++ '?' :: List.intercalate ['&'] (ps.map Param.text))

theorem parse_ok (lower : List Char → List Char) (fuel : Nat) (path tail : List Char) (ps : List Param) (hne : ps ≠ [])
    (hwf : ∀ p ∈ ps, p.WF) (hpath : '?' ∉ path) (hhttp : ¬ cHTTP <:+: line path ps)
    (hsize : (line path ps).length + 1 < 2 ^ 64) (hfuel : (line path ps).length + 1 < fuel) :
    parseHttpRequest lower fuel (line path ps ++ ' ' :: (cHTTP ++ tail)) =
      if (ps.map fun p => lower p.name).Nodup then .ok (ps.map fun p => (lower p.name, p.value)) else .throw := by
  have hcol := collect_eq lower ps [] (by simp)
  simp only [List.map_nil, List.nil_append] at hcol
  obtain ⟨init, last, rfl⟩ : ∃ init last, ps = init ++ [last] := ⟨ps.dropLast, ps.getLast hne, (List.dropLast_concat_getLast hne).symm⟩
  have hget : find cGET (line path (init ++ [last]) ++ ' ' :: (cHTTP ++ tail)) 0 = some 0 :=
    find_eq (by omega) (by omega) (by rw [List.drop_zero, line, List.append_assoc]; exact List.prefix_append _ _) (by omega)
  have hfh : find cHTTP (line path (init ++ [last]) ++ ' ' :: (cHTTP ++ tail)) 0 = some ((line path (init ++ [last])).length + 1) := by
    refine find_eq (by omega) (by simp) ?_ ?_
    · rw [List.drop_append, List.drop_eq_nil_of_le (by omega),
        show (line path (init ++ [last])).length + 1 - (line path (init ++ [last])).length = 1 by omega]
      exact List.prefix_append _ _
    · intro j _ hj h
      exact hhttp (find_space (by decide) j (by omega) h)
  generalize hreq : path ++ '?' :: List.intercalate ['&'] ((init ++ [last]).map Param.text) ++ [' '] = req
  have hl3 : (line path (init ++ [last])).length + 1 = 3 + req.length := by
    rw [← hreq, line]; simp [cGET]; omega
  have hsub : substr (line path (init ++ [last]) ++ ' ' :: (cHTTP ++ tail)) (0 + 3)
      (sub64 ((line path (init ++ [last])).length + 1) (0 + 3)) = .ok req := by
    have : line path (init ++ [last]) ++ ' ' :: (cHTTP ++ tail) = cGET ++ (req ++ (cHTTP ++ tail)) := by
      rw [← hreq, line]; simp
    rw [sub64_le (by omega) hsize, this]
    exact substr_mid cGET req _ _ (by omega)
  have hreq2 : req = path ++ '?' :: ((init.map fun p => p.text ++ ['&']).flatten ++ (last.text ++ [' '])) := by
    rw [← hreq, List.map_append, List.map_singleton, intercalate_snoc, List.map_map]
    simp [Function.comp_def]
  have hq : findPos (· == '?') req 0 = some path.length := by
    have := findPos_append (p := (· == '?')) (a := []) (x := path)
      (y := (init.map fun p => p.text ++ ['&']).flatten ++ (last.text ++ [' '])) (c := '?') (by
        intro c hc
        simp only [beq_eq_false_iff_ne]
        rintro rfl; exact hpath hc) rfl
    simp only [List.nil_append, List.length_nil, Nat.zero_add] at this
    rw [hreq2]; exact this
  have hil : init.length < fuel := by
    have h1 : init.length ≤ ((init.map fun p => p.text ++ ['&']).flatten).length := by
      exact length_texts init
    have h2 := congrArg List.length hreq2
    simp only [List.length_append, List.length_cons] at h2
    omega
  obtain ⟨a', d', h1, h2⟩ := params_loop lower fuel req last (hwf last (by simp)) (by omega) (by omega) init path '?' [] fuel hil hreq2
    (fun p hp => hwf p (by simp [hp]))
  rw [parseHttpRequest, hget, hfh]
  dsimp only
  rw [hsub]
  simp only [Outcome.bind]
  rw [hq]
  dsimp only
  rw [h1]
  have e2 : req = a' ++ d' :: (last.name ++ '=' :: (last.encoded ++ [' '])) := by rw [h2, Param.text]; simp
  have hlw := hwf last (by simp)
  have hlen := congrArg List.length e2
  simp only [List.length_append, List.length_cons, List.length_nil] at hlen
  rw [collect_append] at hcol
  cases hc : collect lower [] init with
  | none =>
    rw [hc] at hcol
    dsimp only
    by_cases hnd : ((init ++ [last]).map fun p => lower p.name).Nodup
    · rw [if_pos hnd] at hcol; cases hcol
    · rw [if_neg hnd]
  | some r =>
    rw [hc] at hcol
    dsimp only
    have hp := param_ok lower fuel a' last.name last.encoded [' '] last.value d' r (by rw [← e2]; omega) hlw.1 hlw.2.2.2 (by omega)
    rw [← e2] at hp
    rw [show req.length - 1 = a'.length + 1 + last.name.length + 1 + last.encoded.length by omega, hp]
    simp only [Option.bind_some, collect] at hcol
    by_cases hdup : (r.any fun q => q.1 == lower last.name) = true
    · rw [if_pos hdup] at hcol
      rw [if_pos hdup]
      by_cases hnd : ((init ++ [last]).map fun p => lower p.name).Nodup
      · rw [if_pos hnd] at hcol; cases hcol
      · rw [if_neg hnd]
    · rw [if_neg hdup] at hcol
      rw [if_neg hdup]
      by_cases hnd : ((init ++ [last]).map fun p => lower p.name).Nodup
      · rw [if_pos hnd] at hcol ⊢
        simp only [Option.some.injEq] at hcol
        rw [hcol]
      · rw [if_neg hnd] at hcol; cases hcol

/-- A request line without a question mark. -/
theorem parse_no_params (lower : List Char → List Char) (fuel : Nat) (path tail : List Char) (hpath : '?' ∉ path)
    (hhttp : ¬ cHTTP <:+: cGET ++ path) (hsize : (cGET ++ path).length + 1 < 2 ^ 64) :
    parseHttpRequest lower fuel (cGET ++ path ++ ' ' :: (cHTTP ++ tail)) = .throw := by
  have hget : find cGET (cGET ++ path ++ ' ' :: (cHTTP ++ tail)) 0 = some 0 :=
    find_eq (by omega) (by omega) (by rw [List.drop_zero, List.append_assoc]; exact List.prefix_append _ _) (by omega)
  have hfh : find cHTTP (cGET ++ path ++ ' ' :: (cHTTP ++ tail)) 0 = some ((cGET ++ path).length + 1) := by
    refine find_eq (by omega) (by simp; omega) ?_ ?_
    · rw [List.drop_append, List.drop_eq_nil_of_le (by omega), show (cGET ++ path).length + 1 - (cGET ++ path).length = 1 by omega]
      exact List.prefix_append _ _
    · intro j _ hj h
      exact hhttp (find_space (by decide) j (by omega) h)
  have hsub : substr (cGET ++ path ++ ' ' :: (cHTTP ++ tail)) (0 + 3) (sub64 ((cGET ++ path).length + 1) (0 + 3)) = .ok (path ++ [' ']) := by
    have : cGET ++ path ++ ' ' :: (cHTTP ++ tail) = cGET ++ ((path ++ [' ']) ++ (cHTTP ++ tail)) := by simp
    rw [sub64_le (by simp [cGET]) hsize, this]
    exact substr_mid cGET _ _ _ (by simp [cGET])
  have hq : findPos (· == '?') (path ++ [' ']) 0 = none := by
    have := findPos_append_none (p := (· == '?')) (a := []) (x := path ++ [' ']) (by
      intro c hc
      simp only [beq_eq_false_iff_ne]
      rintro rfl
      rcases List.mem_append.mp hc with hc | hc
      · exact hpath hc
      · exact absurd hc (by decide))
    simpa using this
  rw [parseHttpRequest, hget, hfh]
  dsimp only
  rw [hsub]
  simp only [Outcome.bind]
  rw [hq]

end Verif.Http
