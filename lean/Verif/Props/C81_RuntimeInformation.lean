import Verif.Model.RuntimeInformation
import Verif.Spec.RuntimeInformation
import Verif.Lemmas.Json
import Verif.Lemmas.PlannerExact
import Verif.Props.C65_Planner
import Verif.Props.C72_Export
/-
C81 The run time information in a response describes the plan that was executed: the operations, the sizes of their results, the
variables of their columns, and where the time was spent.
-/
namespace Verif.RuntimeInfo
open JsonSpec RuntimeInfoSpec
open Server (Str decimal)

/-! ### Names of columns -/

theorem assignNames_ok : ∀ (m : List (α × Nat)) (names : List α), (m.map (·.2)).Nodup → (∀ p ∈ m, p.2 < names.length) →
    ∃ r, assignNames names m = .ok r ∧ r.length = names.length ∧ (∀ v c, (v, c) ∈ m → r[c]? = some v) ∧
      ∀ c, c ∉ m.map (·.2) → r[c]? = names[c]?
  | [], names, _, _ => ⟨names, rfl, rfl, by simp, by simp⟩
  | (v, c) :: l, names, hn, hl => by
    rw [List.map_cons, List.nodup_cons] at hn
    have hc : c < names.length := hl (v, c) List.mem_cons_self
    obtain ⟨r, hr, hlen, hin, hout⟩ := assignNames_ok l (names.set c v) hn.2 fun p hp => by
      rw [List.length_set]
      exact hl p (List.mem_cons_of_mem _ hp)
    refine ⟨r, by rw [assignNames, if_pos hc, hr], by rw [hlen, List.length_set], ?_, ?_⟩
    · intro v' c' hm
      rcases List.mem_cons.mp hm with heq | hm
      · injection heq with h1 h2
        subst h1 h2
        rw [hout _ hn.1, List.getElem?_set_self hc]
      · exact hin v' c' hm
    · intro c' hm
      rw [List.map_cons, List.mem_cons, not_or] at hm
      rw [hout c' hm.2, List.getElem?_set_ne (fun h => hm.1 h.symm)]

theorem assignNames_ub : ∀ (m : List (α × Nat)) (names : List α), (∃ p ∈ m, names.length ≤ p.2) → assignNames names m = .ub
  | [], _, h => by simp at h
  | (v, c) :: l, names, h => by
    rw [assignNames]
    by_cases hc : c < names.length
    · rw [if_pos hc]
      refine assignNames_ub l _ ?_
      obtain ⟨p, hp, hle⟩ := h
      rcases List.mem_cons.mp hp with rfl | hp
      · simp only at hle
        omega
      · exact ⟨p, hp, by rw [List.length_set]; exact hle⟩
    · rw [if_neg hc]

theorem assignNames_mem : ∀ (m : List (α × Nat)) (names r : List α), assignNames names m = .ok r → ∀ x ∈ r, x ∈ names ∨ x ∈ m.map (·.1)
  | [], names, r, h, x, hx => by
    injection h with h
    subst h
    exact .inl hx
  | (v, c) :: l, names, r, h, x, hx => by
    rw [assignNames] at h
    by_cases hc : c < names.length
    · rw [if_pos hc] at h
      rcases assignNames_mem l _ r h x hx with hx | hx
      · rcases List.mem_or_eq_of_mem_set hx with hx | rfl
        · exact .inl hx
        · exact .inr (by simp)
      · exact .inr (List.mem_cons_of_mem _ hx)
    · rw [if_neg hc] at h
      cases h

/-- **C81** (names): if every column has exactly one variable, then the names are the variables in the order of their columns, whatever the
order in which the hash map is iterated. -/
theorem C81_names (blank : α) {m : List (α × Nat)} {w : Nat} (h : Dense m w) :
    ∃ names, setColumnNames blank m = .ok names ∧ names.length = w ∧ ∀ v c, (v, c) ∈ m → names[c]? = some v := by
  obtain ⟨r, hr, hlen, hin, _⟩ := assignNames_ok m (List.replicate m.length blank) h.2.1 fun p hp => by
    rw [List.length_replicate, h.1]
    exact h.2.2 p hp
  exact ⟨r, hr, by rw [hlen, List.length_replicate, h.1], hin⟩

example : Dense [("?y", 1), ("?x", 0)] 2 ∧ setColumnNames "" [("?y", 1), ("?x", 0)] = .ok ["?x", "?y"] := by
  refine ⟨⟨rfl, by decide, by decide⟩, by decide⟩

/-- **C81** (names) fails where a column has no variable: the behaviour is undefined if a variable is in a column behind the number of
variables. -/
theorem C81_gap_violated (blank : α) {m : List (α × Nat)} {v : α} {c : Nat} (hm : (v, c) ∈ m) (h : m.length ≤ c) :
    setColumnNames blank m = .ub :=
  assignNames_ub m _ ⟨(v, c), hm, by rw [List.length_replicate]; exact h⟩

/-- The map of `GROUP BY ?x ?x` with one aggregate: three columns, two variables, and the aggregate in column 2. -/
theorem C81_group_by_violated : GroupBy.varColMap ["?x", "?x"] [⟨.count, "?y", "?c", false, []⟩] "?c" = some 2 ∧
    GroupBy.varColMap ["?x", "?x"] [⟨.count, "?y", "?c", false, []⟩] "?x" = some 1 ∧
    setColumnNames "" [("?x", 1), ("?c", 2)] = .ub := by
  refine ⟨by decide, by decide, by decide⟩

/-! ### Execution -/

namespace Op
def key : Op → Str | mk k _ _ _ _ _ _ _ => k
def descriptor : Op → Str | mk _ d _ _ _ _ _ _ => d
def columns : Op → List (Str × Nat) | mk _ _ m _ _ _ _ _ => m
def width : Op → Nat | mk _ _ _ w _ _ _ _ => w
def children : Op → List Op | mk _ _ _ _ _ _ _ cs => cs
end Op

mutual
/-- The plan of an operation: what is to be shown. -/
def plan (rows : Str → Nat) : Op → Plan
  | .mk key descriptor columns width _ _ _ children => .mk descriptor columns width (rows key) (plans rows children)
def plans (rows : Str → Nat) : List Op → List Plan
  | [] => []
  | o :: l => plan rows o :: plans rows l
end

theorem plans_eq (rows : Str → Nat) : ∀ l, plans rows l = l.map (plan rows)
  | [] => rfl
  | o :: l => by rw [plans, plans_eq rows l]; rfl

theorem toJsons_eq : ∀ l, toJsons l = l.map toJson
  | [] => rfl
  | o :: l => by rw [toJsons, toJsons_eq l]; rfl

/-- A set of operations with all their children, in which every column of a result has one variable, operations with equal keys have equal
plans, and all names are UTF-8 (for other names the response cannot be written, see C71). -/
structure Closed (rows : Str → Nat) (U : Op → Prop) : Prop where
  children : ∀ o, U o → ∀ p ∈ o.children, U p
  dense : ∀ o, U o → Dense o.columns o.width
  same : ∀ a b, U a → U b → a.key = b.key → plan rows a = plan rows b
  text : ∀ o, U o → ServerSpec.Utf8 o.descriptor ∧ ∀ p ∈ o.columns, ServerSpec.Utf8 p.1

/-- What is known of entries of the cache. -/
def Entry (rows : Str → Nat) (U : Op → Prop) (p : Str × Value) : Prop :=
  ∃ o, U o ∧ o.key = p.1 ∧ p.2.rows = rows p.1 ∧ p.2.info.time = 0 ∧ ShowsAll (plans rows o.children) (toJsons p.2.info.children) ∧
    TimesAll (toJsons p.2.info.children) (p.2.info.children.map Info.time) ∧ ValidItems (toJsons p.2.info.children)

theorem mem_of_lookup {c : Cache} {k : Str} {v : Value} (h : c.lookup k = some v) : (k, v) ∈ c := by
  induction c with
  | nil => cases h
  | cons p l ih =>
    obtain ⟨k', v'⟩ := p
    rw [List.lookup_cons] at h
    by_cases hk : k = k'
    · subst hk
      simp at h
      rw [h]
      exact List.mem_cons_self
    · have : (k == k') = false := by simp [hk]
      rw [this] at h
      exact List.mem_cons_of_mem _ (ih h)

theorem number_double (t : Int) : number t = double t := rfl

theorem toJson_times {time : Int} {rows cols : Nat} {wasCached : Bool} {d : Str} {names : List Str} {det : List (Str × Json)} {is : List Info}
    (ht : 0 ≤ time) (h : TimesAll (toJsons is) (is.map Info.time)) (hc : wasCached = false → (is.map Info.time).sum ≤ time) :
    Times (toJson (.mk time rows cols wasCached d names det is)) time := by
  rw [toJson]
  cases wasCached with
  | true => exact .cached rfl rfl rfl ht rfl h
  | false =>
    have := hc rfl
    exact .computed (own := time - (is.map Info.time).sum) rfl rfl rfl (by omega) (by omega) rfl h

theorem number_valid (t : Int) : Number (double t) := by
  have hd := Export.number_decimal t.natAbs
  obtain ⟨h1, c, r, h2, h3⟩ := hd
  unfold double
  constructor
  · intro x hx
    simp only [List.mem_append] at hx
    rcases hx with (hx | hx) | hx
    · split at hx
      · rw [List.mem_singleton.mp hx]
        rfl
      · cases hx
    · exact h1 x hx
    · revert x
      decide
  · by_cases h : t < 0
    · rw [if_pos h]
      exact ⟨'-', _, rfl, rfl⟩
    · rw [if_neg h, h2]
      exact ⟨c, _, rfl, h3⟩

theorem toJson_valid {time : Int} {rows cols : Nat} {b : Bool} {d : Str} {names : List Str} {x y : Int} {is : List Info}
    (hd : ServerSpec.Utf8 d) (hn : ∀ v ∈ names, ServerSpec.Utf8 v) (h : ValidItems (toJsons is)) :
    (toJson (.mk time rows cols b d names
      [("original_operation_time".toList, .num (double x)), ("original_total_time".toList, .num (double y))] is)).Valid := by
  have ascii : ∀ s : Str, (∀ c ∈ s, c.toNat < 128) → ServerSpec.Utf8 s := fun s h => Server.utf8_of_ascii h
  have strs : ValidItems (names.map .str) := by
    apply Export.validItems_of
    intro v hv
    obtain ⟨s, hs, rfl⟩ := List.mem_map.mp hv
    rw [Json.Valid]
    exact hn s hs
  rw [toJson]
  simp only [Json.Valid, ValidMembers]
  exact ⟨ascii _ (by decide), h, ascii _ (by decide), strs, ascii _ (by decide), hd, ascii _ (by decide),
    ⟨ascii _ (by decide), number_valid _, ascii _ (by decide), number_valid _, trivial⟩, ascii _ (by decide), number_valid _, ascii _ (by decide),
    Export.number_decimal _, ascii _ (by decide), Export.number_decimal _, ascii _ (by decide), number_valid _, ascii _ (by decide), trivial, trivial⟩

section
variable {E : Env} {U : Op → Prop}

theorem create_ok {d : Str} {m : List (Str × Nat)} {w : Nat} (h : Dense m w) (v : Value) (b : Bool) (t : Nat) :
    ∃ i names, create d m w v b t = .ok i ∧ i = .mk (t / 1000 : Nat) v.rows w b d names
      [("original_operation_time".toList, .num (double v.info.operationTime)), ("original_total_time".toList, .num (double v.info.time))]
      v.info.children ∧ names.length = w ∧ (∀ v c, (v, c) ∈ m → names[c]? = some v) ∧ ∀ v ∈ names, v = [] ∨ v ∈ m.map (·.1) := by
  obtain ⟨names, hn, h1, h2⟩ := C81_names ([] : Str) h
  refine ⟨_, names, by rw [create, hn]; rfl, rfl, h1, h2, fun v hv => ?_⟩
  rcases assignNames_mem _ _ _ hn v hv with h | h
  · exact .inl (List.eq_of_mem_replicate h)
  · exact .inr h

theorem toJson_shows {key d : Str} {m : List (Str × Nat)} {w : Nat} {notes : List (Str × Json)} {wk lk : Nat} {cs : List Op} {time : Int} {b : Bool}
    {names : List Str} {det : List (Str × Json)} {is : List Info} {rows : Str → Nat} (hl : names.length = w)
    (hn : ∀ v c, (v, c) ∈ m → names[c]? = some v) (h : ShowsAll (plans rows cs) (toJsons is)) :
    Shows (plan rows (.mk key d m w notes wk lk cs)) (toJson (.mk time (rows key) w b d names det is)) := by
  rw [plan, toJson]
  exact .mk rfl rfl rfl rfl hl hn rfl h

mutual
theorem getResult_ok (hkeep : ∀ c, E.keep c ⊆ c) (hU : Closed E.rows U) (c : Cache) (hc : ∀ p ∈ c, Entry E.rows U p) :
    ∀ (o : Op), U o → ∃ c' i t, getResult E c o = .ok (c', i, t) ∧ (∀ p ∈ c', Entry E.rows U p) ∧
      Shows (plan E.rows o) (toJson i) ∧ Times (toJson i) i.time ∧ i.time = (t / 1000 : Nat) ∧ (toJson i).Valid
  | .mk key d m w notes wk lk cs, ho => by
    have hd : Dense m w := hU.dense _ ho
    have htext : ServerSpec.Utf8 d ∧ ∀ p ∈ m, ServerSpec.Utf8 p.1 := hU.text _ ho
    have hnames : ∀ names : List Str, (∀ v ∈ names, v = [] ∨ v ∈ m.map (·.1)) → ∀ v ∈ names, ServerSpec.Utf8 v := by
      intro names h v hv
      rcases h v hv with rfl | h
      · exact Server.utf8_of_ascii fun c hc => nomatch hc
      · obtain ⟨p, hp, rfl⟩ := List.mem_map.mp h
        exact htext.2 p hp
    rw [getResult]
    cases hl : c.lookup key with
    | some v =>
      obtain ⟨o', ho', hk, hr, h0, hs, ht, hvalid⟩ := hc _ (mem_of_lookup hl)
      obtain ⟨i, names, hcr, hi, hlen, hn, hmem⟩ := create_ok (d := d) hd v true lk
      have hsame := hU.same _ _ ho' ho hk
      have hcs : plans E.rows o'.children = plans E.rows cs := by
        cases o'
        rw [plan, plan] at hsame
        injection hsame
      refine ⟨c, i, lk, ?_, hc, ?_, ?_, ?_, ?_⟩
      · simp only [hcr, Outcome.map]
      · simp only at hr
        rw [hi, hr]
        exact toJson_shows hlen hn (by rw [← hcs]; exact hs)
      · rw [hi]
        exact toJson_times (Int.natCast_nonneg _) ht (by simp)
      · rw [hi]
        rfl
      · rw [hi]
        exact toJson_valid htext.1 (hnames _ hmem) hvalid
    | none =>
      obtain ⟨c', is, t, hg, hc', hs, ht, hsum, hvalid⟩ := getResults_ok hkeep hU c hc cs fun p hp => hU.children _ ho p hp
      obtain ⟨i, names, hcr, hi, hlen, hn, hmem⟩ := create_ok (d := d) hd ⟨E.rows key, computed notes is⟩ false (wk + t)
      refine ⟨E.keep ((key, ⟨E.rows key, computed notes is⟩) :: c'), i, wk + t, by simp only [hg, Outcome.bind, hcr, Outcome.map], ?_, ?_, ?_, ?_, ?_⟩
      · intro p hp
        rcases List.mem_cons.mp (hkeep _ hp) with rfl | hp
        · exact ⟨_, ho, rfl, rfl, rfl, hs, ht, hvalid⟩
        · exact hc' p hp
      · rw [hi]
        exact toJson_shows hlen hn hs
      · rw [hi]
        refine toJson_times (Int.natCast_nonneg _) ht fun _ => ?_
        refine Int.le_trans hsum ?_
        exact Int.ofNat_le.mpr (Nat.div_le_div_right (by omega))
      · rw [hi]
        rfl
      · rw [hi]
        exact toJson_valid htext.1 (hnames _ hmem) hvalid
theorem getResults_ok (hkeep : ∀ c, E.keep c ⊆ c) (hU : Closed E.rows U) (c : Cache) (hc : ∀ p ∈ c, Entry E.rows U p) :
    ∀ (os : List Op), (∀ o ∈ os, U o) → ∃ c' is t, getResults E c os = .ok (c', is, t) ∧ (∀ p ∈ c', Entry E.rows U p) ∧
      ShowsAll (plans E.rows os) (toJsons is) ∧ TimesAll (toJsons is) (is.map Info.time) ∧ (is.map Info.time).sum ≤ (t / 1000 : Nat) ∧
        ValidItems (toJsons is)
  | [], _ => ⟨c, [], 0, rfl, hc, .nil, .nil, by simp, trivial⟩
  | o :: l, ho => by
    obtain ⟨c', i, t, hg, hc', hs, ht, htime, hv⟩ := getResult_ok hkeep hU c hc o (ho o List.mem_cons_self)
    obtain ⟨c'', is, u, hg', hc'', hs', ht', hsum, hv'⟩ := getResults_ok hkeep hU c' hc' l fun p hp => ho p (List.mem_cons_of_mem _ hp)
    refine ⟨c'', i :: is, t + u, by simp only [getResults, hg, Outcome.bind, hg', Outcome.map], hc'', .cons hs hs', .cons ht ht', ?_, ⟨hv, hv'⟩⟩
    rw [List.map_cons, List.sum_cons, htime]
    have : t / 1000 + u / 1000 ≤ (t + u) / 1000 := by omega
    omega
end

/-- **C81** (responses): for queries that are executed one after another, whatever the cache holds or drops, the run time information of every query
shows its plan with the names and sizes, its times add up, and it can be written into a response.
Missing: plans with columns without variables (`C81_gap_violated`), operations with the same key but different names
(`C81_other_names_violated`), and the details (`C81_original_violated`, `C81_notes_violated`). -/
theorem C81_shows_partial (hkeep : ∀ c, E.keep c ⊆ c) (hU : Closed E.rows U) (os : List Op) (ho : ∀ o ∈ os, U o) :
    ∃ c infos, queries E [] os = .ok (c, infos) ∧ ShowsAll (os.map (plan E.rows)) (infos.map toJson) ∧
      TimesAll (infos.map toJson) (infos.map Info.time) ∧ ∀ i ∈ infos, (toJson i).Valid := by
  suffices h : ∀ (os : List Op), (∀ o ∈ os, U o) → ∀ c, (∀ p ∈ c, Entry E.rows U p) → ∃ c' infos, queries E c os = .ok (c', infos) ∧
      ShowsAll (os.map (plan E.rows)) (infos.map toJson) ∧ TimesAll (infos.map toJson) (infos.map Info.time) ∧
        ∀ i ∈ infos, (toJson i).Valid from
    h os ho [] (by simp)
  intro os
  induction os with
  | nil => exact fun _ c _ => ⟨c, [], rfl, .nil, .nil, by simp⟩
  | cons o l ih =>
    intro ho c hc
    obtain ⟨c', i, t, hg, hc', hs, ht, _, hv⟩ := getResult_ok hkeep hU c hc o (ho o List.mem_cons_self)
    obtain ⟨c'', is, hq, hs', ht', hv'⟩ := ih (fun p hp => ho p (List.mem_cons_of_mem _ hp)) c' hc'
    exact ⟨c'', i :: is, by simp only [queries, hg, Outcome.bind, hq, Outcome.map], .cons hs hs', .cons ht ht', List.forall_mem_cons.mpr ⟨hv, hv'⟩⟩

theorem showsAll_mem {ps : List RuntimeInfoSpec.Plan} {js : List Json} (h : ShowsAll ps js) (k : Nat) {p : RuntimeInfoSpec.Plan} {j : Json}
    (hp : ps[k]? = some p) (hj : js[k]? = some j) : Shows p j := by
  induction k generalizing ps js with
  | zero =>
    cases h with
    | nil => cases hp
    | cons h _ =>
      injection hp with hp
      injection hj with hj
      subst hp hj
      exact h
  | succ k ih =>
    cases h with
    | nil => cases hp
    | cons _ h => exact ih h hp hj

theorem timesAll_mem {js : List Json} {ts : List Int} (h : TimesAll js ts) (k : Nat) {j : Json} (hj : js[k]? = some j) : ∃ t, Times j t := by
  induction k generalizing js ts with
  | zero =>
    cases h with
    | nil => cases hj
    | cons h _ =>
      injection hj with hj
      subst hj
      exact ⟨_, h⟩
  | succ k ih =>
    cases h with
    | nil => cases hj
    | cons _ h => exact ih h hj

/-- **C81** (clients): a client reads the run time information from the response for query `k`.  What is assumed of the result is what C72
assumes.  Missing: see `C81_shows_partial`. -/
theorem C81_client_partial (hkeep : ∀ c, E.keep c ⊆ c) (hU : Closed E.rows U) (os : List Op) (ho : ∀ o ∈ os, U o) (k : Nat) (o : Op)
    (hk : os[k]? = some o) (c : Cache) (infos : List Info) (hq : queries E [] os = .ok (c, infos)) (i : Info) (hi : infos[k]? = some i)
    (N : Export.Names) (X : Export.Extra) (hX : X.runtime = toJson i) (query : Str) (select : List Str) (limit offset : Option Nat) (maxSend : Nat)
    (res : Export.Result) (hn : (res.columns.map Prod.fst).Nodup) (hw : N.word Export.noValue = none)
    (hl : N.localVocab.length ≤ Export.noValue) (hu : Export.OnlyWordsUnbound res) (hs : select ≠ [])
    (h1 : ∀ k ∈ limit, k < 2 ^ 63) (h2 : ∀ k ∈ offset, k < 2 ^ 63) (h3 : maxSend < 2 ^ 63) (shown : Str → Row → Option Str)
    (rows : Table) (hrows : rows = ModifiersSpec.slice (some (min (limit.getD 100000) maxSend)) (offset.getD 0) res.rows)
    (hc : ∀ row ∈ rows, ∀ name ∈ select, Export.Shows N res name row (shown name row))
    (u1 : ServerSpec.Utf8 query) (u2 : ∀ name ∈ select, ServerSpec.Utf8 name)
    (u3 : ∀ row ∈ rows, ∀ name ∈ select, ∀ t, shown name row = some t → ServerSpec.Utf8 t)
    (u5 : ∀ w ∈ X.warnings, ServerSpec.Utf8 w) (u6 : ServerSpec.Utf8 X.total) (u7 : ServerSpec.Utf8 X.computeResult) :
    ∃ t v j, Export.composeJson N X query select (Modifiers.written limit) (Modifiers.written offset) maxSend res = .ok t ∧ readJson t = some v ∧
      v.member "runtimeInformation".toList = some j ∧ Shows (plan E.rows o) j ∧ ∃ total, Times j total := by
  obtain ⟨c', infos', hq', hshow, htimes, hvalid⟩ := C81_shows_partial hkeep hU os ho
  rw [hq] at hq'
  injection hq' with hq'
  injection hq' with _ hq'
  subst hq'
  obtain ⟨t, v, e1, e2, _, _, _, _, _, _, e3⟩ := Export.C72_json_partial N X query select limit offset maxSend res hn hw hl hu hs h1 h2 h3 shown
    rows hrows hc u1 u2 u3 (by rw [hX]; exact hvalid i (List.mem_of_getElem? hi)) u5 u6 u7
  have hj : (infos.map toJson)[k]? = some (toJson i) := by rw [List.getElem?_map, hi]; rfl
  exact ⟨t, v, toJson i, e1, e2, by rw [e3, hX],
    showsAll_mem hshow k (by rw [List.getElem?_map, hk]; rfl) hj, timesAll_mem htimes k hj⟩

/-! A query that is asked twice: a join of two scans, each in four milliseconds. -/

def scan1 : Op := .mk ['p'] ['P'] [(['y'], 0), (['x'], 1)] 2 [] 4200 100 []
def scan2 : Op := .mk ['q'] ['Q'] [(['z'], 1), (['y'], 0)] 2 [] 4800 100 []
def join1 : Op := .mk ['j'] ['J'] [(['z'], 2), (['y'], 0), (['x'], 1)] 3 [] 1500 200 [scan1, scan2]
def env : Env := ⟨List.length, id⟩

theorem sample_closed : Closed env.rows fun o => o = scan1 ∨ o = scan2 ∨ o = join1 := by
  refine ⟨?_, ?_, ?_, ?_⟩
  · rintro o (rfl | rfl | rfl) p hp
    · cases hp
    · cases hp
    · rcases List.mem_cons.mp hp with rfl | hp
      · exact .inl rfl
      · rcases List.mem_cons.mp hp with rfl | hp
        · exact .inr (.inl rfl)
        · cases hp
  · rintro o (rfl | rfl | rfl) <;> exact ⟨rfl, by decide, by decide⟩
  · rintro a b (rfl | rfl | rfl) (rfl | rfl | rfl) h <;> first | rfl | exact absurd h (by decide)
  · rintro o (rfl | rfl | rfl) <;> exact ⟨Server.utf8_of_ascii (by unfold ServerSpec.Ascii; decide),
      fun p hp => Server.utf8_of_ascii (by unfold ServerSpec.Ascii; revert p; decide)⟩

/-- The run time information of the first execution: the scans take 4 milliseconds each, and the join 2 more. -/
def first : Info :=
  .mk 10 1 3 false ['J'] [['y'], ['x'], ['z']]
    [("original_operation_time".toList, .num (double (-8))), ("original_total_time".toList, .num (double 0))]
    [.mk 4 1 2 false ['P'] [['y'], ['x']]
      [("original_operation_time".toList, .num (double 0)), ("original_total_time".toList, .num (double 0))] [],
     .mk 4 1 2 false ['Q'] [['y'], ['z']]
      [("original_operation_time".toList, .num (double 0)), ("original_total_time".toList, .num (double 0))] []]

/-- The second time the result is found in the cache. -/
def second : Info := .mk 0 1 3 true ['J'] [['y'], ['x'], ['z']] first.details first.children

theorem sample_run : (queries env [] [join1, join1]).map Prod.snd = .ok [first, second] := rfl

example : first.operationTime = 2 ∧ second.operationTime = 0 := by decide

example := C81_shows_partial (E := env) (fun _ _ h => h) sample_closed [join1, scan2, join1] (by
  intro o ho
  simp only [List.mem_cons, List.not_mem_nil, or_false] at ho
  rcases ho with rfl | rfl | rfl
  · exact .inr (.inr rfl)
  · exact .inr (.inl rfl)
  · exact .inr (.inr rfl))

/-- The response to the second query, with one row. -/
example : ∃ t v j, Export.composeJson Export.demoNames ⟨toJson second, [], ['1'], ['1']⟩ ['q'] ["?y".toList] (Modifiers.written none)
      (Modifiers.written none) 10 (Export.demoResult [[0, 3]]) = .ok t ∧ readJson t = some v ∧ v.member "runtimeInformation".toList = some j ∧
      Shows (plan env.rows join1) j ∧ ∃ total, Times j total := by
  have ascii : ∀ s : Str, (∀ c ∈ s, c.toNat < 128) → ServerSpec.Utf8 s := fun s h => Server.utf8_of_ascii h
  refine C81_client_partial (fun _ _ h => h) sample_closed [join1, join1] (by
      intro o ho
      simp only [List.mem_cons, List.not_mem_nil, or_false, or_self] at ho
      exact .inr (.inr ho)) 1 join1 rfl _ [first, second] rfl second rfl _ _ rfl _ _ none none 10 _ (by decide) (by decide +kernel) (Nat.zero_le _) ?_
    (by simp) (by simp) (by simp) (by decide) (fun _ _ => some "b".toList) [[0, 3]] rfl ?_ (ascii _ (by decide)) ?_ ?_ (by simp)
    (ascii _ (by decide)) (ascii _ (by decide))
  · intro row _ col k _ hk
    left
    match col with
    | 0 => cases hk; rfl
    | 1 => cases hk; rfl
    | _ + 2 => cases hk
  · intro row hr name hname
    rw [List.mem_singleton.mp hr, List.mem_singleton.mp hname]
    exact .value (v := "?y".toList) (col := 1) (id := 3) (k := .kb) (.inl ⟨rfl, by decide⟩) (by decide) rfl rfl (.word rfl (by decide))
  · intro name hname
    rw [List.mem_singleton.mp hname]
    exact ascii _ (by decide)
  · intro _ _ _ _ t ht
    injection ht with ht
    subst ht
    exact ascii _ (by decide)

/-- The time that the run time information gives for the first computation of a result from the cache is always zero, and the time of the operation itself is
negative: the run time information is stored before the time is known. -/
theorem C81_original_violated : ∃ i j d, (queries env [] [join1, join1]).map Prod.snd = .ok [i, j] ∧
    (toJson i).member "total_time".toList = some (.num (number 10)) ∧ (toJson j).member "details".toList = some d ∧
    d.member "original_total_time".toList = some (.num (number 0)) ∧
    d.member "original_operation_time".toList = some (.num (number (-8))) :=
  ⟨first, second, .obj first.details, sample_run, rfl, rfl, rfl, rfl⟩

/-- That time is zero for every operation whose result is found. -/
theorem C81_original_always (E : Env) (U : Op → Prop) (hkeep : ∀ c, E.keep c ⊆ c) (hU : Closed E.rows U) (c : Cache)
    (hc : ∀ p ∈ c, Entry E.rows U p) (o : Op) (ho : U o) {c' : Cache} {i : Info} {t : Nat} (h : getResult E c o = .ok (c', i, t)) :
    ∃ d, (toJson i).member "details".toList = some d ∧ d.member "original_total_time".toList = some (.num (number 0)) := by
  cases o with
  | mk key d m w notes wk lk cs =>
    rw [getResult] at h
    have hd : Dense m w := hU.dense _ ho
    cases hl : c.lookup key with
    | some v =>
      obtain ⟨_, _, _, _, h0, _, _⟩ := hc _ (mem_of_lookup hl)
      obtain ⟨i', names, hcr, hi, _, _, _⟩ := create_ok (d := d) hd v true lk
      simp only [hl, hcr, Outcome.map] at h
      injection h with h
      injection h with _ h
      injection h with h _
      subst h
      rw [hi, toJson]
      simp only at h0
      rw [h0]
      exact ⟨_, rfl, rfl⟩
    | none =>
      obtain ⟨c', is, t, hg, _⟩ := getResults_ok hkeep hU c hc cs fun p hp => hU.children _ ho p hp
      obtain ⟨i', names, hcr, hi, _, _, _⟩ := create_ok (d := d) hd ⟨E.rows key, computed notes is⟩ false (wk + t)
      simp only [hl, hg, Outcome.bind, hcr, Outcome.map] at h
      injection h with h
      injection h with _ h
      injection h with h _
      subst h
      rw [hi, toJson]
      exact ⟨_, rfl, rfl⟩

/-- The details that an operation notes while it computes its result are not shown. -/
theorem C81_notes_violated : ∃ i d,
    (queries env [] [.mk ['j'] ['J'] [(['x'], 0)] 1 [("Either side was empty".toList, .str [])] 0 0 []]).map Prod.snd = .ok [i] ∧
    (toJson i).member "details".toList = some d ∧ d.member "Either side was empty".toList = none :=
  ⟨.mk 0 1 1 false ['J'] [['x']]
    [("original_operation_time".toList, .num (double 0)), ("original_total_time".toList, .num (double 0))] [], _, rfl, rfl, rfl⟩

/-- A query that differs from an earlier one in the name of a variable: the operation below the root is shown with the name
in the earlier query. -/
theorem C81_other_names_violated :
    let sort (v : Char) : Op := .mk ['s'] ['S'] [([v], 0)] 1 [] 0 0 [.mk ['p'] [v] [([v], 0)] 1 [] 0 0 []]
    ∃ i j, (queries env [] [sort 'x', sort 'y']).map Prod.snd = .ok [i, j] ∧ ¬ Shows (plan env.rows (sort 'y')) (toJson j) := by
  let zero : List (Str × Json) :=
    [("original_operation_time".toList, .num (double 0)), ("original_total_time".toList, .num (double 0))]
  refine ⟨.mk 0 1 1 false ['S'] [['x']] zero [.mk 0 1 1 false ['x'] [['x']] zero []],
    .mk 0 1 1 true ['S'] [['y']] zero [.mk 0 1 1 false ['x'] [['x']] zero []], rfl, ?_⟩
  rintro ⟨_, _, _, _, _, _, h, hs⟩
  injection h with h
  injection h with h
  subst h
  cases hs with
  | cons h _ =>
    cases h with
    | mk h _ _ _ _ _ _ _ =>
      injection h with h
      injection h with h
      exact absurd h (by decide)

end

/-! ### The planner -/

section
open Planner
variable {P : Params} {data : Nat → Nat → Table → Prop} {vars : Nat → List Var} {bag : Nat → List PlannerSpec.Sol} {fvars : Nat → List Var}

/-- The operations in a plan. -/
inductive Part : Tree → Tree → Prop where
  | refl (t : Tree) : Part t t
  | sort {s t : Tree} (c : Nat) : Part s t → Part s (.sort t c)
  | filter {s t : Tree} (i : Nat) : Part s t → Part s (.filter t i)
  | left {s l : Tree} (r : Tree) (lc rc : Nat) : Part s l → Part s (.join l r lc rc)
  | right {s r : Tree} (l : Tree) (lc rc : Nat) : Part s r → Part s (.join l r lc rc)

theorem part_dense (hshuffle : ∀ m, (P.shuffle m).Perm m) {s t : Tree} (hp : Part s t) (h : Sound P data vars bag fvars t) (he : Exact t) :
    Dense (s.cols P) s.width := by
  induction hp with
  | refl =>
    have := (sound_map hshuffle h).1
    exact ⟨sound_exact hshuffle h he, this.cols, this.lt⟩
  | sort c _ ih => exact ih h.1 he
  | filter i _ ih => exact ih h.1 he
  | left r lc rc _ ih => exact ih h.1 he.1
  | right l lc rc _ ih => exact ih h.2.1 he.2

/-- **C81** (planner): for every operation in a plan for patterns that form a tree, the names of the columns are shown.
Missing: plans with joins on several columns and the other operations. -/
theorem C81_planner_partial {nodes : List Node} {filters : List (List Var)} {children : List (List Alt)} {keep : Nat → PlannerSpec.Sol → Bool}
    (h : Describes P nodes filters children data vars bag keep) (hn : 0 < nodes.length + children.length)
    (htree : TreeShaped vars (nodes.length + children.length))
    (hexact : ∀ (j k : Nat) (a : Alt), (altsOf nodes children j)[k]? = some a → a.cols.length = a.width ∧ ∀ c ∈ a.sortedOn, c < a.width)
    {rows : List (List Planner.Plan)} (hr : fillDpTab P nodes filters children = .ok rows) {row : List Planner.Plan} (hl : rows.getLast? = some row)
    {p : Planner.Plan} (hp : p ∈ row) {s : Tree} (hs : Part s p.tree) :
    ∃ names, setColumnNames "" (s.cols P) = .ok names ∧ names.length = s.width ∧ ∀ v c, (v, c) ∈ s.cols P → names[c]? = some v := by
  have hl' := hl
  rw [List.getLast?_eq_getElem?] at hl'
  have hsimple := (fillDpTab_shaped (data := data) (vars := vars) (bag := bag) h.order h.shuffle h.leaf htree hr _ _ hl' p hp).simple
  have hsound := (last_row h hn hr hl hp hsimple).1
  have he := closed_rows h.order closed_exact hexact hr _ _ hl' p hp
  exact C81_names "" (part_dense h.shuffle hs hsound he)

/-- The join in the plan for two patterns of C65. -/
example : ∃ names, setColumnNames "" ((Tree.join (.leaf 1 0 true 2 [0, 1] [("y", 0), ("z", 1)]) (.leaf 0 1 true 2 [0, 1] [("y", 0), ("x", 1)]) 0 0).cols
    Sample.P) = .ok names ∧ names.length = 3 ∧ ("x", 2) ∈ Tree.cols Sample.P Sample.plan.tree ∧ names[2]? = some "x" := by
  obtain ⟨rows, row, h1, h2, h3⟩ := of_chosen Sample.chosen_plan
  obtain ⟨names, hn, hl, hc⟩ := C81_planner_partial Sample.describes (by decide) Sample.treeShaped (fun j k a ha => by
      have hall : ∀ n ∈ Sample.nodes, ∀ a ∈ n.alts, a.cols.length = a.width ∧ ∀ c ∈ a.sortedOn, c < a.width := by decide
      have ha := List.mem_of_getElem? ha
      unfold altsOf at ha
      split at ha
      · rename_i hj
        rw [List.getElem?_eq_getElem hj] at ha
        exact hall _ (List.getElem_mem hj) a ha
      · simp at ha) h1 h2 h3 (.filter 0 (.refl _))
  exact ⟨names, hn, hl, by decide, hc _ _ (by decide)⟩

end

end Verif.RuntimeInfo
