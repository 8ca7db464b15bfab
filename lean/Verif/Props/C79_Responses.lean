import Verif.Model.Response
import Verif.Spec.Response
import Verif.Props.C64_NTriples
import Verif.Props.C69_Prefixes
import Verif.Props.C72_Export
import Verif.Props.C78_Documents
import Verif.Lemmas.FewSolutions
import Verif.Props.C18_C20_Modifiers
import Verif.Props.C22_C23_Filter
/-
C79: the client of a query that consists of triples and filters reads the solutions over the triples of the input from the response.
-/
namespace Verif.Response
open ResponseSpec TermSpec JsonSpec ServerSpec
open SparqlSpec (QueryText Block Mod firsts Group)
open PrefixSpec (Each TripleNames QueryNames)
open SparqlParser (Triple Query Filter env)
open Server (Str Run Good Delivers queryLine utf8_of_ascii)
open TriplePlan (Pattern isVariable groupVars triplesNodes groupData Columns)
open Answers (lookup vocabOf showId showSol settings triplesOf DocOk DocTerm Items PatternOk passBatches)
open Collation (Collator shouldBeExternalized)
open C58 (order)
open RdfEscaping (normalizeRDFLiteral)
open VocabularyMerger (load Loaded idToOptionalString languagePredicate)
open VocabularySpec (Words)

/-! ### Parsing -/

theorem group_ops (low : Char → Char) (dot : Bool) : ∀ (ps : List Part) (ts : List Triple),
    (group dot ps).ops low ts = SparqlSpec.basics (ts ++ (ps.flatMap Part.blocks).flatMap (Block.triples low))
  | [], ts => by rw [group, Group.ops, List.flatMap_nil, List.flatMap_nil, List.append_nil]
  | [.triples b], ts => by
    unfold group
    split <;> simp only [Group.ops, Part.blocks, List.flatMap_cons, List.flatMap_nil, List.append_nil]
  | .triples b :: p :: ps, ts => by
    rw [group, Group.ops, group_ops low dot (p :: ps), List.append_assoc]
    rfl
  | .filter f d :: ps, ts => by
    rw [group, Group.ops, group_ops low dot ps, List.flatMap_cons, Part.blocks, List.nil_append]

theorem group_filters (dot : Bool) : ∀ ps : List Part,
    (group dot ps).filters = (ps.flatMap Part.comparisons).map fun f => f.written.filter
  | [] => by rw [group, Group.filters]; rfl
  | [.triples b] => by
    unfold group
    split <;> simp only [Group.filters] <;> rfl
  | .triples b :: p :: ps => by
    rw [group, Group.filters, group_filters dot (p :: ps)]
    rfl
  | .filter f d :: ps => by
    rw [group, Group.filters, group_filters dot ps]
    rfl

theorem group_ok (dot : Bool) : ∀ ps : List Part, (∀ b ∈ ps.flatMap Part.blocks, b.Ok) → (group dot ps).Ok
  | [], _ => by rw [group, Group.Ok]; trivial
  | [.triples b], h => by
    unfold group
    have := h b (by simp [Part.blocks])
    split
    · rw [Group.Ok, Group.Ok]; exact ⟨this, trivial⟩
    · rw [Group.Ok]; exact this
  | .triples b :: p :: ps, h => by
    rw [group, Group.Ok]
    refine ⟨h b (by simp [Part.blocks]), group_ok dot (p :: ps) fun x hx => h x ?_⟩
    rw [List.flatMap_cons]
    exact List.mem_append_right _ hx
  | .filter f d :: ps, h => by
    rw [group, Group.Ok]
    exact ⟨⟨trivial, trivial⟩, group_ok dot ps fun x hx => h x hx⟩

/-- The filters of the query, as they are parsed. -/
def filtersOf (a : Ask) : List Filter := a.comparisons.map fun f => f.written.filter

theorem filters_named (easy : Bool) (ps : List (Str × Str)) : ∀ fs : List Comparison,
    Each (PrefixSpec.FilterNames easy ps) (fs.map fun f => f.written.filter) (fs.map fun f => f.written.filter)
  | [] => .nil
  | f :: fs => by
    refine .cons ?_ (filters_named easy ps fs)
    refine .compare (f := f.written.filter) (l := '?' :: f.left) (r := '?' :: f.right) ?_ ?_ (.var _) (.var _) <;>
      · show f.op.type ≠ _
        cases f.op <;> decide

theorem orders_cases (a : Ask) : a.orders = [] ∧ a.keys = [] ∨
    ∃ k ks, a.keys = k :: ks ∧ a.orders = [Mod.orderBy a.space k.written (ks.map Key.written)] := by
  unfold Ask.orders
  cases a.keys with
  | nil => exact .inl ⟨rfl, rfl⟩
  | cons k ks => exact .inr ⟨k, ks, rfl, rfl⟩

theorem mods_limit (a : Ask) : ((a.mods.filterMap Mod.limit?).getLast?).getD [] = Modifiers.written a.limit := by
  unfold Ask.mods Modifiers.written
  rcases orders_cases a with ⟨h, _⟩ | ⟨k, ks, _, h⟩ <;> rw [h] <;> cases a.limit <;> cases a.offset <;> cases a.offsetFirst <;> rfl

theorem mods_offset (a : Ask) : ((a.mods.filterMap Mod.offset?).getLast?).getD [] = Modifiers.written a.offset := by
  unfold Ask.mods Modifiers.written
  rcases orders_cases a with ⟨h, _⟩ | ⟨k, ks, _, h⟩ <;> rw [h] <;> cases a.limit <;> cases a.offset <;> cases a.offsetFirst <;> rfl

theorem mods_other (a : Ask) : a.mods.flatMap Mod.havings = [] ∧ a.mods.flatMap Mod.orders = a.keys.map Key.written ∧
    a.mods.flatMap Mod.groups = [] := by
  unfold Ask.mods
  rcases orders_cases a with ⟨h, h'⟩ | ⟨k, ks, h', h⟩ <;> rw [h, h'] <;> cases a.limit <;> cases a.offset <;> cases a.offsetFirst <;>
    simp [Mod.havings, Mod.orders, Mod.groups]

/-- The query is parsed as it should be. -/
theorem parsed {low : Char → Char} (hl : ∀ c : Char, c.toNat < 128 → low c = SparqlLexer.lower c) (hex : Str → Str) {a : Ask} {ts : List Triple}
    (hb : ∀ b ∈ a.blocks, b.Ok) (hk : ∀ k ∈ a.keys, SparqlSpec.OrderE.Name k.name) (hp : ∀ p ∈ a.prefixes, SparqlSpec.Prefix p.1 ∧ SparqlSpec.IriText p.2) (ht : Asks low a ts) (hne : ts ≠ [])
    {tr : Bool} {s : Str} (hs : QueryText a.whole.words tr s) {n : Nat} (hn : a.whole.words.length ≤ n) :
    ∃ info, (SparqlParser.parse (env low) (normalizeRDFLiteral hex) n s).bind Prefixes.expandPrefixes = .ok (.mk info (.mk (filtersOf a) [.basic ts])) ∧
      info.selected = a.vars.map ('?' :: ·) ∧ info.limit = Modifiers.written a.limit ∧ info.offset = Modifiers.written a.offset ∧
      info.groupBy = [] ∧ info.aliases = [] ∧ info.having = [] ∧ info.distinct = a.distinct ∧
      info.orderBy = a.keys.map fun k => ⟨'?' :: k.name, k.descends⟩ := by
  obtain ⟨m1, m2, m3⟩ := mods_other a
  have hsel : (a.vars.map SparqlSpec.Sel.var).map SparqlSpec.Sel.name = a.vars.map ('?' :: ·) := by
    rw [List.map_map]; rfl
  have hali : (a.vars.map SparqlSpec.Sel.var).flatMap SparqlSpec.Sel.aliases = [] := by
    rw [List.flatMap_map]
    exact List.flatMap_eq_nil_iff.mpr fun _ _ => rfl
  have hok : a.whole.query.Ok := by
    unfold Ask.whole
    simp only [SparqlSpec.QueryE.Ok, m1, m2, SparqlSpec.SelectOk, m3]
    refine ⟨?_, group_ok _ _ hb, ?_, by simp, by simp, ?_⟩
    · intro x hx
      obtain ⟨v, _, rfl⟩ := List.mem_map.mp hx
      trivial
    · intro x hx
      obtain ⟨k, hk', rfl⟩ := List.mem_map.mp hx
      cases k <;> exact hk _ hk'
    · intro x hx
      obtain ⟨v, _, h⟩ := List.mem_map.mp hx
      cases h
  have hts : a.blocks.flatMap (Block.triples low) ≠ [] := by
    intro h0
    have h1 := ht.1
    rw [h0] at h1
    cases h1
    exact hne rfl
  refine ⟨{ SparqlSpec.infoOf (a.prefixes.map fun p => (p.1, '<' :: p.2 ++ ['>'])) a.distinct a.reduced (a.vars.map .var) a.mods with
    prefixes := a.prefixes.map fun p => (p.1, '<' :: p.2 ++ ['>']), having := [] }, ?_, hsel, mods_limit a, mods_offset a, m3, ?_, rfl, rfl, ?_⟩
  · refine Prefixes.C69_text low hl hex a.whole hok hs hn hp ?_
    unfold SparqlSpec.Whole.parsed Ask.whole
    simp only [SparqlSpec.QueryE.query, group_ops, group_filters, List.nil_append, SparqlSpec.basics]
    rw [if_neg (show ¬ (a.parts.flatMap Part.blocks).flatMap (Block.triples low) = [] from hts)]
    refine .mk ⟨?_, fun _ => ?_⟩ (filters_named _ _ _) (.cons (.basic ht.1) .nil)
    · simp only [SparqlSpec.infoOf, m1]
      exact .nil
    · simp only [SparqlSpec.infoOf, m1]
      rfl
  · simp only [SparqlSpec.infoOf, m2, hali, List.nil_append, List.flatMap_map]
    refine List.flatMap_eq_nil_iff.mpr fun k _ => ?_
    cases k <;> rfl
  · simp only [SparqlSpec.infoOf, m2, List.map_map]
    refine List.map_congr_left fun k _ => ?_
    cases k <;> rfl

/-! ### Writing the response -/

/-- The parts of the response that depend on times can be written. -/
structure ExtraOk (X : Export.Extra) : Prop where
  runtime : X.runtime.Valid
  warnings : ∀ w ∈ X.warnings, Utf8 w
  total : Utf8 X.total
  computeResult : Utf8 X.computeResult

theorem stands_variable (n : Str) : Export.Stands ('?' :: n) ('?' :: n) := .inl ⟨rfl, fun ⟨_, h⟩ => by cases h⟩

theorem shows_cell {S : Store} {P : Planner.Params} {ps : List Pattern} {t : Planner.Tree} {x z : Table} {l : Loaded} (hS : S.word = showId l)
    (hcol : Columns P ps t x) {row : Row} (hrow : row ∈ x)
    (hids : ∀ v k, Planner.solution (t.cols P) row v = some k → ∃ w, idToOptionalString l k = .ok (some w))
    (hterm : ∀ v w, showSol l (Planner.solution (t.cols P) row) v = some w → ¬ ":v:".toList <+: w) (n : Str) :
    Export.Shows S.names (resultOf P t z) ('?' :: n) row (showSol l (Planner.solution (t.cols P) row) (String.ofList ('?' :: n))) := by
  obtain ⟨c1, c2, c3, c4, c5⟩ := hcol
  by_cases hv : String.ofList ('?' :: n) ∈ (t.cols P).map (·.1)
  · obtain ⟨c, hc⟩ := Planner.mem_of_key hv
    have hlt := c3 _ hc
    have hlen : row.length = t.width := c4 row hrow
    have hsol : Planner.solution (t.cols P) row (String.ofList ('?' :: n)) = Planner.cell row c := by
      rw [Planner.solution_def, (Planner.lookup_some c1).mpr hc, Option.bind_some]
    refine .value (stands_variable n) (col := c) (id := row[c]'(by omega)) (k := .kb) ?_ (List.getElem?_eq_getElem (by omega)) ?_ ?_
    · unfold resultOf
      exact List.mem_map.mpr ⟨_, hc, by rw [String.toList_ofList]⟩
    · unfold resultOf
      simp only
      rw [List.getElem?_replicate, if_pos hlt]
    · have hcell : Planner.cell row c = if row[c]'(by omega) = ID_NO_VALUE then none else some (row[c]'(by omega)) := by
        unfold Planner.cell
        simp only [List.getD_eq_getElem?_getD, List.getElem?_eq_getElem (show c < row.length by omega), Option.getD_some]
      by_cases h0 : row[c]'(by omega) = ID_NO_VALUE
      · rw [if_pos h0] at hcell
        have : showSol l (Planner.solution (t.cols P) row) (String.ofList ('?' :: n)) = none := by
          unfold showSol
          rw [hsol, hcell, Option.bind_none]
        rw [this, h0]
        exact .unbound _
      · rw [if_neg h0] at hcell
        obtain ⟨w, hw⟩ := hids _ _ (hsol.trans hcell)
        have hshow : showId l (row[c]'(by omega)) = some w := by unfold showId; rw [hw]
        have : showSol l (Planner.solution (t.cols P) row) (String.ofList ('?' :: n)) = some w := by
          unfold showSol
          rw [hsol, hcell, Option.bind_some, hshow]
        rw [this]
        exact .word (by unfold Store.names; rw [hS]; exact hshow) (hterm _ _ this)
  · have : showSol l (Planner.solution (t.cols P) row) (String.ofList ('?' :: n)) = none := by
      unfold showSol
      rw [Planner.solution_not_mem hv, Option.bind_none]
    rw [this]
    refine .missing (stands_variable n) fun hm => hv ?_
    unfold resultOf at hm
    simp only [List.map_map] at hm
    obtain ⟨q, hq, h⟩ := List.mem_map.mp hm
    refine List.mem_map.mpr ⟨q, hq, ?_⟩
    simp only [Function.comp] at h
    rw [← h, String.ofList_toList]

theorem composed {S : Store} {P : Planner.Params} {ps : List Pattern} {t : Planner.Tree} {x z : Table} {l : Loaded} (hS : S.word = showId l)
    (hcol : Columns P ps t x) (hz : ∀ row ∈ z, row ∈ x) (hno : idToOptionalString l ID_NO_VALUE = .ok none)
    (hids : ∀ s ∈ x.map (Planner.solution (t.cols P)), ∀ v k, s v = some k → ∃ w, idToOptionalString l k = .ok (some w))
    (hterm : ∀ sol ∈ (x.map (Planner.solution (t.cols P))).map (showSol l), ∀ v w, sol v = some w → Utf8 w ∧ ¬ ":v:".toList <+: w)
    {X : Export.Extra} (hX : ExtraOk X) {a : Ask} (hv : a.vars ≠ []) (h1 : ∀ k ∈ a.limit, k < 2 ^ 63) (h2 : ∀ k ∈ a.offset, k < 2 ^ 63)
    {maxSend : Nat} (h3 : maxSend < 2 ^ 63) {text : Str} (u1 : Utf8 text) (u2 : ∀ n ∈ a.vars, Utf8 ('?' :: n)) :
    ∃ body v, Export.composeJson S.names X text (a.vars.map ('?' :: ·)) (Modifiers.written a.limit) (Modifiers.written a.offset) maxSend
        (resultOf P t z) = .ok body ∧ readJson body = some v ∧
      v.member "res".toList = some (rowsOf a maxSend ((z.map (Planner.solution (t.cols P))).map (showSol l))) ∧
      v.member "resultsize".toList = some (.num (Nat.toDigits 10 ((z.map (Planner.solution (t.cols P))).map (showSol l)).length)) ∧
      v.member "selected".toList = some (.arr (a.vars.map fun n => .str ('?' :: n))) ∧
      v.member "query".toList = some (.str text) ∧
      v.member "status".toList = some (.str "OK".toList) := by
  have hsub : ∀ row ∈ ModifiersSpec.slice (some (min (a.limit.getD 100000) maxSend)) (a.offset.getD 0) z, row ∈ x := fun row hr =>
    hz row (List.mem_of_mem_drop (List.mem_of_mem_take hr))
  have hms : ∀ row ∈ x, showSol l (Planner.solution (t.cols P) row) ∈ (x.map (Planner.solution (t.cols P))).map (showSol l) := fun row hr =>
    List.mem_map_of_mem (List.mem_map_of_mem hr)
  obtain ⟨body, v, e1, e2, e3, e4, e5, e6, e7, _⟩ := Export.C72_json_partial S.names X text (a.vars.map ('?' :: ·)) a.limit a.offset maxSend
    (resultOf P t z) (by
      unfold resultOf
      simp only [List.map_map]
      have : (Prod.fst ∘ fun q : Planner.Var × Nat => (q.1.toList, q.2)) = String.toList ∘ Prod.fst := rfl
      rw [this, ← List.map_map]
      exact hcol.1.map_on fun _ _ _ _ h => String.toList_injective h)
    (by
      have : Export.noValue = ID_NO_VALUE := rfl
      have h0 : showId l ID_NO_VALUE = none := by unfold showId; rw [hno]
      rw [this, ← h0, ← hS]
      rfl)
    (by unfold Store.names Export.noValue; simp) (by
      intro row _ col k _ hk
      left
      unfold resultOf at hk
      simp only [List.getElem?_replicate] at hk
      split at hk
      · cases hk; rfl
      · cases hk)
    (by simpa using hv) h1 h2 h3 (fun name row => showSol l (Planner.solution (t.cols P) row) (String.ofList name)) _ rfl
    (by
      intro row hr name hn
      obtain ⟨n, _, rfl⟩ := List.mem_map.mp hn
      have hr' := hsub row hr
      exact shows_cell hS hcol hr' (hids _ (List.mem_map_of_mem hr')) (fun v w h => (hterm _ (hms row hr') v w h).2) n)
    u1 (by
      intro name hn
      obtain ⟨n, hn', rfl⟩ := List.mem_map.mp hn
      exact u2 n hn')
    (fun row hr name _ w h => (hterm _ (hms row (hsub row hr)) _ w h).1) hX.runtime hX.warnings hX.total hX.computeResult
  refine ⟨body, v, e1, e2, ?_, ?_, ?_, e3, e7⟩
  · rw [e5]
    unfold rowsOf ModifiersSpec.slice resultOf
    simp only [List.map_map, List.map_take, List.map_drop]
    rfl
  · rw [e6, List.length_map, List.length_map]
    rfl
  · rw [e4, List.map_map]
    rfl

/-- The same for the formats with separators. -/
theorem separated {S : Store} {P : Planner.Params} {ps : List Pattern} {t : Planner.Tree} {x z : Table} {l : Loaded} (hS : S.word = showId l)
    (hcol : Columns P ps t x) (hz : ∀ row ∈ z, row ∈ x) (hno : idToOptionalString l ID_NO_VALUE = .ok none)
    (hids : ∀ s ∈ x.map (Planner.solution (t.cols P)), ∀ v k, s v = some k → ∃ w, idToOptionalString l k = .ok (some w)) {sep : Char} (hsep : sep ≠ '\n')
    (hterm : ∀ sol ∈ (x.map (Planner.solution (t.cols P))).map (showSol l), ∀ v w, sol v = some w → ('\n' ∉ w ∧ sep ∉ w) ∧ ¬ ":v:".toList <+: w)
    {a : Ask} (hv : a.vars ≠ []) (h1 : ∀ k ∈ a.limit, k < 2 ^ 63) (h2 : ∀ k ∈ a.offset, k < 2 ^ 63) (h3 : z.length < 2 ^ 64)
    (h4 : a.limit.isSome ∨ a.offset.getD 0 = 0) :
    ∃ body, Export.composeSepValues S.names sep (a.vars.map ('?' :: ·)) (Modifiers.written a.limit) (Modifiers.written a.offset)
        (resultOf P t z) = .ok body ∧
      ExportSpec.readSeparated sep body = linesOf a ((z.map (Planner.solution (t.cols P))).map (showSol l)) := by
  have hsub : ∀ row ∈ ModifiersSpec.slice a.limit (a.offset.getD 0) z, row ∈ x := by
    intro row hr
    unfold ModifiersSpec.slice at hr
    cases hl : a.limit with
    | none => rw [hl] at hr; exact hz row (List.mem_of_mem_drop hr)
    | some k => rw [hl] at hr; exact hz row (List.mem_of_mem_drop (List.mem_of_mem_take hr))
  have hms : ∀ row ∈ x, showSol l (Planner.solution (t.cols P) row) ∈ (x.map (Planner.solution (t.cols P))).map (showSol l) := fun row hr =>
    List.mem_map_of_mem (List.mem_map_of_mem hr)
  obtain ⟨body, e1, e2⟩ := Export.C72_separated_partial S.names sep hsep (a.vars.map ('?' :: ·)) a.limit a.offset
    (resultOf P t z) (by
      unfold resultOf
      simp only [List.map_map]
      have : (Prod.fst ∘ fun q : Planner.Var × Nat => (q.1.toList, q.2)) = String.toList ∘ Prod.fst := rfl
      rw [this, ← List.map_map]
      exact hcol.1.map_on fun _ _ _ _ h => String.toList_injective h)
    (by
      have : Export.noValue = ID_NO_VALUE := rfl
      have h0 : showId l ID_NO_VALUE = none := by unfold showId; rw [hno]
      rw [this, ← h0, ← hS]
      rfl)
    (by unfold Store.names Export.noValue; simp) (by
      intro row _ col k _ hk
      left
      unfold resultOf at hk
      simp only [List.getElem?_replicate] at hk
      split at hk
      · cases hk; rfl
      · cases hk)
    (by simpa using hv) h1 h2 h3 h4 (fun name row => showSol l (Planner.solution (t.cols P) row) (String.ofList name)) _ rfl
    (by
      intro row hr name hn
      obtain ⟨n, _, rfl⟩ := List.mem_map.mp hn
      have hr' := hsub row hr
      exact shows_cell hS hcol hr' (hids _ (List.mem_map_of_mem hr')) (fun v w h => (hterm _ (hms row hr') v w h).2) n)
    (fun row hr name _ w h => (hterm _ (hms row (hsub row hr)) _ w h).1)
  refine ⟨body, e1, e2.trans ?_⟩
  unfold linesOf ModifiersSpec.slice resultOf
  cases a.limit <;> simp only [List.map_map, List.map_take, List.map_drop, Option.map_none, Option.map_some, Option.getD_none, Option.getD_some] <;>
    rfl

/-! ### DISTINCT and ORDER BY -/

theorem mem_keep {m : MultiJoin.VarMap} {c : Nat} : ∀ (vs : List Str) (done : List Nat),
    c ∈ keepIndices m done vs ↔ c ∈ done ∨ ∃ v ∈ vs, m.lookup (String.ofList v) = some c
  | [], done => by simp [keepIndices]
  | v :: vs, done => by
    rw [keepIndices]
    cases h : m.lookup (String.ofList v) with
    | none =>
      simp only
      rw [mem_keep vs done]
      simp [h]
    | some d =>
      simp only
      rw [mem_keep vs]
      by_cases hd : done.contains d = true
      · rw [if_pos hd]
        rw [List.contains_iff_mem] at hd
        simp only [List.mem_cons, exists_eq_or_imp, h, Option.some.injEq]
        refine ⟨fun h => h.elim .inl fun h => .inr (.inr h), fun h' => ?_⟩
        rcases h' with h' | rfl | h'
        exacts [.inl h', .inl hd, .inr h']
      · rw [if_neg hd]
        rw [List.mem_append, List.mem_singleton]
        simp only [List.mem_cons, exists_eq_or_imp, h, Option.some.injEq]
        refine ⟨fun h => ?_, fun h => ?_⟩
        · rcases h with (h | rfl) | h
          exacts [.inl h, .inr (.inl rfl), .inr (.inr h)]
        · rcases h with h | rfl | h
          exacts [.inl (.inl h), .inl (.inr rfl), .inr h]

theorem keep_nodup {m : MultiJoin.VarMap} : ∀ (vs : List Str) (done : List Nat), done.Nodup → (keepIndices m done vs).Nodup
  | [], done, h => h
  | v :: vs, done, h => by
    rw [keepIndices]
    cases m.lookup (String.ofList v) with
    | none => exact keep_nodup vs done h
    | some d =>
      refine keep_nodup vs _ ?_
      by_cases hd : done.contains d = true
      · rw [if_pos hd]; exact h
      · rw [if_neg hd]
        rw [List.contains_iff_mem] at hd
        exact List.nodup_append.mpr ⟨h, by simp, by rintro a ha b hb rfl; rw [List.mem_singleton] at hb; exact hd (hb ▸ ha)⟩

theorem keys_get {m : MultiJoin.VarMap} : ∀ {ks : List SparqlParser.OrderKey} {cs : List (Nat × Bool)}, keyColumns m ks = some cs →
    cs.length = ks.length ∧ ∀ (i : Nat) (k : SparqlParser.OrderKey), ks[i]? = some k →
      ∃ c, m.lookup (String.ofList k.key) = some c ∧ cs[i]? = some (c, k.desc)
  | [], cs, h => by
    cases h
    exact ⟨rfl, by intro i k h; simp at h⟩
  | k :: ks, cs, h => by
    rw [keyColumns] at h
    cases hl : m.lookup (String.ofList k.key) with
    | none => rw [hl] at h; cases h
    | some c =>
      rw [hl] at h
      simp only at h
      obtain ⟨cs', h', rfl⟩ := Option.map_eq_some_iff.mp h
      obtain ⟨g1, g2⟩ := keys_get h'
      refine ⟨by simp [g1], ?_⟩
      intro i q hq
      cases i with
      | zero =>
        simp only [List.getElem?_cons_zero, Option.some.injEq] at hq
        subst hq
        exact ⟨c, hl, rfl⟩
      | succ i => exact g2 i q (by simpa using hq)

theorem keys_total {m : MultiJoin.VarMap} : ∀ (ks : List SparqlParser.OrderKey), (∀ k ∈ ks, ∃ c, m.lookup (String.ofList k.key) = some c) →
    ∃ cs, keyColumns m ks = some cs
  | [], _ => ⟨[], rfl⟩
  | k :: ks, h => by
    obtain ⟨c, hc⟩ := h k List.mem_cons_self
    obtain ⟨cs, hcs⟩ := keys_total ks fun q hq => h q (List.mem_cons_of_mem _ hq)
    exact ⟨(c, k.desc) :: cs, by rw [keyColumns, hc, hcs]; rfl⟩

section
variable {m : MultiJoin.VarMap} {w : Nat} {sortedOn : List Nat} {info : SparqlParser.Info} {x z : Table}

theorem keep_lt (h3 : ∀ q ∈ m, q.2 < w) (h1 : (m.map (·.1)).Nodup) (vs : List Str) : ∀ c ∈ keepIndices m [] vs, c < w := by
  intro c hc
  rcases (mem_keep vs []).mp hc with h | ⟨v, _, h⟩
  · cases h
  · exact h3 _ ((Planner.lookup_some h1).mp h)

theorem keys_lt (h3 : ∀ q ∈ m, q.2 < w) (h1 : (m.map (·.1)).Nodup) {ks : List SparqlParser.OrderKey} {cs : List (Nat × Bool)}
    (h : keyColumns m ks = some cs) : ∀ k ∈ cs, k.1 < w := by
  intro k hk
  obtain ⟨i, hi, rfl⟩ := List.getElem_of_mem hk
  obtain ⟨g1, g2⟩ := keys_get h
  obtain ⟨c, e1, e2⟩ := g2 i (ks[i]'(by omega)) (List.getElem?_eq_getElem (by omega))
  rw [List.getElem?_eq_getElem hi] at e2
  rw [Option.some.inj e2]
  exact h3 _ ((Planner.lookup_some h1).mp e1)

/-- The rows after DISTINCT and ORDER BY. -/
theorem modified_rows (h1 : (m.map (·.1)).Nodup) (h3 : ∀ q ∈ m, q.2 < w) (hw : x.WF w) (hs : JoinSpec.SortedOnCols sortedOn x)
    (h : Modified m w sortedOn info x z) :
    (if info.distinct then ∃ y p, p.Perm x ∧ ModifiersSpec.DistinctOf (keepIndices m [] info.selected) p y ∧ z.Perm y else z.Perm x) ∧
    (info.orderBy = [] ∨ ∃ keys, keyColumns m info.orderBy = some keys ∧ z.Pairwise fun r r' => ¬ ModifiersSpec.Before keys r' r) := by
  obtain ⟨y, s, hd, ho⟩ := h
  have hy : (if info.distinct then ∃ p, p.Perm x ∧ ModifiersSpec.DistinctOf (keepIndices m [] info.selected) p y else y = x) ∧
      y.WF w ∧ JoinSpec.SortedOnCols s y := by
    by_cases hdi : info.distinct = true
    · rw [if_pos hdi] at hd ⊢
      obtain ⟨hd, rfl⟩ := hd
      obtain ⟨y', p, e, hp, g1, g2⟩ := Modifiers.C18_planned_sorted (keep_nodup _ _ List.nodup_nil) (keep_lt h3 h1 _) hw hs hd
      cases e
      exact ⟨⟨p, hp, g1⟩, fun r hr => hw r (hp.subset (g1.1.subset hr)), g2⟩
    · rw [if_neg hdi] at hd ⊢
      obtain ⟨rfl, rfl⟩ := hd
      exact ⟨rfl, hw, hs⟩
  obtain ⟨hy1, hy2, hy3⟩ := hy
  have hz : z.Perm y ∧ (info.orderBy = [] ∨ ∃ keys, keyColumns m info.orderBy = some keys ∧
      z.Pairwise fun r r' => ¬ ModifiersSpec.Before keys r' r) := by
    by_cases hob : info.orderBy = []
    · rw [if_pos hob] at ho
      subst ho
      exact ⟨List.Perm.refl _, .inl hob⟩
    · rw [if_neg hob] at ho
      obtain ⟨keys, hk, ho⟩ := ho
      obtain ⟨z', e, g1, g2⟩ := Modifiers.C19_planned hy2 (by
        rintro rfl
        have := (keys_get hk).1
        simp at this
        exact hob (List.length_eq_zero_iff.mp this.symm)) (keys_lt h3 h1 hk) hy3 ho
      cases e
      exact ⟨g1, .inr ⟨keys, hk, g2⟩⟩
  refine ⟨?_, hz.2⟩
  by_cases hdi : info.distinct = true
  · rw [if_pos hdi] at hy1 ⊢
    obtain ⟨p, g1, g2⟩ := hy1
    exact ⟨y, p, g1, g2, hz.1⟩
  · rw [if_neg hdi] at hy1 ⊢
    subst hy1
    exact hz.1

/-- DISTINCT and ORDER BY do not fail if there are columns for all keys. -/
theorem modified_total (h1 : (m.map (·.1)).Nodup) (h3 : ∀ q ∈ m, q.2 < w) (hw : x.WF w) (hs : JoinSpec.SortedOnCols sortedOn x)
    (hk : ∀ k ∈ info.orderBy, ∃ c, m.lookup (String.ofList k.key) = some c) : ∃ z, Modified m w sortedOn info x z := by
  have hy : ∃ (y : Table) (s : List Nat), (if info.distinct then
      Modifiers.DistinctRow w sortedOn (keepIndices m [] info.selected) x (.ok y) ∧
        s = Modifiers.distinctSortedOn sortedOn (keepIndices m [] info.selected)
    else y = x ∧ s = sortedOn) ∧ y.WF w ∧ JoinSpec.SortedOnCols s y := by
    by_cases hdi : info.distinct = true
    · obtain ⟨o, ho⟩ := Modifiers.C18_planned_total (sortedOn := sortedOn) (keep_lt h3 h1 info.selected) hw
      obtain ⟨y', p, rfl, hp, g1, g2⟩ := Modifiers.C18_planned_sorted (keep_nodup _ _ List.nodup_nil) (keep_lt h3 h1 _) hw hs ho
      exact ⟨y', _, by rw [if_pos hdi]; exact ⟨ho, rfl⟩, fun r hr => hw r (hp.subset (g1.1.subset hr)), g2⟩
    · exact ⟨x, sortedOn, by rw [if_neg hdi]; exact ⟨rfl, rfl⟩, hw, hs⟩
  obtain ⟨y, s, g1, g2, g3⟩ := hy
  by_cases hob : info.orderBy = []
  · exact ⟨y, y, s, g1, by rw [if_pos hob]⟩
  · obtain ⟨keys, hkeys⟩ := keys_total _ hk
    have hne : keys ≠ [] := by
      rintro rfl
      have := (keys_get hkeys).1
      simp at this
      exact hob (List.length_eq_zero_iff.mp this.symm)
    obtain ⟨o, ho⟩ := Modifiers.C19_planned_total (sortedOn := s) g2 hne (keys_lt h3 h1 hkeys)
    obtain ⟨z', rfl, _, _⟩ := Modifiers.C19_planned g2 hne (keys_lt h3 h1 hkeys) g3 ho
    exact ⟨z', y, s, g1, by rw [if_neg hob]; exact ⟨keys, hkeys, ho⟩⟩

end

section
variable {m : MultiJoin.VarMap} {l : Loaded} {less : Str → Str → Prop} {r r' : Row}

/-- The value of a variable as it is shown. -/
theorem valueOf_show {n : Str} {c : Nat} (hc : m.lookup (String.ofList ('?' :: n)) = some c) (hr : c < r.length) :
    valueOf (showSol l (Planner.solution m r)) n = if r.getD c 0 = ID_NO_VALUE then none else showId l (r.getD c 0) := by
  have hg : r.getD c ID_NO_VALUE = r.getD c 0 := by
    simp only [List.getD_eq_getElem?_getD, List.getElem?_eq_getElem hr, Option.getD_some]
  unfold valueOf showSol
  rw [Planner.solution_def, hc, Option.bind_some]
  unfold Planner.cell
  simp only [hg]
  split <;> rfl

theorem same_value {n : Str} {c : Nat} (hc : m.lookup (String.ofList ('?' :: n)) = some c) (hr : c < r.length) (hr' : c < r'.length)
    (hinj : ∀ i j u, showId l i = some u → showId l j = some u → i = j)
    (hs : ∀ v k, Planner.solution m r v = some k → ∃ w, idToOptionalString l k = .ok (some w))
    (hs' : ∀ v k, Planner.solution m r' v = some k → ∃ w, idToOptionalString l k = .ok (some w)) :
    valueOf (showSol l (Planner.solution m r)) n = valueOf (showSol l (Planner.solution m r')) n ↔ r.getD c 0 = r'.getD c 0 := by
  have shown : ∀ {q : Row}, c < q.length → (∀ v k, Planner.solution m q v = some k → ∃ w, idToOptionalString l k = .ok (some w)) →
      q.getD c 0 ≠ ID_NO_VALUE → ∃ u, showId l (q.getD c 0) = some u := by
    intro q hq hsq h0
    have hg : q.getD c ID_NO_VALUE = q.getD c 0 := by
      simp only [List.getD_eq_getElem?_getD, List.getElem?_eq_getElem hq, Option.getD_some]
    obtain ⟨u, hu⟩ := hsq (String.ofList ('?' :: n)) (q.getD c 0) (by
      rw [Planner.solution_def, hc, Option.bind_some]
      unfold Planner.cell
      simp only [hg]
      rw [if_neg h0])
    exact ⟨u, by unfold showId; rw [hu]⟩
  rw [valueOf_show hc hr, valueOf_show hc hr']
  refine ⟨fun h => ?_, fun h => by rw [h]⟩
  by_cases h0 : r.getD c 0 = ID_NO_VALUE
  · by_cases h0' : r'.getD c 0 = ID_NO_VALUE
    · rw [h0, h0']
    · obtain ⟨u, hu⟩ := shown hr' hs' h0'
      rw [if_pos h0, if_neg h0', hu] at h
      cases h
  · obtain ⟨u, hu⟩ := shown hr hs h0
    rw [if_neg h0, hu] at h
    by_cases h0' : r'.getD c 0 = ID_NO_VALUE
    · rw [if_pos h0'] at h
      cases h
    · rw [if_neg h0'] at h
      exact hinj _ _ u hu h.symm

/-- Rows are in the order of the solutions they show. -/
theorem before_of_earlier {keys : List Key} {cs : List (Nat × Bool)}
    (hk : keyColumns m (keys.map fun k => ⟨'?' :: k.name, k.descends⟩) = some cs) (hb : ∀ k ∈ cs, k.1 < r.length ∧ k.1 < r'.length)
    (hinj : ∀ i j u, showId l i = some u → showId l j = some u → i = j)
    (hless : ∀ i j u v, showId l i = some u → showId l j = some v → less u v → i < j)
    (hs : ∀ v k, Planner.solution m r v = some k → ∃ w, idToOptionalString l k = .ok (some w))
    (hs' : ∀ v k, Planner.solution m r' v = some k → ∃ w, idToOptionalString l k = .ok (some w))
    (h : Earlier less keys (showSol l (Planner.solution m r)) (showSol l (Planner.solution m r'))) : ModifiersSpec.Before cs r r' := by
  obtain ⟨i, k, u, u', e1, e2, e3, e4, e5⟩ := h
  have get : ∀ (j : Nat) (q : Key), keys[j]? = some q → ∃ c, m.lookup (String.ofList ('?' :: q.name)) = some c ∧ cs[j]? = some (c, q.descends) := by
    intro j q hq
    exact (keys_get hk).2 j ⟨'?' :: q.name, q.descends⟩ (by rw [List.getElem?_map, hq]; rfl)
  obtain ⟨c, g1, g2⟩ := get i k e1
  obtain ⟨b1, b2⟩ := hb _ (List.mem_of_getElem? g2)
  refine ⟨i, c, k.descends, g2, ?_, ?_⟩
  · intro j c' d hj hc'
    have hlt : j < keys.length := by
      have := (List.getElem?_eq_some_iff.mp e1).1
      omega
    obtain ⟨c'', g3, g4⟩ := get j keys[j] (List.getElem?_eq_getElem hlt)
    rw [hc'] at g4
    cases g4
    obtain ⟨b3, b4⟩ := hb _ (List.mem_of_getElem? hc')
    exact (same_value g3 b3 b4 hinj hs hs').mp (e2 j keys[j] hj (List.getElem?_eq_getElem hlt))
  · rw [valueOf_show g1 b1] at e3
    rw [valueOf_show g1 b2] at e4
    split at e3
    · cases e3
    split at e4
    · cases e4
    split at e5
    · rename_i hd
      rw [if_pos hd]
      exact hless _ _ _ _ e4 e3 e5
    · rename_i hd
      rw [if_neg hd]
      exact hless _ _ _ _ e3 e4 e5

end

/-! ### Filters -/

/-- A filter that compares two variables is executed as in the model of plans. -/
theorem filter_run {fs : List Filter} {i : Nat} {f : Filter} {c : FilterSpec.Cmp} (hf : fs[i]? = some f) (hc : cmpOf f.type = some c)
    {m : MultiJoin.VarMap} {w lc rc : Nat} {x : Table} (hx : x.WF w) (hl : m.lookup (String.ofList f.lhs) = some lc)
    (hr : m.lookup (String.ofList f.rhs) = some rc) (hlw : lc < w) (hrw : rc < w) :
    Verif.Filter.computeFilter Verif.Filter.idReader c lc rc x = .ok (x.filter fun r => keepIds fs i (Planner.solution m r)) := by
  rw [Verif.Filter.C22_columns Verif.Filter.idReader_lawful c hx hlw hrw]
  congr 1
  unfold FilterSpec.keepColumns
  refine List.filter_congr fun r hmem => ?_
  have get : ∀ {v : Planner.Var} {k : Nat}, m.lookup v = some k → k < w → (Planner.solution m r v).getD ID_NO_VALUE = r.getD k 0 := by
    intro v k hv hk
    have hk' : k < r.length := by rw [hx r hmem]; exact hk
    rw [Planner.solution_def, hv, Option.bind_some]
    unfold Planner.cell
    simp only [List.getD_eq_getElem?_getD, List.getElem?_eq_getElem hk', Option.getD_some]
    split
    · rename_i h; rw [h]; rfl
    · rfl
  unfold keepIds
  simp only [hf, hc, get hl hlw, get hr hrw]
  cases c <;> rfl

/-- `x` is before `y`; unbound variables come last. -/
def BeforeTerm (less : Str → Str → Prop) : Option Str → Option Str → Prop
  | some u, some v => less u v
  | some _, none => True
  | none, _ => False

/-- The comparison of values. -/
def CompareTerms (less : Str → Str → Prop) : FilterSpec.Cmp → Option Str → Option Str → Prop
  | .eq, x, y => x = y
  | .ne, x, y => x ≠ y
  | .lt, x, y => BeforeTerm less x y
  | .le, x, y => ¬ BeforeTerm less y x
  | .gt, x, y => BeforeTerm less y x
  | .ge, x, y => ¬ BeforeTerm less x y

open Classical in
/-- `keepIds` in terms of values. -/
noncomputable def keepTerms (less : Str → Str → Prop) (fs : List Filter) (i : Nat) (s : TermSol) : Bool :=
  match fs[i]? with
  | none => true
  | some f =>
    match cmpOf f.type with
    | none => true
    | some c => decide (CompareTerms less c (s (String.ofList f.lhs)) (s (String.ofList f.rhs)))

theorem keepTerms_iff {less : Str → Str → Prop} {fs : List Filter} {i : Nat} {f : Filter} {c : FilterSpec.Cmp} (hf : fs[i]? = some f)
    (hc : cmpOf f.type = some c) (s : TermSol) :
    keepTerms less fs i s = true ↔ CompareTerms less c (s (String.ofList f.lhs)) (s (String.ofList f.rhs)) := by
  unfold keepTerms
  simp only [hf, hc, decide_eq_true_eq]

/-- Comparing ids is comparing terms. -/
theorem compare_terms {l : Loaded} {less : Str → Str → Prop} {w : Nat} (hw : w < 2 ^ 61) (hshow : ∀ k, k < w → ∃ u, showId l k = some u)
    (hord : ∀ i j u v, showId l i = some u → showId l j = some v → (u = v ↔ i = j) ∧ (less u v ↔ i < j)) {a b : Option Nat}
    (ha : ∀ k, a = some k → k < w) (hb : ∀ k, b = some k → k < w) (c : FilterSpec.Cmp) :
    compareIds c (a.getD ID_NO_VALUE) (b.getD ID_NO_VALUE) = true ↔ CompareTerms less c (a.bind (showId l)) (b.bind (showId l)) := by
  have hno : w < ID_NO_VALUE := lt_trans hw (by decide)
  have key : ∀ {a b : Option Nat}, (∀ k, a = some k → k < w) → (∀ k, b = some k → k < w) →
      (a.getD ID_NO_VALUE = b.getD ID_NO_VALUE ↔ a.bind (showId l) = b.bind (showId l)) ∧
      (a.getD ID_NO_VALUE < b.getD ID_NO_VALUE ↔ BeforeTerm less (a.bind (showId l)) (b.bind (showId l))) := by
    intro a b ha hb
    cases a with
    | none =>
      cases b with
      | none => exact ⟨by simp, by simp [BeforeTerm]⟩
      | some j =>
        have hj := hb j rfl
        obtain ⟨v, hv⟩ := hshow j hj
        simp only [Option.getD_none, Option.getD_some, Option.bind_none, Option.bind_some, hv, BeforeTerm]
        exact ⟨⟨fun h => by omega, fun h => by cases h⟩, ⟨fun h => by omega, False.elim⟩⟩
    | some i =>
      have hi := ha i rfl
      obtain ⟨u, hu⟩ := hshow i hi
      cases b with
      | none =>
        simp only [Option.getD_none, Option.getD_some, Option.bind_none, Option.bind_some, hu, BeforeTerm]
        exact ⟨⟨fun h => by omega, fun h => by cases h⟩, ⟨fun _ => trivial, fun _ => by omega⟩⟩
      | some j =>
        obtain ⟨v, hv⟩ := hshow j (hb j rfl)
        simp only [Option.getD_some, Option.bind_some, hu, hv, BeforeTerm, Option.some.injEq]
        obtain ⟨o1, o2⟩ := hord i j u v hu hv
        exact ⟨o1.symm, o2.symm⟩
  obtain ⟨k1, k2⟩ := key ha hb
  obtain ⟨_, k3⟩ := key hb ha
  cases c <;> simp only [compareIds, CompareTerms, decide_eq_true_eq, ne_eq]
  · exact k1
  · rw [k1]
  · exact k2
  · rw [← k3, not_lt]
  · exact k3
  · rw [← k2, not_lt]

theorem keep_terms {l : Loaded} {less : Str → Str → Prop} {w : Nat} (hw : w < 2 ^ 61) (hshow : ∀ k, k < w → ∃ u, showId l k = some u)
    (hord : ∀ i j u v, showId l i = some u → showId l j = some v → (u = v ↔ i = j) ∧ (less u v ↔ i < j)) (fs : List Filter) (i : Nat)
    {s : Planner.Var → Option Nat} (hs : ∀ v k, s v = some k → k < w) : keepIds fs i s = keepTerms less fs i (showSol l s) := by
  cases hf : fs[i]? with
  | none =>
    unfold keepIds keepTerms
    simp only [hf]
  | some f =>
    cases hc : cmpOf f.type with
    | none =>
      unfold keepIds keepTerms
      simp only [hf, hc]
    | some c =>
      rw [Bool.eq_iff_iff, keepTerms_iff hf hc]
      unfold keepIds
      simp only [hf, hc]
      rw [compare_terms hw hshow hord (fun k hk => hs _ k hk) (fun k hk => hs _ k hk)]
      rfl

theorem keep_vars (fs : List Filter) (i : Nat) (s t : Planner.Var → Option Nat) (h : ∀ v ∈ (fs.map filterVars).getD i [], s v = t v) :
    keepIds fs i s = keepIds fs i t := by
  unfold keepIds
  cases hf : fs[i]? with
  | none => rfl
  | some f =>
    simp only [List.getD_eq_getElem?_getD, List.getElem?_map, hf, Option.map_some, Option.getD_some] at h
    simp only [h (String.ofList f.lhs) (by simp [filterVars]), h (String.ofList f.rhs) (by simp [filterVars])]

/-- Bound variables are compared as the filter says. -/
theorem holds_iff {less : Str → Str → Prop} {a : Ask} {sol : TermSol}
    (hb : ∀ f ∈ a.comparisons, ∀ n, n = f.left ∨ n = f.right → ∃ u, valueOf sol n = some u) :
    (∀ i, i < ((filtersOf a).map filterVars).length → keepTerms less (filtersOf a) i sol = true) ↔ ∀ f ∈ a.comparisons, f.Holds less sol := by
  have key : ∀ (i : Nat) (f : Comparison), a.comparisons[i]? = some f → (keepTerms less (filtersOf a) i sol = true ↔ f.Holds less sol) := by
    intro i f hf
    have hm := List.mem_of_getElem? hf
    obtain ⟨u, hu⟩ := hb f hm _ (.inl rfl)
    obtain ⟨v, hv⟩ := hb f hm _ (.inr rfl)
    have hfi : (filtersOf a)[i]? = some f.written.filter := by
      unfold filtersOf
      rw [List.getElem?_map, hf]
      rfl
    have e1 : sol (String.ofList f.written.filter.lhs) = some u := hu
    have e2 : sol (String.ofList f.written.filter.rhs) = some v := hv
    have e3 : f.written.filter.type = f.op.type := rfl
    have e4 : f.Holds less sol ↔ match f.op with
        | .eq => u = v
        | .ne => u ≠ v
        | .lt => less u v
        | .le => ¬ less v u
        | .gt => less v u
        | .ge => ¬ less u v := by
      unfold Comparison.Holds
      rw [hu, hv]
      constructor
      · rintro ⟨u', v', h1, h2, h3⟩
        cases h1
        cases h2
        exact h3
      · exact fun h => ⟨u, v, rfl, rfl, h⟩
    rw [e4]
    clear e4
    cases ho : f.op <;> rw [ho] at e3
    · rw [keepTerms_iff (c := .eq) hfi (by rw [e3]; rfl), e1, e2]; simp [CompareTerms]
    · rw [keepTerms_iff (c := .ne) hfi (by rw [e3]; rfl), e1, e2]; simp [CompareTerms]
    · rw [keepTerms_iff (c := .lt) hfi (by rw [e3]; rfl), e1, e2]; rfl
    · rw [keepTerms_iff (c := .le) hfi (by rw [e3]; rfl), e1, e2]; rfl
    · rw [keepTerms_iff (c := .gt) hfi (by rw [e3]; rfl), e1, e2]; rfl
    · rw [keepTerms_iff (c := .ge) hfi (by rw [e3]; rfl), e1, e2]; rfl
  constructor
  · intro h f hf
    obtain ⟨i, hi, rfl⟩ := List.getElem_of_mem hf
    exact (key i _ (List.getElem?_eq_getElem hi)).mp (h i (by simpa [filtersOf] using hi))
  · intro h i hi
    have hi' : i < a.comparisons.length := by simpa [filtersOf] using hi
    exact (key i _ (List.getElem?_eq_getElem hi')).mpr (h _ (List.getElem_mem hi'))

/-- Applying the filters once more changes nothing. -/
theorem filters_again {P : Planner.Params} {filters : List (List Planner.Var)} {row : List Planner.Plan}
    (h : ∀ p ∈ row, Planner.Complete P filters p) : Planner.applyFilters P filters true row = row := by
  unfold Planner.applyFilters
  rw [if_pos rfl]
  have : ∀ p ∈ row, Planner.replaced P filters p = id p := by
    intro p hp
    unfold Planner.replaced
    by_cases hd : p.tree.isDummy = true
    · rw [if_pos hd]; rfl
    · rw [if_neg hd]
      have hno : ∀ f ∈ filters.zipIdx, Planner.applicable P p f.2 f.1 = false := by
        intro f hf
        rw [← Bool.not_eq_true]
        intro ha
        unfold Planner.applicable at ha
        rw [Bool.and_eq_true, decide_eq_true_eq, Planner.and_one] at ha
        have := h p hp (by simpa using hd) f.2 f.1 (List.mem_zipIdx_iff_getElem?.mp hf) (List.all_eq_true.mp ha.2)
        rw [ha.1] at this
        cases this
      revert hno
      generalize filters.zipIdx = fs
      induction fs with
      | nil => exact fun _ => rfl
      | cons f fs ih =>
        intro hno
        rw [List.foldl_cons, if_neg (by rw [hno f List.mem_cons_self]; decide)]
        exact ih fun g hg => hno g (List.mem_cons_of_mem _ hg)
  rw [List.map_congr_left this, List.map_id]

/-- A plan can be executed with filters if it can be executed without. -/
theorem filters_run {P : Planner.Params} {data : Nat → Nat → Table → Prop} {keep : Nat → (Planner.Var → Option Nat) → Bool}
    (filters : List (List Planner.Var)) {p : Planner.Plan} {x : Table} (h : Planner.Eval P data keep p.tree x) :
    ∃ y, Planner.Eval P data keep (Planner.replaced P filters p).tree y := by
  unfold Planner.replaced
  by_cases hd : p.tree.isDummy = true
  · rw [if_pos hd]
    exact ⟨x, h⟩
  · rw [if_neg hd]
    clear hd
    generalize filters.zipIdx = fs
    induction fs generalizing p x with
    | nil => exact ⟨x, h⟩
    | cons f fs ih =>
      rw [List.foldl_cons]
      split
      · exact ih (p := Planner.addFilter p f.2) (.filter h)
      · exact ih h

/-- The rows after DISTINCT and ORDER BY show the answer. -/
theorem solves {P : Planner.Params} {ps : List Pattern} {t : Planner.Tree} {x z : Table} {l : Loaded} {less : Str → Str → Prop} {a : Ask}
    {terms : List (String × String × String)} {D : List Words} {info : SparqlParser.Info} (hcol : Columns P ps t x)
    (hids : ∀ s ∈ x.map (Planner.solution (t.cols P)), ∀ v k, s v = some k → ∃ w, idToOptionalString l k = .ok (some w))
    (hn : ((x.map (Planner.solution (t.cols P))).map (showSol l)).Nodup)
    (hiff : ∀ sol, sol ∈ (x.map (Planner.solution (t.cols P))).map (showSol l) ↔ Solution isVariable less a terms D sol)
    (hinj : ∀ i j u, showId l i = some u → showId l j = some u → i = j)
    (hless : ∀ i j u v, showId l i = some u → showId l j = some v → less u v → i < j)
    (i2 : info.selected = a.vars.map ('?' :: ·)) (i8 : info.distinct = a.distinct)
    (i9 : info.orderBy = a.keys.map fun k => ⟨'?' :: k.name, k.descends⟩)
    (h : Modified (t.cols P) t.width t.sortedOn info x z) :
    (∀ row ∈ z, row ∈ x) ∧ Solves isVariable less a terms D ((z.map (Planner.solution (t.cols P))).map (showSol l)) := by
  obtain ⟨c1, _, c3, c4, c5, _⟩ := hcol
  obtain ⟨h1, h2⟩ := modified_rows c1 c3 c4 c5 h
  have hzx : ∀ row ∈ z, row ∈ x := by
    intro row hr
    by_cases hd : info.distinct = true
    · rw [if_pos hd] at h1
      obtain ⟨y, p, g1, g2, g3⟩ := h1
      exact g1.subset (g2.1.subset (g3.subset hr))
    · rw [if_neg hd] at h1
      exact h1.subset hr
  have hids' : ∀ row ∈ x, ∀ v k, Planner.solution (t.cols P) row v = some k → ∃ w, idToOptionalString l k = .ok (some w) := fun row hr =>
    hids _ (List.mem_map_of_mem hr)
  have hsel : ∀ n ∈ a.vars, ∀ c, (t.cols P).lookup (String.ofList ('?' :: n)) = some c → c ∈ keepIndices (t.cols P) [] info.selected := by
    intro n hn c hc
    exact (mem_keep _ _).mpr (.inr ⟨'?' :: n, by rw [i2]; exact List.mem_map_of_mem hn, hc⟩)
  have hlen : ∀ row ∈ x, ∀ c ∈ keepIndices (t.cols P) [] info.selected, c < row.length := by
    intro row hr c hc
    rw [c4 row hr]
    exact keep_lt c3 c1 _ c hc
  refine ⟨hzx, ?_, ?_, ?_, ?_⟩
  · intro sol hsol
    rw [List.map_map] at hsol
    obtain ⟨row, hr, rfl⟩ := List.mem_map.mp hsol
    refine (hiff _).mp ?_
    rw [List.map_map]
    exact List.mem_map_of_mem (hzx row hr)
  · intro sol hsol
    have hm := (hiff sol).mpr hsol
    rw [List.map_map] at hm ⊢
    obtain ⟨row, hr, rfl⟩ := List.mem_map.mp hm
    rw [i8] at h1
    by_cases hd : a.distinct = true
    · rw [if_pos hd] at h1 ⊢
      obtain ⟨y, p, g1, g2, g3⟩ := h1
      obtain ⟨row', hr', hkey⟩ := List.mem_map.mp (g2.2.2 row (g1.symm.subset hr))
      have hx' := hzx row' (g3.symm.subset hr')
      refine ⟨_, List.mem_map_of_mem (g3.symm.subset hr'), ?_⟩
      intro n hn
      simp only [Function.comp]
      cases hc : (t.cols P).lookup (String.ofList ('?' :: n)) with
      | none =>
        unfold valueOf showSol
        rw [Planner.solution_def, Planner.solution_def, hc]
        rfl
      | some c =>
        have hk := hsel n hn c hc
        refine (same_value hc (hlen _ hx' c hk) (hlen _ hr c hk) hinj (hids' _ hx') (hids' _ hr)).mpr ?_
        unfold JoinSpec.key at hkey
        exact List.map_inj_left.mp hkey c hk
    · rw [if_neg hd] at h1 ⊢
      exact List.mem_map_of_mem (h1.symm.subset hr)
  · rw [i8] at h1
    by_cases hd : a.distinct = true
    · rw [if_pos hd] at h1 ⊢
      obtain ⟨y, p, g1, g2, g3⟩ := h1
      have hnd : (z.map (JoinSpec.key (keepIndices (t.cols P) [] info.selected))).Nodup := (g3.map _).nodup_iff.mpr g2.2.1
      rw [List.map_map, List.pairwise_map]
      refine (List.pairwise_map.mp hnd).imp_of_mem fun {r r'} hr hr' hne => ?_
      by_contra hcon
      apply hne
      unfold JoinSpec.key
      refine List.map_congr_left fun c hc => ?_
      rcases (mem_keep _ _).mp hc with h0 | ⟨v, hv, hl⟩
      · cases h0
      · rw [i2] at hv
        obtain ⟨n, hn, rfl⟩ := List.mem_map.mp hv
        refine (same_value hl (hlen _ (hzx _ hr) c hc) (hlen _ (hzx _ hr') c hc) hinj (hids' _ (hzx _ hr)) (hids' _ (hzx _ hr'))).mp ?_
        by_contra hcon'
        exact hcon ⟨n, hn, hcon'⟩
    · rw [if_neg hd] at h1 ⊢
      exact ((h1.map _).map _).nodup_iff.mpr hn
  · rw [List.map_map, List.pairwise_map]
    rcases h2 with h2 | ⟨keys, hk, h2⟩
    · have hk0 : a.keys = [] := by
        rw [i9] at h2
        simpa using h2
      rw [hk0]
      refine List.pairwise_of_forall fun r r' => ?_
      rintro ⟨i, k, u, u', e1, _⟩
      simp at e1
    · rw [i9] at hk
      refine h2.imp_of_mem fun {r r'} hr hr' hb he => hb ?_
      refine before_of_earlier hk (fun q hq => ?_) hinj hless (hids' _ (hzx _ hr')) (hids' _ (hzx _ hr)) he
      rw [c4 _ (hzx _ hr), c4 _ (hzx _ hr')]
      exact ⟨keys_lt c3 c1 hk q hq, keys_lt c3 c1 hk q hq⟩

/-! ### The whole way -/

/-- The patterns of triples. -/
def patterns (ts : List Triple) : List Pattern := ts.map fun t => ⟨String.ofList t.s, String.ofList t.p.iri, String.ofList t.o⟩

/-- What is required of a query with the triples `ts` over the triples `D` stored for an input `doc`: it is well formed, has triples and
selected variables, LIMIT and OFFSET fit, the names are UTF-8, no texts are searched, its patterns are those of C78, and the variables in filters occur in the patterns. -/
structure AskOk (low : Char → Char) (prefixes langs : List Str) (doc : List (Words × List Char)) (a : Ask) (ts : List Triple) : Prop where
  blocks : ∀ b ∈ a.blocks, b.Ok
  declarations : ∀ p ∈ a.prefixes, SparqlSpec.Prefix p.1 ∧ SparqlSpec.IriText p.2
  triples : Asks low a ts
  nonempty : ts ≠ []
  vars : a.vars ≠ []
  limit : ∀ k ∈ a.limit, k < 2 ^ 63
  offset : ∀ k ∈ a.offset, k < 2 ^ 63
  names : ∀ n ∈ a.vars, Utf8 ('?' :: n)
  keys : ∀ k ∈ a.keys, SparqlSpec.OrderE.Name k.name
  texts : ∀ t ∈ ts, t.p.iri ∉ textPredicates
  shape : Planner.TreeShaped (groupVars (patterns ts)) (patterns ts).length
  pattern : ∀ t ∈ patterns ts, PatternOk (docStored doc) t
  constants : ∀ t ∈ patterns ts, ∀ x, x = t.s ∨ x = t.p ∨ x = t.o → isVariable x = false →
    shouldBeExternalized (settings prefixes langs) x.toList = false ∨ DocTerm doc x.toList
  filters : ∀ f ∈ a.comparisons, ∀ n, n = f.left ∨ n = f.right → ∃ t ∈ patterns ts, String.ofList ('?' :: n) ∈ t.vars

/-- A client reads the solutions `sols` of the query from the response. -/
def Reads (a : Ask) (text : Str) (maxSend : Nat) (body : Str) (sols : List TermSol) : Prop :=
  ∃ v, readJson body = some v ∧
    v.member "res".toList = some (rowsOf a maxSend sols) ∧
    v.member "resultsize".toList = some (.num (Nat.toDigits 10 sols.length)) ∧
    v.member "selected".toList = some (.arr (a.vars.map fun n => .str ('?' :: n))) ∧
    v.member "query".toList = some (.str text) ∧
    v.member "status".toList = some (.str "OK".toList)

theorem stored_heads {doc : List (Words × List Char)} (hf : ∀ x ∈ doc, TermForm x.1.1 [] ∧ TermForm x.1.2.1 [] ∧ TermForm x.1.2.2 x.2)
    {d : Words} (hd : d ∈ docStored doc) : ¬ ":v:".toList <+: d.1 ∧ ¬ ":v:".toList <+: d.2.1 ∧ ¬ ":v:".toList <+: d.2.2 := by
  have key : ∀ u l, TermForm u l → ¬ ":v:".toList <+: u := by
    rintro u l h ⟨r, hr⟩
    cases h <;> cases hr
  obtain ⟨x, hx, hd⟩ := List.mem_flatMap.mp hd
  obtain ⟨f1, f2, f3⟩ := hf x hx
  unfold VocabularySpec.stored at hd
  split at hd
  · rw [List.mem_singleton] at hd
    subst hd
    exact ⟨key _ _ f1, key _ _ f2, key _ _ f3⟩
  · simp only [List.mem_cons, List.not_mem_nil, or_false] at hd
    rcases hd with rfl | rfl | rfl
    · exact ⟨key _ _ f1, key _ _ f2, key _ _ f3⟩
    · refine ⟨key _ _ f1, ?_, key _ _ f3⟩
      rintro ⟨r, hr⟩
      cases hr
    · refine ⟨key _ _ f3, ?_, ?_⟩
      · rintro ⟨r, hr⟩
        cases hr
      · rintro ⟨r, hr⟩
        cases hr

/-- The values of a solution are terms of the data. -/
theorem value_mem {ps : List (String × String × String)} {D : List Words} {sol : TermSol} (h : TermBgp isVariable ps D sol) {v : String}
    {w : List Char} (hv : sol v = some w) : ∃ d ∈ D, w = d.1 ∨ w = d.2.1 ∨ w = d.2.2 := by
  by_cases hb : isVariable v = true ∧ ∃ q ∈ ps, v = q.1 ∨ v = q.2.1 ∨ v = q.2.2
  · obtain ⟨h1, q, hq, h2⟩ := hb
    obtain ⟨d, hd, m1, m2, m3⟩ := h.1 q hq
    have key : ∀ y u, v = y → Means isVariable sol y u → w = u := by
      rintro y u rfl hm
      unfold Means at hm
      rw [if_pos h1, hv] at hm
      exact Option.some.inj hm
    rcases h2 with h2 | h2 | h2
    · exact ⟨d, hd, .inl (key _ _ h2 m1)⟩
    · exact ⟨d, hd, .inr (.inl (key _ _ h2 m2))⟩
    · exact ⟨d, hd, .inr (.inr (key _ _ h2 m3))⟩
  · rw [h.2 v hb] at hv
    cases hv

theorem plain_query {low : Char → Char} {prefixes langs : List Str} {doc : List (Words × List Char)} {a : Ask} {ts : List Triple}
    (ha : AskOk low prefixes langs doc a ts) {info : SparqlParser.Info} (i5 : info.groupBy = []) (i6 : info.aliases = [])
    (i7 : info.having = []) (i2 : info.selected = a.vars.map ('?' :: ·)) :
    plainTriples (.mk info (.mk (filtersOf a) [.basic ts])) = some (patterns ts) := by
  have hall : (ts.all fun t => t.p.op == .iri && !textPredicates.contains t.p.iri) = true := by
    rw [List.all_eq_true]
    intro t ht
    rw [Bool.and_eq_true, Bool.not_eq_true', beq_iff_eq]
    refine ⟨ha.triples.2 t ht, ?_⟩
    rw [← Bool.not_eq_true, List.contains_iff_mem]
    exact ha.texts t ht
  unfold plainTriples
  simp only
  have hsel : (info.selected.all fun v => v.head? == some '?') = true := by
    rw [i2, List.all_eq_true]
    intro v hv
    obtain ⟨n, _, rfl⟩ := List.mem_map.mp hv
    rfl
  have hfil : (filtersOf a).all comparesVariables = true := by
    rw [List.all_eq_true]
    intro f hf
    obtain ⟨g, _, rfl⟩ := List.mem_map.mp hf
    have : comparesVariables g.written.filter = (cmpOf g.op.type).isSome := by
      unfold comparesVariables
      rw [show g.written.filter.lhs.head? = some '?' from rfl, show g.written.filter.rhs.head? = some '?' from rfl,
        show g.written.filter.additionalLhs = [] from rfl, show g.written.filter.type = g.op.type from rfl]
      simp
    rw [this]
    cases g.op <;> rfl
  rw [if_pos ⟨i5, i6, i7, hsel, hfil, hall⟩]
  rfl

theorem nodes_length {all : Bool} {fresh : Nat → Planner.Var} : ∀ {ps : List Pattern} {i : Nat} {seeded : List (Planner.Node × List TriplePlan.Leaf)},
    triplesNodes all fresh ps i = .ok seeded → seeded.length = ps.length
  | [], _, _, h => by
    rw [triplesNodes] at h
    cases h
    rfl
  | t :: ts, i, seeded, h => by
    rw [triplesNodes] at h
    cases h1 : TriplePlan.leafPlans all (fresh i) t with
    | ok ls =>
      cases h2 : triplesNodes all fresh ts (i + 1) with
      | ok rest =>
        rw [h1, Outcome.bind, h2] at h
        cases h
        simp [nodes_length h2]
      | throw => rw [h1, Outcome.bind, h2] at h; cases h
      | ub => rw [h1, Outcome.bind, h2] at h; cases h
      | diverge => rw [h1, Outcome.bind, h2] at h; cases h
    | throw => rw [h1] at h; cases h
    | ub => rw [h1] at h; cases h
    | diverge => rw [h1] at h; cases h

/-- The variables of the patterns are bound. -/
theorem bound_of_vars {ts : List Triple} {D : List Words} {sol : TermSol} (h : TermBgp isVariable (termsOf ts) D sol) {v : String}
    (hv : ∃ t ∈ patterns ts, v ∈ t.vars) : ∃ u, sol v = some u := by
  obtain ⟨t, ht, hv⟩ := hv
  obtain ⟨hvar, hm⟩ := TriplePlan.mem_vars.mp hv
  obtain ⟨d, _, m1, m2, m3⟩ := h.1 (t.s, t.p, t.o) (by
    unfold patterns at ht
    obtain ⟨q, hq, rfl⟩ := List.mem_map.mp ht
    exact List.mem_map.mpr ⟨q, hq, rfl⟩)
  have key : ∀ x u, v = x → Means isVariable sol x u → ∃ u, sol v = some u := by
    rintro x u rfl hx
    unfold Means at hx
    rw [if_pos hvar] at hx
    exact ⟨u, hx⟩
  rcases hm with hm | hm | hm
  exacts [key _ _ hm m1, key _ _ hm m2, key _ _ hm m3]

/-- What the execution of a plan for the triples and filters of a query returns. -/
theorem evaluated (c : Collator) (N : Str → Prop) (nfc : Str → Str) (n : Nat) (prefixes langs : List Str)
    (doc : List (Words × List Char)) (h : DocOk c N nfc n prefixes langs doc) (fuel : Nat) (hfuel : doc.length < fuel) :
    ∃ bs, passBatches n fuel doc = .ok bs ∧ (∃ parts, Items nfc (settings prefixes langs) bs parts) ∧
    ∀ parts, Items nfc (settings prefixes langs) bs parts → (∃ o, VocabularyMerger.Run (order c) n parts o) ∧
    ∀ (o : Outcome VocabularyMerger.Result) (_ : VocabularyMerger.Run (order c) n parts o) (lg : Nat → Nat → Nat),
    ∃ r l idx, o = .ok r ∧ load r = .ok l ∧ Permutation.createIndex lg r.nofWords (triplesOf r) = .ok (some idx) ∧
      ∀ (steps : Nat), r.nofWords + 1 < steps →
      ∀ (low : Char → Char) (a : Ask) (ts : List Triple), AskOk low prefixes langs doc a ts →
      ∀ (fresh : Nat → Planner.Var) (P : Planner.Params) (seeded : List (Planner.Node × List TriplePlan.Leaf)) (rows : List (List Planner.Plan))
        (row : List Planner.Plan) (p : Planner.Plan) (x : Table), (∀ m, (P.shuffle m).Perm m) → (∀ g, (P.order g).Perm g) →
      triplesNodes true fresh (patterns ts) 0 = .ok seeded →
      Planner.fillDpTab P (seeded.map (·.1)) ((filtersOf a).map filterVars) [] = .ok rows → rows.getLast? = some row →
      p ∈ Planner.applyFilters P ((filtersOf a).map filterVars) true row →
      Planner.Eval P (groupData (lookup c steps (vocabOf l prefixes langs)) r.nofWords idx seeded) (keepIds (filtersOf a)) p.tree x →
      idToOptionalString l ID_NO_VALUE = .ok none ∧ Columns P (patterns ts) p.tree x ∧
      (∀ s ∈ x.map (Planner.solution (p.tree.cols P)), ∀ v k, s v = some k → ∃ w, idToOptionalString l k = .ok (some w)) ∧
      ((x.map (Planner.solution (p.tree.cols P))).map (showSol l)).Nodup ∧
      (∀ sol, sol ∈ (x.map (Planner.solution (p.tree.cols P))).map (showSol l) ↔
        Solution isVariable (TermLess (shouldBeExternalized (settings prefixes langs)) (order c)) a (termsOf ts) (docStored doc) sol) ∧
      ∀ i j u v, showId l i = some u → showId l j = some v → (u = v ↔ i = j) ∧ (TermLess (shouldBeExternalized (settings prefixes langs)) (order c) u v ↔ i < j) := by
  obtain ⟨bs, h1, h2, h3⟩ := Answers.C78_documents_partial c N nfc n prefixes langs doc h fuel hfuel
  refine ⟨bs, h1, h2, fun parts hp => ⟨(h3 parts hp).1, fun o ho lg => ?_⟩⟩
  obtain ⟨r, l, idx, g1, g2, g3, g4⟩ := (h3 parts hp).2 o ho lg
  refine ⟨r, l, idx, g1, g2, g3, ?_⟩
  intro steps hsteps low a ts ha fresh P seeded rows row p x hshuffle horder r3 r4 r5 r6 r7
  have hne : patterns ts ≠ [] := by simpa [patterns] using ha.nonempty
  obtain ⟨seeded', s1, s2⟩ := g4 steps hsteps (patterns ts) fresh hne ha.shape ha.pattern ha.constants
  rw [s1] at r3
  cases r3
  subst g1
  have hord : ∀ i j u v, showId l i = some u → showId l j = some v →
      (u = v ↔ i = j) ∧ (TermLess (shouldBeExternalized (settings prefixes langs)) (order c) u v ↔ i < j) := fun i j u v hi hj =>
    Answers.C78_order h hfuel h1 hp ho g2 hi hj
  obtain ⟨w1, w2⟩ := Answers.shown_ids h hfuel h1 hp ho g2
  rw [filters_again (Planner.fillDpTab_complete (by
    rw [List.length_map, nodes_length s1]
    exact Nat.add_pos_left (List.length_pos_iff.mpr hne) _) r4 row r5)] at r6
  obtain ⟨t1, t2, t3, t4, t5⟩ := s2 P ((filtersOf a).map filterVars) (keepIds (filtersOf a))
    (keepTerms (TermLess (shouldBeExternalized (settings prefixes langs)) (order c)) (filtersOf a)) rows row p x hshuffle horder
    (keep_vars _) (fun i s hs => keep_terms w1 w2 hord _ i hs) r4 r5 r6 r7
  refine ⟨t2, t1, t3, t4, ?_, hord⟩
  intro sol
  rw [t5 sol]
  have : Answers.termsOf (patterns ts) = termsOf ts := by
    unfold Answers.termsOf patterns termsOf
    rw [List.map_map]
    rfl
  rw [this]
  unfold Solution
  refine and_congr_right fun hbgp => ?_
  rw [← holds_iff (fun f hf n hn => bound_of_vars hbgp (ha.filters f hf n hn))]
  refine forall_congr' fun i => forall_congr' fun hi => ⟨fun h => h ?_, fun h _ => h⟩
  have hi' : i < a.comparisons.length := by simpa [filtersOf] using hi
  intro v hv
  have hget : ((filtersOf a).map filterVars).getD i [] = filterVars (a.comparisons[i]).written.filter := by
    unfold filtersOf
    rw [List.getD_eq_getElem?_getD, List.getElem?_map, List.getElem?_map, List.getElem?_eq_getElem hi']
    rfl
  rw [hget] at hv
  have hfi := ha.filters _ (List.getElem_mem hi')
  simp only [filterVars, List.mem_cons, List.not_mem_nil, or_false] at hv
  rcases hv with rfl | rfl
  · exact hfi _ (.inl rfl)
  · exact hfi _ (.inr rfl)

/-- What the execution of a plan returns. -/
theorem executed (c : Collator) (N : Str → Prop) (nfc : Str → Str) (n : Nat) (prefixes langs : List Str)
    (doc : List (Words × List Char)) (h : DocOk c N nfc n prefixes langs doc) (fuel : Nat) (hfuel : doc.length < fuel) :
    ∃ bs, passBatches n fuel doc = .ok bs ∧ (∃ parts, Items nfc (settings prefixes langs) bs parts) ∧
    ∀ parts, Items nfc (settings prefixes langs) bs parts → (∃ o, VocabularyMerger.Run (order c) n parts o) ∧
    ∀ (o : Outcome VocabularyMerger.Result) (_ : VocabularyMerger.Run (order c) n parts o) (lg : Nat → Nat → Nat),
    ∃ r l idx, o = .ok r ∧ load r = .ok l ∧ Permutation.createIndex lg r.nofWords (triplesOf r) = .ok (some idx) ∧
      ∀ (steps : Nat), r.nofWords + 1 < steps →
      ∀ (low : Char → Char) (_ : ∀ c : Char, c.toNat < 128 → low c = SparqlLexer.lower c) (hex : Str → Str) (a : Ask) (ts : List Triple),
      AskOk low prefixes langs doc a ts →
      ∀ (tr : Bool) (text : Str), QueryText a.whole.words tr text → ∀ rounds, a.whole.words.length ≤ rounds →
      ∀ (fresh : Nat → Planner.Var) (P : Planner.Params) (info : SparqlParser.Info) (t : Planner.Tree) (z : Table),
      (∀ m, (P.shuffle m).Perm m) → (∀ g, (P.order g).Perm g) →
      Executes (env low) (normalizeRDFLiteral hex) rounds (storeOf c steps l prefixes langs r.nofWords idx) fresh P text info t z →
      info.selected = a.vars.map ('?' :: ·) ∧ info.limit = Modifiers.written a.limit ∧ info.offset = Modifiers.written a.offset ∧
      idToOptionalString l ID_NO_VALUE = .ok none ∧
      (∃ x, Columns P (patterns ts) t x ∧ (∀ row ∈ z, row ∈ x) ∧
        (∀ s ∈ x.map (Planner.solution (t.cols P)), ∀ v k, s v = some k → ∃ w, idToOptionalString l k = .ok (some w)) ∧
        ∀ sol ∈ (x.map (Planner.solution (t.cols P))).map (showSol l), ∀ v w, sol v = some w → ∃ d ∈ docStored doc, w = d.1 ∨ w = d.2.1 ∨ w = d.2.2) ∧
      Solves isVariable (TermLess (shouldBeExternalized (settings prefixes langs)) (order c)) a (termsOf ts) (docStored doc)
        ((z.map (Planner.solution (t.cols P))).map (showSol l)) := by
  obtain ⟨bs, h1, h2, h3⟩ := evaluated c N nfc n prefixes langs doc h fuel hfuel
  refine ⟨bs, h1, h2, fun parts hp => ⟨(h3 parts hp).1, fun o ho lg => ?_⟩⟩
  obtain ⟨r, l, idx, g1, g2, g3, g4⟩ := (h3 parts hp).2 o ho lg
  refine ⟨r, l, idx, g1, g2, g3, ?_⟩
  intro steps hsteps low hlow hex a ts ha tr text htext rounds hrounds fresh P info' t z hshuffle horder hexec
  obtain ⟨info, i1, i2, i3, i4, i5, i6, i7, i8, i9⟩ := parsed hlow hex ha.blocks ha.keys ha.declarations ha.triples ha.nonempty htext hrounds
  cases hexec with
  | @run fs ops ps' seeded' rows row p x _ r1 r2 r3 r4 r5 r6 _ r7 r8 =>
    rw [i1] at r1
    cases r1
    have hps : ps' = patterns ts := by
      rw [plain_query ha i5 i6 i7 i2] at r2
      cases r2
      rfl
    subst hps
    obtain ⟨t2, t1, t3, t4, hiff, hord⟩ := g4 steps hsteps low a ts ha fresh P _ rows row p x hshuffle horder r3 r4 r5 r6 r7
    obtain ⟨hzx, hsolves⟩ := solves t1 t3 t4 hiff (fun i j u hi hj => (hord i j u u hi hj).1.mp rfl)
      (fun i j u v hi hj => (hord i j u v hi hj).2.mp) i2 i8 i9 r8
    exact ⟨i2, i3, i4, t2, ⟨x, t1, hzx, t3, fun sol hsol v w hv => value_mem ((hiff sol).mp hsol).1 hv⟩, hsolves⟩

/-- **C79**.  Let the parser deliver the triples `doc` to the index builder as in C78.  For every text of a query as in `AskOk`: every
response that the server composes from the execution of a plan for the query is a JSON text, from which a client reads the solutions of
the query over the triples stored for `doc`, each once, with DISTINCT one for each combination of values of the selected variables, in the
order of the keys of ORDER BY, cut by OFFSET, LIMIT and the number of rows the client wants.  Terms are ordered as in `C78_order`.
Missing: that the execution returns a result (C13), and what is missing in C64, C68, C69, C72 and C78. -/
theorem C79_responses_partial (c : Collator) (N : Str → Prop) (nfc : Str → Str) (n : Nat) (prefixes langs : List Str)
    (doc : List (Words × List Char)) (h : DocOk c N nfc n prefixes langs doc)
    (hu : ∀ d ∈ docStored doc, Utf8 d.1 ∧ Utf8 d.2.1 ∧ Utf8 d.2.2) (fuel : Nat) (hfuel : doc.length < fuel) :
    ∃ bs, passBatches n fuel doc = .ok bs ∧ (∃ parts, Items nfc (settings prefixes langs) bs parts) ∧
    ∀ parts, Items nfc (settings prefixes langs) bs parts → (∃ o, VocabularyMerger.Run (order c) n parts o) ∧
    ∀ (o : Outcome VocabularyMerger.Result) (_ : VocabularyMerger.Run (order c) n parts o) (lg : Nat → Nat → Nat),
    ∃ r l idx, o = .ok r ∧ load r = .ok l ∧ Permutation.createIndex lg r.nofWords (triplesOf r) = .ok (some idx) ∧
      ∀ (steps : Nat), r.nofWords + 1 < steps →
      ∀ (low : Char → Char) (_ : ∀ c : Char, c.toNat < 128 → low c = SparqlLexer.lower c) (hex : Str → Str) (a : Ask) (ts : List Triple),
      AskOk low prefixes langs doc a ts →
      ∀ (tr : Bool) (text : Str), QueryText a.whole.words tr text → Utf8 text → ∀ rounds, a.whole.words.length ≤ rounds →
      ∀ (fresh : Nat → Planner.Var) (P : Planner.Params) (X : Export.Extra) (maxSend : Nat) (out : Run Str),
      (∀ m, (P.shuffle m).Perm m) → (∀ g, (P.order g).Perm g) → ExtraOk X → maxSend < 2 ^ 63 →
      Responds (env low) (normalizeRDFLiteral hex) rounds (storeOf c steps l prefixes langs r.nofWords idx) fresh P X maxSend text out →
      ∃ body sols, out = .ok body ∧ Reads a text maxSend body sols ∧
        Solves isVariable (TermLess (shouldBeExternalized (settings prefixes langs)) (order c)) a (termsOf ts) (docStored doc) sols := by
  obtain ⟨bs, h1, h2, h3⟩ := executed c N nfc n prefixes langs doc h fuel hfuel
  refine ⟨bs, h1, h2, fun parts hp => ⟨(h3 parts hp).1, fun o ho lg => ?_⟩⟩
  obtain ⟨r, l, idx, g1, g2, g3, g4⟩ := (h3 parts hp).2 o ho lg
  refine ⟨r, l, idx, g1, g2, g3, ?_⟩
  intro steps hsteps low hlow hex a ts ha tr text htext hutf rounds hrounds fresh P X maxSend out hshuffle horder hX hmax hresp
  cases hresp with
  | @answer info t z hexec =>
    obtain ⟨i2, i3, i4, t2, ⟨x, t1, hzx, t3, hval⟩, hsolves⟩ := g4 steps hsteps low hlow hex a ts ha tr text htext rounds hrounds fresh P info t z
      hshuffle horder hexec
    obtain ⟨body, v, e1, e2, e3⟩ := composed (S := storeOf c steps l prefixes langs r.nofWords idx) rfl t1 hzx t2 t3 (by
        intro sol hsol v w hv
        obtain ⟨d, hd, hw⟩ := hval sol hsol v w hv
        obtain ⟨k1, k2, k3⟩ := stored_heads h.forms hd
        obtain ⟨u1, u2, u3⟩ := hu d hd
        rcases hw with rfl | rfl | rfl
        exacts [⟨u1, k1⟩, ⟨u2, k2⟩, ⟨u3, k3⟩]) hX ha.vars ha.limit ha.offset hmax hutf ha.names
    refine ⟨body, _, ?_, ⟨v, e2, e3⟩, hsolves⟩
    rw [i2, i3, i4]
    exact e1

/-! ### From the file to the client -/

/-- **C79** (clients).  Let `ls` and `last` be the lines of a file of N-Triples (the last one without line end), whose triples are as in C78.
A client that sends the text of a query as in `AskOk`, with predicates that are constants and not used internally, receives a JSON text,
from which it reads the solutions of the query over the triples of the file as in `C79_responses_partial`.
Missing: see `C79_responses_partial`. -/
theorem C79_clients_partial (c : Collator) (N : Str → Prop) (nfc : Str → Str) (n : Nat) (prefixes langs : List Str)
    (ls : List (Str × Words)) (last : Option (Str × Words))
    (hfile : ∀ l ∈ ls ++ last.toList, '\n' ∉ l.1 ∧ ∃ gap, NTriplesSpec.States l.1 l.2.1 l.2.2.1 l.2.2.2 gap ∧ gap ≠ [] ∧ NTriplesSpec.Tame l.2.2.2)
    (doc : List (Words × List Char)) (hdoc : doc.map (·.1) = (ls ++ last.toList).map (·.2)) (h : DocOk c N nfc n prefixes langs doc)
    (hu : ∀ d ∈ docStored doc, Utf8 d.1 ∧ Utf8 d.2.1 ∧ Utf8 d.2.2) (fuel : Nat) (hfuel : doc.length < fuel) :
    NTriples.readNTriples (ls.flatMap (fun l => l.1 ++ ['\n']) ++ ((last.map (·.1)).getD [])) = .ok (doc.map (·.1)) ∧
    ∃ bs, passBatches n fuel doc = .ok bs ∧ (∃ parts, Items nfc (settings prefixes langs) bs parts) ∧
    ∀ parts, Items nfc (settings prefixes langs) bs parts → (∃ o, VocabularyMerger.Run (order c) n parts o) ∧
    ∀ (o : Outcome VocabularyMerger.Result) (_ : VocabularyMerger.Run (order c) n parts o) (lg : Nat → Nat → Nat),
    ∃ r l idx, o = .ok r ∧ load r = .ok l ∧ Permutation.createIndex lg r.nofWords (triplesOf r) = .ok (some idx) ∧
      ∀ (steps : Nat), r.nofWords + 1 < steps →
      ∀ (low : Char → Char) (_ : ∀ c : Char, c.toNat < 128 → low c = SparqlLexer.lower c) (hex : Str → Str) (a : Ask) (ts : List Triple),
      AskOk low prefixes langs doc a ts →
      (∀ t ∈ patterns ts, isVariable t.p = false ∧ t.p.toList ≠ languagePredicate ∧ t.p.toList.head? ≠ some '@') →
      ∀ (tr : Bool) (text : Str), QueryText a.whole.words tr text → Utf8 text → ∀ rounds, a.whole.words.length ≤ rounds →
      ∀ (fresh : Nat → Planner.Var) (P : Planner.Params) (X : Export.Extra) (maxSend : Nat),
      (∀ m, (P.shuffle m).Perm m) → (∀ g, (P.order g).Perm g) → ExtraOk X → maxSend < 2 ^ 63 →
      ∀ (E : Server.Engine) (fuel : Nat) (ps : List Http.Param) (tail : Str) (_ : Good E.lower fuel ps tail)
        (params : Http.Params) (_ : params = ps.map fun p => (E.lower p.name, p.value)) (_ : ("query".toList, text) ∈ params)
        (_ : text ≠ [])
        (_ : ∀ v, ("cmd".toList, v) ∈ params → lowerAscii v ≠ "stats".toList ∧ lowerAscii v ≠ "cachestats".toList)
        (_ : ∀ v, ("action".toList, v) ∈ params → lowerAscii v ≠ "csv_export".toList ∧ lowerAscii v ≠ "tsv_export".toList),
      Responds (env low) (normalizeRDFLiteral hex) rounds (storeOf c steps l prefixes langs r.nofWords idx) fresh P X maxSend text
        (E.exec .json params text) →
      ∃ body sols, Delivers (Server.process E fuel (queryLine ps tail)) "application/json; charset=utf-8".toList body ∧
        Reads a text maxSend body sols ∧
        Solves isVariable (TermLess (shouldBeExternalized (settings prefixes langs)) (order c)) a (termsOf ts) ((ls ++ last.toList).map (·.2)) sols := by
  refine ⟨by rw [hdoc]; exact NTriples.C64_file_partial ls last hfile, ?_⟩
  obtain ⟨bs, h1, h2, h3⟩ := C79_responses_partial c N nfc n prefixes langs doc h hu fuel hfuel
  refine ⟨bs, h1, h2, fun parts hp => ⟨(h3 parts hp).1, fun o ho lg => ?_⟩⟩
  obtain ⟨r, l, idx, g1, g2, g3, g4⟩ := (h3 parts hp).2 o ho lg
  refine ⟨r, l, idx, g1, g2, g3, ?_⟩
  intro steps hsteps low hlow hex a ts ha hconst tr text htext hutf rounds hrounds fresh P X maxSend hshuffle horder hX hmax
    E fuel' ps tail good params hparams hquery hne hcmd hact hresp
  obtain ⟨body, sols, e1, e2, e3⟩ := g4 steps hsteps low hlow hex a ts ha tr text htext hutf rounds hrounds fresh P X maxSend _ hshuffle horder
    hX hmax hresp
  refine ⟨body, sols, Server.C71_query_partial E fuel' ps tail text body good params hparams hquery hne hcmd hact e1, e2, ?_⟩
  have hiff : ∀ sol, TermBgp isVariable (termsOf ts) (docStored doc) sol ↔ TermBgp isVariable (termsOf ts) ((ls ++ last.toList).map (·.2)) sol := by
    intro sol
    rw [← hdoc]
    have := Answers.C78_input_triples doc (patterns ts) hconst sol
    rw [show Answers.termsOf (patterns ts) = termsOf ts by unfold Answers.termsOf patterns termsOf; rw [List.map_map]; rfl] at this
    exact this
  exact ⟨fun sol hs => ⟨(hiff sol).mp (e3.sound sol hs).1, (e3.sound sol hs).2⟩, fun sol hs => e3.complete sol ⟨(hiff sol).mpr hs.1, hs.2⟩, e3.once,
    e3.sorted⟩

/-- **C79** (export).  A client that asks for the formats with commas or tabs receives a text, from which it reads the solutions as in
`C79_clients_partial`, if no term contains the separator or the end of a line, and if there is a LIMIT or no OFFSET; without LIMIT it reads all
solutions.  Unbound variables are read as empty texts.
Missing: see `C79_responses_partial`; the other terms (C72), and OFFSET without LIMIT (C20). -/
theorem C79_export_partial (c : Collator) (N : Str → Prop) (nfc : Str → Str) (n : Nat) (prefixes langs : List Str)
    (ls : List (Str × Words)) (last : Option (Str × Words))
    (hfile : ∀ l ∈ ls ++ last.toList, '\n' ∉ l.1 ∧ ∃ gap, NTriplesSpec.States l.1 l.2.1 l.2.2.1 l.2.2.2 gap ∧ gap ≠ [] ∧ NTriplesSpec.Tame l.2.2.2)
    (doc : List (Words × List Char)) (hdoc : doc.map (·.1) = (ls ++ last.toList).map (·.2)) (h : DocOk c N nfc n prefixes langs doc)
    (tabs : Bool) (sep : Char) (hsep : sep = if tabs then '\t' else ',')
    (hu : ∀ d ∈ docStored doc, ∀ w, w = d.1 ∨ w = d.2.1 ∨ w = d.2.2 → '\n' ∉ w ∧ sep ∉ w) (fuel : Nat) (hfuel : doc.length < fuel) :
    NTriples.readNTriples (ls.flatMap (fun l => l.1 ++ ['\n']) ++ ((last.map (·.1)).getD [])) = .ok (doc.map (·.1)) ∧
    ∃ bs, passBatches n fuel doc = .ok bs ∧ (∃ parts, Items nfc (settings prefixes langs) bs parts) ∧
    ∀ parts, Items nfc (settings prefixes langs) bs parts → (∃ o, VocabularyMerger.Run (order c) n parts o) ∧
    ∀ (o : Outcome VocabularyMerger.Result) (_ : VocabularyMerger.Run (order c) n parts o) (lg : Nat → Nat → Nat),
    ∃ r l idx, o = .ok r ∧ load r = .ok l ∧ Permutation.createIndex lg r.nofWords (triplesOf r) = .ok (some idx) ∧
      ∀ (steps : Nat), r.nofWords + 1 < steps →
      ∀ (low : Char → Char) (_ : ∀ c : Char, c.toNat < 128 → low c = SparqlLexer.lower c) (hex : Str → Str) (a : Ask) (ts : List Triple),
      AskOk low prefixes langs doc a ts →
      (∀ t ∈ patterns ts, isVariable t.p = false ∧ t.p.toList ≠ languagePredicate ∧ t.p.toList.head? ≠ some '@') →
      a.limit.isSome ∨ a.offset.getD 0 = 0 →
      ∀ (tr : Bool) (text : Str), QueryText a.whole.words tr text → ∀ rounds, a.whole.words.length ≤ rounds →
      ∀ (fresh : Nat → Planner.Var) (P : Planner.Params),
      (∀ m, (P.shuffle m).Perm m) → (∀ g, (P.order g).Perm g) →
      (∀ info t z, Executes (env low) (normalizeRDFLiteral hex) rounds (storeOf c steps l prefixes langs r.nofWords idx) fresh P text info t z →
        z.length < 2 ^ 64) →
      ∀ (E : Server.Engine) (fuel : Nat) (ps : List Http.Param) (tail : Str) (_ : Good E.lower fuel ps tail)
        (params : Http.Params) (_ : params = ps.map fun p => (E.lower p.name, p.value)) (_ : ("query".toList, text) ∈ params)
        (_ : text ≠ [])
        (_ : ∀ v, ("cmd".toList, v) ∈ params → lowerAscii v ≠ "stats".toList ∧ lowerAscii v ≠ "cachestats".toList)
        (action : Str) (_ : ("action".toList, action) ∈ params)
        (_ : lowerAscii action = if tabs then "tsv_export".toList else "csv_export".toList),
      Exports (env low) (normalizeRDFLiteral hex) rounds (storeOf c steps l prefixes langs r.nofWords idx) fresh P sep text
        (E.exec (if tabs then .tsv else .csv) params text) →
      ∃ body sols,
        Delivers (Server.process E fuel (queryLine ps tail)) (if tabs then "text/tab-separated-values".toList else "text/csv".toList) body ∧
        ExportSpec.readSeparated sep body = linesOf a sols ∧
        Solves isVariable (TermLess (shouldBeExternalized (settings prefixes langs)) (order c)) a (termsOf ts) ((ls ++ last.toList).map (·.2)) sols := by
  refine ⟨by rw [hdoc]; exact NTriples.C64_file_partial ls last hfile, ?_⟩
  obtain ⟨bs, h1, h2, h3⟩ := executed c N nfc n prefixes langs doc h fuel hfuel
  refine ⟨bs, h1, h2, fun parts hp => ⟨(h3 parts hp).1, fun o ho lg => ?_⟩⟩
  obtain ⟨r, l, idx, g1, g2, g3, g4⟩ := (h3 parts hp).2 o ho lg
  refine ⟨r, l, idx, g1, g2, g3, ?_⟩
  intro steps hsteps low hlow hex a ts ha hconst hcut tr text htext rounds hrounds fresh P hshuffle horder hsize
    E fuel' ps tail good params hparams hquery hne hcmd action haction hlower hresp
  generalize hx : E.exec (if tabs then .tsv else .csv) params text = out at hresp
  cases hresp with
  | @answer info t z hexec =>
    obtain ⟨i2, i3, i4, t2, ⟨x, t1, hzx, t3, hval⟩, hsolves⟩ := g4 steps hsteps low hlow hex a ts ha tr text htext rounds hrounds fresh P info t z
      hshuffle horder hexec
    obtain ⟨body, e1, e2⟩ := separated (S := storeOf c steps l prefixes langs r.nofWords idx) rfl t1 hzx t2 t3
      (sep := sep) (by rw [hsep]; cases tabs <;> decide) (by
        intro sol hsol v w hv
        obtain ⟨d, hd, hw⟩ := hval sol hsol v w hv
        obtain ⟨k1, k2, k3⟩ := stored_heads h.forms hd
        refine ⟨hu d hd w hw, ?_⟩
        rcases hw with rfl | rfl | rfl
        exacts [k1, k2, k3]) ha.vars ha.limit ha.offset (hsize _ _ _ hexec) hcut
    rw [i2, i3, i4, e1] at hx
    refine ⟨body, _, ?_, e2, ?_⟩
    · obtain ⟨x1, x2⟩ := Server.C71_export_partial E fuel' ps tail text action body good params hparams hquery hne hcmd haction
      cases tabs with
      | false => exact (x1 hlower hx).1
      | true => exact (x2 hlower hx).1
    · have hiff : ∀ sol, TermBgp isVariable (termsOf ts) (docStored doc) sol ↔
          TermBgp isVariable (termsOf ts) ((ls ++ last.toList).map (·.2)) sol := by
        intro sol
        rw [← hdoc]
        have := Answers.C78_input_triples doc (patterns ts) hconst sol
        rw [show Answers.termsOf (patterns ts) = termsOf ts by unfold Answers.termsOf patterns termsOf; rw [List.map_map]; rfl] at this
        exact this
      exact ⟨fun sol hs => ⟨(hiff sol).mp (hsolves.sound sol hs).1, (hsolves.sound sol hs).2⟩,
        fun sol hs => hsolves.complete sol ⟨(hiff sol).mpr hs.1, hs.2⟩, hsolves.once, hsolves.sorted⟩

/-! ### Queries with one triple are answered -/

theorem leaf_real {all : Bool} {fresh : Planner.Var} {t : Pattern} {plans : List TriplePlan.Leaf} (h : TriplePlan.leafPlans all fresh t = .ok plans)
    (hv : t.vars.length ≤ 2) : ∀ plan ∈ plans, ¬ (plan.alt.scan = true ∧ plan.alt.width = 3) := by
  intro plan hp hd
  unfold TriplePlan.leafPlans at h
  simp only at h
  by_cases h0 : t.vars.length = 0
  · rw [if_pos h0] at h; cases h
  rw [if_neg h0] at h
  by_cases h1 : t.vars.length = 1
  · rw [if_pos h1] at h
    split at h
    · cases h
      rw [List.mem_singleton] at hp
      subst hp
      cases hd.1
    split at h
    · split at h
      · cases h
      · cases h
        rw [List.mem_singleton] at hp
        subst hp
        cases hd.1
    split at h
    · cases h
      rw [List.mem_singleton] at hp
      subst hp
      cases hd.2
    split at h
    all_goals
      cases h
      rw [List.mem_singleton] at hp
      subst hp
      cases hd.2
  rw [if_neg h1, if_pos (by omega)] at h
  split at h
  · cases h
    rw [List.mem_singleton] at hp
    subst hp
    cases hd.1
  split at h
  · cases h
    simp only [List.mem_cons, List.not_mem_nil, or_false] at hp
    rcases hp with rfl | rfl <;> cases hd.2
  split at h
  · cases h
    simp only [List.mem_cons, List.not_mem_nil, or_false] at hp
    rcases hp with rfl | rfl <;> cases hd.2
  split at h
  · cases h
    simp only [List.mem_cons, List.not_mem_nil, or_false] at hp
    rcases hp with rfl | rfl <;> cases hd.2
  · cases h
    cases hp

/-- A triple with at most two variables whose plans return tables is answered. -/
theorem single_run {P : Planner.Params} {S : Store} {fresh : Nat → Planner.Var} {t : Pattern} {plans : List TriplePlan.Leaf}
    (h : TriplePlan.leafPlans true (fresh 0) t = .ok plans) (hne : plans ≠ []) (hv : t.vars.length ≤ 2)
    (hd : ∀ plan ∈ plans, ∃ x, TriplePlan.LeafData S.ids S.nofWords S.idx plan x) {filters : List (List Planner.Var)} (hf : filters.length ≤ 64)
    (keep : Nat → (Planner.Var → Option Nat) → Bool) :
    ∃ seeded rows row p x, triplesNodes true fresh [t] 0 = .ok seeded ∧ Planner.fillDpTab P (seeded.map (·.1)) filters [] = .ok rows ∧
      rows.getLast? = some row ∧ Planner.applyFilters P filters true row = row ∧ Planner.cheapest P row = some p ∧
      Planner.Eval P (groupData S.ids S.nofWords S.idx seeded) keep p.tree x := by
  have hs : triplesNodes true fresh [t] 0 = .ok [(⟨t.vars, plans.map TriplePlan.Leaf.alt⟩, plans)] := by
    rw [triplesNodes, h]
    rfl
  have hseeds : Planner.seeds [(⟨t.vars, plans.map TriplePlan.Leaf.alt⟩ : Planner.Node)] [] = Planner.leaves 0 (plans.map TriplePlan.Leaf.alt) := by
    simp [Planner.seeds]
  have hdp : Planner.fillDpTab P [(⟨t.vars, plans.map TriplePlan.Leaf.alt⟩ : Planner.Node)] filters [] =
      .ok [Planner.applyFilters P filters true (Planner.leaves 0 (plans.map TriplePlan.Leaf.alt))] := by
    unfold Planner.fillDpTab
    rw [← hseeds]
    simp only [List.length_cons, List.length_nil]
    rw [if_neg (by omega), if_neg (by omega), if_neg (by omega)]
    rfl
  obtain ⟨p, hp⟩ := Planner.cheapest_isSome (P := P)
    (ps := Planner.applyFilters P filters true (Planner.leaves 0 (plans.map TriplePlan.Leaf.alt))) (by
    simp [Planner.applyFilters, Planner.leaves, hne])
  have hm := Planner.cheapest_mem hp
  unfold Planner.applyFilters at hm
  rw [if_pos rfl] at hm
  obtain ⟨q, hq, rfl⟩ := List.mem_map.mp hm
  unfold Planner.leaves at hq
  obtain ⟨⟨al, k⟩, hk, rfl⟩ := List.mem_map.mp hq
  have hk' := List.mem_zipIdx_iff_getElem?.mp hk
  rw [List.getElem?_map] at hk'
  simp only at hk'
  cases e : plans[k]? with
  | none => rw [e] at hk'; cases hk'
  | some plan =>
    rw [e] at hk'
    cases hk'
    have hmem := List.mem_of_getElem? e
    obtain ⟨x, hx⟩ := hd plan hmem
    obtain ⟨y, hy⟩ := filters_run (P := P)
      (data := groupData S.ids S.nofWords S.idx [(⟨t.vars, plans.map TriplePlan.Leaf.alt⟩, plans)]) (keep := keep) filters
      (p := ⟨.leaf 0 k plan.alt.scan plan.alt.width plan.alt.sortedOn plan.alt.cols, 1 <<< 0, 0⟩) (x := x) (by
        refine .leaf ?_ ⟨_, plan, rfl, e, hx⟩
        have := leaf_real h hv plan hmem
        show (plan.alt.scan && plan.alt.width == 3) = false
        rw [← Bool.not_eq_true, Bool.and_eq_true, beq_iff_eq]
        exact this)
    exact ⟨_, _, _, _, y, hs, hdp, rfl, filters_again (Planner.fillDpTab_complete (by simp) hdp _ rfl), hp, hy⟩

/-- With one triple of at most two variables, and at most 64 filters, a plan is executed. -/
theorem single_planned (c : Collator) (N : Str → Prop) (nfc : Str → Str) (n : Nat) (prefixes langs : List Str)
    (doc : List (Words × List Char)) (h : DocOk c N nfc n prefixes langs doc) (fuel : Nat) (hfuel : doc.length < fuel)
    {bs : List (List (Words × List Char))} (h1 : passBatches n fuel doc = .ok bs) {parts : List (List (Fin 4 × VocabularyMerger.Item))}
    (hp : Items nfc (settings prefixes langs) bs parts) {o : Outcome VocabularyMerger.Result} (ho : VocabularyMerger.Run (order c) n parts o)
    (lg : Nat → Nat → Nat) {r : VocabularyMerger.Result} {l : Loaded} {idx : Permutation.Name → Permutation.Perm} (g1 : o = .ok r)
    (g2 : load r = .ok l) (g3 : Permutation.createIndex lg r.nofWords (triplesOf r) = .ok (some idx)) (steps : Nat) (hsteps : r.nofWords + 1 < steps)
    (low : Char → Char) (a : Ask) (t : Triple) (ha : AskOk low prefixes langs doc a [t]) (hvars : ∀ q ∈ patterns [t], q.vars.length ≤ 2)
    (hmany : a.comparisons.length ≤ 64) (fresh : Nat → Planner.Var) (P : Planner.Params)
    (hshuffle : ∀ m, (P.shuffle m).Perm m) (horder : ∀ g, (P.order g).Perm g) :
    ∃ seeded rows row p x, triplesNodes true fresh (patterns [t]) 0 = .ok seeded ∧
      Planner.fillDpTab P (seeded.map (·.1)) ((filtersOf a).map filterVars) [] = .ok rows ∧ rows.getLast? = some row ∧
      Planner.applyFilters P ((filtersOf a).map filterVars) true row = row ∧ Planner.cheapest P row = some p ∧
      Planner.Eval P (groupData (lookup c steps (vocabOf l prefixes langs)) r.nofWords idx seeded) (keepIds (filtersOf a)) p.tree x ∧
      Columns P (patterns [t]) p.tree x := by
  obtain ⟨bs', last, b1, b2, b3, b4, b5⟩ := Answers.passBatches_ok h.batch fuel doc hfuel
  rw [h1] at b1
  cases b1
  have hin := Answers.input_ok h hp b2 b3 b4 b5
  obtain ⟨r', l', idx', k1, k2, k3, k4⟩ := Answers.C78_pattern_partial c N n parts hin o ho lg
  rw [g1] at k1
  cases k1
  rw [g2] at k2
  cases k2
  rw [g3] at k3
  cases k3
  have hst := Answers.stored_doc h hp b2
  have hq : (⟨String.ofList t.s, String.ofList t.p.iri, String.ofList t.o⟩ : Pattern) ∈ patterns [t] := List.mem_cons_self
  obtain ⟨plans, p1, p2, p3⟩ := k4 prefixes langs steps hsteps (fun w hw => (Answers.input_word h hp b2 hw).2) _ (fresh 0)
    (by rw [hst]; exact ha.pattern _ hq) (by
      intro x hx hv
      exact Answers.constant_doc (v := vocabOf l prefixes langs) h hp b2 (ha.constants _ hq x hx hv) hv)
  obtain ⟨seeded, rows, row, p, x, e1, e2, e3, e6, e4, e5⟩ := single_run (P := P) (S := storeOf c steps l prefixes langs r.nofWords idx) p1 p2
    (hvars _ hq) (fun plan hplan => (p3 plan hplan).1) (filters := (filtersOf a).map filterVars) (by simpa [filtersOf] using hmany)
    (keepIds (filtersOf a))
  have hcol : Columns P (patterns [t]) p.tree x := by
    obtain ⟨bs'', q1, _, q2⟩ := Answers.C78_documents_partial c N nfc n prefixes langs doc h fuel hfuel
    rw [h1] at q1
    cases q1
    obtain ⟨r', l', idx', k1, k2, k3, k5⟩ := (q2 parts hp).2 o ho lg
    rw [g1] at k1
    cases k1
    rw [g2] at k2
    cases k2
    rw [g3] at k3
    cases k3
    obtain ⟨seeded', s1, s2⟩ := k5 steps hsteps (patterns [t]) fresh (by simp [patterns]) ha.shape ha.pattern ha.constants
    have : seeded' = seeded := by
      have := s1.symm.trans e1
      cases this
      rfl
    subst this
    subst g1
    obtain ⟨w1, w2⟩ := Answers.shown_ids h hfuel h1 hp ho g2
    exact (s2 P ((filtersOf a).map filterVars) (keepIds (filtersOf a))
      (keepTerms (TermLess (shouldBeExternalized (settings prefixes langs)) (order c)) (filtersOf a)) rows row p x hshuffle horder (keep_vars _)
      (fun i s hs => keep_terms w1 w2 (fun i j u v hi hj => Answers.C78_order h hfuel h1 hp ho g2 hi hj) _ i hs) e2 e3
      (Planner.cheapest_mem e4) e5).1
  exact ⟨seeded, rows, row, p, x, e1, e2, e3, e6, e4, e5, hcol⟩

/-- **C79** (one triple).  With one triple that has at most two variables, and that contains the keys of ORDER BY, and at most 64
filters, the server does compose a response. -/
theorem C79_single_partial (c : Collator) (N : Str → Prop) (nfc : Str → Str) (n : Nat) (prefixes langs : List Str)
    (doc : List (Words × List Char)) (h : DocOk c N nfc n prefixes langs doc)
    (hu : ∀ d ∈ docStored doc, Utf8 d.1 ∧ Utf8 d.2.1 ∧ Utf8 d.2.2) (fuel : Nat) (hfuel : doc.length < fuel) :
    ∃ bs, passBatches n fuel doc = .ok bs ∧ (∃ parts, Items nfc (settings prefixes langs) bs parts) ∧
    ∀ parts, Items nfc (settings prefixes langs) bs parts → (∃ o, VocabularyMerger.Run (order c) n parts o) ∧
    ∀ (o : Outcome VocabularyMerger.Result) (_ : VocabularyMerger.Run (order c) n parts o) (lg : Nat → Nat → Nat),
    ∃ r l idx, o = .ok r ∧ load r = .ok l ∧ Permutation.createIndex lg r.nofWords (triplesOf r) = .ok (some idx) ∧
      ∀ (steps : Nat), r.nofWords + 1 < steps →
      ∀ (low : Char → Char) (_ : ∀ c : Char, c.toNat < 128 → low c = SparqlLexer.lower c) (hex : Str → Str) (a : Ask) (t : Triple),
      AskOk low prefixes langs doc a [t] → (∀ q ∈ patterns [t], q.vars.length ≤ 2) →
      (∀ k ∈ a.keys, ∃ q ∈ patterns [t], String.ofList ('?' :: k.name) ∈ q.vars) → a.comparisons.length ≤ 64 →
      ∀ (tr : Bool) (text : Str), QueryText a.whole.words tr text → Utf8 text → ∀ rounds, a.whole.words.length ≤ rounds →
      ∀ (fresh : Nat → Planner.Var) (P : Planner.Params) (X : Export.Extra) (maxSend : Nat),
      (∀ m, (P.shuffle m).Perm m) → (∀ g, (P.order g).Perm g) → ExtraOk X → maxSend < 2 ^ 63 →
      ∃ body sols,
        Responds (env low) (normalizeRDFLiteral hex) rounds (storeOf c steps l prefixes langs r.nofWords idx) fresh P X maxSend text (.ok body) ∧
        Reads a text maxSend body sols ∧
        Solves isVariable (TermLess (shouldBeExternalized (settings prefixes langs)) (order c)) a (termsOf [t]) (docStored doc) sols := by
  obtain ⟨bs, h1, h2, h3⟩ := C79_responses_partial c N nfc n prefixes langs doc h hu fuel hfuel
  refine ⟨bs, h1, h2, fun parts hp => ⟨(h3 parts hp).1, fun o ho lg => ?_⟩⟩
  obtain ⟨r, l, idx, g1, g2, g3, g4⟩ := (h3 parts hp).2 o ho lg
  refine ⟨r, l, idx, g1, g2, g3, ?_⟩
  intro steps hsteps low hlow hex a t ha hvars hkeys hmany tr text htext hutf rounds hrounds fresh P X maxSend hshuffle horder hX hmax
  obtain ⟨info, i1, i2, i3, i4, i5, i6, i7, i8, i9⟩ := parsed hlow hex ha.blocks ha.keys ha.declarations ha.triples ha.nonempty htext hrounds
  obtain ⟨seeded, rows, row, p, x, e1, e2, e3, e6, e4, e5, hcol⟩ := single_planned c N nfc n prefixes langs doc h fuel hfuel h1 hp ho lg g1 g2 g3
    steps hsteps low a t ha hvars hmany fresh P hshuffle horder
  obtain ⟨z, hz⟩ := modified_total (info := info) hcol.1 hcol.2.2.1 hcol.2.2.2.1 hcol.2.2.2.2.1 (by
    intro k hk
    rw [i9] at hk
    obtain ⟨q, hq, rfl⟩ := List.mem_map.mp hk
    obtain ⟨c', hc'⟩ := Planner.mem_of_key ((hcol.2.2.2.2.2 _).mpr (hkeys q hq))
    exact ⟨c', (Planner.lookup_some hcol.1).mpr hc'⟩)
  have hresp := Responds.answer (X := X) (maxSend := maxSend) (Executes.run (S := storeOf c steps l prefixes langs r.nofWords idx) i1
    (plain_query ha i5 i6 i7 i2) e1 e2 e3
    (by rw [e6]; exact Planner.cheapest_mem e4) (fun _ _ => by rw [e6]; exact e4) e5 hz)
  obtain ⟨body, sols, f1, f2, f3⟩ := g4 steps hsteps low hlow hex a [t] ha tr text htext hutf rounds hrounds fresh P X maxSend _ hshuffle horder
    hX hmax hresp
  exact ⟨body, sols, f1 ▸ hresp, f2, f3⟩

/-! ### Queries with several triples are answered -/

/-- Any of the triples, but not all, have at most 1000 solutions together. -/
def Small (doc : List (Words × List Char)) (ts : List Triple) : Prop :=
  ∀ (qs : List Triple) (sols : List TermSol), qs.Sublist ts → qs.length < ts.length → sols.Nodup →
    (∀ sol ∈ sols, TermBgp isVariable (termsOf qs) (docStored doc) sol) → sols.length ≤ 1000

/-- For example two triples over at most 1000 stored triples. -/
theorem small_of_length {doc : List (Words × List Char)} {ts : List Triple} (h : (docStored doc).length ^ (ts.length - 1) ≤ 1000) : Small doc ts := by
  intro qs sols _ h2 h3 h4
  have h5 := few_solutions h3 h4
  rw [show (termsOf qs).length = qs.length by simp [termsOf]] at h5
  refine h5.trans ?_
  rcases Nat.eq_zero_or_pos (docStored doc).length with h0 | hpos
  · rw [h0]
    exact (Nat.pow_le_pow_left (Nat.zero_le 1) _).trans (by simp)
  · exact (Nat.pow_le_pow_right hpos (by omega)).trans h

/-- With triples as in `C79_answered_partial` a plan is executed. -/
theorem planned (c : Collator) (N : Str → Prop) (nfc : Str → Str) (n : Nat) (prefixes langs : List Str)
    (doc : List (Words × List Char)) (h : DocOk c N nfc n prefixes langs doc) (fuel : Nat) (hfuel : doc.length < fuel)
    {bs : List (List (Words × List Char))} (h1 : passBatches n fuel doc = .ok bs) {parts : List (List (Fin 4 × VocabularyMerger.Item))}
    (hp : Items nfc (settings prefixes langs) bs parts) {o : Outcome VocabularyMerger.Result} (ho : VocabularyMerger.Run (order c) n parts o)
    (lg : Nat → Nat → Nat) {r : VocabularyMerger.Result} {l : Loaded} {idx : Permutation.Name → Permutation.Perm} (g1 : o = .ok r)
    (g2 : load r = .ok l) (g3 : Permutation.createIndex lg r.nofWords (triplesOf r) = .ok (some idx)) (steps : Nat) (hsteps : r.nofWords + 1 < steps)
    (low : Char → Char) (a : Ask) (ts : List Triple) (ha : AskOk low prefixes langs doc a ts) (hvars : ∀ q ∈ patterns ts, q.vars.length ≤ 2)
    (hconn : Planner.Conn (groupVars (patterns ts)) (fun j => j < (patterns ts).length))
    (h64 : ts.length < 64) (hsmall : Small doc ts) (hmany : a.comparisons.length ≤ 64) (fresh : Nat → Planner.Var) (P : Planner.Params)
    (hshuffle : ∀ m, (P.shuffle m).Perm m) (horder : ∀ g, (P.order g).Perm g) :
    ∃ seeded rows row p x, triplesNodes true fresh (patterns ts) 0 = .ok seeded ∧
      Planner.fillDpTab P (seeded.map (·.1)) ((filtersOf a).map filterVars) [] = .ok rows ∧ rows.getLast? = some row ∧
      Planner.applyFilters P ((filtersOf a).map filterVars) true row = row ∧ Planner.cheapest P row = some p ∧
      Planner.Eval P (groupData (lookup c steps (vocabOf l prefixes langs)) r.nofWords idx seeded) (keepIds (filtersOf a)) p.tree x ∧
      Columns P (patterns ts) p.tree x := by
  obtain ⟨bs', last, b1, b2, b3, b4, b5⟩ := Answers.passBatches_ok h.batch fuel doc hfuel
  rw [h1] at b1
  cases b1
  have hin := Answers.input_ok h hp b2 b3 b4 b5
  obtain ⟨r', l', idx', k1, k2, k3, k4⟩ := Answers.C78_returns_partial c N n parts hin o ho lg
  rw [g1] at k1
  cases k1
  rw [g2] at k2
  cases k2
  rw [g3] at k3
  cases k3
  have hst := Answers.stored_doc h hp b2
  obtain ⟨seeded, rows, row, p, e1, e2, e3, e4, hor⟩ := k4 prefixes langs steps hsteps (fun w hw => (Answers.input_word h hp b2 hw).2) (patterns ts)
    fresh (by simpa [patterns] using ha.nonempty) hvars ha.shape hconn (by simpa [patterns] using h64) (by rw [hst]; exact ha.pattern) (by
      intro t ht x hx hv
      exact Answers.constant_doc (v := vocabOf l prefixes langs) h hp b2 (ha.constants t ht x hx hv) hv) P ((filtersOf a).map filterVars)
    (keepIds (filtersOf a)) hshuffle horder (by simpa [filtersOf] using hmany) (keep_vars _)
  have hpos : 0 < (seeded.map (·.1)).length + ([] : List (List Planner.Alt)).length := by
    by_contra h0
    rw [List.length_nil, List.length_map] at h0
    have hnil : seeded = [] := List.length_eq_zero_iff.mp (by omega)
    subst hnil
    obtain ⟨t, ts', rfl⟩ := List.exists_cons_of_ne_nil ha.nonempty
    change triplesNodes true fresh (_ :: _) 0 = _ at e1
    rw [triplesNodes] at e1
    revert e1
    cases TriplePlan.leafPlans true (fresh 0) _ with
    | ok plans =>
      simp only [Outcome.bind]
      cases triplesNodes true fresh _ 1 with
      | ok sd => intro e1; cases e1
      | throw => intro e1; cases e1
      | ub => intro e1; cases e1
      | diverge => intro e1; cases e1
    | throw => intro e1; cases e1
    | ub => intro e1; cases e1
    | diverge => intro e1; cases e1
  have e6 := filters_again (Planner.fillDpTab_complete hpos e2 _ e3)
  obtain ⟨x, e5⟩ : ∃ x, Planner.Eval P (groupData (lookup c steps (vocabOf l prefixes langs)) r.nofWords idx seeded) (keepIds (filtersOf a)) p.tree x := by
    rcases hor with hx | ⟨qs, sols, q1, q2, q3, q4, q5⟩
    · exact hx
    · obtain ⟨qs', q6, rfl⟩ := List.sublist_map_iff.mp q1
      have := hsmall qs' sols q6 (by simpa [patterns] using q2) q3 (by
        intro sol hsol
        have := q4 sol hsol
        rw [hst] at this
        rwa [show termsOf qs' = Answers.termsOf (patterns qs') by unfold Answers.termsOf patterns termsOf; rw [List.map_map]; rfl])
      omega
  have hcol : Columns P (patterns ts) p.tree x := by
    obtain ⟨bs'', q1, _, q2⟩ := Answers.C78_documents_partial c N nfc n prefixes langs doc h fuel hfuel
    rw [h1] at q1
    cases q1
    obtain ⟨r', l', idx', k1, k2, k3, k5⟩ := (q2 parts hp).2 o ho lg
    rw [g1] at k1
    cases k1
    rw [g2] at k2
    cases k2
    rw [g3] at k3
    cases k3
    obtain ⟨seeded', s1, s2⟩ := k5 steps hsteps (patterns ts) fresh (by simpa [patterns] using ha.nonempty) ha.shape ha.pattern ha.constants
    have : seeded' = seeded := by
      have := s1.symm.trans e1
      cases this
      rfl
    subst this
    subst g1
    obtain ⟨w1, w2⟩ := Answers.shown_ids h hfuel h1 hp ho g2
    exact (s2 P ((filtersOf a).map filterVars) (keepIds (filtersOf a))
      (keepTerms (TermLess (shouldBeExternalized (settings prefixes langs)) (order c)) (filtersOf a)) rows row p x hshuffle horder (keep_vars _)
      (fun i s hs => keep_terms w1 w2 (fun i j u v hi hj => Answers.C78_order h hfuel h1 hp ho g2 hi hj) _ i hs) e2 e3
      (Planner.cheapest_mem e4) e5).1
  exact ⟨seeded, rows, row, p, x, e1, e2, e3, e6, e4, e5, hcol⟩

/-- **C79** (queries are answered).  With fewer than 64 triples that are connected, have at most two variables each, contain the keys of
ORDER BY and are `Small`, and with at most 64 filters, the server does compose a response.
Missing: larger answers (a join may read out of bounds, C13) and other groups. -/
theorem C79_answered_partial (c : Collator) (N : Str → Prop) (nfc : Str → Str) (n : Nat) (prefixes langs : List Str)
    (doc : List (Words × List Char)) (h : DocOk c N nfc n prefixes langs doc)
    (hu : ∀ d ∈ docStored doc, Utf8 d.1 ∧ Utf8 d.2.1 ∧ Utf8 d.2.2) (fuel : Nat) (hfuel : doc.length < fuel) :
    ∃ bs, passBatches n fuel doc = .ok bs ∧ (∃ parts, Items nfc (settings prefixes langs) bs parts) ∧
    ∀ parts, Items nfc (settings prefixes langs) bs parts → (∃ o, VocabularyMerger.Run (order c) n parts o) ∧
    ∀ (o : Outcome VocabularyMerger.Result) (_ : VocabularyMerger.Run (order c) n parts o) (lg : Nat → Nat → Nat),
    ∃ r l idx, o = .ok r ∧ load r = .ok l ∧ Permutation.createIndex lg r.nofWords (triplesOf r) = .ok (some idx) ∧
      ∀ (steps : Nat), r.nofWords + 1 < steps →
      ∀ (low : Char → Char) (_ : ∀ c : Char, c.toNat < 128 → low c = SparqlLexer.lower c) (hex : Str → Str) (a : Ask) (ts : List Triple),
      AskOk low prefixes langs doc a ts → (∀ q ∈ patterns ts, q.vars.length ≤ 2) →
      (∀ k ∈ a.keys, ∃ q ∈ patterns ts, String.ofList ('?' :: k.name) ∈ q.vars) →
      Planner.Conn (groupVars (patterns ts)) (fun j => j < (patterns ts).length) → ts.length < 64 → Small doc ts → a.comparisons.length ≤ 64 →
      ∀ (tr : Bool) (text : Str), QueryText a.whole.words tr text → Utf8 text → ∀ rounds, a.whole.words.length ≤ rounds →
      ∀ (fresh : Nat → Planner.Var) (P : Planner.Params) (X : Export.Extra) (maxSend : Nat),
      (∀ m, (P.shuffle m).Perm m) → (∀ g, (P.order g).Perm g) → ExtraOk X → maxSend < 2 ^ 63 →
      ∃ body sols,
        Responds (env low) (normalizeRDFLiteral hex) rounds (storeOf c steps l prefixes langs r.nofWords idx) fresh P X maxSend text (.ok body) ∧
        Reads a text maxSend body sols ∧
        Solves isVariable (TermLess (shouldBeExternalized (settings prefixes langs)) (order c)) a (termsOf ts) (docStored doc) sols := by
  obtain ⟨bs, h1, h2, h3⟩ := C79_responses_partial c N nfc n prefixes langs doc h hu fuel hfuel
  refine ⟨bs, h1, h2, fun parts hp => ⟨(h3 parts hp).1, fun o ho lg => ?_⟩⟩
  obtain ⟨r, l, idx, g1, g2, g3, g4⟩ := (h3 parts hp).2 o ho lg
  refine ⟨r, l, idx, g1, g2, g3, ?_⟩
  intro steps hsteps low hlow hex a ts ha hvars hkeys hconn h64 hsmall hmany tr text htext hutf rounds hrounds fresh P X maxSend hshuffle horder hX hmax
  obtain ⟨info, i1, i2, i3, i4, i5, i6, i7, i8, i9⟩ := parsed hlow hex ha.blocks ha.keys ha.declarations ha.triples ha.nonempty htext hrounds
  obtain ⟨seeded, rows, row, p, x, e1, e2, e3, e6, e4, e5, hcol⟩ := planned c N nfc n prefixes langs doc h fuel hfuel h1 hp ho lg g1 g2 g3
    steps hsteps low a ts ha hvars hconn h64 hsmall hmany fresh P hshuffle horder
  obtain ⟨z, hz⟩ := modified_total (info := info) hcol.1 hcol.2.2.1 hcol.2.2.2.1 hcol.2.2.2.2.1 (by
    intro k hk
    rw [i9] at hk
    obtain ⟨q, hq, rfl⟩ := List.mem_map.mp hk
    obtain ⟨c', hc'⟩ := Planner.mem_of_key ((hcol.2.2.2.2.2 _).mpr (hkeys q hq))
    exact ⟨c', (Planner.lookup_some hcol.1).mpr hc'⟩)
  have hresp := Responds.answer (X := X) (maxSend := maxSend) (Executes.run (S := storeOf c steps l prefixes langs r.nofWords idx) i1
    (plain_query ha i5 i6 i7 i2) e1 e2 e3
    (by rw [e6]; exact Planner.cheapest_mem e4) (fun _ _ => by rw [e6]; exact e4) e5 hz)
  obtain ⟨body, sols, f1, f2, f3⟩ := g4 steps hsteps low hlow hex a ts ha tr text htext hutf rounds hrounds fresh P X maxSend _ hshuffle horder
    hX hmax hresp
  exact ⟨body, sols, f1 ▸ hresp, f2, f3⟩

/-! ### An example for the hypotheses -/

namespace Sample

def block (s o : Char) : Block := ⟨.var [s], ⟨.path (.iri "<p>".toList) (.iri ['p']) [], .var [o], []⟩, []⟩

/-- `SELECT DISTINCT ?x ?z WHERE { ?x <p> ?y . FILTER(?x != ?y) ?y <p> ?z } ORDER BY DESC(?z) ?x OFFSET 1 LIMIT 5` -/
def ask : Ask :=
  ⟨[], true, false, [['x'], ['z']], [.triples (block 'x' 'y'), .filter ⟨0, ['x'], .ne, ['y']⟩ false, .triples (block 'y' 'z')], false, [' '], [.desc ['z'], .plain ['x']], some 5, some 1, true⟩

/-- `SELECT ?x WHERE { ?x <p> ?y . FILTER((?y < ?x)) . } ORDER BY ASC(?y)` -/
def small : Ask := ⟨[], false, false, [['x']], [.triples (block 'x' 'y'), .filter ⟨1, ['y'], .lt, ['x']⟩ true], true, [' '], [.asc ['y']], none, none, false⟩

def triple (s o : Char) : Triple := ⟨['?', s], .node .iri 0 "<p>".toList [] false, ['?', o]⟩

theorem block_ok (s o : Char) : (block s o).Ok := by
  refine ⟨trivial, ?_⟩
  intro p hp
  simp only [block, List.mem_cons, List.not_mem_nil, or_false] at hp
  subst hp
  refine ⟨⟨by decide, by decide, rfl, trivial⟩, ?_⟩
  intro o ho
  simp only [List.mem_cons, List.not_mem_nil, or_false] at ho
  subst ho
  trivial

theorem triple_names (s o : Char) : TripleNames true [] (triple s o) (triple s o) :=
  .mk (.var [s]) (.iri (.iri ['p', '>'])) (.var [o]) (fun _ => .inr (by
    show ¬ PrefixSpec.Occurs "in-context".toList ['<', 'p', '>']
    rintro ⟨a, b, h⟩
    have := congrArg List.length h
    simp at this
    omega))

theorem ask_ok (low : Char → Char) : AskOk low [] [['e', 'n']] Answers.Sample.doc ask [triple 'x' 'y', triple 'y' 'z'] := by
  obtain ⟨h1, _, h2, h3, _⟩ := Answers.Sample.ps_ok
  have hps : patterns [triple 'x' 'y', triple 'y' 'z'] = Answers.Sample.ps := by decide
  refine ⟨?_, by simp [ask], ⟨.cons (triple_names _ _) (.cons (triple_names _ _) .nil), by decide⟩, by simp, by simp [ask], ?_, ?_, ?_,
    by unfold SparqlSpec.OrderE.Name; decide, by decide,
    by rw [hps]; exact h3, by rw [hps]; exact h1, by rw [hps]; exact h2, ?_⟩
  · intro b hb
    change b ∈ [block 'x' 'y', block 'y' 'z'] at hb
    simp only [List.mem_cons, List.not_mem_nil, or_false] at hb
    rcases hb with rfl | rfl <;> exact block_ok _ _
  · intro k hk
    cases hk
    decide
  · intro k hk
    cases hk
    decide
  · intro n hn
    simp only [ask, List.mem_cons, List.not_mem_nil, or_false] at hn
    rcases hn with rfl | rfl
    · exact utf8_of_ascii (by unfold Ascii; decide)
    · exact utf8_of_ascii (by unfold Ascii; decide)
  · intro f hf n hn
    change f ∈ [(⟨0, ['x'], .ne, ['y']⟩ : Comparison)] at hf
    rw [List.mem_singleton] at hf
    subst hf
    rcases hn with rfl | rfl <;> decide

set_option maxRecDepth 2000 in
theorem ask_text : QueryText ask.whole.words false " SELECT DISTINCT ?x ?z WHERE { ?x <p> ?y . FILTER ( ?x ! = ?y ) ?y <p> ?z } ORDER BY DESC ( ?z ) ?x OFFSET 1 LIMIT 5".toList := by
  have hv : ∀ c ∈ ['x', 'y', 'z'], SparqlSpec.VarName [c] := fun c hc => ⟨c, [], rfl, by revert c; decide, by simp⟩
  have hi : SparqlSpec.IriText ['p'] := by unfold SparqlSpec.IriText; decide
  have h := SparqlParser.keyword_cons (w := "select") (t := "SELECT".toList) ⟨by decide, by unfold SparqlSpec.Spells; decide⟩ <|
    SparqlParser.keyword_cons (w := "distinct") (t := "DISTINCT".toList) ⟨by decide, by unfold SparqlSpec.Spells; decide⟩ <|
    SparqlParser.var_cons (hv 'x' (by decide)) <| SparqlParser.var_cons (hv 'z' (by decide)) <|
    SparqlParser.keyword_cons (w := "where") (t := "WHERE".toList) ⟨by decide, by unfold SparqlSpec.Spells; decide⟩ <|
    SparqlParser.symbol_cons (c := '{') (by decide) <| SparqlParser.var_cons (hv 'x' (by decide)) <|
    SparqlParser.path_cons (m := []) hi (by decide) <| SparqlParser.var_cons (hv 'y' (by decide)) <|
    SparqlParser.symbol_cons (c := '.') (by decide) <|
    SparqlParser.keyword_cons (w := "filter") (t := "FILTER".toList) ⟨by decide, by unfold SparqlSpec.Spells; decide⟩ <|
    SparqlParser.symbol_cons (c := '(') (by decide) <| SparqlParser.var_cons (hv 'x' (by decide)) <|
    SparqlParser.word_cons (i := .lex (.symbol '!')) (by simp [SparqlSpec.Item.Ok, SparqlSpec.Lexeme.Ok])
      (by simp [SparqlSpec.Item.Ends, SparqlSpec.Lexeme.Ends]) <| SparqlParser.symbol_cons (c := '=') (by decide) <|
    SparqlParser.var_cons (hv 'y' (by decide)) <| SparqlParser.symbol_cons (c := ')') (by decide) <|
    SparqlParser.var_cons (hv 'y' (by decide)) <|
    SparqlParser.path_cons (m := []) hi (by decide) <| SparqlParser.var_cons (hv 'z' (by decide)) <|
    SparqlParser.symbol_cons (c := '}') (by decide) <|
    SparqlParser.word_cons (i := .lex (.orderBy "ORDER".toList [' '] "BY".toList))
      ⟨by unfold SparqlSpec.Spells; decide, by decide, by unfold SparqlSpec.Spells; decide⟩ trivial <|
    SparqlParser.keyword_cons (w := "desc") (t := "DESC".toList) ⟨by decide, by unfold SparqlSpec.Spells; decide⟩ <|
    SparqlParser.symbol_cons (c := '(') (by decide) <| SparqlParser.var_cons (hv 'z' (by decide)) <|
    SparqlParser.symbol_cons (c := ')') (by decide) <| SparqlParser.var_cons (hv 'x' (by decide)) <|
    SparqlParser.keyword_cons (w := "offset") (t := "OFFSET".toList) ⟨by decide, by unfold SparqlSpec.Spells; decide⟩ <|
    SparqlParser.word_cons (i := .lex (.integer false ['1'])) ⟨by decide, by decide⟩
      ⟨by intro c hc; simp at hc; subst hc; decide, by intro c t h; simp at h⟩ <|
    SparqlParser.keyword_cons (w := "limit") (t := "LIMIT".toList) ⟨by decide, by unfold SparqlSpec.Spells; decide⟩ <|
    SparqlParser.word_cons (i := .lex (.integer false ['5'])) ⟨by decide, by decide⟩ ⟨by intro c hc; simp at hc, by intro c t h; simp at h⟩ <|
    QueryText.nil (s := []) (.gap .nil)
  exact h

example : (∀ d ∈ docStored Answers.Sample.doc, Utf8 d.1 ∧ Utf8 d.2.1 ∧ Utf8 d.2.2) := by
  intro d hd
  have : ∀ d ∈ docStored Answers.Sample.doc, (∀ c ∈ d.1, c.toNat < 128) ∧ (∀ c ∈ d.2.1, c.toNat < 128) ∧ ∀ c ∈ d.2.2, c.toNat < 128 := by decide
  exact ⟨utf8_of_ascii (this d hd).1, utf8_of_ascii (this d hd).2.1, utf8_of_ascii (this d hd).2.2⟩

example : ExtraOk ⟨.obj [], [], "1ms".toList, "1ms".toList⟩ :=
  ⟨trivial, by simp, utf8_of_ascii (by unfold Ascii; decide), utf8_of_ascii (by unfold Ascii; decide)⟩

/-- The hypotheses of `C79_single_partial`. -/
example (low : Char → Char) : AskOk low [] [['e', 'n']] Answers.Sample.doc small [triple 'x' 'y'] ∧
    (∀ q ∈ patterns [triple 'x' 'y'], q.vars.length ≤ 2) ∧
    (∀ k ∈ small.keys, ∃ q ∈ patterns [triple 'x' 'y'], String.ofList ('?' :: k.name) ∈ q.vars) ∧ small.comparisons.length ≤ 64 := by
  obtain ⟨h1, _, h2, _, _⟩ := Answers.Sample.ps_ok
  have hps : ∀ t ∈ patterns [triple 'x' 'y'], t ∈ Answers.Sample.ps := by decide
  refine ⟨⟨?_, by simp [small], ⟨.cons (triple_names _ _) .nil, by decide⟩, by simp, by simp [small], by simp [small], by simp [small], ?_,
    by unfold SparqlSpec.OrderE.Name; decide, by decide,
    ?_, fun t ht => h1 t (hps t ht), fun t ht => h2 t (hps t ht), ?_⟩, by decide, by decide, by decide⟩
  · intro b hb
    change b ∈ [block 'x' 'y'] at hb
    simp only [List.mem_cons, List.not_mem_nil, or_false] at hb
    subst hb
    exact block_ok _ _
  · intro n hn
    simp only [small, List.mem_cons, List.not_mem_nil, or_false] at hn
    subst hn
    exact utf8_of_ascii (by unfold Ascii; decide)
  · refine ⟨id, fun i j _ _ h => h, ?_⟩
    rintro j hj v w hv hw ⟨i, _, hi, _⟩
    simp [patterns] at hj
    subst hj
    simp at hi
  · intro f hf n hn
    change f ∈ [(⟨1, ['y'], .lt, ['x']⟩ : Comparison)] at hf
    rw [List.mem_singleton] at hf
    subst hf
    rcases hn with rfl | rfl <;> decide

/-- The hypotheses of `C79_answered_partial`. -/
theorem ask_answered : let ts := [triple 'x' 'y', triple 'y' 'z']
    (∀ q ∈ patterns ts, q.vars.length ≤ 2) ∧ (∀ k ∈ ask.keys, ∃ q ∈ patterns ts, String.ofList ('?' :: k.name) ∈ q.vars) ∧
    Planner.Conn (groupVars (patterns ts)) (fun j => j < (patterns ts).length) ∧ ts.length < 64 ∧ Small Answers.Sample.doc ts ∧
    ask.comparisons.length ≤ 64 := by
  refine ⟨by decide, by decide, ?_, by decide, small_of_length (by decide), by decide⟩
  have e : (fun j => j < (patterns [triple 'x' 'y', triple 'y' 'z']).length) = fun j => j = 0 ∨ j = 1 := by
    funext j
    have : (patterns [triple 'x' 'y', triple 'y' 'z']).length = 2 := rfl
    rw [this, eq_iff_iff]
    omega
  rw [e]
  exact Planner.conn_union (v := "?y") (Planner.conn_singleton 0) (Planner.conn_singleton 1) ⟨0, rfl, by decide⟩ ⟨1, rfl, by decide⟩

/-- The filter of `ask` keeps solutions with different values. -/
example (less : Str → Str → Prop) : (∀ f ∈ ask.comparisons, f.Holds less (fun v => if v = "?x" then some ['2'] else some ['5'])) ∧
    ¬ ∀ f ∈ ask.comparisons, f.Holds less (fun _ => some ['5']) := by
  refine ⟨fun f hf => ?_, fun h => ?_⟩
  · change f ∈ [(⟨0, ['x'], .ne, ['y']⟩ : Comparison)] at hf
    rw [List.mem_singleton] at hf
    subst hf
    exact ⟨['2'], ['5'], by decide, by decide, fun h => by cases h⟩
  · obtain ⟨u, v, h1, h2, h3⟩ := h ⟨0, ['x'], .ne, ['y']⟩ List.mem_cons_self
    cases h1
    cases h2
    exact h3 rfl

/-- `filter_run` -/
example : Verif.Filter.computeFilter Verif.Filter.idReader .ne 0 1 [[1, 1], [1, 2]] =
    .ok ([[1, 1], [1, 2]].filter fun r => keepIds (filtersOf ask) 0 (Planner.solution [("?x", 0), ("?y", 1)] r)) :=
  filter_run (f := { type := .ne, lhs := ['?', 'x'], rhs := ['?', 'y'] }) rfl rfl (w := 2) (by unfold Table.WF; decide) rfl rfl (by decide)
    (by decide)

/-- With `ask`, a solution with the larger value of `?z` comes first, whatever `?x` is. -/
example (less : Str → Str → Prop) (h : less ['1'] ['2']) :
    Earlier less ask.keys (fun v => if v = "?z" then some ['2'] else some ['5']) (fun v => if v = "?z" then some ['1'] else some ['3']) :=
  ⟨0, .desc ['z'], ['2'], ['1'], rfl, by intro j _ hj; omega, rfl, rfl, h⟩

/-- The rows for two solutions, from the second one on. -/
example (sol sol' : TermSol) : rowsOf ask 9 [sol, sol'] = .arr [.arr [value sol' ['x'], value sol' ['z']]] := rfl

/-- The lines for two solutions, from the second one on. -/
example (sol sol' : TermSol) : linesOf ask [sol, sol'] = [[(valueOf sol' ['x']).getD [], (valueOf sol' ['z']).getD []]] := rfl

/-- The terms of the document contain neither tabs nor ends of lines. -/
example : ∀ d ∈ docStored Answers.Sample.doc, ∀ w, w = d.1 ∨ w = d.2.1 ∨ w = d.2.2 → '\n' ∉ w ∧ '\t' ∉ w := by
  have : ∀ d ∈ docStored Answers.Sample.doc, ∀ w ∈ [d.1, d.2.1, d.2.2], '\n' ∉ w ∧ '\t' ∉ w := by decide
  intro d hd w hw
  exact this d hd w (by simpa using hw)

/-- The lines of the document. -/
example : ∀ l ∈ [("<b> <p> <a> .".toList, (("<b>".toList, "<p>".toList, "<a>".toList) : Words))], '\n' ∉ l.1 ∧
    ∃ gap, NTriplesSpec.States l.1 l.2.1 l.2.2.1 l.2.2.2 gap ∧ gap ≠ [] ∧ NTriplesSpec.Tame l.2.2.2 := by
  intro l hl
  rw [List.mem_singleton] at hl
  subst hl
  refine ⟨by decide, [' '], ⟨[], [' '], [' '], [], rfl, ?_, ?_, ?_, ?_⟩, by simp, ?_⟩
  · exact .inl ⟨['b'], rfl, by simp [NTriplesSpec.Solid, NTriplesSpec.blank], by decide⟩
  · exact ⟨['p'], rfl, by simp [NTriplesSpec.Solid, NTriplesSpec.blank], by decide⟩
  · exact .inl ⟨['a'], rfl, by simp [NTriplesSpec.Solid, NTriplesSpec.blank], by decide⟩
  · simp [NTriplesSpec.Blanks, NTriplesSpec.blank]
  · intro t x u v h
    cases h

end Sample

end Verif.Response
