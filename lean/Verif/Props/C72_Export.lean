import Verif.Lemmas.Export
import Verif.Props.C71_Server
/-
C72: the client can read the rows of the result from the response.
-/
namespace Verif.Export
open JsonSpec ServerSpec ExportSpec
open Server (Str Run dumpString decimal outOfRange notUtf8 Delivers queryLine Good Engine)
open Modifiers (written)
open ModifiersSpec (slice)

/-! ### JSON texts -/

/-- A value is written as a text from which a client reads the same value, exactly if all its strings are UTF-8; otherwise an exception
is thrown. -/
theorem C72_dump (i : Nat) (v : Json) (hb : v.Bytes) :
    (v.Valid → ∃ t, dump i v = .ok t ∧ readJson t = some v) ∧ (¬ v.Valid → dump i v = .throw notUtf8) := by
  refine ⟨dump_json i, ?_⟩
  intro h
  rcases dump_cases i v hb with hv | hv
  · exact absurd hv h
  · exact hv

example : (Json.obj [("a".toList, .arr [.str "\xc3\xa4".toList, .null, .num "-1.5e3".toList]), ("b".toList, .obj [])]).Bytes := by
  simp only [Json.Bytes, BytesMembers, BytesItems, Number]
  refine ⟨by decide, ⟨by decide, trivial, ⟨by decide, '-', _, rfl, rfl⟩, trivial⟩, by decide, trivial, trivial⟩

/-! ### What a cell means -/

/-- The value of an id in a column of a kind: nothing if the variable is unbound. Words that encode numbers and dates are shown as C11
says. -/
inductive Value (N : Names) : Kind → Nat → Option Str → Prop where
  | unbound (k : Kind) : Value N k noValue none
  | word {id : Nat} {w : Str} : N.word id = some w → ¬ ":v:".toList <+: w → Value N .kb id (some w)
  | number {id : Nat} {w v : Str} : N.word id = some w → ":v:".toList <+: w → Conversions.wordValue w = .ok v → Value N .kb id (some v)
  | count {id : Nat} : id ≠ noValue → Value N .verbatim id (some (Nat.toDigits 10 id))
  | text {id : Nat} : id ≠ noValue → Value N .text id (some (N.excerpt id))
  | float {id : Nat} : id ≠ noValue → Value N .float id (some (N.float id))
  | made {id : Nat} {w : Str} : N.localVocab[id]? = some w → Value N .localVocab id (some w)

/-- A selected name stands for a variable: `TEXT(?c)` for `?c`, every other name for itself. -/
def Stands (name v : Str) : Prop := (name = v ∧ ¬ "TEXT(".toList <+: v) ∨ name = "TEXT(".toList ++ v ++ [')']

/-- The value of a selected name in a row of the result. -/
inductive Shows (N : Names) (res : Result) (name : Str) (row : Row) : Option Str → Prop where
  | value {v : Str} {col id : Nat} {k : Kind} {c : Option Str} : Stands name v → (v, col) ∈ res.columns → row[col]? = some id →
      res.kinds[col]? = some k → Value N k id c → Shows N res name row c
  | missing {v : Str} : Stands name v → v ∉ res.columns.map Prod.fst → Shows N res name row none

/-- Unbound values occur only in columns with words. -/
def OnlyWordsUnbound (res : Result) : Prop := ∀ row ∈ res.rows, ∀ (col : Nat) (k : Kind), row[col]? = some noValue → res.kinds[col]? = some k → k = .kb ∨ k = .localVocab

theorem plain_stands {name v : Str} (h : Stands name v) : plainVar name = v := by
  rcases h with ⟨rfl, h⟩ | rfl
  · exact plainVar_other h
  · exact plainVar_text v

/-- The column of a selected name. -/
def index (res : Result) (name : Str) : Option (Nat × Kind) :=
  (res.columns.find? fun p => p.1 == plainVar name).map fun p => (p.2, kindOf res p.2)

theorem lift_text {w v : Str} (h : ":v:".toList <+: w) (hv : Conversions.wordValue w = .ok v) : wordText w = .ok v := by
  unfold wordText
  rw [if_pos (List.isPrefixOf_iff_prefix.mpr h), hv]
  rfl

theorem cells_shown {N : Names} {res : Result} (hn : (res.columns.map Prod.fst).Nodup) (hw : N.word noValue = none)
    (hl : N.localVocab.length ≤ noValue) {name : Str} {row : Row} {c : Option Str} (h : Shows N res name row c)
    (hu : ∀ (col : Nat) (k : Kind), row[col]? = some noValue → res.kinds[col]? = some k → k = .kb ∨ k = .localVocab) :
    rowCell (jsonCell N) .null row (index res name) = .ok (c.elim .null .str) ∧
    rowCell (textCell N) [] row (index res name) = .ok (c.getD []) := by
  cases h with
  | missing hs hm =>
    unfold index
    rw [plain_stands hs, find_no_column hm]
    exact ⟨rfl, rfl⟩
  | @value v col id k c hs hc hr hk hv =>
    have hi : index res name = some (col, k) := by
      unfold index
      rw [plain_stands hs, find_column hn hc]
      simp only [Option.map_some, kindOf, List.getD_eq_getElem?_getD, hk, Option.getD_some]
    rw [hi]
    simp only [rowCell, read_row hr, Run.lift, Run.bind]
    cases hv with
    | unbound k =>
      rcases hu col k hr hk with rfl | rfl
      · simp only [jsonCell, textCell, hw, Option.elim, Option.getD, and_self]
      · have : localWord N noValue = none := List.getElem?_eq_none hl
        simp only [jsonCell, textCell, this, Option.elim, Option.getD, and_self]
    | @word _ w h1 h2 =>
      have h3 : wordText w = .ok w := by
        unfold wordText
        rw [if_neg (by rw [List.isPrefixOf_iff_prefix]; exact h2)]
      simp only [jsonCell, textCell, h1, h3, Run.map, Option.elim, Option.getD, and_self]
    | number h1 h2 h3 => simp only [jsonCell, textCell, h1, lift_text h2 h3, Run.map, Option.elim, Option.getD, and_self]
    | count h1 => exact ⟨rfl, rfl⟩
    | text h1 => simp only [jsonCell, textCell, if_neg h1, Option.elim, Option.getD, and_self]
    | float h1 => exact ⟨rfl, rfl⟩
    | made h1 =>
      have : localWord N _ = some _ := h1
      simp only [jsonCell, textCell, this, Option.elim, Option.getD, and_self]

/-! ### The response -/

theorem jsonTable_shown {N : Names} {res : Result} (hn : (res.columns.map Prod.fst).Nodup) (hw : N.word noValue = none)
    (hl : N.localVocab.length ≤ noValue) (hu : OnlyWordsUnbound res) {select : List Str} (hs : select ≠ []) {shown : Str → Row → Option Str}
    {rows : Table} (hrows : ∀ row ∈ rows, row ∈ res.rows) (hc : ∀ row ∈ rows, ∀ name ∈ select, Shows N res name row (shown name row)) :
    jsonTable N res select rows = .ok (.arr (rows.map fun row => .arr (select.map fun name => (shown name row).elim .null .str))) := by
  unfold jsonTable
  rw [if_neg hs, each_ok (g := fun row => .arr (select.map fun name => (shown name row).elim .null .str))]
  · rfl
  · intro row hr
    unfold jsonRow
    have : ∀ l : List Str, (∀ name ∈ l, name ∈ select) → each (rowCell (jsonCell N) .null row) (l.map (index res)) =
        .ok (l.map fun name => (shown name row).elim .null .str) := by
      intro l
      induction l with
      | nil => intro _; rfl
      | cons name l ih =>
        intro h
        rw [List.map_cons, each, (cells_shown hn hw hl (hc row hr name (h name (List.mem_cons_self ..))) (hu row (hrows row hr))).1,
          ih fun m hm => h m (List.mem_cons_of_mem _ hm)]
        rfl
    have h2 := this select fun _ h => h
    have h3 : validIndices res select = select.map (index res) := rfl
    rw [h3, h2]
    rfl

/-- The object that the response is made of, when it can be made. -/
theorem composeJson_shown (N : Names) (X : Extra) (query : Str) (select : List Str) (limit offset : Option Nat) (maxSend : Nat) (res : Result)
    (hn : (res.columns.map Prod.fst).Nodup) (hw : N.word noValue = none) (hl : N.localVocab.length ≤ noValue) (hu : OnlyWordsUnbound res)
    (hs : select ≠ []) (h1 : ∀ k ∈ limit, k < 2 ^ 63) (h2 : ∀ k ∈ offset, k < 2 ^ 63) (h3 : maxSend < 2 ^ 63) (shown : Str → Row → Option Str)
    (rows : Table) (hrows : rows = slice (some (min (limit.getD 100000) maxSend)) (offset.getD 0) res.rows)
    (hc : ∀ row ∈ rows, ∀ name ∈ select, Shows N res name row (shown name row)) :
    composeJson N X query select (written limit) (written offset) maxSend res = dump 0 (.obj [
      ("query".toList, .str query),
      ("res".toList, .arr (rows.map fun row => .arr (select.map fun name => (shown name row).elim .null .str))),
      ("resultsize".toList, .num (decimal res.rows.length)),
      ("runtimeInformation".toList, X.runtime),
      ("selected".toList, .arr (select.map .str)),
      ("status".toList, .str "OK".toList),
      ("time".toList, .obj [("computeResult".toList, .str X.computeResult), ("total".toList, .str X.total)]),
      ("warnings".toList, .arr (X.warnings.map .str))]) := by
  unfold composeJson
  rw [Modifiers.C20_json h1 h2 h3, ← hrows]
  simp only [Run.lift, Run.bind]
  rw [jsonTable_shown hn hw hl hu hs (by
    intro row hr
    rw [hrows] at hr
    unfold slice at hr
    simp only at hr
    exact List.mem_of_mem_drop (List.mem_of_mem_take hr)) hc]

theorem number_decimal (n : Nat) : Number (decimal n) := by
  have hd := Server.decimal_digits n
  refine ⟨fun c hc => by unfold isNum; rw [hd c hc]; rfl, ?_⟩
  cases h : decimal n with
  | nil => exact absurd h (by unfold decimal; exact Nat.toDigits_ne_nil)
  | cons c r =>
    refine ⟨c, r, rfl, ?_⟩
    rw [hd c (by rw [h]; exact List.mem_cons_self ..)]
    rfl

/-- The rows that the client of a JSON response reads are those that LIMIT, OFFSET and the bound of the server select, in order, with the
values of the selected variables in the order of the selection, and `null` for unbound variables; the response also repeats the query and
the selected names, and says how many rows the result has.
Missing for the full statement: unbound values in columns of numbers and texts (see below), and strings that are not UTF-8. -/
theorem C72_json_partial (N : Names) (X : Extra) (query : Str) (select : List Str) (limit offset : Option Nat) (maxSend : Nat) (res : Result)
    (hn : (res.columns.map Prod.fst).Nodup) (hw : N.word noValue = none) (hl : N.localVocab.length ≤ noValue) (hu : OnlyWordsUnbound res)
    (hs : select ≠ []) (h1 : ∀ k ∈ limit, k < 2 ^ 63) (h2 : ∀ k ∈ offset, k < 2 ^ 63) (h3 : maxSend < 2 ^ 63) (shown : Str → Row → Option Str)
    (rows : Table) (hrows : rows = slice (some (min (limit.getD 100000) maxSend)) (offset.getD 0) res.rows)
    (hc : ∀ row ∈ rows, ∀ name ∈ select, Shows N res name row (shown name row))
    (u1 : Utf8 query) (u2 : ∀ name ∈ select, Utf8 name) (u3 : ∀ row ∈ rows, ∀ name ∈ select, ∀ t, shown name row = some t → Utf8 t)
    (u4 : X.runtime.Valid) (u5 : ∀ w ∈ X.warnings, Utf8 w) (u6 : Utf8 X.total) (u7 : Utf8 X.computeResult) :
    ∃ t v, composeJson N X query select (written limit) (written offset) maxSend res = .ok t ∧ readJson t = some v ∧
      v.member "query".toList = some (.str query) ∧
      v.member "selected".toList = some (.arr (select.map .str)) ∧
      v.member "res".toList = some (.arr (rows.map fun row => .arr (select.map fun name => (shown name row).elim .null .str))) ∧
      v.member "resultsize".toList = some (.num (Nat.toDigits 10 res.rows.length)) ∧
      v.member "status".toList = some (.str "OK".toList) ∧
      v.member "warnings".toList = some (.arr (X.warnings.map .str)) ∧
      v.member "runtimeInformation".toList = some X.runtime := by
  rw [composeJson_shown N X query select limit offset maxSend res hn hw hl hu hs h1 h2 h3 shown rows hrows hc]
  obtain ⟨t, ht, hv⟩ := dump_json 0 (v := .obj [
      ("query".toList, .str query),
      ("res".toList, .arr (rows.map fun row => .arr (select.map fun name => (shown name row).elim .null .str))),
      ("resultsize".toList, .num (decimal res.rows.length)),
      ("runtimeInformation".toList, X.runtime),
      ("selected".toList, .arr (select.map .str)),
      ("status".toList, .str "OK".toList),
      ("time".toList, .obj [("computeResult".toList, .str X.computeResult), ("total".toList, .str X.total)]),
      ("warnings".toList, .arr (X.warnings.map .str))]) (by
    have strs : ∀ l : List Str, (∀ s ∈ l, Utf8 s) → ValidItems (l.map .str) := by
      intro l h
      apply validItems_of
      intro v hv
      obtain ⟨s, hs, rfl⟩ := List.mem_map.mp hv
      rw [Json.Valid]; exact h s hs
    have ascii : ∀ s : Str, (∀ c ∈ s, c.toNat < 128) → Utf8 s := fun s h => Server.utf8_of_ascii h
    simp only [Json.Valid, ValidMembers]
    refine ⟨ascii _ (by decide), u1, ascii _ (by decide), ?_, ascii _ (by decide), number_decimal _, ascii _ (by decide), u4, ascii _ (by decide),
      strs _ u2, ascii _ (by decide), ascii _ (by decide), ascii _ (by decide), ⟨ascii _ (by decide), u7, ascii _ (by decide), u6, trivial⟩,
      ascii _ (by decide), strs _ u5, trivial⟩
    apply validItems_of
    intro v hv
    obtain ⟨row, hr, rfl⟩ := List.mem_map.mp hv
    rw [Json.Valid]
    apply validItems_of
    intro v hv
    obtain ⟨name, hm, rfl⟩ := List.mem_map.mp hv
    cases hsh : shown name row with
    | none => simp only [Option.elim, Json.Valid]
    | some t =>
      simp only [Option.elim, Json.Valid]
      exact u3 row hr name hm t hsh)
  exact ⟨t, _, ht, hv, rfl, rfl, rfl, rfl, rfl, rfl, rfl⟩

/-- A query that is not UTF-8 is never answered, although it was executed, and neither is one with a selected value that is not. -/
theorem C72_not_utf8 (N : Names) (X : Extra) (query : Str) (select : List Str) (limit offset : Option Nat) (maxSend : Nat) (res : Result)
    (hn : (res.columns.map Prod.fst).Nodup) (hw : N.word noValue = none) (hl : N.localVocab.length ≤ noValue) (hu : OnlyWordsUnbound res)
    (hs : select ≠ []) (h1 : ∀ k ∈ limit, k < 2 ^ 63) (h2 : ∀ k ∈ offset, k < 2 ^ 63) (h3 : maxSend < 2 ^ 63) (shown : Str → Row → Option Str)
    (rows : Table) (hrows : rows = slice (some (min (limit.getD 100000) maxSend)) (offset.getD 0) res.rows)
    (hc : ∀ row ∈ rows, ∀ name ∈ select, Shows N res name row (shown name row))
    (b1 : ∀ c ∈ query, c.toNat < 256) (b2 : ∀ row ∈ rows, ∀ name ∈ select, ∀ t, shown name row = some t → ∀ c ∈ t, c.toNat < 256)
    (h : ¬ Utf8 query ∨ ∃ row ∈ rows, ∃ name ∈ select, ∃ t, shown name row = some t ∧ ¬ Utf8 t) :
    composeJson N X query select (written limit) (written offset) maxSend res = .throw notUtf8 := by
  rw [composeJson_shown N X query select limit offset maxSend res hn hw hl hu hs h1 h2 h3 shown rows hrows hc, dump]
  obtain ⟨m, hm, _⟩ := Server.dumpString_read (s := "query".toList) (Server.utf8_of_ascii (by unfold Ascii; decide))
  rw [hm]
  by_cases hq : Utf8 query
  · obtain ⟨row, hr, name, hname, t, ht, hnu⟩ := h.resolve_left (fun h => h hq)
    obtain ⟨t', ht', _⟩ := Server.dumpString_read hq
    obtain ⟨m2, hm2, _⟩ := Server.dumpString_read (s := "res".toList) (Server.utf8_of_ascii (by unfold Ascii; decide))
    have hv : ¬ (Json.arr (rows.map fun row => .arr (select.map fun name => (shown name row).elim .null .str))).Valid := by
      intro hv
      have mem : ∀ (l : List Json), ValidItems l → ∀ v ∈ l, v.Valid := by
        intro l
        induction l with
        | nil => intro _ v hv; cases hv
        | cons w l ih =>
          intro hl v hv
          rw [ValidItems] at hl
          rcases List.mem_cons.mp hv with rfl | hv
          · exact hl.1
          · exact ih hl.2 v hv
      rw [Json.Valid] at hv
      have h5 := mem _ hv _ (List.mem_map.mpr ⟨row, hr, rfl⟩)
      rw [Json.Valid] at h5
      have h6 := mem _ h5 _ (List.mem_map.mpr ⟨name, hname, rfl⟩)
      rw [ht] at h6
      simp only [Option.elim, Json.Valid] at h6
      exact hnu h6
    have hb : (Json.arr (rows.map fun row => .arr (select.map fun name => (shown name row).elim .null .str))).Bytes := by
      have all : ∀ (l : List Json), (∀ v ∈ l, v.Bytes) → BytesItems l := by
        intro l
        induction l with
        | nil => intro _; rw [BytesItems]; trivial
        | cons w l ih =>
          intro hl
          rw [BytesItems]
          exact ⟨hl w (List.mem_cons_self ..), ih fun v hv => hl v (List.mem_cons_of_mem _ hv)⟩
      rw [Json.Bytes]
      apply all
      intro v hv
      obtain ⟨row, hr, rfl⟩ := List.mem_map.mp hv
      rw [Json.Bytes]
      apply all
      intro v hv
      obtain ⟨name, hm, rfl⟩ := List.mem_map.mp hv
      cases hsh : shown name row with
      | none => simp only [Option.elim, Json.Bytes]
      | some t =>
        simp only [Option.elim, Json.Bytes]
        exact b2 row hr name hm t hsh
    simp only [dump, ht', dumpMembers, hm2, Run.bind, (C72_dump 4 _ hb).2 hv]
  · simp only [dump, Server.dumpString_throw b1 hq, Run.bind]

/-- Text with separators: if no shown value contains the separator or a newline, the client reads the selected rows, with empty cells for
unbound variables.
Missing for the full statement: values with such characters and the difference between unbound and empty (see below), an OFFSET without a
LIMIT (`C20_violated`), and unbound values in columns of numbers. -/
theorem C72_separated_partial (N : Names) (sep : Char) (hsep : sep ≠ '\n') (select : List Str) (limit offset : Option Nat) (res : Result)
    (hn : (res.columns.map Prod.fst).Nodup) (hw : N.word noValue = none) (hl : N.localVocab.length ≤ noValue) (hu : OnlyWordsUnbound res)
    (hs : select ≠ []) (h1 : ∀ k ∈ limit, k < 2 ^ 63) (h2 : ∀ k ∈ offset, k < 2 ^ 63) (h3 : res.rows.length < 2 ^ 64)
    (h4 : limit.isSome ∨ offset.getD 0 = 0) (shown : Str → Row → Option Str)
    (rows : Table) (hrows : rows = slice limit (offset.getD 0) res.rows)
    (hc : ∀ row ∈ rows, ∀ name ∈ select, Shows N res name row (shown name row))
    (hplain : ∀ row ∈ rows, ∀ name ∈ select, ∀ t, shown name row = some t → '\n' ∉ t ∧ sep ∉ t) :
    ∃ t, composeSepValues N sep select (written limit) (written offset) res = .ok t ∧
      readSeparated sep t = rows.map fun row => select.map fun name => (shown name row).getD [] := by
  have hmem : ∀ row ∈ rows, row ∈ res.rows := by
    intro row hr
    rw [hrows] at hr
    unfold slice at hr
    cases limit with
    | none => exact List.mem_of_mem_drop hr
    | some k => exact List.mem_of_mem_drop (List.mem_of_mem_take hr)
  have hcell : ∀ row ∈ rows, ∀ name ∈ select, rowCell (textCell N) [] row (index res name) = .ok ((shown name row).getD []) :=
    fun row hr name hm => (cells_shown hn hw hl (hc row hr name hm) (hu row (hmem row hr))).2
  let f : Row → Option (Nat × Kind) → Str := fun row o => match rowCell (textCell N) [] row o with | .ok t => t | _ => []
  have hf : ∀ row ∈ rows, ∀ name ∈ select, f row (index res name) = (shown name row).getD [] := by
    intro row hr name hm
    simp only [f, hcell row hr name hm]
  obtain ⟨ts, e1, e2⟩ := readRows_table N hsep f (select.map (index res)) (by simpa using hs) rows (by
    intro row hr o ho
    obtain ⟨name, hm, rfl⟩ := List.mem_map.mp ho
    rw [hf row hr name hm]
    refine ⟨hcell row hr name hm, ?_⟩
    cases hsh : shown name row with
    | none => exact ⟨List.not_mem_nil, List.not_mem_nil⟩
    | some t => exact hplain row hr name hm t hsh)
  refine ⟨ts.flatten, ?_, ?_⟩
  · unfold composeSepValues
    rw [Modifiers.C20_separated_partial h1 h2 h3 h4, ← hrows]
    simp only [Run.lift, Run.bind, textTable]
    have h5 : validIndices res select = select.map (index res) := rfl
    rw [if_neg hs, h5, e1]
    rfl
  · rw [readSeparated, e2]
    apply List.map_congr_left
    intro row hr
    rw [List.map_map]
    apply List.map_congr_left
    intro name hm
    exact hf row hr name hm

/-! ### The whole way -/

/-- A query over HTTP: if executing it in JSON composes the response from a result, the client reads the rows from the body. -/
theorem C72_client_partial (E : Engine) (fuel : Nat) (ps : List Http.Param) (tail q : Str) (g : Good E.lower fuel ps tail)
    (params : Http.Params) (hps : params = ps.map fun p => (E.lower p.name, p.value))
    (hq : ("query".toList, q) ∈ params) (hne : q ≠ [])
    (hcmd : ∀ v, ("cmd".toList, v) ∈ params → ServerSpec.lowerAscii v ≠ "stats".toList ∧ ServerSpec.lowerAscii v ≠ "cachestats".toList)
    (hact : ∀ v, ("action".toList, v) ∈ params → ServerSpec.lowerAscii v ≠ "csv_export".toList ∧ ServerSpec.lowerAscii v ≠ "tsv_export".toList)
    (N : Names) (X : Extra) (select : List Str) (limit offset : Option Nat) (maxSend : Nat) (res : Result)
    (hx : E.exec .json params q = composeJson N X q select (written limit) (written offset) maxSend res)
    (hn : (res.columns.map Prod.fst).Nodup) (hw : N.word noValue = none) (hl : N.localVocab.length ≤ noValue) (hu : OnlyWordsUnbound res)
    (hs : select ≠ []) (h1 : ∀ k ∈ limit, k < 2 ^ 63) (h2 : ∀ k ∈ offset, k < 2 ^ 63) (h3 : maxSend < 2 ^ 63) (shown : Str → Row → Option Str)
    (rows : Table) (hrows : rows = slice (some (min (limit.getD 100000) maxSend)) (offset.getD 0) res.rows)
    (hc : ∀ row ∈ rows, ∀ name ∈ select, Shows N res name row (shown name row))
    (u1 : Utf8 q) (u2 : ∀ name ∈ select, Utf8 name) (u3 : ∀ row ∈ rows, ∀ name ∈ select, ∀ t, shown name row = some t → Utf8 t)
    (u4 : X.runtime.Valid) (u5 : ∀ w ∈ X.warnings, Utf8 w) (u6 : Utf8 X.total) (u7 : Utf8 X.computeResult) :
    ∃ body v, Delivers (Server.process E fuel (queryLine ps tail)) "application/json; charset=utf-8".toList body ∧ readJson body = some v ∧
      v.member "res".toList = some (.arr (rows.map fun row => .arr (select.map fun name => (shown name row).elim .null .str))) := by
  obtain ⟨t, v, e1, e2, _, _, e3, _⟩ := C72_json_partial N X q select limit offset maxSend res hn hw hl hu hs h1 h2 h3 shown rows hrows hc
    u1 u2 u3 u4 u5 u6 u7
  exact ⟨t, v, Server.C71_query_partial E fuel ps tail q t g params hps hq hne hcmd hact (by rw [hx, e1]), e2, e3⟩

/-- A query that is not UTF-8 stops the server although it was executed without an error. -/
theorem C72_stops (E : Engine) (fuel : Nat) (ps : List Http.Param) (tail q : Str) (g : Good E.lower fuel ps tail)
    (params : Http.Params) (hps : params = ps.map fun p => (E.lower p.name, p.value))
    (hq : ("query".toList, q) ∈ params) (hqb : ∀ c ∈ q, c.toNat < 256)
    (hcmd : ∀ v, ("cmd".toList, v) ∈ params → ServerSpec.lowerAscii v ≠ "stats".toList ∧ ServerSpec.lowerAscii v ≠ "cachestats".toList)
    (hact : ∀ v, ("action".toList, v) ∈ params → ServerSpec.lowerAscii v ≠ "csv_export".toList ∧ ServerSpec.lowerAscii v ≠ "tsv_export".toList)
    (N : Names) (X : Extra) (select : List Str) (limit offset : Option Nat) (maxSend : Nat) (res : Result)
    (hx : E.exec .json params q = composeJson N X q select (written limit) (written offset) maxSend res)
    (hn : (res.columns.map Prod.fst).Nodup) (hw : N.word noValue = none) (hl : N.localVocab.length ≤ noValue) (hu : OnlyWordsUnbound res)
    (hs : select ≠ []) (h1 : ∀ k ∈ limit, k < 2 ^ 63) (h2 : ∀ k ∈ offset, k < 2 ^ 63) (h3 : maxSend < 2 ^ 63) (shown : Str → Row → Option Str)
    (rows : Table) (hrows : rows = slice (some (min (limit.getD 100000) maxSend)) (offset.getD 0) res.rows)
    (hc : ∀ row ∈ rows, ∀ name ∈ select, Shows N res name row (shown name row))
    (b2 : ∀ row ∈ rows, ∀ name ∈ select, ∀ t, shown name row = some t → ∀ c ∈ t, c.toNat < 256) (hqu : ¬ Utf8 q) :
    ∃ what, Server.process E fuel (queryLine ps tail) = .throw what := by
  have hx' := hx.trans (C72_not_utf8 N X q select limit offset maxSend res hn hw hl hu hs h1 h2 h3 shown rows hrows hc hqb b2 (.inl hqu))
  exact Server.C71_json_stops E fuel ps tail q notUtf8 g params hps hq hqb hcmd hact hx' hqu

/-- The error of C71 is a JSON text. -/
theorem errorJson_dump (msecs : Nat) (q w : Str) : Server.errorJson msecs q w = dump 0 (.obj [
    ("exception".toList, .str (w.takeWhile (· != '\x00'))), ("query".toList, .str q), ("resultsize".toList, .num "0".toList),
    ("status".toList, .str "ERROR".toList),
    ("time".toList, .obj [("computeResult".toList, .num (decimal msecs)), ("total".toList, .num (decimal msecs))])]) := by
  unfold Server.errorJson
  generalize w.takeWhile (· != '\x00') = w'
  generalize decimal msecs = d
  have k1 : dumpString "exception".toList = .ok "\"exception\"".toList := by decide +kernel
  have k2 : dumpString "query".toList = .ok "\"query\"".toList := by decide +kernel
  have k3 : dumpString "resultsize".toList = .ok "\"resultsize\"".toList := by decide +kernel
  have k4 : dumpString "status".toList = .ok "\"status\"".toList := by decide +kernel
  have k5 : dumpString "ERROR".toList = .ok "\"ERROR\"".toList := by decide +kernel
  have k6 : dumpString "time".toList = .ok "\"time\"".toList := by decide +kernel
  have k7 : dumpString "computeResult".toList = .ok "\"computeResult\"".toList := by decide +kernel
  have k8 : dumpString "total".toList = .ok "\"total\"".toList := by decide +kernel
  simp only [dump, dumpMembers, k1, k2, k3, k4, k5, k6, k7, k8, Run.bind]
  cases dumpString w' with
  | ok tw =>
    cases dumpString q with
    | ok tq =>
      simp only [Run.ok.injEq]
      rw [show "{\n    \"exception\": ".toList = '{' :: '\n' :: (spaces (0 + 4) ++ "\"exception\"".toList ++ [':', ' ']) by decide,
        show ",\n    \"query\": ".toList = ',' :: '\n' :: (spaces (0 + 4) ++ "\"query\"".toList ++ [':', ' ']) by decide,
        show ",\n    \"resultsize\": 0,\n    \"status\": \"ERROR\",\n    \"time\": {\n        \"computeResult\": ".toList =
          ',' :: '\n' :: (spaces (0 + 4) ++ "\"resultsize\"".toList ++ ':' :: ' ' :: ("0".toList ++
          ',' :: '\n' :: (spaces (0 + 4) ++ "\"status\"".toList ++ ':' :: ' ' :: ("\"ERROR\"".toList ++
          ',' :: '\n' :: (spaces (0 + 4) ++ "\"time\"".toList ++ ':' :: ' ' :: ('{' :: '\n' :: (spaces (0 + 4 + 4) ++
            "\"computeResult\"".toList ++ [':', ' ']))))))) by decide,
        show ",\n        \"total\": ".toList = ',' :: '\n' :: (spaces (0 + 4 + 4) ++ "\"total\"".toList ++ [':', ' ']) by decide,
        show "\n    }\n}".toList = '\n' :: (spaces (0 + 4) ++ '}' :: ('\n' :: (spaces 0 ++ ['}']))) by decide]
      simp only [List.append_assoc, List.cons_append, List.nil_append, List.append_nil]
    | throw w => rfl
    | ub => rfl
    | diverge => rfl
  | throw w => rfl
  | ub => rfl
  | diverge => rfl

/-- A query that fails, over HTTP: the body of the answer is a JSON text with the query and the text of the exception. -/
theorem C72_error (E : Engine) (fuel : Nat) (ps : List Http.Param) (tail q w : Str) (g : Good E.lower fuel ps tail)
    (params : Http.Params) (hps : params = ps.map fun p => (E.lower p.name, p.value))
    (hq : ("query".toList, q) ∈ params) (hne : q ≠ [])
    (hcmd : ∀ v, ("cmd".toList, v) ∈ params → lowerAscii v ≠ "stats".toList ∧ lowerAscii v ≠ "cachestats".toList)
    (hx : ∀ f, E.exec f params q = .throw w) (hw : Utf8 w) (hw0 : '\x00' ∉ w) (hqu : Utf8 q) :
    ∃ body v, Delivers (Server.process E fuel (queryLine ps tail)) "; charset=utf-8".toList body ∧ readJson body = some v ∧
      v.member "exception".toList = some (.str w) ∧ v.member "query".toList = some (.str q) ∧
      v.member "status".toList = some (.str "ERROR".toList) := by
  obtain ⟨j, hj, hd⟩ := Server.C71_error_body E fuel ps tail q w g params hps hq hne hcmd hx hw hqu
  rw [errorJson_dump] at hj
  have hcut : w.takeWhile (· != '\x00') = w := by
    rw [List.takeWhile_eq_self_iff]
    intro c hc
    simp only [bne_iff_ne]
    rintro rfl
    exact hw0 hc
  rw [hcut] at hj
  have ascii : ∀ s : Str, (∀ c ∈ s, c.toNat < 128) → Utf8 s := fun s h => Server.utf8_of_ascii h
  obtain ⟨t, ht, hv⟩ := dump_json 0 (v := .obj [
    ("exception".toList, .str w), ("query".toList, .str q), ("resultsize".toList, .num "0".toList),
    ("status".toList, .str "ERROR".toList),
    ("time".toList, .obj [("computeResult".toList, .num (decimal E.msecs)), ("total".toList, .num (decimal E.msecs))])]) (by
    simp only [Json.Valid, ValidMembers]
    exact ⟨ascii _ (by decide), hw, ascii _ (by decide), hqu, ascii _ (by decide), ⟨by decide, '0', [], rfl, rfl⟩, ascii _ (by decide),
      ascii _ (by decide), ascii _ (by decide), ⟨ascii _ (by decide), number_decimal _, ascii _ (by decide), number_decimal _, trivial⟩, trivial⟩)
  rw [ht] at hj
  cases hj
  exact ⟨j, _, hd, hv, rfl, rfl, rfl⟩

/-! ### Violations -/

/-- Names for the examples: the words `a`, an empty word, one with a comma, and one with a newline. -/
def demoNames : Names where
  word := fun id => (["a".toList, [], "b,c".toList, "b".toList, "c".toList, "b\nc".toList] : List Str)[id]?
  excerpt := fun _ => "x".toList
  float := fun _ => "1.5".toList
  localVocab := []

/-- A result with the variables `?x` and `?y`. -/
def demoResult (rows : Table) : Result := ⟨rows, [("?x".toList, 0), ("?y".toList, 1)], [.kb, .kb]⟩

/-- A result that meets the hypotheses: `?y` is unbound in the second row. -/
example : let res := demoResult [[0, 3], [4, noValue]]
    (res.columns.map Prod.fst).Nodup ∧ demoNames.word noValue = none ∧ OnlyWordsUnbound res ∧
    Shows demoNames res "?y".toList [0, 3] (some "b".toList) ∧ Shows demoNames res "?y".toList [4, noValue] none ∧
    Shows demoNames res "?z".toList [0, 3] none := by
  refine ⟨by decide, by decide +kernel, ?_, ?_, ?_, ?_⟩
  · intro row _ col k _ hk
    left
    match col with
    | 0 => cases hk; rfl
    | 1 => cases hk; rfl
    | _ + 2 => cases hk
  · exact .value (v := "?y".toList) (col := 1) (id := 3) (k := .kb) (.inl ⟨rfl, by decide⟩) (by decide) rfl rfl (.word rfl (by decide))
  · exact .value (v := "?y".toList) (col := 1) (id := noValue) (k := .kb) (.inl ⟨rfl, by decide⟩) (by decide) rfl rfl (.unbound _)
  · exact .missing (v := "?z".toList) (.inl ⟨rfl, by decide⟩) (by decide)

/-- Different tables are exported as the same text: a value with the separator is two values, one with a newline is two rows, and an
unbound variable is an empty value. -/
theorem C72_separated_violated :
    composeSepValues demoNames ',' ["?x".toList, "?y".toList] [] [] (demoResult [[2, 0]]) = .ok "b,c,a\n".toList ∧
    composeSepValues demoNames ',' ["?x".toList, "?y".toList] [] [] (demoResult [[3, noValue]]) =
      composeSepValues demoNames ',' ["?x".toList, "?y".toList] [] [] (demoResult [[3, 1]]) ∧
    composeSepValues demoNames ',' ["?x".toList] [] [] (demoResult [[5, 0]]) =
      composeSepValues demoNames ',' ["?x".toList] [] [] (demoResult [[3, 0], [4, 0]]) := by
  refine ⟨?_, ?_, ?_⟩ <;> decide +kernel

/-- An unbound variable in a column of numbers is exported as a number, in one of floating point numbers as such a number, and in one of
texts as the empty text. -/
theorem C72_unbound_violated (N : Names) : jsonCell N .verbatim noValue = .ok (.str "18446744073709551613".toList) ∧
    jsonCell N .float noValue = .ok (.str (N.float noValue)) ∧ jsonCell N .text noValue = .ok (.str []) ∧
    textCell N .verbatim noValue = .ok "18446744073709551613".toList := by
  refine ⟨?_, rfl, ?_, ?_⟩
  · rw [jsonCell, show decimal noValue = "18446744073709551613".toList by decide +kernel]
  · rw [jsonCell, if_pos rfl]
  · rw [textCell, show decimal noValue = "18446744073709551613".toList by decide +kernel]

end Verif.Export
