import Verif.Lemmas.Json
import Verif.Spec.Export
import Verif.Props.C18_C20_Modifiers
/-
Lemmas for C72: tables.
-/
namespace Verif.Export
open JsonSpec ServerSpec ExportSpec
open Server (Str Run dumpString decimal outOfRange notUtf8 dumpString_read dumpString_throw)

mutual
theorem dump_cases (i : Nat) : ∀ (v : Json), v.Bytes → v.Valid ∨ dump i v = .throw notUtf8
  | .null, _ => .inl (by rw [Json.Valid]; trivial)
  | .bool _, _ => .inl (by rw [Json.Valid]; trivial)
  | .num t, h => .inl (by rw [Json.Bytes] at h; rw [Json.Valid]; exact h)
  | .str s, h => by
    rw [Json.Bytes] at h
    by_cases hu : Utf8 s
    · exact .inl (by rw [Json.Valid]; exact hu)
    · exact .inr (by rw [dump, dumpString_throw h hu])
  | .arr [], _ => .inl (by rw [Json.Valid, ValidItems]; trivial)
  | .arr (v :: l), h => by
    rw [Json.Bytes, BytesItems] at h
    rcases dump_cases (i + 4) v h.1 with hv | hv
    · rcases items_cases (i + 4) l h.2 with hl | hl
      · exact .inl (by rw [Json.Valid, ValidItems]; exact ⟨hv, hl⟩)
      · obtain ⟨t, ht, _⟩ := dump_read (i + 4) v hv
        exact .inr (by rw [dump, ht, hl]; rfl)
    · exact .inr (by rw [dump, hv]; rfl)
  | .obj [], _ => .inl (by rw [Json.Valid, ValidMembers]; trivial)
  | .obj ((k, v) :: l), h => by
    rw [Json.Bytes, BytesMembers] at h
    by_cases hk : Utf8 k
    · obtain ⟨m, hm, _⟩ := dumpString_read hk
      rcases dump_cases (i + 4) v h.2.1 with hv | hv
      · rcases members_cases (i + 4) l h.2.2 with hl | hl
        · exact .inl (by rw [Json.Valid, ValidMembers]; exact ⟨hk, hv, hl⟩)
        · obtain ⟨t, ht, _⟩ := dump_read (i + 4) v hv
          exact .inr (by rw [dump, hm, ht, hl]; rfl)
      · exact .inr (by rw [dump, hm, hv]; rfl)
    · exact .inr (by rw [dump, dumpString_throw h.1 hk]; rfl)
theorem items_cases (i : Nat) : ∀ (l : List Json), BytesItems l → ValidItems l ∨ dumpItems i l = .throw notUtf8
  | [], _ => .inl (by rw [ValidItems]; trivial)
  | v :: l, h => by
    rw [BytesItems] at h
    rcases dump_cases i v h.1 with hv | hv
    · rcases items_cases i l h.2 with hl | hl
      · exact .inl (by rw [ValidItems]; exact ⟨hv, hl⟩)
      · obtain ⟨t, ht, _⟩ := dump_read i v hv
        exact .inr (by rw [dumpItems, ht, hl]; rfl)
    · exact .inr (by rw [dumpItems, hv]; rfl)
theorem members_cases (i : Nat) : ∀ (l : List (Str × Json)), BytesMembers l → ValidMembers l ∨ dumpMembers i l = .throw notUtf8
  | [], _ => .inl (by rw [ValidMembers]; trivial)
  | (k, v) :: l, h => by
    rw [BytesMembers] at h
    by_cases hk : Utf8 k
    · obtain ⟨m, hm, _⟩ := dumpString_read hk
      rcases dump_cases i v h.2.1 with hv | hv
      · rcases members_cases i l h.2.2 with hl | hl
        · exact .inl (by rw [ValidMembers]; exact ⟨hk, hv, hl⟩)
        · obtain ⟨t, ht, _⟩ := dump_read i v hv
          exact .inr (by rw [dumpMembers, hm, ht, hl]; rfl)
      · exact .inr (by rw [dumpMembers, hm, hv]; rfl)
    · exact .inr (by rw [dumpMembers, dumpString_throw h.1 hk]; rfl)
end

theorem dump_json (i : Nat) {v : Json} (h : v.Valid) : ∃ t, dump i v = .ok t ∧ readJson t = some v := by
  obtain ⟨t, h1, h2⟩ := dump_read i v h
  refine ⟨t, h1, ?_⟩
  have := h2 (t.length + 1) [] (by omega) (by intro c hc; cases hc)
  rw [List.append_nil] at this
  rw [readJson, this]
  rfl

theorem validItems_of (l : List Json) (h : ∀ v ∈ l, v.Valid) : ValidItems l := by
  induction l with
  | nil => rw [ValidItems]; trivial
  | cons v l ih =>
    rw [ValidItems]
    exact ⟨h v (List.mem_cons_self ..), ih fun w hw => h w (List.mem_cons_of_mem _ hw)⟩

theorem each_ok {f : α → Run β} {g : α → β} : ∀ (l : List α), (∀ a ∈ l, f a = .ok (g a)) → each f l = .ok (l.map g)
  | [], _ => rfl
  | a :: l, h => by
    rw [each, h a (List.mem_cons_self ..), each_ok l fun b hb => h b (List.mem_cons_of_mem _ hb)]
    rfl

theorem getLast_parens (v : Str) : rfindParen ("TEXT(".toList ++ v ++ [')']) = some (5 + v.length) := by
  unfold rfindParen
  have h : ("TEXT(".toList ++ v ++ [')']).length = 5 + v.length + 1 := by
    rw [List.length_append, List.length_append]; rfl
  rw [h, List.range_succ, List.filter_append, List.filter_cons_of_pos]
  · rw [List.filter_nil, List.getLast?_append]; rfl
  · have : ("TEXT(".toList ++ v).length = 5 + v.length := by rw [List.length_append]; rfl
    rw [← this, List.getElem?_concat_length]; rfl

theorem plainVar_text (v : Str) : plainVar ("TEXT(".toList ++ v ++ [')']) = v := by
  unfold plainVar
  rw [if_pos (by rw [List.append_assoc, List.isPrefixOf_iff_prefix]; exact List.prefix_append _ _), getLast_parens]
  simp only
  rw [show 5 + v.length - 5 = v.length by omega, List.append_assoc, List.drop_left' (by rfl), List.take_left' rfl]

theorem plainVar_other {v : Str} (h : ¬ "TEXT(".toList <+: v) : plainVar v = v := by
  unfold plainVar
  rw [if_neg (by rw [List.isPrefixOf_iff_prefix]; exact h)]

theorem find_column {columns : List (Str × Nat)} (hn : (columns.map Prod.fst).Nodup) {v : Str} {col : Nat} (h : (v, col) ∈ columns) :
    columns.find? (fun p => p.1 == v) = some (v, col) := by
  induction columns with
  | nil => cases h
  | cons p l ih =>
    rw [List.map_cons, List.nodup_cons] at hn
    rw [List.find?_cons]
    cases hp : p.1 == v with
    | true =>
      simp only [beq_iff_eq] at hp
      rcases List.mem_cons.mp h with rfl | h
      · rfl
      · exact absurd (List.mem_map.mpr ⟨_, h, hp.symm⟩) hn.1
    | false =>
      simp only
      apply ih hn.2
      rcases List.mem_cons.mp h with rfl | h
      · simp at hp
      · exact h

theorem find_no_column {columns : List (Str × Nat)} {v : Str} (h : v ∉ columns.map Prod.fst) :
    columns.find? (fun p => p.1 == v) = none := by
  rw [List.find?_eq_none]
  intro p hp he
  exact h (List.mem_map.mpr ⟨p, hp, by simpa using he⟩)

theorem read_row {row : Row} {col id : Nat} (h : row[col]? = some id) : Outcome.read row col = .ok id := by
  unfold Outcome.read
  rw [h]

/-! ### Rows with separators -/

theorem readRows_cell (sep : Char) (row : List Str) : ∀ (s cell r : Str), '\n' ∉ s → sep ∉ s →
    readRows sep row cell (s ++ r) = readRows sep row (cell ++ s) r
  | [], cell, r, _, _ => by rw [List.nil_append, List.append_nil]
  | c :: s, cell, r, h1, h2 => by
    rw [List.mem_cons, not_or] at h1 h2
    rw [List.cons_append, readRows, if_neg (Ne.symm h1.1), if_neg (Ne.symm h2.1), readRows_cell sep row s _ r h1.2 h2.2, List.append_assoc]
    rfl

theorem readRows_row (N : Names) {sep : Char} (hsep : sep ≠ '\n') (row : Row) (f : Option (Nat × Kind) → Str) : ∀ (l : List (Option (Nat × Kind))),
    l ≠ [] → (∀ o ∈ l, rowCell (textCell N) [] row o = .ok (f o) ∧ '\n' ∉ f o ∧ sep ∉ f o) →
    ∃ t, textRow N sep row l = .ok t ∧ ∀ cs r, readRows sep cs [] (t ++ r) = (cs ++ l.map f) :: readRows sep [] [] r
  | [], h, _ => absurd rfl h
  | [o], _, h => by
    obtain ⟨h1, h2, h3⟩ := h o (List.mem_cons_self ..)
    refine ⟨f o ++ ['\n'], by rw [textRow, h1]; rfl, ?_⟩
    intro cs r
    rw [List.append_assoc, readRows_cell _ _ _ _ _ h2 h3, List.cons_append, readRows, if_pos rfl]
    rfl
  | o :: o' :: l, _, h => by
    obtain ⟨h1, h2, h3⟩ := h o (List.mem_cons_self ..)
    obtain ⟨t, h4, h5⟩ := readRows_row N hsep row f (o' :: l) (by simp) fun p hp => h p (List.mem_cons_of_mem _ hp)
    refine ⟨f o ++ sep :: t, by rw [textRow, h1, h4]; simp, ?_⟩
    intro cs r
    rw [List.append_assoc, readRows_cell _ _ _ _ _ h2 h3, List.cons_append, readRows, if_neg hsep, if_pos rfl, h5, List.nil_append, List.append_assoc]
    rfl

theorem readRows_table (N : Names) {sep : Char} (hsep : sep ≠ '\n') (f : Row → Option (Nat × Kind) → Str) (l : List (Option (Nat × Kind))) (hl : l ≠ []) :
    ∀ (rows : Table), (∀ row ∈ rows, ∀ o ∈ l, rowCell (textCell N) [] row o = .ok (f row o) ∧ '\n' ∉ f row o ∧ sep ∉ f row o) →
    ∃ ts, each (fun row => textRow N sep row l) rows = .ok ts ∧ readRows sep [] [] ts.flatten = rows.map fun row => l.map (f row)
  | [], _ => ⟨[], rfl, rfl⟩
  | row :: rows, h => by
    obtain ⟨t, h1, h2⟩ := readRows_row N hsep row (f row) l hl (h row (List.mem_cons_self ..))
    obtain ⟨ts, h3, h4⟩ := readRows_table N hsep f l hl rows fun r hr => h r (List.mem_cons_of_mem _ hr)
    refine ⟨t :: ts, by rw [each, h1, h3]; rfl, ?_⟩
    rw [List.flatten_cons, h2, h4]
    rfl

end Verif.Export
