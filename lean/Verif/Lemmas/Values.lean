import Verif.Spec.Values
namespace Verif.Values
open Outcome

/-- The entries of a list where a flag is set. -/
def keep {α : Type} : List Bool → List α → List α
  | b :: bs, x :: xs => if b then x :: keep bs xs else keep bs xs
  | _, _ => []

theorem eraseAll_append {α : Type} (is js : List Nat) : ∀ l : List α,
    eraseAll l (is ++ js) = (eraseAll l is).bind fun l => eraseAll l js := by
  induction is with
  | nil => intro l; rfl
  | cons i is ih =>
    intro l
    simp only [List.cons_append, eraseAll]
    cases h : erase l i <;> simp [ih]

theorem eraseAll_cons {α : Type} (x : α) (is : List Nat) : ∀ l l' : List α, eraseAll l is = .ok l' →
    eraseAll (x :: l) (is.map (· + 1)) = .ok (x :: l') := by
  induction is with
  | nil => intro l l' h; simp only [eraseAll] at h; injection h with h; subst h; rfl
  | cons i is ih =>
    intro l l' h
    simp only [eraseAll, erase, List.map_cons, List.length_cons] at h ⊢
    by_cases hi : i < l.length
    · rw [if_pos hi] at h
      rw [if_pos (by omega)]
      simp only [Outcome.bind, List.eraseIdx_cons_succ] at h ⊢
      exact ih _ _ h
    · rw [if_neg hi] at h; simp at h

theorem unbound_succ (bs : List Bool) : ∀ i, unbound (i + 1) bs = (unbound i bs).map (· + 1) := by
  induction bs with
  | nil => intro i; rfl
  | cons b bs ih =>
    intro i
    unfold unbound
    cases b <;> simp [ih (i + 1)]

/-- Erasing from the back where the flag is not set keeps the others. -/
theorem eraseAll_keep {α : Type} (bs : List Bool) : ∀ l : List α, l.length = bs.length →
    eraseAll l (unbound 0 bs).reverse = .ok (keep bs l) := by
  induction bs with
  | nil =>
    intro l hl
    cases l with
    | nil => rfl
    | cons _ _ => simp at hl
  | cons b bs ih =>
    intro l hl
    cases l with
    | nil => simp at hl
    | cons x xs =>
      have := eraseAll_cons x _ _ _ (ih xs (by simpa using hl))
      unfold unbound keep
      cases b with
      | true =>
        simp only [if_true]
        rw [unbound_succ, ← List.map_reverse]
        exact this
      | false =>
        simp only [Bool.false_eq_true, if_false, List.reverse_cons]
        rw [unbound_succ, ← List.map_reverse, eraseAll_append, this]
        simp [eraseAll, erase]

theorem eraseInRows_spec (i : Nat) (rows : List (List Word)) (h : ∀ r ∈ rows, i < r.length) :
    eraseInRows i rows = .ok (rows.map fun r => r.eraseIdx i) := by
  induction rows with
  | nil => rfl
  | cons r rows ih =>
    unfold eraseInRows erase
    rw [if_pos (h r (by simp)), ih fun r hr => h r (List.mem_cons_of_mem _ hr)]
    rfl

theorem eraseVariables_spec (is : List Nat) : ∀ (vars vars' : List Word) (rows : List (List Word)) (g : List Word → List Word),
    eraseAll vars is = .ok vars' → (∀ r ∈ rows, eraseAll r is = .ok (g r)) →
    eraseVariables ⟨vars, rows⟩ is = .ok ⟨vars', rows.map g⟩ := by
  induction is with
  | nil =>
    intro vars vars' rows g hv hr
    simp only [eraseAll] at hv hr
    injection hv with hv
    subst hv
    simp only [eraseVariables]
    congr 2
    conv => lhs; rw [← List.map_id rows]
    apply List.map_congr_left
    intro r h
    have := hr r h
    injection this
  | cons i is ih =>
    intro vars vars' rows g hv hr
    have inb : ∀ {l l' : List Word}, eraseAll l (i :: is) = .ok l' → i < l.length ∧ eraseAll (l.eraseIdx i) is = .ok l' := by
      intro l l' h
      simp only [eraseAll, erase] at h
      by_cases hi : i < l.length
      · rw [if_pos hi] at h; exact ⟨hi, h⟩
      · rw [if_neg hi] at h; simp at h
    unfold eraseVariables
    rw [eraseInRows_spec i rows fun r h => (inb (hr r h)).1]
    simp only [erase]
    rw [if_pos (inb hv).1]
    simp only [Outcome.bind]
    let g' : List Word → List Word := fun r => match eraseAll r is with | .ok l => l | _ => []
    rw [ih _ vars' _ g' (inb hv).2]
    · rw [List.map_map]
      congr 2
      apply List.map_congr_left
      intro r h
      show (match eraseAll (r.eraseIdx i) is with | .ok l => l | _ => []) = g r
      rw [(inb (hr r h)).2]
    · intro r h
      obtain ⟨r', h', rfl⟩ := List.mem_map.mp h
      show eraseAll (r'.eraseIdx i) is = .ok (match eraseAll (r'.eraseIdx i) is with | .ok l => l | _ => [])
      rw [(inb (hr r' h')).2]

/-- The flags after the rows. -/
def flags (bound : List Bool) (rows : List (List Word)) : List Bool :=
  rows.foldl (fun b r => List.zipWith (fun b w => b || w != UNDEF) b r) bound

theorem scan_spec (n : Nat) (rows : List (List Word)) (h : ∀ r ∈ rows, r.length = n) : ∀ (i : Nat) (bound : List Bool)
    (empty : List Nat),
    scan n i bound empty rows = .ok (flags bound rows, empty ++ unbound i (rows.map fun r => r.any (· != UNDEF))) := by
  induction rows with
  | nil => intro i bound empty; simp [scan, flags, unbound]
  | cons r rows ih =>
    intro i bound empty
    unfold scan
    rw [if_neg (by rw [h r (by simp)]; simp), ih fun r hr => h r (List.mem_cons_of_mem _ hr)]
    simp only [List.map_cons, unbound, flags, List.foldl_cons]
    have e : r.all (· == UNDEF) = !(r.any (· != UNDEF)) := by
      induction r with
      | nil => rfl
      | cons w r _ =>
        have hb : ∀ r : List Word, r.all (· == UNDEF) = !(r.any (· != UNDEF)) := by
          intro r
          induction r with
          | nil => rfl
          | cons w r ih => simp only [List.all_cons, List.any_cons, ih, Bool.not_or, bne, Bool.not_not]
        exact hb _
    rw [e]
    cases r.any (· != UNDEF) <;> simp

theorem scan_throw (n : Nat) (rows : List (List Word)) (h : ¬ ∀ r ∈ rows, r.length = n) : ∀ (i : Nat) (bound : List Bool)
    (empty : List Nat), scan n i bound empty rows = .throw := by
  induction rows with
  | nil => simp at h
  | cons r rows ih =>
    intro i bound empty
    unfold scan
    by_cases hr : r.length = n
    · rw [if_neg (by simpa using hr)]
      apply ih
      intro hall
      apply h
      intro r' h'
      rcases List.mem_cons.mp h' with rfl | h'
      · exact hr
      · exact hall r' h'
    · rw [if_pos hr]

theorem flags_length (n : Nat) (rows : List (List Word)) : ∀ bound : List Bool, bound.length = n →
    (∀ r ∈ rows, r.length = n) → (flags bound rows).length = n := by
  induction rows with
  | nil => intro b hb _; exact hb
  | cons r rows ih =>
    intro b hb h
    exact ih _ (by simp [hb, h r (by simp)]) fun r hr => h r (List.mem_cons_of_mem _ hr)

theorem flags_get (n c : Nat) (hc : c < n) (rows : List (List Word)) : ∀ bound : List Bool, bound.length = n →
    (∀ r ∈ rows, r.length = n) → (flags bound rows)[c]? = some ((bound[c]?).getD false || boundCol rows c) := by
  induction rows with
  | nil => intro b hb _; simp [flags, boundCol, List.getElem?_eq_getElem (show c < b.length by omega)]
  | cons r rows ih =>
    intro b hb h
    have hr : r.length = n := h r (by simp)
    have := ih (List.zipWith (fun b w => b || w != UNDEF) b r) (by simp [hb, hr]) fun r hr => h r (List.mem_cons_of_mem _ hr)
    simp only [flags, List.foldl_cons] at this ⊢
    rw [this]
    congr 1
    have hb' : c < b.length := by omega
    have hr' : c < r.length := by omega
    rw [List.getElem?_eq_getElem (show c < (List.zipWith (fun b w => b || w != UNDEF) b r).length by simp; omega),
      List.getElem_zipWith, List.getElem?_eq_getElem hb']
    simp only [Option.getD_some, boundCol, List.any_cons, List.getElem?_eq_getElem hr']
    have : (some r[c] != some UNDEF) = (r[c] != UNDEF) := by
      simp [bne]
    rw [this, Bool.or_assoc]

theorem keep_eq {α : Type} (bs : List Bool) : ∀ l : List α, l.length = bs.length →
    keep bs l = (List.range l.length).filterMap fun c => if (bs[c]?).getD false then l[c]? else none := by
  induction bs with
  | nil => intro l hl; cases l with
    | nil => rfl
    | cons _ _ => simp at hl
  | cons b bs ih =>
    intro l hl
    cases l with
    | nil => simp at hl
    | cons x xs =>
      unfold keep
      rw [ih xs (by simpa using hl), List.length_cons, List.range_succ_eq_map, List.filterMap_cons, List.filterMap_map]
      cases b <;> simp [Function.comp_def]

theorem filterMap_congr' {α β : Type} (f g : α → Option β) (l : List α) (h : ∀ x ∈ l, f x = g x) :
    l.filterMap f = l.filterMap g := by
  induction l with
  | nil => rfl
  | cons x l ih => simp only [List.filterMap_cons, h x (by simp), ih fun y hy => h y (List.mem_cons_of_mem _ hy)]

theorem keep_flags {α : Type} (n : Nat) (rows : List (List Word)) (h : ∀ r ∈ rows, r.length = n) (l : List α) (hl : l.length = n) :
    keep (flags (List.replicate n false) rows) l = select rows l := by
  rw [keep_eq _ l (by rw [flags_length n rows _ (by simp) h, hl])]
  unfold select
  apply filterMap_congr'
  intro c hc
  have hc : c < n := by rw [← hl]; exact List.mem_range.mp hc
  rw [flags_get n c hc rows _ (by simp) h]
  simp [hc]

theorem keep_map {α : Type} (p : α → Bool) (l : List α) : keep (l.map p) l = l.filter p := by
  induction l with
  | nil => rfl
  | cons x l ih => simp only [List.map_cons, keep, List.filter_cons, ih]

theorem sanitize_spec (v : SparqlValues) (h : ∀ r ∈ v.values, r.length = v.variables.length) :
    sanitizeValues v =
      if nonEmptyRows v.values = [] then .throw
      else .ok ⟨select v.values v.variables, (nonEmptyRows v.values).map (select v.values)⟩ := by
  unfold sanitizeValues
  rw [scan_spec _ _ h]
  simp only [Outcome.bind, List.nil_append]
  rw [eraseAll_keep _ v.values (by simp), keep_map]
  simp only
  have fl := flags_length v.variables.length v.values (List.replicate v.variables.length false) (by simp) h
  rw [eraseVariables_spec _ _ (select v.values v.variables) _ (select v.values)]
  · simp only
    show (if (((nonEmptyRows v.values).map (select v.values)).isEmpty || (select v.values v.variables).isEmpty) = true then
      Outcome.throw else _) = _
    cases hn : nonEmptyRows v.values with
    | nil => simp
    | cons r rs =>
      have hr : r ∈ nonEmptyRows v.values := by rw [hn]; simp
      obtain ⟨hr1, hr2⟩ := List.mem_filter.mp hr
      obtain ⟨w, hw1, hw2⟩ := List.any_eq_true.mp hr2
      obtain ⟨c, hc, rfl⟩ := List.getElem_of_mem hw1
      have hlen := h r hr1
      have : (select v.values v.variables) ≠ [] := by
        intro e
        have : v.variables[c]'(by omega) ∈ select v.values v.variables := by
          unfold select
          rw [List.mem_filterMap]
          refine ⟨c, List.mem_range.mpr (by omega), ?_⟩
          rw [if_pos, List.getElem?_eq_getElem (by omega)]
          unfold boundCol
          rw [List.any_eq_true]
          refine ⟨r, hr1, ?_⟩
          rw [List.getElem?_eq_getElem hc]
          simpa using hw2
        rw [e] at this
        simp at this
      rw [if_neg (by rw [List.isEmpty_eq_false_iff.mpr this]; simp), if_neg (by simp)]
      rw [← hn]
      rfl
  · rw [← keep_flags v.variables.length v.values h v.variables rfl]
    exact eraseAll_keep _ _ (by rw [fl])
  · intro r hr
    have hr := (List.mem_filter.mp hr).1
    rw [← keep_flags v.variables.length v.values h r (h r hr)]
    exact eraseAll_keep _ _ (by rw [fl, h r hr])

/-! ### Writing -/

theorem writeRow_spec (getId : Word → Option Nat) (row : List Word) (cols written : Nat) (hrow : row.length = cols) :
    ∀ (k : Nat) (t : Table) (r : List Nat), k ≤ cols → t[written]? = some r → r.length = cols →
    match idRow getId (row.drop (cols - k)) with
    | some xs => writeRow getId row cols written t k = .ok (t.set written (r.take (cols - k) ++ xs), true)
    | none => ∃ r', r'.length = cols ∧ writeRow getId row cols written t k = .ok (t.set written r', false) := by
  intro k
  induction k with
  | zero =>
    intro t r _ ht hr
    rw [List.drop_eq_nil_of_le (by omega)]
    simp only [idRow, writeRow, List.append_nil, Nat.sub_zero]
    rw [List.take_of_length_le (by omega)]
    congr 2
    apply List.ext_getElem?
    intro i
    rw [List.getElem?_set]
    split
    · next e => subst e; split
                · exact ht
                · next hlt => rw [List.getElem?_eq_none (by omega)] at ht; simp at ht
    · rfl
  | succ k ih =>
    intro t r hk ht hr
    have hlt : cols - (k + 1) < row.length := by omega
    have hw : written < t.length := by
      rcases Nat.lt_or_ge written t.length with h | h
      · exact h
      · rw [List.getElem?_eq_none h] at ht; simp at ht
    unfold writeRow
    rw [Outcome.read_lt row _ hlt, List.drop_eq_getElem_cons hlt]
    simp only [Outcome.bind, idRow]
    have e1 : cols - (k + 1) + 1 = cols - k := by omega
    cases hg : getId row[cols - (k + 1)] with
    | none =>
      simp only [Option.bind_none]
      refine ⟨r, hr, ?_⟩
      congr 2
      apply List.ext_getElem?
      intro i
      rw [List.getElem?_set]
      split
      · next e => subst e; exact ht
      · rfl
    | some x =>
      simp only [Option.bind_some]
      have hs : setCell t written (cols - (k + 1)) x = .ok (t.set written (r.set (cols - (k + 1)) x)) := by
        unfold setCell
        rw [ht]
        simp only
        rw [if_pos (by omega)]
      rw [hs]
      simp only
      have := ih (t.set written (r.set (cols - (k + 1)) x)) (r.set (cols - (k + 1)) x) (by omega)
        (by rw [List.getElem?_set]; simp [hw]) (by simpa using hr)
      rw [e1]
      cases hid : idRow getId (row.drop (cols - k)) with
      | none =>
        rw [hid] at this
        obtain ⟨r', h1, h2⟩ := this
        exact ⟨r', h1, by rw [h2, List.set_set]⟩
      | some xs =>
        rw [hid] at this
        simp only [Option.map_some] at this ⊢
        rw [this, List.set_set]
        congr 3
        have : cols - k = (cols - (k + 1)) + 1 := by omega
        rw [this, List.take_succ_eq_append_getElem (by simp; omega)]
        simp [List.take_set_of_le]

theorem take_set_self (t : Table) (i : Nat) (r : List Nat) (h : i < t.length) : (t.set i r).take (i + 1) = t.take i ++ [r] := by
  rw [List.take_succ_eq_append_getElem (by simpa using h)]
  simp [List.take_set_of_le]

theorem writeRows_spec (getId : Word → Option Nat) (cols : Nat) (rows : List (List Word)) (hrows : ∀ r ∈ rows, r.length = cols) :
    ∀ (t : Table) (written skipped : Nat), (∀ r ∈ t, r.length = cols) → written + rows.length ≤ t.length →
    ∃ t', writeRows getId cols t written skipped rows =
        .ok (t', written + (rows.filterMap (idRow getId)).length, skipped + (rows.length - (rows.filterMap (idRow getId)).length)) ∧
      t'.take (written + (rows.filterMap (idRow getId)).length) = t.take written ++ rows.filterMap (idRow getId) := by
  induction rows with
  | nil => intro t w s _ _; exact ⟨t, by simp [writeRows], by simp⟩
  | cons row rows ih =>
    intro t w s ht hlen
    have hrow := hrows row (by simp)
    have hw : w < t.length := by simp at hlen; omega
    have hget : t[w]? = some t[w] := List.getElem?_eq_getElem hw
    have hspec := writeRow_spec getId row cols w hrow cols t t[w] (Nat.le_refl _) hget (ht _ (List.getElem_mem hw))
    simp only [Nat.sub_self, List.drop_zero, List.take_zero, List.nil_append] at hspec
    have ih := ih fun r hr => hrows r (List.mem_cons_of_mem _ hr)
    have hset : ∀ r' : List Nat, r'.length = cols → ∀ r ∈ t.set w r', r.length = cols := by
      intro r' h' r hr
      rcases List.mem_or_eq_of_mem_set hr with h | h
      · exact ht r h
      · rw [h]; exact h'
    have hle := List.length_filterMap_le (idRow getId) rows
    unfold writeRows
    rw [List.filterMap_cons]
    cases hid : idRow getId row with
    | none =>
      rw [hid] at hspec
      obtain ⟨r', h1, h2⟩ := hspec
      rw [h2]
      simp only [Outcome.bind, Bool.false_eq_true, if_false]
      obtain ⟨t', e1, e2⟩ := ih (t.set w r') w (s + 1) (hset r' h1) (by simp at hlen ⊢; omega)
      refine ⟨t', ?_, ?_⟩
      · rw [e1]; congr 3; simp only [List.length_cons]; omega
      · rw [e2, List.take_set_of_le (Nat.le_refl _)]
    | some xs =>
      rw [hid] at hspec
      simp only at hspec
      rw [hspec]
      simp only [Outcome.bind, if_true]
      have hxs : ∀ (ws : List Word) (xs : List Nat), idRow getId ws = some xs → xs.length = ws.length := by
        intro ws
        induction ws with
        | nil => intro xs h; simp [idRow] at h; subst h; rfl
        | cons w ws ih =>
          intro xs h
          simp only [idRow] at h
          cases hg : getId w with
          | none => rw [hg] at h; simp at h
          | some x =>
            rw [hg] at h
            simp only [Option.bind_some] at h
            cases hr : idRow getId ws with
            | none => rw [hr] at h; simp at h
            | some ys => rw [hr] at h; simp at h; subst h; simp [ih ys hr]
      obtain ⟨t', e1, e2⟩ := ih (t.set w xs) (w + 1) s (hset xs (by rw [hxs row xs hid, hrow])) (by simp at hlen ⊢; omega)
      refine ⟨t', ?_, ?_⟩
      · rw [e1]; congr 3 <;> simp only [List.length_cons] <;> omega
      · have : w + (xs :: rows.filterMap (idRow getId)).length = w + 1 + (rows.filterMap (idRow getId)).length := by
          simp only [List.length_cons]; omega
        rw [this, e2, take_set_self t w xs hw, List.append_assoc]
        rfl

theorem writeValues_spec (getId : Word → Option Nat) (v : SparqlValues) (h : ∀ r ∈ v.values, r.length = v.variables.length) :
    writeValues getId v = .ok (v.values.filterMap (idRow getId)) := by
  unfold writeValues
  obtain ⟨t', e1, e2⟩ := writeRows_spec getId v.variables.length v.values h
    (List.replicate v.values.length (List.replicate v.variables.length 0)) 0 0
    (by intro r hr; rw [List.eq_of_mem_replicate hr]; simp) (by simp)
  rw [e1]
  have hle := List.length_filterMap_le (idRow getId) v.values
  simp only [Outcome.bind]
  rw [if_pos (by omega)]
  simpa using e2

theorem select_length {α β : Type} (rows : List (List Word)) (l : List α) (m : List β) (h : l.length = m.length) :
    (select rows l).length = (select rows m).length := by
  unfold select
  rw [← h, List.length_filterMap_eq_countP, List.length_filterMap_eq_countP]
  apply List.countP_congr
  intro c hc
  have hc := List.mem_range.mp hc
  cases boundCol rows c <;> simp [List.getElem?_eq_getElem hc, List.getElem?_eq_getElem (show c < m.length by omega)]

end Verif.Values
