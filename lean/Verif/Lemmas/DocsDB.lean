import Verif.Lemmas.ExternalVocabulary
import Verif.Lemmas.Conversions
import Verif.Model.DocsDB
import Verif.Spec.DocsDB
/-
Helper lemmas for C51.
-/
namespace Verif.DocsDB
open Verif.Bytes Verif.ExternalVocabulary Verif.DocsDBSpec
open Verif.ConversionsSpec (natOf)
open Verif.Conversions (chars Digits digitChar natOf_cons)

/-! ### Lines -/

theorem digit_facts : ∀ k, k < 10 → isSpace (digitChar k) = false ∧ digitChar k ≠ '-' ∧ digitChar k ≠ '+' ∧ digitChar k ≠ '\t' ∧ digitChar k ≠ '\n' ∧
    ('0' ≤ digitChar k ∧ digitChar k ≤ '9') ∧ (digitChar k).toNat - 48 = k := by decide

theorem atol_chars (ds : List Nat) (h : Digits ds) (hn : natOf ds < 2 ^ 63) : atol (chars ds) = .ok (natOf ds : Int) := by
  have h1 : (chars ds).dropWhile isSpace = chars ds := by
    cases ds with
    | nil => rfl
    | cons d ds => rw [chars, List.map_cons, List.dropWhile_cons, (digit_facts d (h d List.mem_cons_self)).1]; rfl
  have h2 : (chars ds).head? ≠ some '-' ∧ (chars ds).head? ≠ some '+' := by
    cases ds with
    | nil => exact ⟨by simp [chars], by simp [chars]⟩
    | cons d ds =>
      have := digit_facts d (h d List.mem_cons_self)
      exact ⟨fun h => this.2.1 (Option.some.inj h), fun h => this.2.2.1 (Option.some.inj h)⟩
  have h3 : (chars ds).takeWhile (fun c => decide ('0' ≤ c ∧ c ≤ '9')) = chars ds := by
    rw [List.takeWhile_eq_self_iff]
    intro c hc
    obtain ⟨d, hd, rfl⟩ := List.mem_map.1 hc
    simpa using (digit_facts d (h d hd)).2.2.2.2.2.1
  have h4 : (chars ds).foldl (fun n c => 10 * n + (c.toNat - 48)) 0 = natOf ds := by
    rw [chars, natOf, List.foldl_map]
    have : ∀ (ds : List Nat) n, Digits ds → ds.foldl (fun n d => 10 * n + ((digitChar d).toNat - 48)) n = ds.foldl (fun n d => 10 * n + d) n := by
      intro ds
      induction ds with
      | nil => intro _ _; rfl
      | cons d ds ih =>
        intro n h
        rw [List.foldl_cons, List.foldl_cons, (digit_facts d (h d List.mem_cons_self)).2.2.2.2.2.2, ih _ fun x hx => h x (List.mem_cons_of_mem _ hx)]
    exact this ds 0 h
  have h5 : (if (chars ds).head? = some '-' ∨ (chars ds).head? = some '+' then (chars ds).drop 1 else chars ds) = chars ds :=
    if_neg (by rintro (h | h); exacts [h2.1 h, h2.2 h])
  rw [atol, h1, h5, h3, h4, if_pos hn]
  simp [h2.1]

theorem parseLine_line (d : Doc) (h : ∀ k ∈ d.digits, k < 10) (hn : d.id < 2 ^ 63) : parseLine d.line = .ok (d.id, d.text) := by
  have hno : '\t' ∉ chars d.digits := by
    intro hc
    obtain ⟨k, hk, he⟩ := List.mem_map.1 hc
    exact (digit_facts k (h k hk)).2.2.2.1 he
  have hf : d.line.findIdx? (· = '\t') = some (chars d.digits).length := by
    have : ∀ (a b : Word), '\t' ∉ a → (a ++ '\t' :: b).findIdx? (· = '\t') = some a.length := by
      intro a b
      induction a with
      | nil => intro _; rw [List.nil_append, List.findIdx?_cons, if_pos (by simp)]; rfl
      | cons c a ih =>
        intro h
        simp only [List.mem_cons, not_or] at h
        rw [List.cons_append, List.findIdx?_cons, if_neg (by simpa using Ne.symm h.1), ih h.2]
        rfl
    exact this _ _ hno
  have e : d.line = (chars d.digits ++ ['\t']) ++ d.text := by rw [Doc.line, List.append_assoc]; rfl
  have ht : d.line.take (chars d.digits).length = chars d.digits := by rw [e, List.append_assoc, List.take_left]
  have hd : d.line.drop ((chars d.digits).length + 1) = d.text := by
    rw [e, show (chars d.digits).length + 1 = (chars d.digits ++ ['\t']).length by simp, List.drop_left]
  have hn' : natOf d.digits < 2 ^ 63 := hn
  rw [parseLine, hf]
  dsimp only
  rw [ht, hd, atol_chars _ h hn']
  simp only [Outcome.map, toUnsigned_small (show natOf d.digits < 2 ^ 64 by omega)]
  rfl

theorem getLines_file (docs : List Doc) (hd : ∀ d ∈ docs, ∀ k ∈ d.digits, k < 10) (ht : ∀ d ∈ docs, '\n' ∉ d.text) :
    getLines [] (file docs) = docs.map Doc.line := by
  induction docs with
  | nil => rfl
  | cons d docs ih =>
    have hno : '\n' ∉ d.line := by
      intro h
      rcases List.mem_append.1 h with h | h
      · obtain ⟨k, hk, he⟩ := List.mem_map.1 h
        exact (digit_facts k (hd d List.mem_cons_self k hk)).2.2.2.2.1 he
      · rcases List.mem_cons.1 h with h | h
        · exact absurd h (by decide)
        · exact ht d List.mem_cons_self h
    have e : file (d :: docs) = d.line ++ '\n' :: file docs := by simp [file]
    rw [e, getLines_line _ _ _ hno, List.reverse_nil, List.nil_append, List.map_cons,
      ih (fun x hx => hd x (List.mem_cons_of_mem _ hx)) fun x hx => ht x (List.mem_cons_of_mem _ hx)]

/-! ### The texts by id -/

/-- The text for every id, empty for ids without document. -/
def slots (cur : Nat) : List Doc → List Word
  | [] => []
  | d :: docs => List.replicate (d.id - cur) [] ++ d.text :: slots (cur + (d.id - cur) + 1) docs

theorem slots_flatten (docs : List Doc) : ∀ cur, (slots cur docs).flatten = docs.flatMap Doc.text := by
  induction docs with
  | nil => intro _; rfl
  | cons d docs ih =>
    intro cur
    have : ∀ n, (List.replicate n ([] : Word)).flatten = [] := by intro n; induction n with
      | zero => rfl
      | succ n ih => rw [List.replicate_succ, List.flatten_cons, ih]; rfl
    rw [slots, List.flatten_append, List.flatten_cons, ih, this, List.flatMap_cons, List.nil_append]

theorem offsets_empty (n cur : Nat) (ws : List Word) : offsets cur (List.replicate n [] ++ ws) = List.replicate n cur ++ offsets cur ws := by
  induction n with
  | zero => rfl
  | succ n ih => rw [List.replicate_succ, List.cons_append, offsets, List.length_nil, Nat.add_zero, ih]; rfl

theorem addLines_docs (docs : List Doc) (hd : ∀ d ∈ docs, ∀ k ∈ d.digits, k < 10) (hn : ∀ d ∈ docs, d.id < 2 ^ 63) : ∀ s : State,
    ∃ s', addLines s (docs.map Doc.line) = .ok s' ∧ s'.written = s.written ++ docs.flatMap Doc.text ∧
      s'.offsets ++ [s'.currentOffset] = s.offsets ++ offsets s.currentOffset (slots s.currentContextId docs) := by
  induction docs with
  | nil => intro s; exact ⟨s, rfl, by simp, rfl⟩
  | cons d docs ih =>
    intro s
    obtain ⟨s', h1, h2, h3⟩ := ih (fun x hx => hd x (List.mem_cons_of_mem _ hx)) (fun x hx => hn x (List.mem_cons_of_mem _ hx)) (addLine s (d.id, d.text))
    refine ⟨s', ?_, ?_, ?_⟩
    · rw [List.map_cons, addLines, parseLine_line d (hd d List.mem_cons_self) (hn d List.mem_cons_self)]
      exact h1
    · rw [h2, List.flatMap_cons, ← List.append_assoc]; rfl
    · rw [h3, slots, offsets_empty, offsets]
      simp [addLine]

theorem slots_length (docs : List Doc) : ∀ cur, (∀ d ∈ docs, cur ≤ d.id) → docs.Pairwise (fun a b => a.id < b.id) →
    (slots cur docs).length = match docs.getLast? with | none => 0 | some d => d.id + 1 - cur := by
  induction docs with
  | nil => intro _ _ _; rfl
  | cons d docs ih =>
    intro cur hc hp
    rw [List.pairwise_cons] at hp
    have h1 := hc d List.mem_cons_self
    rw [slots, List.length_append, List.length_replicate, List.length_cons, ih _ (fun x hx => by have := hp.1 x hx; omega) hp.2]
    cases docs with
    | nil => simp; omega
    | cons e es =>
      rw [List.getLast?_cons_cons]
      obtain ⟨l, hl⟩ : ∃ l, (e :: es).getLast? = some l := ⟨_, List.getLast?_eq_some_getLast (by simp)⟩
      rw [hl]
      have := hp.1 l (List.mem_of_getLast? hl)
      simp only
      omega

theorem find_congr {α : Type} (l : List α) (p q : α → Bool) (h : ∀ x ∈ l, p x = q x) : l.find? p = l.find? q := by
  induction l with
  | nil => rfl
  | cons a l ih => rw [List.find?_cons, List.find?_cons, h a List.mem_cons_self, ih fun x hx => h x (List.mem_cons_of_mem _ hx)]

/-- The first text that is not empty. -/
theorem slots_find (docs : List Doc) : ∀ cur i, (∀ d ∈ docs, cur ≤ d.id) → docs.Pairwise (fun a b => a.id < b.id) → cur ≤ i →
    match docs.find? fun d => decide (i ≤ d.id) && decide (d.text ≠ []) with
    | some d => i ≤ d.id ∧ d.text ≠ [] ∧ (slots cur docs)[d.id - cur]? = some d.text ∧ ∀ k, i ≤ k → k < d.id → (slots cur docs)[k - cur]? = some []
    | none => ∀ k w, i ≤ k → (slots cur docs)[k - cur]? = some w → w = [] := by
  induction docs with
  | nil => intro cur i _ _ _; simp [slots]
  | cons d docs ih =>
    intro cur i hc hp hi
    rw [List.pairwise_cons] at hp
    have hd := hc d List.mem_cons_self
    have hcur : cur + (d.id - cur) + 1 = d.id + 1 := by omega
    -- the texts
    have s1 : ∀ k, cur ≤ k → k < d.id → (slots cur (d :: docs))[k - cur]? = some [] := by
      intro k h1 h2
      rw [slots, List.getElem?_append_left (by rw [List.length_replicate]; omega), List.getElem?_replicate, if_pos (by omega)]
    have s2 : (slots cur (d :: docs))[d.id - cur]? = some d.text := by
      rw [slots, List.getElem?_append_right (by rw [List.length_replicate]), List.length_replicate, Nat.sub_self]
      rfl
    have s3 : ∀ k, d.id + 1 ≤ k → (slots cur (d :: docs))[k - cur]? = (slots (d.id + 1) docs)[k - (d.id + 1)]? := by
      intro k h1
      rw [slots, List.getElem?_append_right (by rw [List.length_replicate]; omega), List.length_replicate, hcur]
      rw [show k - cur - (d.id - cur) = (k - (d.id + 1)) + 1 by omega, List.getElem?_cons_succ]
    have hrest : ∀ x ∈ docs, d.id + 1 ≤ x.id := fun x hx => hp.1 x hx
    by_cases h1 : i ≤ d.id ∧ d.text ≠ []
    · rw [List.find?_cons_of_pos (by simpa using h1)]
      exact ⟨h1.1, h1.2, s2, fun k hk hk' => s1 k (by omega) hk'⟩
    · rw [List.find?_cons_of_neg (by simpa using h1)]
      by_cases h2 : i ≤ d.id
      · have ht : d.text = [] := by by_contra h; exact h1 ⟨h2, h⟩
        have hfind : docs.find? (fun x => decide (i ≤ x.id) && decide (x.text ≠ [])) = docs.find? (fun x => decide (d.id + 1 ≤ x.id) && decide (x.text ≠ [])) := by
          apply find_congr
          intro x hx
          have := hrest x hx
          rw [decide_eq_true (show i ≤ x.id by omega), decide_eq_true this]
        rw [hfind]
        have := ih (d.id + 1) (d.id + 1) hrest hp.2 (Nat.le_refl _)
        cases hf : docs.find? (fun x => decide (d.id + 1 ≤ x.id) && decide (x.text ≠ [])) with
        | some e =>
          rw [hf] at this
          obtain ⟨a, b, c, e2⟩ := this
          refine ⟨by omega, b, by rw [s3 _ a]; exact c, fun k hk hk' => ?_⟩
          rcases Nat.lt_trichotomy k d.id with h | h | h
          · exact s1 k (by omega) h
          · rw [h, s2, ht]
          · rw [s3 k h]; exact e2 k h hk'
        | none =>
          rw [hf] at this
          intro k w hk hw
          rcases Nat.lt_trichotomy k d.id with h | h | h
          · rw [s1 k (by omega) h] at hw; exact (Option.some.inj hw).symm
          · rw [h, s2, ht] at hw; exact (Option.some.inj hw).symm
          · rw [s3 k h] at hw; exact this k w h hw
      · have := ih (d.id + 1) i hrest hp.2 (by omega)
        cases hf : docs.find? (fun x => decide (i ≤ x.id) && decide (x.text ≠ [])) with
        | some e =>
          rw [hf] at this
          obtain ⟨a, b, c, e2⟩ := this
          exact ⟨a, b, by rw [s3 _ (by omega)]; exact c, fun k hk hk' => by rw [s3 k (by omega)]; exact e2 k hk hk'⟩
        | none =>
          rw [hf] at this
          intro k w hk hw
          rw [s3 k (by omega)] at hw
          exact this k w hk hw

/-! ### Reading -/

/-- The documents as they are read. -/
def dbOf (ws : List Word) : DB := ⟨fileOf ws, ws.flatten.length⟩

theorem init_fileOf (ws : List Word) (h : Fits ws) : init (fileOf ws) = .ok (dbOf ws) := by
  have h1 := build_spec ws h
  rw [buildFromVector, initFromFile] at h1
  have hne : fileOf ws ≠ [] := by
    intro h0
    have := length_fileOf ws
    rw [h0] at this
    simp at this
  rw [if_neg hne] at h1
  rw [init]
  cases hr : fileRead (fileOf ws) ((fileOf ws).length - 8 : Int) 8 with
  | ok b =>
    simp only [hr, Outcome.map] at h1
    have h2 := Outcome.ok.inj h1
    have h3 : toSigned (ofLE b) = ws.flatten.length := congrArg Vocab.start h2
    simp only [Outcome.map, h3]
    rfl
  | throw => simp only [hr, Outcome.map] at h1; cases h1
  | ub => simp only [hr, Outcome.map] at h1; cases h1
  | diverge => simp only [hr, Outcome.map] at h1; cases h1

/-- Where a text begins. -/
def startOf (ws : List Word) (i : Nat) : Nat := (ws.take i).flatten.length

theorem startOf_le (ws : List Word) (i : Nat) : startOf ws i ≤ ws.flatten.length := by
  have := congrArg List.length (congrArg List.flatten (List.take_append_drop i ws))
  rw [List.flatten_append, List.length_append] at this
  rw [startOf]; omega

theorem startOf_succ (ws : List Word) (i : Nat) (w : Word) (h : ws[i]? = some w) : startOf ws (i + 1) = startOf ws i + w.length := by
  obtain ⟨hi, he⟩ := List.getElem?_eq_some_iff.1 h
  rw [startOf, startOf, List.take_succ_eq_append_getElem hi, he]
  simp

/-- Reading one offset. -/
theorem read_offset (ws : List Word) (hf : Fits ws) (k : Nat) (hk : k ≤ ws.length) :
    fileRead (dbOf ws).bytes (toSigned (ws.flatten.length + k * 8)) 8 = .ok (toLE 8 (startOf ws k)) := by
  unfold Fits at hf
  have h1 := offsets_get 0 ws k hk
  rw [Nat.zero_add] at h1
  obtain ⟨h2, h3⟩ := List.getElem?_eq_some_iff.1 h1
  have hs : (offsets 0 ws) = (offsets 0 ws).take k ++ (startOf ws k :: (offsets 0 ws).drop (k + 1)) := by
    conv => lhs; rw [← List.take_append_drop k (offsets 0 ws), List.drop_eq_getElem_cons h2, h3]
    rfl
  have : (dbOf ws).bytes = (ws.flatten.map Char.toNat ++ ofArr 8 ((offsets 0 ws).take k)) ++ toLE 8 (startOf ws k) ++ ofArr 8 ((offsets 0 ws).drop (k + 1)) := by
    rw [dbOf, fileOf]
    conv => lhs; rw [hs]
    rw [ofArr_append, ofArr_cons]
    simp [List.append_assoc]
  rw [this, toSigned_small (by omega)]
  apply fileRead_mid
  · simp only [List.length_append, List.length_map, length_ofArr, List.length_take, offsets_length]
    omega
  · simp

/-- Reading behind the file. -/
theorem read_behind (ws : List Word) (k n : Nat) (hk : ws.flatten.length + k * 8 < 2 ^ 63) (hl : (ws.length + 1) * 8 < k * 8 + n) (hn : n ≠ 0) :
    fileRead (dbOf ws).bytes (toSigned (ws.flatten.length + k * 8)) n = .diverge := by
  have hl' := length_fileOf ws
  rw [toSigned_small hk, fileRead, if_neg hn, if_neg (by omega), if_neg]
  show ¬ (_ ≤ (fileOf ws).length)
  rw [hl']
  omega

/-- Reading the first two offsets. -/
theorem read_two (ws : List Word) (hf : Fits ws) (i : Nat) (hi : i < ws.length) :
    fileRead (dbOf ws).bytes (toSigned (ws.flatten.length + i * 8)) 16 = .ok (toLE 8 (startOf ws i) ++ toLE 8 (startOf ws (i + 1))) := by
  unfold Fits at hf
  have h1 := offsets_get 0 ws i (by omega)
  have h2 := offsets_get 0 ws (i + 1) (by omega)
  rw [Nat.zero_add] at h1 h2
  have hsplit := ofArr_split _ i _ _ h1 h2
  have : (dbOf ws).bytes = (ws.flatten.map Char.toNat ++ ofArr 8 ((offsets 0 ws).take i)) ++
      (toLE 8 (startOf ws i) ++ toLE 8 (startOf ws (i + 1))) ++ ofArr 8 ((offsets 0 ws).drop (i + 2)) := by
    simp only [dbOf, fileOf, startOf]; rw [hsplit]; simp only [List.append_assoc]
  rw [this, toSigned_small (by omega)]
  apply fileRead_mid
  · simp only [List.length_append, List.length_map, length_ofArr, List.length_take, offsets_length]
    omega
  · simp

theorem offset_value (ws : List Word) (hf : Fits ws) (k : Nat) : toSigned (ofLE (toLE 8 (startOf ws k))) = startOf ws k := by
  unfold Fits at hf
  have := startOf_le ws k
  rw [ofLE_toLE _ _ (by omega), toSigned_small (by omega)]

/-- The loop stops behind the first text that is not empty. -/
theorem loop_found (ws : List Word) (hf : Fits ws) (i j : Nat) (w : Word) (hj : ws[j]? = some w) (hw : w ≠ [])
    (he : ∀ k, i ≤ k → k < j → ws[k]? = some []) : ∀ n k, i < k → k + n = j + 1 → ∀ fuel, n < fuel →
    loop fuel (excerptStep (dbOf ws) (startOf ws i)) (startOf ws k, ws.flatten.length + (k + 1) * 8) = .ok (startOf ws (j + 1) : Int) := by
  have hjl : j < ws.length := (List.getElem?_eq_some_iff.1 hj).1
  have same : ∀ k, i ≤ k → k ≤ j → startOf ws k = startOf ws i := by
    intro k h1
    induction k, h1 using Nat.le_induction with
    | base => intro _; rfl
    | succ k h1 ih =>
      intro h2
      rw [startOf_succ ws k [] (he k h1 (by omega)), ih (by omega)]
      rfl
  have hpos : 0 < w.length := List.length_pos_iff.2 hw
  intro n
  induction n with
  | zero =>
    intro k h1 h2 fuel hfuel
    obtain ⟨f, rfl⟩ : ∃ f, fuel = f + 1 := ⟨fuel - 1, by omega⟩
    have h3 : k = j + 1 := by omega
    subst h3
    have h4 := startOf_succ ws j w hj
    have h5 := same j (by omega) (Nat.le_refl _)
    rw [loop, excerptStep, if_neg (by dsimp only; omega)]
    rfl
  | succ n ih =>
    intro k h1 h2 fuel hfuel
    obtain ⟨f, rfl⟩ : ∃ f, fuel = f + 1 := ⟨fuel - 1, by omega⟩
    have h3 := same k (by omega) (by omega)
    rw [loop, excerptStep, if_pos (by dsimp only; rw [h3])]
    dsimp only
    rw [read_offset ws hf (k + 1) (by omega)]
    simp only [Outcome.map, Outcome.bind, offset_value ws hf]
    have hm : (ws.flatten.length + (k + 1) * 8 + 8) % 2 ^ 64 = ws.flatten.length + (k + 1 + 1) * 8 := by
      unfold Fits at hf
      rw [Nat.mod_eq_of_lt (by omega)]; omega
    rw [hm]
    exact ih (k + 1) (by omega) (by omega) f (by omega)

/-- The loop does not end if there is no text any more. -/
theorem loop_diverges (ws : List Word) (hf : Fits ws) (i : Nat) (he : ∀ k w, i ≤ k → ws[k]? = some w → w = []) : ∀ n k, i < k → k + n = ws.length →
    ∀ fuel, loop fuel (excerptStep (dbOf ws) (startOf ws i)) (startOf ws k, ws.flatten.length + (k + 1) * 8) = .diverge := by
  have same : ∀ k, i ≤ k → k ≤ ws.length → startOf ws k = startOf ws i := by
    intro k h1
    induction k, h1 using Nat.le_induction with
    | base => intro _; rfl
    | succ k h1 ih =>
      intro h2
      have h3 := List.getElem?_eq_getElem (show k < ws.length by omega)
      rw [startOf_succ ws k _ h3, ih (by omega), he k _ h1 h3]
      rfl
  intro n
  induction n with
  | zero =>
    intro k h1 h2 fuel
    cases fuel with
    | zero => rfl
    | succ f =>
      have h3 := same k (by omega) (by omega)
      unfold Fits at hf
      rw [loop, excerptStep, if_pos (by dsimp only; rw [h3])]
      dsimp only
      rw [read_behind ws (k + 1) 8 (by omega) (by omega) (by omega)]
      rfl
  | succ n ih =>
    intro k h1 h2 fuel
    cases fuel with
    | zero => rfl
    | succ f =>
      have h3 := same k (by omega) (by omega)
      rw [loop, excerptStep, if_pos (by dsimp only; rw [h3])]
      dsimp only
      rw [read_offset ws hf (k + 1) (by omega)]
      simp only [Outcome.map, Outcome.bind, offset_value ws hf]
      have hm : (ws.flatten.length + (k + 1) * 8 + 8) % 2 ^ 64 = ws.flatten.length + (k + 1 + 1) * 8 := by
        unfold Fits at hf
        rw [Nat.mod_eq_of_lt (by omega)]; omega
      rw [hm]
      exact ih (k + 1) (by omega) (by omega) f

theorem pos_eq (ws : List Word) (i : Nat) (h : ws.flatten.length + i * 8 < 2 ^ 63) :
    (toUnsigned (dbOf ws).start + i * 8) % 2 ^ 64 = ws.flatten.length + i * 8 := by
  rw [dbOf, toUnsigned_small (by omega), Nat.mod_eq_of_lt (by omega)]

/-- The excerpt is the first text that is not empty. -/
theorem excerpt_found (ws : List Word) (hf : Fits ws) (i j : Nat) (w : Word) (hij : i ≤ j) (hj : ws[j]? = some w) (hw : w ≠ [])
    (he : ∀ k, i ≤ k → k < j → ws[k]? = some []) (fuel : Nat) (hfuel : j - i < fuel) : excerpt fuel (dbOf ws) i = .ok w := by
  have hjl : j < ws.length := (List.getElem?_eq_some_iff.1 hj).1
  have hff := hf
  unfold Fits at hff
  rw [excerpt, pos_eq ws i (by omega), read_two ws hf i (by omega)]
  simp only [Outcome.bind]
  rw [List.take_left' (length_toLE _ _), List.drop_left' (length_toLE _ _), offset_value ws hf, offset_value ws hf]
  have hm : (ws.flatten.length + i * 8 + 16) % 2 ^ 64 = ws.flatten.length + (i + 1 + 1) * 8 := by
    rw [Nat.mod_eq_of_lt (by omega)]; omega
  have hl := loop_found ws hf i j w hj hw he (j - i) (i + 1) (by omega) (by omega) fuel (by omega)
  rw [hm, hl]
  have same : startOf ws i = startOf ws j := by
    have : ∀ k, i ≤ k → k ≤ j → startOf ws k = startOf ws i := by
      intro k h1
      induction k, h1 using Nat.le_induction with
      | base => intro _; rfl
      | succ k h1 ih =>
        intro h2
        rw [startOf_succ ws k [] (he k h1 (by omega)), ih (by omega)]
        rfl
    exact (this j hij (Nat.le_refl _)).symm
  have hs := startOf_succ ws j w hj
  dsimp only
  rw [if_neg (by omega)]
  have hlen : ((startOf ws (j + 1) : Int) - (startOf ws i : Int)).toNat = w.length := by omega
  rw [hlen, same]
  have hwi := (List.getElem?_eq_some_iff.1 hj).2
  have hfl : ws.flatten = (ws.take j).flatten ++ w ++ (ws.drop (j + 1)).flatten := by
    conv => lhs; rw [← List.take_append_drop (j + 1) ws, List.flatten_append, List.take_succ_eq_append_getElem hjl, hwi]
    simp
  have hr2 : fileRead (dbOf ws).bytes ↑(startOf ws j) w.length = .ok (w.map Char.toNat) := by
    have : (dbOf ws).bytes = (ws.take j).flatten.map Char.toNat ++ w.map Char.toNat ++
        ((ws.drop (j + 1)).flatten.map Char.toNat ++ ofArr 8 (offsets 0 ws)) := by
      simp only [dbOf, fileOf]
      conv => lhs; rw [hfl]
      simp [List.append_assoc]
    rw [this]
    apply fileRead_mid
    · rw [List.length_map, startOf]
    · rw [List.length_map]
  rw [hr2]
  simp only [Outcome.map, List.map_map]
  refine congrArg Outcome.ok ?_
  conv => rhs; rw [← List.map_id w]
  apply List.map_congr_left
  intro c _
  simp [Char.ofNat_toNat]

/-- Without a text there is no end. -/
theorem excerpt_diverges (ws : List Word) (hf : Fits ws) (i : Nat) (hi : ws.flatten.length + i * 8 < 2 ^ 63) (he : ∀ k w, i ≤ k → ws[k]? = some w → w = [])
    (fuel : Nat) : excerpt fuel (dbOf ws) i = .diverge := by
  have hff := hf
  unfold Fits at hff
  rw [excerpt, pos_eq ws i hi]
  by_cases h : i < ws.length
  · rw [read_two ws hf i h]
    simp only [Outcome.bind]
    rw [List.take_left' (length_toLE _ _), List.drop_left' (length_toLE _ _), offset_value ws hf, offset_value ws hf]
    have hm : (ws.flatten.length + i * 8 + 16) % 2 ^ 64 = ws.flatten.length + (i + 1 + 1) * 8 := by
      rw [Nat.mod_eq_of_lt (by omega)]; omega
    rw [hm, loop_diverges ws hf i he (ws.length - (i + 1)) (i + 1) (by omega) (by omega) fuel]
  · rw [read_behind ws i 16 hi (by omega) (by omega)]
    rfl

end Verif.DocsDB
