import Verif.Lemmas.CacheKey
namespace Verif.CacheKey
open Outcome

/-- The key of `a`, followed by the end or a line break, can be recognised. -/
def Readable (a : Op) : Prop :=
  WF a → ∀ (i : Nat) (b : Op) (r1 r2 : List Char), WF b → Ends r1 → Ends r2 → key i a ++ r1 = key i b ++ r2 →
    strip a = strip b ∧ r1 = r2

theorem tree_inj {a b : Op} (h : Readable a) (wa : WF a) (wb : WF b) {i : Nat} {r1 r2 : List Char}
    (e : tree i (key (i + 2) a) (width a) ++ r1 = tree i (key (i + 2) b) (width b) ++ r2) :
    strip a = strip b ∧ width a = width b ∧ r1 = r2 := by
  unfold tree at e
  simp only [List.append_assoc] at e
  have e := List.append_cancel_left (List.append_cancel_left e)
  have en : ∀ l, Ends ("\n".toList ++ l) := by intro l c hc; simpa using hc.symm
  obtain ⟨e1, e⟩ := h wa _ _ _ _ wb (en _) (en _) e
  have e := List.append_cancel_left (List.append_cancel_left (List.append_cancel_left e))
  obtain ⟨ew, e⟩ := natStr_app e (by decide) (by decide)
  have e := List.append_cancel_left (List.append_cancel_left (List.append_cancel_left (List.append_cancel_left e)))
  exact ⟨e1, ew, e⟩

/-- The first two characters of a key after the indentation. -/
def tag : Op → List Char
  | .scan _ => ['S', 'C']
  | .join .. => ['J', 'O']
  | .sort .. => ['S', 'O']
  | .orderBy .. => ['S', 'O']
  | .union .. => ['{', '\n']
  | .distinct .. => ['D', 'i']
  | .filter .. => ['F', 'I']
  | .minus .. => ['M', 'I']
  | .optionalJoin .. => ['O', 'P']
  | .multiColumnJoin .. => ['M', 'U']
  | .twoColumnJoin .. => ['T', 'W']
  | .hasPredicateFreeS _ => ['H', 'A']
  | .hasPredicateFreeO _ => ['H', 'A']
  | .hasPredicateFull => ['H', 'A']
  | .hasPredicateSub .. => ['H', 'A']
  | .groupBy .. => ['G', 'R']
  | .transitivePath .. => ['T', 'r']
  | .transitivePathLeft .. => ['T', 'r']

/-- The letters that tell the kinds of scans apart. -/
def scanTag : Scan → List Char
  | .psoBoundS .. => ['S', 'C', 'A', 'N', ' ', 'P', 'S']
  | .posBoundO .. => ['S', 'C', 'A', 'N', ' ', 'P', 'O']
  | .sopBoundO .. => ['S', 'C', 'A', 'N', ' ', 'S', 'O']
  | .psoFreeS _ => ['S', 'C', 'A', 'N', ' ', 'P', 'S']
  | .posFreeO _ => ['S', 'C', 'A', 'N', ' ', 'P', 'O']
  | .spoFreeP _ => ['S', 'C', 'A', 'N', ' ', 'S', 'P']
  | .sopFreeO _ => ['S', 'C', 'A', 'N', ' ', 'S', 'O']
  | .opsFreeP _ => ['S', 'C', 'A', 'N', ' ', 'O', 'P']
  | .ospFreeS _ => ['S', 'C', 'A', 'N', ' ', 'O', 'S']
  | .full _ => ['S', 'C', 'A', 'N', ' ', 'F', 'O']

theorem starts {l t : List Char} (rest : List Char) (h : l.take t.length = t) : ∃ r, l ++ rest = t ++ r :=
  ⟨l.drop t.length ++ rest, by
    have e := List.take_append_drop t.length l
    rw [h] at e
    rw [← List.append_assoc, e]⟩

theorem starts' {l t : List Char} (h : l.take t.length = t) : ∃ r, l = t ++ r := by
  obtain ⟨r, e⟩ := starts [] h
  exact ⟨r, by rw [← e, List.append_nil]⟩

theorem scan_tag (s : Scan) : ∃ r, s.key = scanTag s ++ r := by
  cases s with
  | full o => cases o <;> exact starts' (by decide)
  | _ => dsimp only [Scan.key, scanTag]; simp only [List.append_assoc]; exact starts _ (by decide)

theorem scan_tag_inj {s t : Scan} {r1 r2 : List Char} (h : s.key ++ r1 = t.key ++ r2) : scanTag s = scanTag t := by
  obtain ⟨x, hx⟩ := scan_tag s
  obtain ⟨y, hy⟩ := scan_tag t
  rw [hx, hy] at h
  simp only [List.append_assoc] at h
  have hl : ∀ c, (scanTag c).length = 7 := by intro c; cases c <;> rfl
  exact (List.append_inj h (by rw [hl, hl])).1

theorem tag_spec (i : Nat) (a : Op) : ∃ rest, key i a = ind i ++ (tag a ++ rest) := by
  have go : ∀ {l t : List Char}, (∃ r, l = t ++ r) → ∃ r, ind i ++ l = ind i ++ (t ++ r) := by
    rintro l t ⟨r, e⟩; exact ⟨r, by rw [e]⟩
  cases a with
  | scan s =>
    dsimp only [key]
    apply go
    obtain ⟨r, e⟩ := scan_tag s
    rw [e]
    exact starts _ (by cases s <;> rfl)
  | union l r o => dsimp only [key, tree, tag]; simp only [List.append_assoc]; exact go (starts _ (by decide))
  | hasPredicateFull => exact go (starts' (by decide))
  | _ => dsimp only [key, tag]; simp only [List.append_assoc]; exact go (starts _ (by decide))

theorem tag_inj {i : Nat} {a b : Op} {r1 r2 : List Char} (h : key i a ++ r1 = key i b ++ r2) : tag a = tag b := by
  obtain ⟨x, hx⟩ := tag_spec i a
  obtain ⟨y, hy⟩ := tag_spec i b
  rw [hx, hy] at h
  simp only [List.append_assoc] at h
  have h := List.append_cancel_left h
  have hl : ∀ c, (tag c).length = 2 := by intro c; cases c <;> rfl
  exact (List.append_inj h (by rw [hl, hl])).1

theorem one_word {n w1 w2 r1 r2 : List Char} (h1 : '\n' ∉ w1) (h2 : '\n' ∉ w2) (e1 : Ends r1) (e2 : Ends r2)
    (h : n ++ (w1 ++ ("\"".toList ++ r1)) = n ++ (w2 ++ ("\"".toList ++ r2))) : w1 = w2 ∧ r1 = r2 :=
  quoted_end _ _ _ _ h1 h2 e1 e2 (List.append_cancel_left h)

theorem two_words {n m v1 v2 w1 w2 r1 r2 : List Char} (c : Char) (q1 : '"' ∉ v1) (q2 : '"' ∉ v2) (h1 : '\n' ∉ w1) (h2 : '\n' ∉ w2)
    (e1 : Ends r1) (e2 : Ends r2) (hm : m = '"' :: ',' :: ' ' :: c :: ' ' :: '=' :: ' ' :: '"' :: [])
    (h : n ++ (v1 ++ (m ++ (w1 ++ ("\"".toList ++ r1)))) = n ++ (v2 ++ (m ++ (w2 ++ ("\"".toList ++ r2))))) :
    v1 = v2 ∧ w1 = w2 ∧ r1 = r2 := by
  rw [hm] at h
  simp only [List.cons_append, List.nil_append] at h
  obtain ⟨e, h⟩ := quoted _ _ _ _ q1 q2 (List.append_cancel_left h)
  simp only [List.cons.injEq, true_and] at h
  exact ⟨e, quoted_end _ _ _ _ h1 h2 e1 e2 h⟩

theorem one_two {n m v1 v2 w2 r1 r2 : List Char} (c : Char) (q1 : '"' ∉ v1) (q2 : '"' ∉ v2) (e1 : Ends r1)
    (hm : m = '"' :: ',' :: ' ' :: c :: ' ' :: '=' :: ' ' :: '"' :: [])
    (h : n ++ (v1 ++ ("\"".toList ++ r1)) = n ++ (v2 ++ (m ++ (w2 ++ ("\"".toList ++ r2))))) : False := by
  rw [hm] at h
  simp only [List.cons_append, List.nil_append] at h
  obtain ⟨_, h⟩ := quoted _ _ _ _ q1 q2 (List.append_cancel_left h)
  exact ends_not_comma e1 h

theorem scan_full_inj (o o' : Order) (r1 r2 : List Char) (h : (Scan.full o).key ++ r1 = (Scan.full o').key ++ r2) :
    o = o' ∧ r1 = r2 := by
  have hl : ∀ c, (Scan.full c).key.length = 41 := by intro c; cases c <;> decide
  have hk : ∀ o o', (Scan.full o).key = (Scan.full o').key → o = o' := by
    intro o o'; cases o <;> cases o' <;> decide
  obtain ⟨h, e⟩ := List.append_inj h (by rw [hl, hl])
  exact ⟨hk _ _ h, e⟩

theorem scan_inj (s t : Scan) (hs : s.WF) (ht : t.WF) (r1 r2 : List Char) (e1 : Ends r1) (e2 : Ends r2)
    (h : s.key ++ r1 = t.key ++ r2) : s = t ∧ r1 = r2 := by
  have g := scan_tag_inj h
  cases s <;> cases t <;> first | (dsimp only [scanTag] at g; exact absurd g (by decide)) | skip
  case full.full => obtain ⟨e, e'⟩ := scan_full_inj _ _ _ _ h; exact ⟨by rw [e], e'⟩
  all_goals (dsimp only [Scan.key] at h; simp only [List.append_assoc] at h)
  case psoBoundS.psoBoundS =>
    obtain ⟨e, e', e''⟩ := two_words 'S' hs.1 ht.1 hs.2.2 ht.2.2 e1 e2 (by decide) h; exact ⟨by rw [e, e'], e''⟩
  case posBoundO.posBoundO =>
    obtain ⟨e, e', e''⟩ := two_words 'O' hs.1 ht.1 hs.2.2 ht.2.2 e1 e2 (by decide) h; exact ⟨by rw [e, e'], e''⟩
  case sopBoundO.sopBoundO =>
    obtain ⟨e, e', e''⟩ := two_words 'O' hs.1 ht.1 hs.2.2 ht.2.2 e1 e2 (by decide) h; exact ⟨by rw [e, e'], e''⟩
  case psoFreeS.psoFreeS => obtain ⟨e, e'⟩ := one_word hs.2 ht.2 e1 e2 h; exact ⟨by rw [e], e'⟩
  case posFreeO.posFreeO => obtain ⟨e, e'⟩ := one_word hs.2 ht.2 e1 e2 h; exact ⟨by rw [e], e'⟩
  case sopFreeO.sopFreeO => obtain ⟨e, e'⟩ := one_word hs.2 ht.2 e1 e2 h; exact ⟨by rw [e], e'⟩
  case spoFreeP.spoFreeP => obtain ⟨e, e'⟩ := one_word hs ht e1 e2 h; exact ⟨by rw [e], e'⟩
  case opsFreeP.opsFreeP => obtain ⟨e, e'⟩ := one_word hs ht e1 e2 h; exact ⟨by rw [e], e'⟩
  case ospFreeS.ospFreeS => obtain ⟨e, e'⟩ := one_word hs ht e1 e2 h; exact ⟨by rw [e], e'⟩
  case psoBoundS.psoFreeS => exact (one_two 'S' ht.1 hs.1 e2 (by decide) h.symm).elim
  case posBoundO.posFreeO => exact (one_two 'O' ht.1 hs.1 e2 (by decide) h.symm).elim
  case sopBoundO.sopFreeO => exact (one_two 'O' ht.1 hs.1 e2 (by decide) h.symm).elim
  case psoFreeS.psoBoundS => exact (one_two 'S' hs.1 ht.1 e1 (by decide) h).elim
  case posFreeO.posBoundO => exact (one_two 'O' hs.1 ht.1 e1 (by decide) h).elim
  case sopFreeO.sopBoundO => exact (one_two 'O' hs.1 ht.1 e1 (by decide) h).elim

/-! ### Filters -/

theorem optional_prefix (s x y : List Char) (b b' : Bool) (hx : ¬ s <+: x) (hy : ¬ s <+: y)
    (h : (if b then s else []) ++ x = (if b' then s else []) ++ y) : b = b' ∧ x = y := by
  cases b <;> cases b' <;> simp only [Bool.false_eq_true, if_false, if_true, List.nil_append] at h
  · exact ⟨rfl, h⟩
  · exact absurd ⟨y, h.symm⟩ hx
  · exact absurd ⟨x, h⟩ hy
  · exact ⟨rfl, List.append_cancel_left h⟩

theorem prefix_before (s w r : List Char) (hs : '\n' ∉ s) (h : s <+: w ++ '\n' :: r) : s <+: w := by
  induction s generalizing w with
  | nil => exact List.nil_prefix
  | cons c s ih =>
    cases w with
    | nil =>
      rw [List.nil_append, List.cons_prefix_cons] at h
      exact absurd (by rw [h.1]; simp) hs
    | cons d w =>
      rw [List.cons_append, List.cons_prefix_cons] at h
      rw [List.cons_prefix_cons]
      exact ⟨h.1, ih w (fun hm => hs (List.mem_cons_of_mem _ hm)) h.2⟩

/-- The part of the key after the type of the filter. -/
def tail (str : Bool) (rhs r : List Char) : List Char := (if str then "LHS_AS_STR ".toList else []) ++ (rhs ++ ("\n".toList ++ r))

theorem tail_inj {str str' : Bool} {rhs rhs' r r' : List Char} (h1 : '\n' ∉ rhs) (h2 : '\n' ∉ rhs')
    (p1 : ¬ "LHS_AS_STR ".toList <+: rhs) (p2 : ¬ "LHS_AS_STR ".toList <+: rhs') (h : tail str rhs r = tail str' rhs' r') :
    str = str' ∧ rhs = rhs' ∧ r = r' := by
  unfold tail at h
  obtain ⟨e1, h⟩ := optional_prefix _ _ _ _ _ (fun hp => p1 (prefix_before _ _ _ (by decide) hp))
    (fun hp => p2 (prefix_before _ _ _ (by decide) hp)) h
  obtain ⟨e2, h⟩ := split_at '\n' _ _ _ _ h1 h2 (by intro c hc; simpa using hc.symm) (by intro c hc; simpa using hc.symm) h
  injection h with _ h
  exact ⟨e1, e2, h⟩

theorem tail_not_ignoring {str : Bool} {rhs r : List Char} (p : ¬ "ignoring case ".toList <+: rhs) :
    ¬ "ignoring case ".toList <+: tail str rhs r := by
  unfold tail
  cases str with
  | false =>
    intro hp
    exact p (prefix_before _ _ _ (by decide) hp)
  | true =>
    rintro ⟨t, ht⟩
    simp at ht

/-- The word for the type of a filter. -/
def typeWord : FilterType → List Char
  | .cmp .eq => "==".toList
  | .cmp .ne => "!=".toList
  | .cmp .lt => "<".toList
  | .cmp .le => "<=".toList
  | .cmp .gt => ">".toList
  | .cmp .ge => ">=".toList
  | .langMatches => "LANG_MATCHES".toList
  | .regex _ => "REGEX".toList
  | .prefix => "PREFIX".toList

def ignoresCase : FilterType → Bool
  | .regex ic => ic
  | _ => false

theorem filterType_key (ty : FilterType) :
    ty.key = ' ' :: (typeWord ty ++ (' ' :: (if ignoresCase ty then "ignoring case ".toList else []))) := by
  cases ty with
  | cmp c => cases c <;> decide
  | regex ic => cases ic <;> decide
  | _ => decide

theorem typeWord_inj (ty ty' : FilterType) (h : typeWord ty = typeWord ty') (hi : ignoresCase ty = ignoresCase ty') : ty = ty' := by
  cases ty with
  | regex ic =>
    cases ty' with
    | regex ic' => rw [show ic = ic' from hi]
    | cmp c => cases c <;> exact absurd h (by dsimp only [typeWord]; decide)
    | _ => exact absurd h (by dsimp only [typeWord]; decide)
  | cmp c =>
    cases ty' with
    | cmp c' => cases c <;> cases c' <;> first | rfl | exact absurd h (by decide)
    | _ => cases c <;> exact absurd h (by dsimp only [typeWord]; decide)
  | _ =>
    cases ty' with
    | cmp c' => cases c' <;> exact absurd h (by decide)
    | _ => first | rfl | exact absurd h (by dsimp only [typeWord]; decide)

theorem typeWord_space (ty : FilterType) : ' ' ∉ typeWord ty := by
  cases ty with
  | cmp c => cases c <;> decide
  | _ => dsimp only [typeWord]; decide

theorem filterType_inj (ty ty' : FilterType) (x y : List Char) (hx : ¬ "ignoring case ".toList <+: x)
    (hy : ¬ "ignoring case ".toList <+: y) (h : ty.key ++ x = ty'.key ++ y) : ty = ty' ∧ x = y := by
  rw [filterType_key, filterType_key] at h
  simp only [List.append_assoc, List.cons_append] at h
  injection h with _ h
  obtain ⟨e, h⟩ := split_at ' ' _ _ _ _ (typeWord_space _) (typeWord_space _) 
    (by intro c hc; exact (Option.some.inj hc).symm) (by intro c hc; exact (Option.some.inj hc).symm) h
  injection h with _ h
  obtain ⟨e', h⟩ := optional_prefix _ _ _ _ _ hx hy h
  exact ⟨typeWord_inj _ _ e e', h⟩

theorem filterType_head (ty : FilterType) : ∃ l, ty.key = ' ' :: l := by
  rw [filterType_key]; exact ⟨_, rfl⟩

/-! ### Transitive paths -/

theorem value_inj {n1 n2 x y : List Char} (v v' : Option Nat) (hn : headStop n2 = true)
    (hx : ∀ z w, n1 ++ z ≠ n2 ++ w) (h : valueStr n1 v ++ (n2 ++ x) = valueStr n1 v' ++ (n2 ++ y)) : v = v' ∧ n2 ++ x = n2 ++ y := by
  cases v with
  | none =>
    cases v' with
    | none => exact ⟨rfl, h⟩
    | some b =>
      dsimp only [valueStr] at h
      rw [List.nil_append, List.append_assoc] at h
      exact absurd h.symm (hx _ _)
  | some a =>
    cases v' with
    | none =>
      dsimp only [valueStr] at h
      rw [List.nil_append, List.append_assoc] at h
      exact absurd h (hx _ _)
    | some b =>
      dsimp only [valueStr] at h
      rw [List.append_assoc, List.append_assoc] at h
      obtain ⟨e, h⟩ := natStr_app (List.append_cancel_left h) hn hn
      exact ⟨by rw [e], h⟩

theorem differ {n1 n2 : List Char} (k : Nat) (h1 : k ≤ n1.length) (h2 : k ≤ n2.length) (h : n1.take k ≠ n2.take k) :
    ∀ z w, n1 ++ z ≠ n2 ++ w := by
  intro z w e
  apply h
  have := congrArg (List.take k) e
  rwa [List.take_append_of_le_length h1, List.take_append_of_le_length h2] at this

theorem headStop_value (v : Option Nat) (x : List Char) :
    Stops isDig (valueStr " rightValue ".toList v ++ (" minDist ".toList ++ x)) := by
  cases v with
  | none => exact headStop_stops (l := " minDist ".toList) (by decide)
  | some v =>
    dsimp only [valueStr]
    rw [List.append_assoc]
    exact headStop_stops (by decide)

theorem values_inj {lv lv' rv rv' : Option Nat} {x y : List Char}
    (h : valueStr " leftValue ".toList lv ++ (valueStr " rightValue ".toList rv ++ (" minDist ".toList ++ x)) =
      valueStr " leftValue ".toList lv' ++ (valueStr " rightValue ".toList rv' ++ (" minDist ".toList ++ y))) :
    lv = lv' ∧ rv = rv' ∧ x = y := by
  have lr : ∀ (v : Option Nat) (z w : List Char), " leftValue ".toList ++ z ≠ valueStr " rightValue ".toList v ++ (" minDist ".toList ++ w) := by
    intro v z w
    cases v with
    | none => exact differ (n2 := " minDist ".toList) 2 (by decide) (by decide) (by decide) _ _
    | some v =>
      dsimp only [valueStr]
      rw [List.append_assoc]
      exact differ 2 (by decide) (by decide) (by decide) _ _
  have last : ∀ {rv rv' : Option Nat}, valueStr " rightValue ".toList rv ++ (" minDist ".toList ++ x) =
      valueStr " rightValue ".toList rv' ++ (" minDist ".toList ++ y) → rv = rv' ∧ x = y := by
    intro rv rv' h
    obtain ⟨e, h⟩ := value_inj rv rv' (by decide) (differ 2 (by decide) (by decide) (by decide)) h
    exact ⟨e, List.append_cancel_left h⟩
  cases lv with
  | none =>
    cases lv' with
    | none => exact ⟨rfl, last h⟩
    | some b =>
      dsimp only [valueStr] at h
      rw [List.nil_append, List.append_assoc] at h
      exact absurd h.symm (lr _ _ _)
  | some a =>
    cases lv' with
    | none =>
      dsimp only [valueStr] at h
      rw [List.nil_append, List.append_assoc] at h
      exact absurd h (lr _ _ _)
    | some b =>
      conv at h => lhs; rw [valueStr]
      conv at h => rhs; rw [valueStr]
      rw [List.append_assoc, List.append_assoc] at h
      obtain ⟨e, h⟩ := natStr_inj (headStop_value _ _) (headStop_value _ _) (List.append_cancel_left h)
      exact ⟨by rw [e], last h⟩

/-! ### The operations -/

theorem readable_scan (s : Scan) : Readable (.scan s) := by
  intro w i b r1 r2 wb e1 e2 h
  have g := tag_inj h
  cases b <;> first | (dsimp only [tag] at g; exact absurd g (by decide)) | skip
  case scan t =>
    dsimp only [key] at h
    rw [List.append_assoc, List.append_assoc] at h
    obtain ⟨e, e'⟩ := scan_inj _ _ w wb _ _ e1 e2 (List.append_cancel_left h)
    exact ⟨by rw [e], e'⟩

theorem readable_join {l r : Op} (hl : Readable l) (hr : Readable r) (lc rc : Nat) : Readable (.join l lc r rc) := by
  intro w i b r1 r2 wb e1 e2 h
  have g := tag_inj h
  cases b <;> first | (dsimp only [tag] at g; exact absurd g (by decide)) | skip
  case join l' lc' r' rc' =>
    dsimp only [key] at h
    simp only [List.append_assoc] at h
    obtain ⟨e, _, h⟩ := tree_inj hl w.1 wb.1 (List.append_cancel_left (List.append_cancel_left h))
    obtain ⟨ec, h⟩ := natStr_app (List.append_cancel_left h) (by decide) (by decide)
    obtain ⟨e', _, h⟩ := tree_inj hr w.2 wb.2 (List.append_cancel_left (List.append_cancel_left (List.append_cancel_left h)))
    obtain ⟨ec', h⟩ := natStr_app (List.append_cancel_left h) (by decide) (by decide)
    exact ⟨by dsimp only [strip]; rw [e, e', ec, ec'], List.append_cancel_left h⟩

theorem orderBy_body {s s' : Op} (hs : Readable s) (w : WF s) (w' : WF s') {i : Nat} {k k' : List (Nat × Bool)} {r1 r2 : List Char}
    (h : ind i ++ "SORT / ORDER BY on columns:".toList ++ keysStr k ++ "\n".toList ++ tree i (key (i + 2) s) (width s) ++ r1 =
      ind i ++ "SORT / ORDER BY on columns:".toList ++ keysStr k' ++ "\n".toList ++ tree i (key (i + 2) s') (width s') ++ r2) :
    strip s = strip s' ∧ k = k' ∧ r1 = r2 := by
  simp only [List.append_assoc] at h
  obtain ⟨ek, h⟩ := keysStr_inj _ _ _ _ (List.append_cancel_left (List.append_cancel_left h))
  obtain ⟨e, _, h⟩ := tree_inj hs w w' h
  exact ⟨e, ek, h⟩

theorem readable_sort {s : Op} (hs : Readable s) (c : Nat) : Readable (.sort s c) := by
  intro w i b r1 r2 wb e1 e2 h
  have g := tag_inj h
  cases b <;> first | (dsimp only [tag] at g; exact absurd g (by decide)) | skip
  case sort s' c' =>
    dsimp only [key] at h
    obtain ⟨e, ek, h⟩ := orderBy_body (s' := s') hs w wb h
    exact ⟨by dsimp only [strip]; rw [e, ek], h⟩
  case orderBy s' k =>
    dsimp only [key] at h
    obtain ⟨e, ek, h⟩ := orderBy_body (s' := s') hs w wb h
    exact ⟨by dsimp only [strip]; rw [e, ek], h⟩

theorem readable_orderBy {s : Op} (hs : Readable s) (k : List (Nat × Bool)) : Readable (.orderBy s k) := by
  intro w i b r1 r2 wb e1 e2 h
  have g := tag_inj h
  cases b <;> first | (dsimp only [tag] at g; exact absurd g (by decide)) | skip
  case sort s' c' =>
    dsimp only [key] at h
    obtain ⟨e, ek, h⟩ := orderBy_body (s' := s') hs w wb h
    exact ⟨by dsimp only [strip]; rw [e, ek], h⟩
  case orderBy s' k =>
    dsimp only [key] at h
    obtain ⟨e, ek, h⟩ := orderBy_body (s' := s') hs w wb h
    exact ⟨by dsimp only [strip]; rw [e, ek], h⟩

theorem readable_union {l r : Op} (hl : Readable l) (hr : Readable r) (o : List (Option Nat × Option Nat)) : Readable (.union l r o) := by
  intro w i b r1 r2 wb e1 e2 h
  have g := tag_inj h
  cases b <;> first | (dsimp only [tag] at g; exact absurd g (by decide)) | skip
  case union l' r' o' =>
    dsimp only [key] at h
    simp only [List.append_assoc] at h
    obtain ⟨e, _, h⟩ := tree_inj hl w.1 wb.1 h
    obtain ⟨e', _, h⟩ := tree_inj hr w.2 wb.2 (List.append_cancel_left (List.append_cancel_left (List.append_cancel_left h)))
    exact ⟨by dsimp only [strip]; rw [e, e'], List.append_cancel_left h⟩

theorem readable_distinct {s : Op} (hs : Readable s) (k : List Nat) : Readable (.distinct s k) := by
  intro w i b r1 r2 wb e1 e2 h
  have g := tag_inj h
  cases b <;> first | (dsimp only [tag] at g; exact absurd g (by decide)) | skip
  case distinct s' k' =>
    dsimp only [key] at h
    simp only [List.append_assoc] at h
    obtain ⟨e, _, h⟩ := tree_inj (b := s') hs w wb (List.append_cancel_left (List.append_cancel_left h))
    exact ⟨by dsimp only [strip]; rw [e], h⟩

theorem readable_filter {s : Op} (hs : Readable s) (type : FilterType) (str : Bool) (lhs rhs : Word) (lc : Nat) (rc : Option Nat) :
    Readable (.filter s type str lhs rhs lc rc) := by
  intro w i b r1 r2 wb e1 e2 h
  have g := tag_inj h
  cases b <;> first | (dsimp only [tag] at g; exact absurd g (by decide)) | skip
  case filter s' type' str' lhs' rhs' lc' rc' =>
    dsimp only [key] at h
    simp only [List.append_assoc] at h
    obtain ⟨e, _, h⟩ := tree_inj hs w.1 wb.1 (List.append_cancel_left (List.append_cancel_left h))
    have sp : ∀ (ty : FilterType) (x : List Char) (c : Char), (ty.key ++ x).head? = some c → c = ' ' := by
      intro ty x c hc
      obtain ⟨l, hl⟩ := filterType_head ty
      rw [hl] at hc
      exact (Option.some.inj hc).symm
    obtain ⟨el, h⟩ := split_at ' ' _ _ _ _ w.2.1 wb.2.1 (sp _ _) (sp _ _) (List.append_cancel_left h)
    obtain ⟨et, h⟩ := filterType_inj _ _ _ _ (tail_not_ignoring w.2.2.2.2) (tail_not_ignoring wb.2.2.2.2) h
    obtain ⟨es, er, h⟩ := tail_inj w.2.2.1 wb.2.2.1 w.2.2.2.1 wb.2.2.2.1 h
    exact ⟨by dsimp only [strip]; rw [e, el, et, es, er], h⟩

theorem readable_minus {l r : Op} (hl : Readable l) (hr : Readable r) (o : List (Nat × Nat)) : Readable (.minus l r o) := by
  intro w i b r1 r2 wb e1 e2 h
  have g := tag_inj h
  cases b <;> first | (dsimp only [tag] at g; exact absurd g (by decide)) | skip
  case minus l' r' o' =>
    dsimp only [key] at h
    simp only [List.append_assoc] at h
    obtain ⟨e, _, h⟩ := tree_inj hl w.1 wb.1 (List.append_cancel_left (List.append_cancel_left h))
    obtain ⟨e', _, h⟩ := tree_inj hr w.2 wb.2 (List.append_cancel_left h)
    exact ⟨by dsimp only [strip]; rw [e, e'], List.append_cancel_left h⟩

theorem cols_app {a b : List Nat} {s1 s2 r1 r2 : List Char} (h : colsStr a ++ (s1 ++ r1) = colsStr b ++ (s2 ++ r2))
    (h1 : s1.head? = some ']') (h2 : s2.head? = some ']') : a = b ∧ s1 ++ r1 = s2 ++ r2 := by
  cases s1 with
  | nil => cases h1
  | cons c s1 =>
    cases s2 with
    | nil => cases h2
    | cons d s2 =>
      rw [Option.some.inj h1, Option.some.inj h2] at h ⊢
      obtain ⟨e, h⟩ := colsStr_inj _ _ _ _ h
      exact ⟨e, congrArg (List.cons ']') h⟩

theorem pairs_eq : ∀ (a b : List (Nat × Nat)), a.map (·.1) = b.map (·.1) → a.map (·.2) = b.map (·.2) → a = b := by
  intro a
  induction a with
  | nil =>
    intro b h1 _
    cases b with
    | nil => rfl
    | cons y b => cases h1
  | cons x a ih =>
    intro b h1 h2
    cases b with
    | nil => cases h1
    | cons y b =>
      injection h1 with h1 h1'
      injection h2 with h2 h2'
      rw [ih b h1' h2', Prod.ext h1 h2]

theorem joinCols_body {l r l' r' : Op} (hl : Readable l) (hr : Readable r) (wl : WF l) (wr : WF r) (wl' : WF l') (wr' : WF r')
    {i : Nat} {j j' : List (Nat × Nat)} {name r1 r2 : List Char}
    (h : ind i ++ (name ++ (tree i (key (i + 2) l) (width l) ++ (" ".toList ++ ("join-columns: [".toList ++ (colsStr (j.map (·.1)) ++
      ("]\n".toList ++ (ind i ++ ("|X|\n".toList ++ (tree i (key (i + 2) r) (width r) ++ (" ".toList ++ ("join-columns: [".toList ++
      (colsStr (j.map (·.2)) ++ ("]".toList ++ r1))))))))))))) =
      ind i ++ (name ++ (tree i (key (i + 2) l') (width l') ++ (" ".toList ++ ("join-columns: [".toList ++ (colsStr (j'.map (·.1)) ++
      ("]\n".toList ++ (ind i ++ ("|X|\n".toList ++ (tree i (key (i + 2) r') (width r') ++ (" ".toList ++ ("join-columns: [".toList ++
      (colsStr (j'.map (·.2)) ++ ("]".toList ++ r2)))))))))))))) :
    strip l = strip l' ∧ strip r = strip r' ∧ j = j' ∧ r1 = r2 := by
  obtain ⟨e, _, h⟩ := tree_inj hl wl wl' (List.append_cancel_left (List.append_cancel_left h))
  obtain ⟨ec, h⟩ := cols_app (List.append_cancel_left (List.append_cancel_left h)) (by decide) (by decide)
  obtain ⟨e', _, h⟩ := tree_inj hr wr wr' (List.append_cancel_left (List.append_cancel_left (List.append_cancel_left h)))
  obtain ⟨ec', h⟩ := cols_app (List.append_cancel_left (List.append_cancel_left h)) (by decide) (by decide)
  exact ⟨e, e', pairs_eq _ _ ec ec', List.append_cancel_left h⟩

theorem readable_optionalJoin {l r : Op} (hl : Readable l) (hr : Readable r) (o o' : Bool) (j : List (Nat × Nat)) :
    Readable (.optionalJoin l r o o' j) := by
  intro w i b r1 r2 wb e1 e2 h
  have g := tag_inj h
  cases b <;> first | (dsimp only [tag] at g; exact absurd g (by decide)) | skip
  case optionalJoin =>
    dsimp only [key] at h
    simp only [List.append_assoc] at h
    obtain ⟨e, e', ej, h⟩ := joinCols_body hl hr w.1 w.2 wb.1 wb.2 h
    exact ⟨by dsimp only [strip]; rw [e, e', ej], h⟩

theorem readable_multiColumnJoin {l r : Op} (hl : Readable l) (hr : Readable r) (j : List (Nat × Nat)) :
    Readable (.multiColumnJoin l r j) := by
  intro w i b r1 r2 wb e1 e2 h
  have g := tag_inj h
  cases b <;> first | (dsimp only [tag] at g; exact absurd g (by decide)) | skip
  case multiColumnJoin =>
    dsimp only [key] at h
    simp only [List.append_assoc] at h
    obtain ⟨e, e', ej, h⟩ := joinCols_body hl hr w.1 w.2 wb.1 wb.2 h
    exact ⟨by dsimp only [strip]; rw [e, e', ej], h⟩

theorem readable_twoColumnJoin {l r : Op} (hl : Readable l) (hr : Readable r) (j1 j2 k1 k2 : Nat) :
    Readable (.twoColumnJoin l r j1 j2 k1 k2) := by
  intro w i b r1 r2 wb e1 e2 h
  have g := tag_inj h
  cases b <;> first | (dsimp only [tag] at g; exact absurd g (by decide)) | skip
  case twoColumnJoin =>
    dsimp only [key] at h
    simp only [List.append_assoc] at h
    obtain ⟨e, _, h⟩ := tree_inj hl w.1 wb.1 (List.append_cancel_left (List.append_cancel_left (List.append_cancel_left h)))
    obtain ⟨ea, h⟩ := natStr_app (List.append_cancel_left (List.append_cancel_left (List.append_cancel_left h))) (by decide) (by decide)
    obtain ⟨eb, h⟩ := natStr_app (List.append_cancel_left h) (by decide) (by decide)
    obtain ⟨e', _, h⟩ := tree_inj hr w.2 wb.2
      (List.append_cancel_left (List.append_cancel_left (List.append_cancel_left (List.append_cancel_left h))))
    obtain ⟨ec, h⟩ := natStr_app (List.append_cancel_left (List.append_cancel_left (List.append_cancel_left h))) (by decide) (by decide)
    obtain ⟨ed, h⟩ := natStr_app (List.append_cancel_left h) (by decide) (by decide)
    exact ⟨by dsimp only [strip]; rw [e, e', ea, eb, ec, ed], List.append_cancel_left h⟩

theorem subject_not_tree {s r1 r2 body : List Char} {i w : Nat} (hb : '{' ∉ s) (e1 : Ends r1)
    (h : s ++ r1 = tree i body w ++ r2) : False := by
  unfold tree at h
  simp only [List.append_assoc] at h
  -- before the brace there is no line break
  have key : ∀ (u : List Char) (x : List Char), '\n' ∉ u → s ++ r1 = u ++ ('{' :: x) → False := by
    intro u x hu hx
    rcases List.append_eq_append_iff.mp hx with ⟨a, ha, hb'⟩ | ⟨a, ha, hb'⟩
    · -- `s` is the start of `u`
      cases a with
      | nil =>
        rw [List.nil_append] at hb'
        exact absurd (e1 '{' (by rw [hb']; rfl)) (by decide)
      | cons c a =>
        have := e1 c (by rw [hb']; rfl)
        exact hu (by rw [ha, this]; simp)
    · cases a with
      | nil =>
        rw [List.nil_append] at hb'
        exact absurd (e1 '{' (by rw [← hb']; rfl)) (by decide)
      | cons c a =>
        injection hb' with hc _
        exact hb (by rw [ha, ← hc]; simp)
  exact key (ind i) _ (by
    unfold ind
    intro hm
    exact absurd (List.eq_of_mem_replicate hm) (by decide)) h

theorem with_differ {x y z : List Char} :
    "HAS_RELATION_SCAN with O = ".toList ++ x ≠ "HAS_RELATION_SCAN with S = ".toList ++ y ∧
    "HAS_RELATION_SCAN with O = ".toList ++ x ≠ "HAS_RELATION_SCAN for the full relation".toList ++ z ∧
    "HAS_RELATION_SCAN with S = ".toList ++ y ≠ "HAS_RELATION_SCAN for the full relation".toList ++ z :=
  ⟨differ 24 (by decide) (by decide) (by decide) _ _, differ 20 (by decide) (by decide) (by decide) _ _,
    differ 20 (by decide) (by decide) (by decide) _ _⟩

theorem readable_freeS (o : Word) : Readable (.hasPredicateFreeS o) := by
  intro w i b r1 r2 wb e1 e2 h
  have g := tag_inj h
  cases b <;> first | (dsimp only [tag] at g; exact absurd g (by decide)) | skip
  all_goals
    dsimp only [key] at h
    simp only [List.append_assoc] at h
    replace h := List.append_cancel_left h
  case hasPredicateFreeS o' =>
    obtain ⟨e, h⟩ := split_at '\n' o o' _ _ w wb e1 e2 (List.append_cancel_left h)
    exact ⟨by rw [e], h⟩
  case hasPredicateFreeO => exact absurd h (with_differ (z := [])).1
  case hasPredicateFull => exact absurd h (with_differ (y := [])).2.1
  case hasPredicateSub => exact absurd h (with_differ (z := [])).1

theorem readable_freeO (s : Word) : Readable (.hasPredicateFreeO s) := by
  intro w i b r1 r2 wb e1 e2 h
  have g := tag_inj h
  cases b <;> first | (dsimp only [tag] at g; exact absurd g (by decide)) | skip
  all_goals
    dsimp only [key] at h
    simp only [List.append_assoc] at h
    replace h := List.append_cancel_left h
  case hasPredicateFreeS => exact absurd h.symm (with_differ (z := [])).1
  case hasPredicateFreeO s' =>
    obtain ⟨e, h⟩ := split_at '\n' s s' _ _ w.1 wb.1 e1 e2 (List.append_cancel_left h)
    exact ⟨by rw [e], h⟩
  case hasPredicateFull => exact absurd h (with_differ (x := [])).2.2
  case hasPredicateSub => exact (subject_not_tree w.2 e1 (List.append_cancel_left h)).elim

theorem readable_full : Readable .hasPredicateFull := by
  intro w i b r1 r2 wb e1 e2 h
  have g := tag_inj h
  cases b <;> first | (dsimp only [tag] at g; exact absurd g (by decide)) | skip
  all_goals
    dsimp only [key] at h
    simp only [List.append_assoc] at h
    replace h := List.append_cancel_left h
  case hasPredicateFreeS => exact absurd h.symm (with_differ (y := [])).2.1
  case hasPredicateFreeO => exact absurd h.symm (with_differ (x := [])).2.2
  case hasPredicateFull => exact ⟨rfl, List.append_cancel_left h⟩
  case hasPredicateSub => exact absurd h.symm (with_differ (x := [])).2.2

theorem readable_sub {s : Op} (hs : Readable s) (c : Nat) : Readable (.hasPredicateSub s c) := by
  intro w i b r1 r2 wb e1 e2 h
  have g := tag_inj h
  cases b <;> first | (dsimp only [tag] at g; exact absurd g (by decide)) | skip
  all_goals
    dsimp only [key] at h
    simp only [List.append_assoc] at h
    replace h := List.append_cancel_left h
  case hasPredicateFreeS => exact absurd h.symm (with_differ (z := [])).1
  case hasPredicateFreeO => exact (subject_not_tree wb.2 e2 (List.append_cancel_left h).symm).elim
  case hasPredicateFull => exact absurd h (with_differ (x := [])).2.2
  case hasPredicateSub s' c' =>
    obtain ⟨e, _, h⟩ := tree_inj (b := s') hs w wb (List.append_cancel_left h)
    exact ⟨by dsimp only [strip]; rw [e], h⟩

theorem outs_eq (a b : List (Nat × Nat)) (h : a.map (·.2) = b.map (·.2)) :
    (a.map fun g => ((0 : Nat), g.2)) = b.map fun g => (0, g.2) := by
  have e : ∀ l : List (Nat × Nat), (l.map fun g => ((0 : Nat), g.2)) = (l.map (·.2)).map fun x => (0, x) := by
    intro l; rw [List.map_map]; rfl
  rw [e, e, h]

theorem readable_groupBy {s : Op} (hs : Readable s) (groups : List (Nat × Nat)) (aggs : List GroupBy.Aggregate) :
    Readable (.groupBy s groups aggs) := by
  intro w i b r1 r2 wb e1 e2 h
  have g := tag_inj h
  cases b <;> first | (dsimp only [tag] at g; exact absurd g (by decide)) | skip
  case groupBy s' groups' aggs' =>
    dsimp only [key] at h
    simp only [List.append_assoc] at h
    obtain ⟨eg, h⟩ := groupsStr_inj _ _ _ _ (aggsStr_stops _ _ _ (by decide) aggName_notDig) (aggsStr_stops _ _ _ (by decide) aggName_notDig)
      (List.append_cancel_left (List.append_cancel_left h))
    obtain ⟨ea, h⟩ := aggsStr_inj _ _ _ _ w.2 wb.2 h
    obtain ⟨e, _, h⟩ := tree_inj (b := s') hs w.1 wb.1 h
    exact ⟨by dsimp only [strip]; rw [e, ea, outs_eq _ _ eg], h⟩

theorem left_not_tree {i : Nat} {body x y : List Char} {w : Nat} : "Left subtree:\n".toList ++ x ≠ tree i body w ++ y := by
  unfold tree
  simp only [List.append_assoc]
  cases i with
  | zero => exact differ (n2 := "{\n".toList) 1 (by decide) (by decide) (by decide) _ _
  | succ i =>
    intro h
    have e : ind (i + 1) = ' ' :: ind i := List.replicate_succ
    rw [e, List.cons_append] at h
    exact differ (n2 := [' ']) 1 (by decide) (by decide) (by decide) _ _ h

theorem path_body {i : Nat} {lc rc lc' rc' mn mx mn' mx' : Nat} {lv rv lv' rv' : Option Nat} {x y : List Char}
    (h : ind i ++ ("TransitivePath leftCol ".toList ++ (natStr lc ++ (" rightCol ".toList ++ (natStr rc ++
      (valueStr " leftValue ".toList lv ++ (valueStr " rightValue ".toList rv ++ (" minDist ".toList ++ (natStr mn ++
      (" maxDist ".toList ++ (natStr mx ++ ("\n".toList ++ x))))))))))) =
      ind i ++ ("TransitivePath leftCol ".toList ++ (natStr lc' ++ (" rightCol ".toList ++ (natStr rc' ++
      (valueStr " leftValue ".toList lv' ++ (valueStr " rightValue ".toList rv' ++ (" minDist ".toList ++ (natStr mn' ++
      (" maxDist ".toList ++ (natStr mx' ++ ("\n".toList ++ y)))))))))))) :
    (lc = lc' ∧ rc = rc' ∧ lv = lv' ∧ rv = rv' ∧ mn = mn' ∧ mx = mx') ∧ x = y := by
  obtain ⟨e1, h⟩ := natStr_app (List.append_cancel_left (List.append_cancel_left h)) (by decide) (by decide)
  have st : ∀ (lv rv : Option Nat) (z : List Char), Stops isDig
      (valueStr " leftValue ".toList lv ++ (valueStr " rightValue ".toList rv ++ (" minDist ".toList ++ z))) := by
    intro lv rv z
    cases lv with
    | none => exact headStop_value rv z
    | some v =>
      conv => arg 2; lhs; rw [valueStr]
      rw [List.append_assoc]
      exact headStop_stops (by decide)
  obtain ⟨e2, h⟩ := natStr_inj (st _ _ _) (st _ _ _) (List.append_cancel_left h)
  obtain ⟨e3, e4, h⟩ := values_inj h
  obtain ⟨e5, h⟩ := natStr_app h (by decide) (by decide)
  obtain ⟨e6, h⟩ := natStr_app (List.append_cancel_left h) (by decide) (by decide)
  exact ⟨⟨e1, e2, e3, e4, e5, e6⟩, List.append_cancel_left h⟩

theorem path_none (x : List Char) : valueStr " leftValue ".toList none ++ x = x := rfl

theorem readable_transitivePath {s : Op} (hs : Readable s) (lc rc : Nat) (lv rv : Option Nat) (mn mx : Nat) :
    Readable (.transitivePath s lc rc lv rv mn mx) := by
  intro w i b r1 r2 wb e1 e2 h
  have g := tag_inj h
  cases b <;> first | (dsimp only [tag] at g; exact absurd g (by decide)) | skip
  case transitivePath s' lc' rc' lv' rv' mn' mx' =>
    dsimp only [key] at h
    simp only [List.append_assoc] at h
    obtain ⟨⟨a1, a2, a3, a4, a5, a6⟩, h⟩ := path_body h
    obtain ⟨e, _, h⟩ := tree_inj (b := s') hs w wb h
    obtain ⟨_, _, h⟩ := tree_inj (b := s') hs w wb (List.append_cancel_left h)
    exact ⟨by dsimp only [strip]; rw [e, a1, a2, a3, a4, a5, a6], List.append_cancel_left h⟩
  case transitivePathLeft s' l' sc' lc' rc' rv' mn' mx' =>
    dsimp only [key] at h
    simp only [List.append_assoc] at h
    rw [← path_none (valueStr " rightValue ".toList rv' ++ _)] at h
    obtain ⟨_, h⟩ := path_body h
    obtain ⟨_, _, h⟩ := tree_inj (b := s') hs w wb.1 h
    exact absurd (List.append_cancel_left h).symm left_not_tree

theorem readable_transitivePathLeft {s l : Op} (hs : Readable s) (hl : Readable l) (sc lc rc : Nat) (rv : Option Nat) (mn mx : Nat) :
    Readable (.transitivePathLeft s l sc lc rc rv mn mx) := by
  intro w i b r1 r2 wb e1 e2 h
  have g := tag_inj h
  cases b <;> first | (dsimp only [tag] at g; exact absurd g (by decide)) | skip
  case transitivePath s' lc' rc' lv' rv' mn' mx' =>
    dsimp only [key] at h
    simp only [List.append_assoc] at h
    rw [← path_none (valueStr " rightValue ".toList rv ++ _)] at h
    obtain ⟨_, h⟩ := path_body h
    obtain ⟨_, _, h⟩ := tree_inj (b := s') hs w.1 wb h
    exact absurd (List.append_cancel_left h) left_not_tree
  case transitivePathLeft s' l' sc' lc' rc' rv' mn' mx' =>
    dsimp only [key] at h
    simp only [List.append_assoc] at h
    have h : ind i ++ ("TransitivePath leftCol ".toList ++ (natStr lc ++ (" rightCol ".toList ++ (natStr rc ++
      (valueStr " leftValue ".toList none ++ (valueStr " rightValue ".toList rv ++ _)))))) =
      ind i ++ ("TransitivePath leftCol ".toList ++ (natStr lc' ++ (" rightCol ".toList ++ (natStr rc' ++
      (valueStr " leftValue ".toList none ++ (valueStr " rightValue ".toList rv' ++ _)))))) := h
    obtain ⟨⟨a1, a2, _, a4, a5, a6⟩, h⟩ := path_body h
    obtain ⟨e, _, h⟩ := tree_inj (b := s') hs w.1 wb.1 h
    obtain ⟨e', _, h⟩ := tree_inj (b := l') hl w.2 wb.2 (List.append_cancel_left (List.append_cancel_left h))
    obtain ⟨_, _, h⟩ := tree_inj (b := s') hs w.1 wb.1 (List.append_cancel_left h)
    exact ⟨by dsimp only [strip]; rw [e, e', a1, a2, a4, a5, a6], List.append_cancel_left h⟩

theorem readable (a : Op) : Readable a := by
  induction a with
  | scan s => exact readable_scan s
  | join l lc r rc hl hr => exact readable_join hl hr lc rc
  | sort s c hs => exact readable_sort hs c
  | orderBy s k hs => exact readable_orderBy hs k
  | union l r o hl hr => exact readable_union hl hr o
  | distinct s k hs => exact readable_distinct hs k
  | filter s type str lhs rhs lc rc hs => exact readable_filter hs type str lhs rhs lc rc
  | minus l r j hl hr => exact readable_minus hl hr j
  | optionalJoin l r o o' j hl hr => exact readable_optionalJoin hl hr o o' j
  | multiColumnJoin l r j hl hr => exact readable_multiColumnJoin hl hr j
  | twoColumnJoin l r a b c d hl hr => exact readable_twoColumnJoin hl hr a b c d
  | hasPredicateFreeS o => exact readable_freeS o
  | hasPredicateFreeO s => exact readable_freeO s
  | hasPredicateFull => exact readable_full
  | hasPredicateSub s c hs => exact readable_sub hs c
  | groupBy s g a hs => exact readable_groupBy hs g a
  | transitivePath s lc rc lv rv mn mx hs => exact readable_transitivePath hs lc rc lv rv mn mx
  | transitivePathLeft s l sc lc rc rv mn mx hs hl => exact readable_transitivePathLeft hs hl sc lc rc rv mn mx

theorem key_inj {a b : Op} (wa : WF a) (wb : WF b) (h : cacheKey a = cacheKey b) : strip a = strip b :=
  (readable a wa 0 b [] [] wb (by intro c hc; cases hc) (by intro c hc; cases hc) (congrArg (· ++ []) h)).1

end Verif.CacheKey
