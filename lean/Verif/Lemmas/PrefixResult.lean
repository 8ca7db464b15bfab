import Verif.Lemmas.PrefixChoose
import Verif.Lemmas.PrefixCompression
import Verif.Lemmas.RdfEscaping
/-
The prefixes for a vocabulary file.
-/
namespace Verif.PrefixHeuristic
open RdfEscaping (escapeNB unescapeNB unescapeNB_escapeNB newline_not_mem)
open PrefixCompression (getlines vocabFile getlines_writeLines)
open PrefixChoice (covered saved LongestCommon CommonPrefixes)

theorem longestCommon_unique {a b p q : Word} (hp : LongestCommon a b p) (hq : LongestCommon a b q) : p = q :=
  (hq.2.2 p hp.1 hp.2.1).eq_of_length_le (hp.2.2 q hq.1 hq.2.1).length_le

theorem commonPrefixes_unique {ws cs ds : List Word} (h : CommonPrefixes ws cs) (h' : CommonPrefixes ws ds) : cs = ds := by
  induction h generalizing ds with
  | nil => cases h'; rfl
  | single w => cases h'; rfl
  | cons hp _ ih =>
    cases h' with
    | cons hq h' => rw [longestCommon_unique hp hq, ih h']

theorem lines_vocabFile (ws : List Word) : getlines (vocabFile ws) = ws.map escapeNB := by
  apply getlines_writeLines
  intro l hl
  obtain ⟨w, _, rfl⟩ := List.mem_map.mp hl
  exact newline_not_mem w

theorem readWords_escaped (ws : List Word) : readWords (ws.map escapeNB) = .ok ws := by
  induction ws with
  | nil => rfl
  | cons w ws ih => simp [readWords, unescapeNB_escapeNB, ih]

/-- `build` for words that are not escaped. -/
def buildWords (minLength : Nat) (t : Tree) (pos : Option Word) (last : Word) : List Word → Outcome Tree
  | [] => .ok t
  | next :: ws =>
    if minLength ≤ (commonPrefix last next).length then
      (t.insert (commonPrefix last next) pos).bind fun t' => buildWords minLength t' (some (commonPrefix last next)) next ws
    else buildWords minLength t none next ws

theorem build_escaped (minLength : Nat) (t : Tree) (pos : Option Word) (last : Word) (ws : List Word) :
    build minLength t pos last (ws.map escapeNB) = buildWords minLength t pos last ws := by
  induction ws generalizing t pos last with
  | nil => rfl
  | cons w ws ih =>
    rw [List.map_cons, build, unescapeNB_escapeNB, buildWords]
    simp only [Outcome.bind, ih]

/-- The prefixes for a list of words. -/
def prefixesOf (w : Word) (ws : List Word) (num code : Nat) (always : Bool) : Outcome (List Word × Nat) :=
  (buildWords (if always then 1 else code + 1) Tree.init none (escapeNB w) ws).bind fun t =>
    (choose (if always then 0 else code) num t.root).map fun l => (l.map (·.2), (l.map (·.1)).sum)

theorem calculate_vocabFile (w : Word) (ws : List Word) (num code : Nat) (always : Bool) :
    calculatePrefixes (vocabFile (w :: ws)) num code always = prefixesOf w ws num code always := by
  rw [calculatePrefixes, lines_vocabFile, List.map_cons]
  simp only [build_escaped]
  rfl

theorem prefixesOf_ok {w : Word} {ws : List Word} (hs : ws.Pairwise (· ≤ ·)) (num code : Nat) (always : Bool) :
    ∃ r, prefixesOf w ws num code always = .ok r := by
  obtain ⟨t, ht⟩ := build_init_ok (minLength := if always then 1 else code + 1) (first := escapeNB w) (readWords_escaped ws) hs
  obtain ⟨_, _, hb⟩ := build_spec built_init (by simp) ht
  rw [build_escaped] at ht
  obtain ⟨l, hl, _⟩ := choose_basic (if always then 0 else code) (k := num) (chosen_init hb)
  exact ⟨_, by rw [prefixesOf, ht]; simp only [Outcome.bind]; rw [hl]; rfl⟩

/-- The tree and the choice behind a result. -/
theorem prefixesOf_inv {w : Word} {ws : List Word} {num code : Nat} {always : Bool} {r : List Word × Nat}
    (h : prefixesOf w ws num code always = .ok r) :
    ∃ f l, Chosen f ((candidates (escapeNB w) ws).filter ((if always then 1 else code + 1) ≤ ·.length)) [] ∧
      choose (if always then 0 else code) num f = .ok l ∧ r = (l.map (·.2), (l.map (·.1)).sum) := by
  rw [prefixesOf] at h
  cases hb : buildWords (if always then 1 else code + 1) Tree.init none (escapeNB w) ws with
  | throw => rw [hb] at h; simp at h
  | ub => rw [hb] at h; simp at h
  | diverge => rw [hb] at h; simp at h
  | ok t =>
    rw [hb] at h
    simp only [Outcome.bind] at h
    cases hc : choose (if always then 0 else code) num t.root with
    | throw => rw [hc] at h; simp at h
    | ub => rw [hc] at h; simp at h
    | diverge => rw [hc] at h; simp at h
    | ok l =>
      rw [hc] at h
      simp only [Outcome.map, Outcome.ok.injEq] at h
      rw [← build_escaped] at hb
      obtain ⟨ws', h1, h2⟩ := build_spec built_init (by simp) hb
      rw [readWords_escaped] at h1
      simp only [Outcome.ok.injEq] at h1
      subst h1
      exact ⟨t.root, l, chosen_init (by simpa using h2), hc, h.symm⟩

/-! ### What the prefixes cover -/

theorem covered_le (ps : List Word) (w : Word) : covered ps w ≤ w.length := by
  induction ps with
  | nil => exact Nat.zero_le _
  | cons p ps ih =>
    rw [PrefixHeuristic.covered_cons]
    split
    · rename_i h
      have := (List.isPrefixOf_iff_prefix.mp h).length_le
      omega
    · exact ih

theorem covered_mono (p : Word) (ps : List Word) (w : Word) : covered ps w ≤ covered (p :: ps) w := by
  rw [covered_cons]; split <;> omega

theorem covered_attained (ps : List Word) (w : Word) : covered ps w = 0 ∨ ∃ p ∈ ps, p <+: w ∧ p.length = covered ps w := by
  induction ps with
  | nil => exact .inl rfl
  | cons p ps ih =>
    by_cases h : p <+: w
    · rw [covered_cons_pos _ h]
      by_cases hle : covered ps w ≤ p.length
      · exact .inr ⟨p, by simp, h, by rw [Nat.max_eq_left hle]⟩
      · rcases ih with ih | ⟨q, hq, h1, h2⟩
        · omega
        · exact .inr ⟨q, by simp [hq], h1, by rw [Nat.max_eq_right (by omega)]; exact h2⟩
    · rw [covered_cons_neg _ h]
      rcases ih with ih | ⟨q, hq, h1⟩
      · exact .inl ih
      · exact .inr ⟨q, by simp [hq], h1⟩

theorem covered_extend {ps : List Word} {v w : Word} (h : v <+: w) : covered ps v ≤ covered ps w := by
  rcases covered_attained ps v with h0 | ⟨p, hp, h1, h2⟩
  · omega
  · rw [← h2]; exact le_covered hp (h1.trans h)

theorem saved_filter (ps cs : List Word) : saved ps (cs.filter (1 ≤ ·.length)) = saved ps cs := by
  unfold saved
  rw [sum_map_filter]
  congr 1
  refine List.map_congr_left fun c _ => ?_
  have := covered_le ps c
  by_cases h : 1 ≤ c.length
  · simp [h]
  · have h0 : covered ps c = 0 := by omega
    simp [h0]

theorem sum_eq_pointwise {l : List Word} {f g : Word → Nat} (hle : ∀ a ∈ l, f a ≤ g a) (h : (l.map g).sum = (l.map f).sum) :
    ∀ a ∈ l, f a = g a := by
  have hsum : ∀ l : List Word, (∀ a ∈ l, f a ≤ g a) → (l.map f).sum ≤ (l.map g).sum := by
    intro l
    induction l with
    | nil => simp
    | cons a l ih =>
      intro hle
      have h1 := hle a (by simp)
      have h2 := ih fun b hb => hle b (by simp [hb])
      simp only [List.map_cons, List.sum_cons]
      omega
  induction l with
  | nil => simp
  | cons a l ih =>
    have h1 := hle a (by simp)
    have h2 := hsum l fun b hb => hle b (by simp [hb])
    simp only [List.map_cons, List.sum_cons] at h
    intro b hb
    rcases List.mem_cons.mp hb with rfl | hb
    · omega
    · exact ih (fun b hb => hle b (by simp [hb])) (by omega) b hb

/-- A candidate that adds nothing is covered. -/
theorem covered_of_saved {ps ls : List Word} {q : Word} (hq : q ∈ ls) (h : saved (q :: ps) ls = saved ps ls) : covered ps q = q.length := by
  have := sum_eq_pointwise (fun a _ => covered_mono q ps a) h q hq
  rw [this, covered_cons_pos _ (List.prefix_refl q)]
  have := covered_le ps q
  omega

theorem commonPrefixes_length {w : Word} {ws cs : List Word} (h : CommonPrefixes (w :: ws) cs) : cs.length = ws.length := by
  induction ws generalizing w cs with
  | nil => cases h; rfl
  | cons a ws ih =>
    cases h with
    | cons _ h => simp [ih h]

/-- What is covered in the candidates is covered in the words. -/
theorem saved_words {w : Word} {ws cs : List Word} (h : CommonPrefixes (w :: ws) cs) (ps : List Word) : saved ps cs ≤ saved ps ws := by
  induction ws generalizing w cs with
  | nil => cases h; exact Nat.le_refl _
  | cons a ws ih =>
    cases h with
    | cons hp h =>
      have := ih h
      simp only [saved, List.map_cons, List.sum_cons] at this ⊢
      have := covered_extend (ps := ps) hp.2.1
      omega

theorem mem_commonPrefixes {w : Word} {ws cs : List Word} (h : CommonPrefixes (w :: ws) cs) : ∀ c ∈ cs, ∃ a ∈ ws, c <+: a := by
  induction ws generalizing w cs with
  | nil => cases h; simp
  | cons a ws ih =>
    cases h with
    | cons hp h =>
      intro c hc
      rcases List.mem_cons.mp hc with rfl | hc
      · exact ⟨a, by simp, hp.2.1⟩
      · obtain ⟨b, hb, hcb⟩ := ih h c hc
        exact ⟨b, by simp [hb], hcb⟩

end Verif.PrefixHeuristic
