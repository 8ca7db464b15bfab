import Verif.Lemmas.PostingLists
/-
C02: text posting lists survive the on-disk index.
-/
namespace Verif.PostingLists
open Verif.Bytes Verif.Simple8b

/-- C02.  For every nonempty posting list with nondecreasing context ids and every codebook order: writing succeeds,
and reading the block, wherever it is in the file and whatever follows, returns the contexts, the word ids (when the
word list is stored) and the scores, each in the original order.  The word list is left out only when all postings
have the same word. -/
theorem C02_roundtrip (ps : List Posting) (skip : Bool) (wcb scb : List Nat) (pre post : List Nat)
    (hne : ps ≠ []) (hsorted : (ps.map Posting.ctx).Pairwise (· ≤ ·))
    (hctx : ∀ p ∈ ps, p.ctx < 2 ^ 60) (hword : ∀ p ∈ ps, p.word < 2 ^ 64) (hscore : ∀ p ∈ ps, p.score < 2 ^ 16)
    (hn : ps.length < 2 ^ 60)
    (hw : IsCodebook (ps.map Posting.word) wcb) (hs : IsCodebook (ps.map Posting.score) scb) :
    ∃ b m, writePostings pre.length ps skip wcb scb = .ok (b, m) ∧ m.nofElements = ps.length ∧
      m.endByte = pre.length + b.length ∧
      readGap (pre ++ b ++ post) m.nofElements m.startContextlist (m.startWordlist - m.startContextlist) =
        .ok (ps.map Posting.ctx) ∧
      (if m.hasMultipleWords then
        readFreq 8 (pre ++ b ++ post) m.nofElements m.startWordlist (m.startScorelist - m.startWordlist) =
          .ok (ps.map Posting.word)
       else skip = true ∧ ∃ w, ∀ p ∈ ps, p.word = w) ∧
      readFreq 2 (pre ++ b ++ post) m.nofElements m.startScorelist (m.endByte - m.startScorelist) =
        .ok (ps.map Posting.score) := by
  have hwl := codebook_length _ _ hw
  have hsl := codebook_length _ _ hs
  rw [List.length_map] at hwl hsl
  have hscb : scb.length ≤ 2 ^ 16 := by
    have : scb ⊆ List.range (2 ^ 16) := by
      intro x hx
      obtain ⟨p, hp, rfl⟩ := List.mem_map.mp ((hs.2 x).mp hx)
      exact List.mem_range.mpr (hscore p hp)
    have h := codebook_length.List.subset_iff_nodup_length scb _ hs.1 this
    simpa using h
  obtain ⟨hc1, hc2, hc3⟩ := contextList_spec (ps.map Posting.ctx) hsorted (by simpa using hctx)
  rw [List.length_map] at hc3
  -- context list
  obtain ⟨cb, hcb, hcb8, _, hcbd⟩ := writeList_spec 8 (contextList (ps.map Posting.ctx)) hc2
    (fun x hx => by have := hc2 x hx; exact Nat.lt_of_lt_of_le this (by decide))
  -- word list
  have hwc : ∀ x ∈ ps.map (fun p => code wcb p.word), x < 2 ^ 60 := by
    intro x hx
    obtain ⟨p, hp, rfl⟩ := List.mem_map.mp hx
    have := code_lt _ _ hw p.word (List.mem_map_of_mem hp)
    omega
  obtain ⟨wb, hwb, _, hwb8, hwbd⟩ := writeList_spec 8 (ps.map fun p => code wcb p.word) hwc
    (fun x hx => by have := hwc x hx; exact Nat.lt_of_lt_of_le this (by decide))
  -- score list
  have hsc : ∀ x ∈ ps.map (fun p => code scb p.score), x < 2 ^ 16 := by
    intro x hx
    obtain ⟨p, hp, rfl⟩ := List.mem_map.mp hx
    have := code_lt _ _ hs p.score (List.mem_map_of_mem hp)
    omega
  have hscmod : (ps.map fun p => code scb p.score % 2 ^ 16) = ps.map fun p => code scb p.score := by
    apply List.map_congr_left
    intro p hp
    exact Nat.mod_eq_of_lt (hsc _ (List.mem_map_of_mem (f := fun p => code scb p.score) hp))
  obtain ⟨sb, hsb, _, hsb8, hsbd⟩ := writeList_spec 2 (ps.map fun p => code scb p.score)
    (fun x hx => by have := hsc x hx; omega) (fun x hx => by have := hsc x hx; exact this)
  rw [List.length_map] at hwb8 hwbd hsb8 hsbd
  rw [hc3] at hcbd
  have hcode8 : 8 * wcb.length < 256 ^ 8 := by omega
  have hcode2 : 2 * scb.length < 256 ^ 8 := by omega
  have hm1 : ps.map (fun p => code wcb p.word) = (ps.map Posting.word).map (code wcb) := by simp
  have hm2 : ps.map (fun p => code scb p.score) = (ps.map Posting.score).map (code scb) := by simp
  have hgap : ∀ wordB : List Nat, ∀ sB : List Nat,
      readGap (pre ++ (cb ++ wordB ++ sB) ++ post) ps.length pre.length cb.length = .ok (ps.map Posting.ctx) := by
    intro wordB sB
    have e : pread (pre ++ (cb ++ wordB ++ sB) ++ post) pre.length cb.length = cb :=
      pread_mid' _ pre cb (wordB ++ sB ++ post) _ _ (by simp) rfl rfl
    simp only [readGap, e, hcbd, Outcome.map, hc1]
  have hscoreRead : ∀ wordB : List Nat,
      readFreq 2 (pre ++ (cb ++ wordB ++ (writeCodebook 2 scb ++ sb)) ++ post) ps.length
        (pre.length + cb.length + wordB.length) (writeCodebook 2 scb ++ sb).length = .ok (ps.map Posting.score) := by
    intro wordB
    have := readFreq_spec 2 (by decide) scb (ps.map Posting.score) (pre ++ cb ++ wordB) post sb
      (fun x hx => (hs.2 x).mpr hx)
      (fun x hx => by
        obtain ⟨p, hp, rfl⟩ := List.mem_map.mp ((hs.2 x).mp hx)
        exact hscore p hp) hcode2 (by rw [List.length_map]; exact hsb8)
      (by rw [List.length_map, ← hm2]; exact hsbd)
    rw [List.length_map] at this
    rw [← this]
    simp [Nat.add_assoc]
  by_cases hskip : (!skip || decide (wcb.length > 1)) = true
  · refine ⟨_, _, by
      simp only [writePostings, hne, if_false, hcb, Outcome.bind, hskip, if_true, hwb, Outcome.map, hscmod, hsb]
      rfl, rfl, by simp; omega, ?_, ?_, ?_⟩
    · simp only [Nat.add_sub_cancel_left]; exact hgap _ _
    · have hmw : (Meta.hasMultipleWords ⟨ps.length, pre.length, pre.length + cb.length,
          pre.length + cb.length + (writeCodebook 8 wcb ++ wb).length,
          pre.length + cb.length + (writeCodebook 8 wcb ++ wb).length + (writeCodebook 2 scb ++ sb).length⟩) = true := by
        simp [Meta.hasMultipleWords, writeCodebook]; omega
      rw [if_pos hmw]
      simp only [Nat.add_sub_cancel_left]
      have := readFreq_spec 8 (by decide) wcb (ps.map Posting.word) (pre ++ cb)
        ((writeCodebook 2 scb ++ sb) ++ post) wb (fun x hx => (hw.2 x).mpr hx)
        (fun x hx => by
          obtain ⟨p, hp, rfl⟩ := List.mem_map.mp ((hw.2 x).mp hx)
          have := hword p hp
          exact this) hcode8 (by rw [List.length_map]; exact hwb8)
        (by rw [List.length_map, ← hm1]; exact hwbd)
      rw [List.length_map] at this
      rw [← this]
      simp [Nat.add_assoc]
    · simp only [Nat.add_sub_cancel_left]; exact hscoreRead _
  · have hskip' : (!skip || decide (wcb.length > 1)) = false := by simpa using hskip
    refine ⟨_, _, by
      simp only [writePostings, hne, if_false, hcb, Outcome.bind, hskip', Outcome.map, hscmod, hsb,
        Bool.false_eq_true]
      rfl, rfl, by simp; omega, ?_, ?_, ?_⟩
    · simp only [Nat.add_sub_cancel_left]; exact hgap _ _
    · have hmw : (Meta.hasMultipleWords ⟨ps.length, pre.length, pre.length + cb.length,
          pre.length + cb.length + ([] : List Nat).length,
          pre.length + cb.length + ([] : List Nat).length + (writeCodebook 2 scb ++ sb).length⟩) = false := by
        simp [Meta.hasMultipleWords]
      rw [hmw]
      simp only [Bool.false_eq_true, if_false]
      simp at hskip'
      refine ⟨hskip'.1, ?_⟩
      match wcb, hskip'.2, hw with
      | [], _, hw =>
        cases ps with
        | nil => exact absurd rfl hne
        | cons p ps => exact absurd ((hw.2 p.word).mpr (by simp)) (by simp)
      | [w], _, hw =>
        refine ⟨w, fun p hp => ?_⟩
        have := (hw.2 p.word).mpr (List.mem_map_of_mem hp)
        simpa using this
      | _ :: _ :: _, h, _ => simp at h
    · simp only [Nat.add_sub_cancel_left]; exact hscoreRead _

/-- The hypotheses of `C02_roundtrip` are satisfiable by a list with repeated contexts, words and scores. -/
example : let ps : List Posting := [⟨3, 7, 1⟩, ⟨3, 8, 1⟩, ⟨10, 7, 2⟩]
    ps ≠ [] ∧ (ps.map Posting.ctx).Pairwise (· ≤ ·) ∧ (∀ p ∈ ps, p.ctx < 2 ^ 60) ∧
    IsCodebook (ps.map Posting.word) [7, 8] ∧ IsCodebook (ps.map Posting.score) [1, 2] := by
  refine ⟨by simp, by simp, by simp, ⟨by simp, by simp; omega⟩, ⟨by simp, by simp⟩⟩

/-- C02, limit: a block without postings is written, but reading its scores throws (`AD_CHECK_GT(nofBytes, 0)`,
Index.Text.cpp:906), so a text query for a word that occurs together with no entity fails instead of giving an empty
result (the entity list of its block is read at Index.Text.cpp:830-845 without a check). -/
theorem C02_empty_block_throws (skip : Bool) (wcb scb : List Nat) (pre post : List Nat) :
    ∃ b m, writePostings pre.length [] skip wcb scb = .ok (b, m) ∧
      readGap (pre ++ b ++ post) m.nofElements m.startContextlist (m.startWordlist - m.startContextlist) = .ok [] ∧
      readFreq 2 (pre ++ b ++ post) m.nofElements m.startScorelist (m.endByte - m.startScorelist) = .throw := by
  refine ⟨[], ⟨0, pre.length, pre.length, pre.length, pre.length⟩, rfl, ?_, ?_⟩
  · simp [readGap, toArr, decodeInto, decodeLoop, sumUp]
  · simp [readFreq]

end Verif.PostingLists
