import Verif.Model.ResultTable
import Verif.Lemmas.Modifiers
/-
C55: generated strings survive later operations.
-/
namespace Verif.ResultTable

/-- Two results show the same string for every id of a column with generated strings, and declare the same types. -/
def ShowsSame (a b : Result) : Prop := a.types = b.types ∧ ∀ id, idToOptionalString a id = idToOptionalString b id

/-- C55 for `Distinct`, whatever the input is.  Missing: the operations in `C55_join_violated` and `C55_minus_violated`. -/
theorem C55_distinct_partial {w : Nat} {keep : List Nat} {sub r : Result} (h : distinctResult w keep sub = .ok r) :
    ShowsSame r sub := by
  unfold distinctResult at h
  cases hd : Modifiers.distinct w keep sub.data with
  | ok d => rw [hd] at h; cases h; exact ⟨rfl, fun _ => rfl⟩
  | throw => rw [hd] at h; cases h
  | ub => rw [hd] at h; cases h
  | diverge => rw [hd] at h; cases h

example : ShowsSame ⟨[[0]], [.localVocab], ["ab"]⟩ ⟨[[0], [0]], [.localVocab], ["ab"]⟩ :=
  C55_distinct_partial (w := 1) (keep := [0]) (by decide)

/-- C55 for `Sort`. -/
theorem C55_sort_partial {c : Nat} {sub r : Result} (h : SortResult c sub (.ok r)) : ShowsSame r sub := by
  obtain ⟨d, _, hd⟩ := h
  cases d with
  | ok d => cases hd; exact ⟨rfl, fun _ => rfl⟩
  | throw => cases hd
  | ub => cases hd
  | diverge => cases hd

/-- C55 for `OrderBy`. -/
theorem C55_orderBy_partial {keys : List (Nat × Bool)} {sub r : Result} (h : OrderByResult keys sub (.ok r)) : ShowsSame r sub := by
  obtain ⟨d, _, hd⟩ := h
  cases d with
  | ok d => cases hd; exact ⟨rfl, fun _ => rfl⟩
  | throw => cases hd
  | ub => cases hd
  | diverge => cases hd

/-- C55 is violated by `Join`: the string that belongs to the joined row is not shown any more, although its column is still of
type LOCAL_VOCAB. -/
theorem C55_join_violated :
    joinResult 10 ⟨[[7, 0]], [.kb, .localVocab], ["ab"]⟩ 0 ⟨[[7]], [.kb], []⟩ 0 = .ok ⟨[[7, 0]], [.kb, .localVocab], []⟩ ∧
    idToOptionalString ⟨[[7, 0]], [.kb, .localVocab], ["ab"]⟩ 0 = some "ab" ∧
    idToOptionalString ⟨[[7, 0]], [.kb, .localVocab], []⟩ 0 = none := by decide

/-- C55 is violated by `Minus`. -/
theorem C55_minus_violated :
    minusResult 10 ⟨[[7, 0]], [.kb, .localVocab], ["ab"]⟩ ⟨[[8]], [.kb], []⟩ [(0, 0)] = .ok ⟨[[7, 0]], [.kb, .localVocab], []⟩ ∧
    idToOptionalString ⟨[[7, 0]], [.kb, .localVocab], ["ab"]⟩ 0 = some "ab" ∧
    idToOptionalString ⟨[[7, 0]], [.kb, .localVocab], []⟩ 0 = none := by decide

end Verif.ResultTable
