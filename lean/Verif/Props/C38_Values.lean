import Verif.Lemmas.Values
namespace Verif.Values
open Outcome

/-! C38: a VALUES clause contributes one row for each of its rows whose words all occur in the data, with unbound entries in
place of UNDEF; variables and rows are dropped only where they are entirely UNDEF. -/

/-- The variables that remain and the rows, exactly: a row is lost if one of its remaining entries has no id. -/
theorem C38_exact (getId : Word → Option Nat) (v : SparqlValues) (h : ∀ r ∈ v.values, r.length = v.variables.length)
    (hne : nonEmptyRows v.values ≠ []) :
    compute getId v =
      .ok (select v.values v.variables, (nonEmptyRows v.values).filterMap fun r => idRow getId (select v.values r)) := by
  unfold compute
  rw [sanitize_spec v h, if_neg hne]
  simp only [Outcome.bind]
  rw [writeValues_spec]
  · simp only [Outcome.map]
    rw [List.filterMap_map]
    rfl
  · intro r hr
    obtain ⟨r', hr', rfl⟩ := List.mem_map.mp hr
    exact select_length _ _ _ (h r' (List.mem_filter.mp hr').1)

/-- As documented, if each row that is not entirely UNDEF has a value for each variable that is bound somewhere. (Missing: rows
with some UNDEF entries.) -/
theorem C38_partial (getId : Word → Option Nat) (v : SparqlValues) (h : ∀ r ∈ v.values, r.length = v.variables.length)
    (hne : nonEmptyRows v.values ≠ []) (hu : ∀ r ∈ nonEmptyRows v.values, UNDEF ∉ select v.values r) :
    compute getId v = .ok (select v.values v.variables, expected getId v.values) := by
  rw [C38_exact getId v h hne]
  congr 2
  unfold expected
  apply filterMap_congr'
  intro r hr
  have hu := hu r hr
  generalize select v.values r = ws at hu
  induction ws with
  | nil => rfl
  | cons w ws ih =>
    have hw : w ≠ UNDEF := fun e => hu (by rw [e]; simp)
    simp only [idRow, cell, if_neg hw, ih fun hm => hu (List.mem_cons_of_mem _ hm)]

/-- A row with an UNDEF entry for a variable that another row binds is lost. -/
theorem C38_undef_violated (getId : Word → Option Nat) (a b c : Nat) (ha : getId ['a'] = some a) (hb : getId ['b'] = some b)
    (hc : getId ['c'] = some c) (hu : getId UNDEF = none) :
    compute getId ⟨[['x'], ['y']], [[['a'], UNDEF], [['b'], ['c']]]⟩ = .ok ([['x'], ['y']], [[b, c]]) ∧
    expected getId [[['a'], UNDEF], [['b'], ['c']]] = [[a, ID_NO_VALUE], [b, c]] := by
  have e1 : nonEmptyRows [[['a'], UNDEF], [['b'], ['c']]] = [[['a'], UNDEF], [['b'], ['c']]] := by decide
  have e2 : select [[['a'], UNDEF], [['b'], ['c']]] [['a'], UNDEF] = [['a'], UNDEF] := by decide
  have e3 : select [[['a'], UNDEF], [['b'], ['c']]] [['b'], ['c']] = [['b'], ['c']] := by decide
  have e4 : select [[['a'], UNDEF], [['b'], ['c']]] [['x'], ['y']] = [['x'], ['y']] := by decide
  have ne : ∀ d : Char, [d] ≠ UNDEF := by intro d h; simp [UNDEF] at h
  constructor
  · rw [C38_exact getId _ (by decide) (by decide)]
    simp only [e1, e4, List.filterMap_cons, List.filterMap_nil, e2, e3, idRow, ha, hb, hc, hu, Option.bind_some, Option.bind_none,
      Option.map_none, Option.map_some]
  · unfold expected
    simp only [e1, List.filterMap_cons, List.filterMap_nil, e2, e3, idRow, cell, if_neg (ne _), ha, hb, hc, if_true, Option.bind_some,
      Option.map_some]

/-- A row with a wrong number of entries and a clause without any value are refused. -/
theorem C38_refused (getId : Word → Option Nat) (v : SparqlValues)
    (h : (¬ ∀ r ∈ v.values, r.length = v.variables.length) ∨ nonEmptyRows v.values = []) : compute getId v = .throw := by
  unfold compute
  by_cases hs : ∀ r ∈ v.values, r.length = v.variables.length
  · rcases h with h | h
    · exact absurd hs h
    · rw [sanitize_spec v hs, if_pos h]; rfl
  · unfold sanitizeValues
    rw [scan_throw _ _ hs]; rfl

/-! ### The hypotheses can be met -/

/-- Three variables, one never bound; one row entirely UNDEF, one row with an unknown word. -/
def testValues : SparqlValues :=
  ⟨[['x'], ['y'], ['z']], [[['a'], UNDEF, ['b']], [UNDEF, UNDEF, UNDEF], [['q'], UNDEF, ['a']], [['b'], UNDEF, ['b']]]⟩

def testId (w : Word) : Option Nat := if w = ['a'] then some 7 else if w = ['b'] then some 9 else none

example : (∀ r ∈ testValues.values, r.length = testValues.variables.length) ∧ nonEmptyRows testValues.values ≠ [] ∧
    (∀ r ∈ nonEmptyRows testValues.values, UNDEF ∉ select testValues.values r) := by decide
example : compute testId testValues = .ok ([['x'], ['z']], [[7, 9], [9, 9]]) := by decide
example : testId ['a'] = some 7 ∧ testId UNDEF = none := by decide
example : compute testId ⟨[['x']], [[UNDEF]]⟩ = .throw := by decide

end Verif.Values
