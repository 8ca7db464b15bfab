import Verif.Lemmas.Bind
namespace Verif.Bind
open Outcome Verif.ResultTable

/-! C39: BIND leaves all existing columns and the number and order of rows unchanged and adds one column with the value of
the expression for each row. -/

variable {F : Type}

/-- Renaming a variable copies its column, with its type. -/
theorem C39_rename (env : Env F) (getId : List Char → Option Nat) (width : Nat) (sub : Result) (hs : Shape width sub)
    (c : Nat) (hc : c < width) :
    computeResult env getId width (.rename c) sub =
      .ok ⟨sub.data.map fun row => row ++ [(row[c]?).getD 0], sub.types ++ [(sub.types[c]?).getD .kb], sub.localVocab⟩ := by
  have ht : c < sub.types.length := by rw [hs.2]; exact hc
  unfold computeResult
  simp only
  rw [Outcome.read_lt sub.types c ht, bindRows_spec width _ (fun row => (row[c]?).getD 0) sub.data hs.1]
  · simp only [Outcome.bind, Outcome.map]
    rw [List.getElem?_eq_getElem ht]; rfl
  · intro row hr
    have : c < row.length := by rw [hs.1 row hr]; exact hc
    rw [Outcome.read_lt row c this, List.getElem?_eq_getElem this]; rfl

/-- A binary operation: the new cell has type FLOAT and contains the value of the expression, NaN if it is undefined. Only for
integer columns without unbound cells. -/
theorem C39_binary_partial (env : Env F) (hE : IEEE env) (getId : List Char → Option Nat) (width : Nat) (sub : Result)
    (hs : Shape width sub) (op : Char) (hop : op ∈ ['+', '-', '*', '/']) (c1 c2 : Nat) (h1 : c1 < width) (h2 : c2 < width)
    (hv : ∀ c, c = c1 ∨ c = c2 → sub.types[c]? = some .verbatim → ∀ row ∈ sub.data, row[c]? ≠ some ID_NO_VALUE) :
    computeResult env getId width (.binary op c1 c2) sub =
      .ok ⟨sub.data.map fun row => row ++ [env.toBits ((binaryValue env op
            (number env ((sub.types[c1]?).getD .kb) ((row[c1]?).getD 0))
            (number env ((sub.types[c2]?).getD .kb) ((row[c2]?).getD 0))).getD env.nan)],
          sub.types ++ [.float], sub.localVocab⟩ := by
  rw [binary_cells env hE getId width sub hs op hop c1 c2 h1 h2]
  congr 2
  apply List.map_congr_left
  intro row hr
  congr 3
  have cell : ∀ c, c = c1 ∨ c = c2 → c < width →
      ((sub.types[c]?).getD .kb = .verbatim → (row[c]?).getD 0 ≠ ID_NO_VALUE) := by
    intro c hc hcw ht
    have l1 : c < sub.types.length := by rw [hs.2]; exact hcw
    have l2 : c < row.length := by rw [hs.1 row hr]; exact hcw
    have := hv c hc
    rw [List.getElem?_eq_getElem l1] at ht this
    simp only [Option.getD_some] at ht
    have := this (by rw [ht]) row hr
    rw [List.getElem?_eq_getElem l2] at this ⊢
    simpa using this
  exact binaryValue_cells env hE op _ _ _ _ (cell c1 (Or.inl rfl) h1) (cell c2 (Or.inr rfl) h2)

/-- An unbound cell of an integer column counts as the number 2^64 - 3. -/
theorem C39_binary_unbound_violated (env : Env F) (hE : IEEE env) (getId : List Char → Option Nat) :
    computeResult env getId 2 (.binary '+' 0 1) ⟨[[ID_NO_VALUE, 1]], [.verbatim, .verbatim], []⟩ =
      .ok ⟨[[ID_NO_VALUE, 1, env.toBits (env.add (env.ofId ID_NO_VALUE) (env.ofId 1))]], [.verbatim, .verbatim, .float], []⟩ ∧
    number env .verbatim ID_NO_VALUE = none := by
  refine ⟨?_, rfl⟩
  rw [binary_cells env hE getId 2 _ (by unfold Shape; decide) '+' (by simp) 0 1 (by omega) (by omega)]
  rfl

/-- An integer constant from 0 to `2^63 - 1` is added to each row. -/
theorem C39_int_partial (env : Env F) (getId : List Char → Option Nat) (width : Nat) (sub : Result) (hs : Shape width sub)
    (n : Nat) (hn : n < 2 ^ 63) :
    computeResult env getId width (.int (strtoll n)) sub =
      .ok ⟨sub.data.map fun row => row ++ [n], sub.types ++ [.verbatim], sub.localVocab⟩ := by
  have h1 : strtoll (n : Int) = n := by
    unfold strtoll
    rw [if_neg (by omega), if_neg (by omega)]
  have h2 : intToId (n : Int) = n := by unfold intToId; omega
  unfold computeResult
  simp only
  rw [bindRows_spec width _ (fun _ => n) sub.data hs.1 (fun _ _ => by rw [h1, h2])]
  rfl

/-- A negative constant becomes a large positive number; -3 becomes the id for "no value". Numbers from `2^63` on become
`2^63 - 1`. -/
theorem C39_int_violated (env : Env F) (getId : List Char → Option Nat) :
    computeResult env getId 1 (.int (strtoll (-5))) ⟨[[7]], [.kb], []⟩ = .ok ⟨[[7, 18446744073709551611]], [.kb, .verbatim], []⟩ ∧
    computeResult env getId 1 (.int (strtoll (-3))) ⟨[[7]], [.kb], []⟩ = .ok ⟨[[7, 2 ^ 64 - 3]], [.kb, .verbatim], []⟩ ∧
    computeResult env getId 1 (.int (strtoll (2 ^ 63))) ⟨[[7]], [.kb], []⟩ = .ok ⟨[[7, 2 ^ 63 - 1]], [.kb, .verbatim], []⟩ :=
  ⟨rfl, rfl, rfl⟩

/-- A constant from the data: its id is added to each row; a constant that does not occur in the data is refused. -/
theorem C39_word (env : Env F) (getId : List Char → Option Nat) (width : Nat) (sub : Result) (hs : Shape width sub)
    (w : List Char) :
    computeResult env getId width (.word w) sub =
      match getId w with
      | some id => .ok ⟨sub.data.map fun row => row ++ [id], sub.types ++ [.kb], sub.localVocab⟩
      | none => .throw := by
  unfold computeResult
  simp only
  cases getId w with
  | none => rfl
  | some id =>
    simp only
    rw [bindRows_spec width _ (fun _ => id) sub.data hs.1 (fun _ _ => rfl)]
    rfl

/-- In all cases: if there is a result, its rows are the rows of the input in order, each with one more cell. -/
theorem C39_rows (env : Env F) (hE : IEEE env) (getId : List Char → Option Nat) (width : Nat) (sub : Result) (hs : Shape width sub)
    (e : Expr) (he : match e with | .binary op a b => op ∈ ['+', '-', '*', '/'] ∧ a < width ∧ b < width | .rename c => c < width | _ => True)
    (r : Result) (h : computeResult env getId width e sub = .ok r) :
    r.data.map List.dropLast = sub.data ∧ Shape (width + 1) r ∧ r.types.dropLast = sub.types ∧ r.localVocab = sub.localVocab := by
  have fin : ∀ (f : List Nat → Nat) t, r = ⟨sub.data.map fun row => row ++ [f row], sub.types ++ [t], sub.localVocab⟩ →
      r.data.map List.dropLast = sub.data ∧ Shape (width + 1) r ∧ r.types.dropLast = sub.types ∧
        r.localVocab = sub.localVocab := by
    rintro f t rfl
    refine ⟨?_, ⟨?_, ?_⟩, ?_, rfl⟩
    · rw [List.map_map]
      conv => rhs; rw [← List.map_id sub.data]
      apply List.map_congr_left
      intro row _; simp
    · intro row hr
      obtain ⟨row', hr', rfl⟩ := List.mem_map.mp hr
      simp [hs.1 row' hr']
    · simp [hs.2]
    · simp
  cases e with
  | binary op a b =>
    rw [binary_cells env hE getId width sub hs op he.1 a b he.2.1 he.2.2] at h
    injection h with h
    exact fin _ _ h.symm
  | rename c =>
    rw [C39_rename env getId width sub hs c he] at h
    injection h with h
    exact fin _ _ h.symm
  | int n =>
    unfold computeResult at h
    simp only at h
    rw [bindRows_spec width _ (fun _ => intToId n) sub.data hs.1 (fun _ _ => rfl)] at h
    injection h with h
    exact fin _ _ h.symm
  | word w =>
    rw [C39_word env getId width sub hs] at h
    cases hg : getId w with
    | none => rw [hg] at h; cases h
    | some id =>
      rw [hg] at h
      injection h with h
      exact fin _ _ h.symm

/-! ### The hypotheses can be met -/

/-- A stand-in for `float`: numbers and NaN. -/
def testEnv : Env (Option Nat) where
  zero := some 0
  nan := none
  lowest := some 0
  highest := some 100
  add a b := a.bind fun x => b.map fun y => x + y
  divBy a n := a.map (· / n)
  lt a b := match a, b with | some x, some y => x < y | _, _ => false
  ofId n := some n
  ofBits n := if n = 0 ∨ n = ID_NO_VALUE then none else some (n - 1)
  toBits a := match a with | none => 0 | some x => x + 1
  word _ := []
  isFloatWord _ := false
  wordToFloat _ := none
  isValueWord _ := false
  wordToLiteral w := w
  excerpt _ := []
  showId _ := []
  showFloat _ := []
  localWord _ := []
  sub a b := a.bind fun x => b.map fun y => x - y
  mul a b := a.bind fun x => b.map fun y => x * y
  div a b := a.bind fun x => b.map fun y => x / y
  eq a b := match a, b with | some x, some y => x == y | _, _ => false

example : IEEE testEnv := by
  refine ⟨?_, ?_, ?_, ?_, ?_, by simp [testEnv], rfl⟩ <;> intro x <;> cases x <;> simp [testEnv]
example : Shape 2 ⟨[[3, 4], [5, 0]], [.verbatim, .verbatim], []⟩ := by unfold Shape; decide
example : computeResult testEnv (fun _ => none) 2 (.binary '/' 0 1) ⟨[[8, 4], [5, 0]], [.verbatim, .verbatim], []⟩ =
    .ok ⟨[[8, 4, 3], [5, 0, 0]], [.verbatim, .verbatim, .float], []⟩ := by decide

end Verif.Bind
