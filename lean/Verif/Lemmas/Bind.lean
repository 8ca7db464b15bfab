import Verif.Spec.Bind
namespace Verif.Bind
open Outcome Verif.ResultTable

variable {F : Type}

theorem copyRow_spec (row : List Nat) : ∀ n ≤ row.length, copyRow row n = .ok (row.take n) := by
  intro n
  induction n with
  | zero => intro _; rfl
  | succ n ih =>
    intro h
    unfold copyRow
    rw [ih (by omega), Outcome.read_lt row n (by omega)]
    simp only [Outcome.bind, Outcome.map]
    rw [List.take_succ_eq_append_getElem (by omega)]

theorem bindRows_spec (width : Nat) (cell : List Nat → Outcome Nat) (f : List Nat → Nat) (t : Table)
    (ht : ∀ row ∈ t, row.length = width) (hc : ∀ row ∈ t, cell row = .ok (f row)) :
    bindRows width cell t = .ok (t.map fun row => row ++ [f row]) := by
  induction t with
  | nil => rfl
  | cons row t ih =>
    have hw := ht row (by simp)
    unfold bindRows
    rw [copyRow_spec row width (by omega), hc row (by simp),
      ih (fun r hr => ht r (List.mem_cons_of_mem _ hr)) (fun r hr => hc r (List.mem_cons_of_mem _ hr))]
    simp only [Outcome.bind, Outcome.map, List.map_cons]
    rw [List.take_of_length_le (by omega)]

/-- What the code takes for the number behind a cell. -/
def cellNumber (env : Env F) (type : RT) (id : Nat) : Option F :=
  match type with
  | .verbatim => some (env.ofId id)
  | .float => some (env.ofBits id)
  | .kb => if env.isFloatWord (env.word id) then some (env.wordToFloat (env.word id)) else none
  | _ => none

theorem binary_cells (env : Env F) (hE : IEEE env) (getId : List Char → Option Nat) (width : Nat) (sub : Result)
    (hs : Shape width sub) (op : Char) (hop : op ∈ ['+', '-', '*', '/']) (c1 c2 : Nat) (h1 : c1 < width) (h2 : c2 < width) :
    computeResult env getId width (.binary op c1 c2) sub =
      .ok ⟨sub.data.map fun row => row ++ [env.toBits ((binaryValue env op
            (cellNumber env ((sub.types[c1]?).getD .kb) ((row[c1]?).getD 0))
            (cellNumber env ((sub.types[c2]?).getD .kb) ((row[c2]?).getD 0))).getD env.nan)],
          sub.types ++ [.float], sub.localVocab⟩ := by
  have ht1 : c1 < sub.types.length := by rw [hs.2]; exact h1
  have ht2 : c2 < sub.types.length := by rw [hs.2]; exact h2
  have key : ∀ f, operation env op = some f → ∀ t1 t2, ∀ row ∈ sub.data,
      (operands env t1 t2 row c1 c2).map (fun v => env.toBits (opResult env op f v)) =
        .ok (env.toBits ((binaryValue env op (cellNumber env t1 ((row[c1]?).getD 0)) (cellNumber env t2 ((row[c2]?).getD 0))).getD
          env.nan)) := by
    intro f hf t1 t2 row hr
    have hr1 : c1 < row.length := by rw [hs.1 row hr]; exact h1
    have hr2 : c2 < row.length := by rw [hs.1 row hr]; exact h2
    have hnan1 : ∀ x, opResult env op f (env.nan, x) = env.nan := by
      intro x
      unfold opResult
      simp only
      split
      · rfl
      · simp only [List.mem_cons, List.not_mem_nil, or_false] at hop
        rcases hop with rfl | rfl | rfl | rfl <;> simp only [operation, Option.some.injEq] at hf <;> subst hf
        · exact (hE.add_nan x).2
        · exact (hE.sub_nan x).2
        · exact (hE.mul_nan x).2
        · exact (hE.div_nan x).2
    have hnan2 : ∀ x, opResult env op f (x, env.nan) = env.nan := by
      intro x
      unfold opResult
      simp only
      split
      · rfl
      · simp only [List.mem_cons, List.not_mem_nil, or_false] at hop
        rcases hop with rfl | rfl | rfl | rfl <;> simp only [operation, Option.some.injEq] at hf <;> subst hf
        · exact (hE.add_nan x).1
        · exact (hE.sub_nan x).1
        · exact (hE.mul_nan x).1
        · exact (hE.div_nan x).1
    have hval : ∀ x y, opResult env op f (x, y) = ((binaryValue env op (some x) (some y)).getD env.nan) := by
      intro x y
      unfold opResult binaryValue
      simp only [hE.eq_nan, Bool.false_or]
      simp only [List.mem_cons, List.not_mem_nil, or_false] at hop
      rcases hop with rfl | rfl | rfl | rfl <;> simp only [operation, Option.some.injEq] at hf <;> subst hf
      · rfl
      · rfl
      · rfl
      · simp only [beq_self_eq_true, Bool.true_and]
        split <;> rfl
    unfold operands
    rw [Outcome.read_lt row c1 hr1, List.getElem?_eq_getElem hr1, List.getElem?_eq_getElem hr2]
    simp only [Outcome.bind, Option.getD_some]
    cases hn1 : operand env t1 row[c1] with
    | stop =>
      have : cellNumber env t1 row[c1] = none := by
        unfold operand at hn1; unfold cellNumber
        cases t1 <;> simp_all
      simp only [Outcome.map, this, hnan1]
      rfl
    | noValue =>
      have : cellNumber env t1 row[c1] = none := by
        unfold operand at hn1; unfold cellNumber
        cases t1 <;> simp_all
        split at hn1 <;> simp_all
      simp only [Outcome.read_lt row c2 hr2, Outcome.map, this]
      cases operand env t2 row[c2] <;> simp only [hnan1] <;> rfl
    | value x =>
      have hx : cellNumber env t1 row[c1] = some x := by
        unfold operand at hn1; unfold cellNumber
        cases t1 <;> simp_all
        split at hn1 <;> simp_all
      simp only [Outcome.read_lt row c2 hr2, Outcome.map, hx]
      cases hn2 : operand env t2 row[c2] with
      | stop =>
        have : cellNumber env t2 row[c2] = none := by
          unfold operand at hn2; unfold cellNumber
          cases t2 <;> simp_all
        simp only [this, hnan2]; rfl
      | noValue =>
        have : cellNumber env t2 row[c2] = none := by
          unfold operand at hn2; unfold cellNumber
          cases t2 <;> simp_all
          split at hn2 <;> simp_all
        simp only [this, hnan2]; rfl
      | value y =>
        have hy : cellNumber env t2 row[c2] = some y := by
          unfold operand at hn2; unfold cellNumber
          cases t2 <;> simp_all
          split at hn2 <;> simp_all
        simp only [hy, hval]
  obtain ⟨f, hf⟩ : ∃ f, operation env op = some f := by
    simp only [List.mem_cons, List.not_mem_nil, or_false] at hop
    rcases hop with rfl | rfl | rfl | rfl <;> exact ⟨_, rfl⟩
  unfold computeResult
  simp only
  rw [Outcome.read_lt sub.types c1 ht1, Outcome.read_lt sub.types c2 ht2, List.getElem?_eq_getElem ht1,
    List.getElem?_eq_getElem ht2, hf]
  simp only [Outcome.bind, Option.getD_some]
  rw [bindRows_spec width _ _ sub.data hs.1 (key f hf _ _)]
  rfl

theorem binaryValue_nan (env : Env F) (hE : IEEE env) (op : Char) (x : F) :
    ((binaryValue env op (some x) (some env.nan)).getD env.nan = env.nan) ∧
    ((binaryValue env op (some env.nan) (some x)).getD env.nan = env.nan) := by
  unfold binaryValue
  constructor
  · simp only
    split
    · exact (hE.add_nan x).1
    · exact (hE.sub_nan x).1
    · exact (hE.mul_nan x).1
    · split
      · rfl
      · exact (hE.div_nan x).1
    · rfl
  · simp only
    split
    · exact (hE.add_nan x).2
    · exact (hE.sub_nan x).2
    · exact (hE.mul_nan x).2
    · split
      · rfl
      · exact (hE.div_nan x).2
    · rfl

/-- Where the code's number is not the number behind a cell, it is NaN. -/
theorem cellNumber_eq (env : Env F) (hE : IEEE env) (type : RT) (id : Nat) (h : type = .verbatim → id ≠ ID_NO_VALUE) :
    cellNumber env type id = number env type id ∨ (number env type id = none ∧ cellNumber env type id = some env.nan) := by
  unfold cellNumber number
  by_cases hi : id = ID_NO_VALUE
  · subst hi
    rw [if_pos rfl]
    cases type <;> simp_all [hE.no_value, hE.no_word]
  · rw [if_neg hi]; left; rfl

theorem binaryValue_cells (env : Env F) (hE : IEEE env) (op : Char) (t1 t2 : RT) (i1 i2 : Nat)
    (h1 : t1 = .verbatim → i1 ≠ ID_NO_VALUE) (h2 : t2 = .verbatim → i2 ≠ ID_NO_VALUE) :
    (binaryValue env op (cellNumber env t1 i1) (cellNumber env t2 i2)).getD env.nan =
      (binaryValue env op (number env t1 i1) (number env t2 i2)).getD env.nan := by
  rcases cellNumber_eq env hE t1 i1 h1 with e1 | ⟨n1, e1⟩ <;> rcases cellNumber_eq env hE t2 i2 h2 with e2 | ⟨n2, e2⟩
  · rw [e1, e2]
  · rw [e1, e2, n2]
    cases number env t1 i1 with
    | none => rfl
    | some x => exact (binaryValue_nan env hE op x).1
  · rw [e1, e2, n1]
    cases number env t2 i2 with
    | none => rfl
    | some x => exact (binaryValue_nan env hE op x).2
  · rw [e1, e2, n1]
    exact (binaryValue_nan env hE op env.nan).1

end Verif.Bind
