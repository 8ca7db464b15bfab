import Verif.Lemmas.TurtleDoc
import Verif.Lemmas.TurtleTotal
/-
The bound on the depth of calls does not matter as long as it is large enough.
-/
namespace Verif.Turtle
open Verif.TurtleSpec
open Verif.Spec

/-- The second result is the first one, unless the bound was too small. -/
def Res.Le {α : Type} (r r' : Res α) : Prop := r = .diverge ∨ r = r'

theorem Res.Le.refl {α : Type} (r : Res α) : Res.Le r r := .inr rfl

theorem Res.Le.bind {α β : Type} {r r' : Res α} {f g : α → State → Res β} (h : Res.Le r r')
    (hf : ∀ a s, Res.Le (f a s) (g a s)) : Res.Le (r.bind f) (r'.bind g) := by
  rcases h with rfl | rfl
  · exact .inl rfl
  · cases r with
    | ok a s => exact hf a s
    | error s => exact .inr rfl
    | abort => exact .inr rfl
    | ub => exact .inr rfl
    | diverge => exact .inr rfl

def PLe (f g : P) : Prop := ∀ s, Res.Le (f s) (g s)

theorem PLe.refl (f : P) : PLe f f := fun _ => .refl _
theorem PLe.por {f g f' g' : P} (hf : PLe f f') (hg : PLe g g') : PLe (por f g) (por f' g') := fun s =>
  (hf s).bind fun b s => by cases b <;> simp [hg s, Res.Le.refl]
theorem PLe.pand {f g f' g' : P} (hf : PLe f f') (hg : PLe g g') : PLe (pand f g) (pand f' g') := fun s =>
  (hf s).bind fun b s => by cases b <;> simp [hg s, Res.Le.refl]
theorem PLe.check {f f' : P} (hf : PLe f f') : PLe (check f) (check f') := fun s =>
  (hf s).bind fun _ _ => .refl _

theorem step_le {e : Escapes} {f g : Task → P} (h : ∀ t, PLe (f t) (g t)) : ∀ t, PLe (step e f t) (step e g t) := by
  intro t
  cases t with
  | predicateObjectList => exact (PLe.refl _).pand ((h _).check.pand (h _))
  | semicolons =>
    intro s
    refine (Res.Le.refl _).bind fun b s => ?_
    cases b with
    | false => exact .refl _
    | true => exact ((PLe.refl _).pand (h _).check s).bind fun _ s => h _ s
  | objectList => exact (h _).pand (h _)
  | commas =>
    intro s
    refine ((PLe.refl _).pand (h _).check s).bind fun b s => ?_
    cases b with
    | false => exact .refl _
    | true => exact h _ s
  | object =>
    intro s
    refine (Res.Le.refl _).bind fun b s => ?_
    cases b with
    | true => exact .refl _
    | false => exact (PLe.refl _).por (h _) s
  | blankNodePropertyList =>
    intro s
    refine (Res.Le.refl _).bind fun b s => ?_
    cases b with
    | false => exact .refl _
    | true => exact ((h _).check _).bind fun _ _ => .refl _

theorem run_le (e : Escapes) : ∀ (n m : Nat), n ≤ m → ∀ t, PLe (run e n t) (run e m t)
  | 0, _, _ => fun _ _ => .inl rfl
  | n + 1, 0, h => by omega
  | n + 1, m + 1, h => step_le (run_le e n m (by omega))

theorem triples_le (e : Escapes) {n m : Nat} (h : n ≤ m) : PLe (triples e n) (triples e m) := by
  intro s
  refine (Res.Le.refl _).bind fun b s => ?_
  cases b with
  | true => exact (run_le e n m h _ s).bind fun _ _ => .refl _
  | false =>
    refine (run_le e n m h _ s).bind fun b s => ?_
    cases b with
    | true => exact (run_le e n m h _ s).bind fun _ _ => .refl _
    | false => exact .refl _

theorem statement_le (e : Escapes) {n m : Nat} (h : n ≤ m) : PLe (statement e n) (statement e m) := fun _ =>
  (PLe.refl _).por ((triples_le e h).pand (PLe.refl _)) _

/-- If the bound is large enough for the text, the result is that for any larger bound. -/
theorem statement_fuel {hex : Str → Str} {n m : Nat} {s : State} (hn : 3 * s.input.length < n) (hm : n ≤ m) :
    statement (escapes hex) n s = statement (escapes hex) m s := by
  rcases statement_le (escapes hex) hm s with h | h
  · have := statement_good (hex := hex) (fuel := n) s hn
    rw [h] at this
    exact this.elim
  · exact h

theorem stmt_fuel {hex : Str → Str} {env : Env} {st : Stmt} (h : st.Ok hex) {rest : List Tok} {s : State} {env' : Env}
    {ts : List Triple} {k fuel : Nat} (hl : Layout Sep (st.toks ++ rest) s.input) (henv : EnvOf env s)
    (hd : st.den anonName env s.numBlank = some (env', ts, k)) (hf : 3 * s.input.length < fuel) :
    ∃ s', statement (escapes hex) fuel s = .ok true s' ∧ Layout Sep rest s'.input ∧ Read s s' env' k ts := by
  obtain ⟨N, s', h1, h2, h3⟩ := stmt_spec h hl henv hd
  refine ⟨s', ?_, h2, h3⟩
  rw [statement_fuel hf (Nat.le_max_right N fuel)]
  exact h1 _ (Nat.le_max_left _ _)

/-- Documents, from any state, with a bound that depends only on the length of the text. -/
theorem doc_fuel {hex : Str → Str} : ∀ (d : List Stmt) (env : Env) (s : State) (ts : List Triple) (fuel n : Nat), (∀ st ∈ d, st.Ok hex) →
    EnvOf env s → Layout Sep (d.flatMap Stmt.toks) s.input → denFrom anonName env s.numBlank d = some ts →
    3 * s.input.length < fuel → d.length < n →
    ∃ s', turtleDoc (escapes hex) fuel n s = .ok () s' ∧ s'.input = [] ∧ s'.triples = s.triples ++ ts := by
  intro d
  induction d with
  | nil =>
    intro env s ts fuel n _ _ hl hd hf hn
    simp only [denFrom, Option.some.injEq] at hd
    subst hd
    refine ⟨s.setIn [], ?_, rfl, by simp [State.setIn]⟩
    obtain ⟨f, rfl⟩ : ∃ f, fuel = f + 1 := ⟨fuel - 1, by omega⟩
    obtain ⟨m, rfl⟩ : ∃ m, n = m + 1 := ⟨n - 1, by simp at hn; omega⟩
    simp [turtleDoc, end_spec hl, Res.bind]
  | cons st d ih =>
    intro env s ts fuel n hok henv hl hd hf hn
    simp only [denFrom, Option.bind_eq_some_iff, Option.map_eq_some_iff, Prod.exists] at hd
    obtain ⟨env', ts1, k, hd1, ts2, hd2, rfl⟩ := hd
    obtain ⟨s1, h1, hl1, hr⟩ := stmt_fuel (hok st (by simp)) (by simpa using hl) henv hd1 hf
    have hlen : s1.input.length ≤ s.input.length := by
      have := statement_good (hex := hex) (fuel := fuel) s hf
      rw [h1] at this
      exact this.1
    obtain ⟨m, rfl⟩ : ∃ m, n = m + 1 := ⟨n - 1, by simp at hn; omega⟩
    obtain ⟨s2, h2, h3, h4⟩ := ih env' s1 ts2 fuel m (fun x hx => hok x (by simp [hx])) hr.env hl1
      (by rw [hr.numBlank]; exact hd2) (by omega) (by simp at hn; omega)
    refine ⟨s2, ?_, h3, by rw [h4, hr.triples, List.append_assoc]⟩
    simp only [turtleDoc, h1, Res.bind, if_true]
    exact h2

end Verif.Turtle
