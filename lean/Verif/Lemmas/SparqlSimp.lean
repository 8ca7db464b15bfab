import Lean.Meta.Tactic.Simp.RegisterCommand
/-
A set of rewriting rules for the parser on words.
-/
/-- Rules for running the parser on words. -/
register_simp_attr pw
