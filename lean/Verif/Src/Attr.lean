import Lean.Meta.Tactic.Simp.RegisterCommand

/-! Simp set for running quoted programs; see Src/Run.lean. -/

/-- Equations that compute the meaning of a program. -/
register_simp_attr go_eval
