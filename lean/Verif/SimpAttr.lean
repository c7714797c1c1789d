import Lean.Meta.Tactic.Simp.RegisterCommand
/-- Simp set for symbolically running model computations. -/
register_simp_attr rs
