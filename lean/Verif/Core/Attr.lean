import Lean.Meta.Tactic.Simp.RegisterCommand

/-- Simp set that unfolds mnemonics, programs and the weakest-precondition calculus. -/
register_simp_attr asm
