import Lean.Meta.Tactic.Simp.RegisterCommand

/-! The simp set of the "does not panic" lemmas (see `Verif/Prelude/NoPanic.lean`). -/

/-- Lemmas saying when a step does not panic. -/
register_simp_attr np_simps
