import Verif.Lemmas.Eos
import Verif.Props.Mixing
import Mathlib.Analysis.SpecificLimits.Basic

/-! # Helper lemmas: C81: equations of state -/

namespace Verif.Eos

open Finset Verif.Mixing

variable {N : ℕ}

theorem virialB_symm (R : ℝ) (e : Virial N) (T : ℝ) (i j : Fin N) : virialB R e T i j = virialB R e T j i := by
  simp only [virialB, bMixture]
  rcases lt_trichotomy i j with h | h | h
  · simp [h, h.ne, h.ne', not_lt.2 h.le]
  · subst h; rfl
  · simp [h, h.ne, h.ne', not_lt.2 h.le]

end Verif.Eos
