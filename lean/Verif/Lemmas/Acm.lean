import Verif.Model.Acm
import Mathlib.Analysis.SpecialFunctions.Log.Deriv
import Mathlib.Analysis.Calculus.Deriv.Inv
import Mathlib.Algebra.Order.BigOperators.Group.Finset
import Mathlib.Tactic

/-! Helper lemmas on activity models. -/

namespace Verif.Acm

open Finset

variable {N : ℕ}

theorem lin_deriv (c x : ℝ) : HasDerivAt (fun t : ℝ => c + t * x) x 0 := by
  simpa using ((hasDerivAt_id (0 : ℝ)).mul_const x).const_add c

theorem lin_pos {c : ℝ} (hc : 0 < c) (x : ℝ) : ∀ᶠ t in nhds (0 : ℝ), 0 < c + t * x :=
  (lin_deriv c x).continuousAt.eventually (lt_mem_nhds (by simpa using hc))

/-- Derivative of `y ln y` along a line. -/
theorem xlogx_deriv {c : ℝ} (hc : 0 < c) (x : ℝ) : HasDerivAt (fun t : ℝ => (c + t * x) * Real.log (c + t * x)) (x * (Real.log c + 1)) 0 := by
  have h := lin_deriv c x
  have hl := h.log (by simpa using hc.ne')
  refine (h.mul hl).congr_deriv ?_
  simp only [zero_mul, add_zero]
  field_simp

/-- Derivative of `y ln w` along a line. -/
theorem ylogw_deriv {c w : ℝ} (hw : 0 < w) (x v : ℝ) : HasDerivAt (fun t : ℝ => (c + t * x) * Real.log (w + t * v)) (x * Real.log w + c * v / w) 0 := by
  have h := lin_deriv c x
  have hl := (lin_deriv w v).log (by simpa using hw.ne')
  refine (h.mul hl).congr_deriv ?_
  simp only [zero_mul, add_zero]
  ring

theorem single_sum (n f : Fin N → ℝ) (i : Fin N) (t : ℝ) : ∑ j, (n + Pi.single i t : Fin N → ℝ) j * f j = (∑ j, n j * f j) + t * f i := by
  simp [add_mul, sum_add_distrib, Pi.single_apply, ite_mul]

theorem single_sum' (n : Fin N → ℝ) (i : Fin N) (t : ℝ) : ∑ j, (n + Pi.single i t : Fin N → ℝ) j = (∑ j, n j) + t := by
  simp [sum_add_distrib, Pi.single_apply]

theorem single_apply' (n : Fin N → ℝ) (i j : Fin N) (t : ℝ) : (n + Pi.single i t : Fin N → ℝ) j = n j + t * (if j = i then 1 else 0) := by
  simp only [Pi.add_apply, Pi.single_apply]; split_ifs <;> ring

theorem sum_pos_of (z f : Fin N → ℝ) (hz : 0 < ∑ i, z i) (hz0 : ∀ i, 0 ≤ z i) (hf : ∀ i, 0 < f i) : 0 < ∑ i, z i * f i := by
  obtain ⟨i, hi⟩ : ∃ i, 0 < z i := by
    by_contra h
    push Not at h
    have : ∑ i, z i ≤ 0 := sum_nonpos fun i _ => h i
    linarith
  exact sum_pos' (fun j _ => mul_nonneg (hz0 j) (hf j).le) ⟨i, mem_univ _, mul_pos hi (hf i)⟩

theorem fillDiag_diag (a : Mat N) (i : Fin N) : fillDiag a i i = 0 := by simp [fillDiag]

theorem sym_diag (a : Mat N) (i : Fin N) : enforceSymmetry (fillDiag a) i i = 0 := by simp [enforceSymmetry, fillDiag]

theorem sym_symm (a : Mat N) (i j : Fin N) : enforceSymmetry (fillDiag a) i j = enforceSymmetry (fillDiag a) j i := by
  simp only [enforceSymmetry, fillDiag]
  rcases lt_trichotomy i j with h | h | h
  · simp [h, not_lt.2 h.le]
  · subst h; rfl
  · simp [h, not_lt.2 h.le]

end Verif.Acm
