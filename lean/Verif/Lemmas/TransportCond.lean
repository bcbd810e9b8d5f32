import Verif.Model.Transport
import Mathlib.Analysis.SpecialFunctions.Log.Deriv
import Mathlib.Analysis.Complex.ExponentialBounds

/-! # Helper lemmas: pressure correction of gas thermal conductivity (Stiel-Thodos) -/

namespace Verif.Transport

open Finset Real

variable {N : ℕ}

theorem st_jump1 : 1.22e-2 * (exp (0.535 * 0.5) - 1) < 1.14e-2 * (exp (0.67 * 0.5) - 1.069) := by
  have a : exp (0.2675 : ℝ) ≤ 1.3068 := by
    have := exp_bound' (show (0 : ℝ) ≤ 0.2675 by norm_num) (by norm_num) (n := 5) (by norm_num)
    refine this.trans ?_
    norm_num [Finset.sum_range_succ, Nat.factorial]
  have b : (1.3979 : ℝ) ≤ exp 0.335 := by
    refine le_trans ?_ (sum_le_exp_of_nonneg (by norm_num) 6)
    norm_num [Finset.sum_range_succ, Nat.factorial]
  norm_num at *
  linarith

theorem st_jump2 : 1.14e-2 * (exp (0.67 * 2.0) - 1.069) < 2.60e-3 * (exp (1.155 * 2.0) + 2.016) := by
  have a : exp (0.67 : ℝ) ≤ 1.9545 := by
    have := exp_bound' (show (0 : ℝ) ≤ 0.67 by norm_num) (by norm_num) (n := 7) (by norm_num)
    refine this.trans ?_
    norm_num [Finset.sum_range_succ, Nat.factorial]
  have a2 : exp (0.67 * 2.0) ≤ 1.9545 ^ 2 := by
    rw [show (0.67 * 2.0 : ℝ) = ((2 : ℕ) : ℝ) * 0.67 by norm_num, exp_nat_mul]
    exact pow_le_pow_left₀ (exp_pos _).le a 2
  have b : (10.07 : ℝ) ≤ exp (1.155 * 2.0) := by
    refine le_trans ?_ (sum_le_exp_of_nonneg (by norm_num) 12)
    norm_num [Finset.sum_range_succ, Nat.factorial]
  generalize exp (0.67 * 2.0) = x at *
  generalize exp (1.155 * 2.0) = z at *
  norm_num at *
  linarith

theorem foldl_pair {β : Type} (l : List β) (f g : β → ℝ) (s : ℝ × ℝ) :
    l.foldl (fun s b => (s.1 + f b, s.2 + g b)) s = (s.1 + (l.map f).sum, s.2 + (l.map g).sum) := by
  induction l generalizing s with
  | nil => simp
  | cons b l ih => rw [List.foldl_cons, ih]; simp [add_assoc]

theorem finRange_sum (f : Fin N → ℝ) : ((List.finRange N).map f).sum = ∑ i, f i := by
  rw [← List.ofFn_eq_map, List.sum_ofFn]

end Verif.Transport
