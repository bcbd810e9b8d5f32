import Verif.Lemmas.Gold
import Verif.Props.RootsScalar
import Mathlib.Analysis.Complex.ExponentialBounds

/-! # Helper lemmas: Weibull-Nycander-Gold chain-length distribution -/

namespace Verif.Gold

open Real Verif.Dist Filter Topology

theorem pref {p0 r : ℝ} (k : ℕ) {c : ℝ} (hp : 0 < p0) (hr : 0 < r) (hc : 0 < c) : exp (log (p0 / r) + k * log c) = p0 / r * c ^ k := by
  rw [exp_add, exp_log (div_pos hp hr), mul_comm (k : ℝ), exp_mul, exp_log hc, rpow_natCast]

/-- The loop over the rationals. -/
theorem tailLoop_cast (a : ℚ) (n : ℕ) : ∀ (j : ℕ) (s S : ℚ), tailLoop (a : ℝ) n j (s : ℝ) (S : ℝ) = ((tailLoop a n j s S : ℚ) : ℝ) := by
  induction n with
  | zero => intro j s S; rfl
  | succ n ih =>
    intro j s S
    have e : ((s : ℝ) * ((a : ℝ) / (j : ℝ))) = ((s * (a / j) : ℚ) : ℝ) := by push_cast; rfl
    have e2 : (S : ℝ) + ((s * (a / j) : ℚ) : ℝ) = ((S + s * (a / j) : ℚ) : ℝ) := by push_cast; rfl
    show (if |(s : ℝ) * ((a : ℝ) / (j : ℝ))| < eps * 100 then _ else _) = (((if |s * (a / (j : ℚ))| < eps * 100 then _ else _) : ℚ) : ℝ)
    rw [e, e2, ih]
    have hc : |((s * (a / (j : ℚ)) : ℚ) : ℝ)| < eps * 100 ↔ |s * (a / (j : ℚ))| < eps * 100 := by
      have : (eps : ℝ) * 100 = ((eps * 100 : ℚ) : ℝ) := by unfold eps; push_cast; rfl
      rw [this, ← Rat.cast_abs, Rat.cast_lt]
    by_cases h : |s * (a / (j : ℚ))| < eps * 100
    · rw [if_pos h, if_pos (hc.2 h)]
    · rw [if_neg h, if_neg (fun h' => h (hc.1 h'))]

end Verif.Gold
