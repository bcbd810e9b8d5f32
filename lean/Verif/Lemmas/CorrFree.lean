import Verif.Props.CorrForced

/-! # Helper lemmas: free-convection and combined Nusselt numbers -/

namespace Verif.Correlations

open Real

/-- The cube root: the one number with the given cube. -/
theorem cbrt_pow (x : ℝ) : cbrt x ^ 3 = x := by
  unfold cbrt
  split_ifs with h
  · have : ((-x) ^ (1 / 3 : ℝ)) ^ 3 = -x := by rw [← rpow_natCast, ← rpow_mul (by linarith)]; norm_num
    rw [Odd.neg_pow (by decide), this, neg_neg]
  · rw [← rpow_natCast, ← rpow_mul (not_lt.1 h)]; norm_num

theorem cube_inj {a b : ℝ} (h : a ^ 3 = b ^ 3) : a = b := (Odd.strictMono_pow (by decide : Odd 3)).injective h

theorem cube_le {a b : ℝ} (h : a ^ 3 ≤ b ^ 3) : a ≤ b := (Odd.strictMono_pow (by decide : Odd 3)).le_iff_le.1 h

theorem cube_lt {a b : ℝ} (h : a ^ 3 < b ^ 3) : a < b := (Odd.strictMono_pow (by decide : Odd 3)).lt_iff_lt.1 h

theorem churchill_pos {c Pr : ℝ} (hc : 0 < c) (hP : 0 < Pr) (a b : ℝ) : 0 < (1 + (c / Pr) ^ a) ^ b := by positivity

theorem churchill_anti {c Pr Pr' : ℝ} (hc : 0 < c) (hP : 0 < Pr) (h : Pr < Pr') {a b : ℝ} (ha : 0 < a) (hb : 0 < b) :
    (1 + (c / Pr') ^ a) ^ b < (1 + (c / Pr) ^ a) ^ b := by
  have hP' := hP.trans h
  have : (c / Pr') ^ a < (c / Pr) ^ a := rpow_lt_rpow (by positivity) (by gcongr) ha
  exact rpow_lt_rpow (by positivity) (by linarith) hb

end Verif.Correlations
