import Verif.Lemmas.Nozzle
import Verif.Lemmas.SubcooledAlg

/-!
# Accuracy of the closed formula for the critical pressure ratio of subcooled liquids

The formula is the root of `chokeH` with the logarithm replaced by the first two terms of its series. It is therefore below the exact ratio, and the
flux there is within 3 % of the largest.
-/

namespace Verif.SubcooledCrit

open Real Verif.Prv Verif.Nozzle

/-! ### The flux -/

section

variable {w s c e : ℝ} (hw : 0 < w) (hs : 0 < s) (hs1 : s ≤ 1) (hc : 0 < c) (hcs : c ≤ s) (hq : 2 * w * (c ^ 2 - 2 * c * s + s) = c ^ 2)

theorem log_ratio {t : ℝ} (hs : 0 < s) (ht : 0 < t) : log (s / t) = -log (1 - (s - t) / s) := by
  rw [← log_inv]
  congr 1
  rw [sub_div, div_self hs.ne', sub_sub_cancel, inv_div]

include hw hs hc hq

theorem chokeH_c : chokeH w s c = 2 * w ^ 2 * s ^ 2 * (-log (1 - (s - c) / s) - (s - c) / s - ((s - c) / s) ^ 2 / 2) := by
  unfold chokeH workN
  rw [log_ratio hs hc]
  generalize log (1 - (s - c) / s) = l
  field_simp
  linear_combination hq

include hcs

theorem chokeH_c_nonneg : 0 ≤ chokeH w s c := by
  rw [chokeH_c hw hs hc hq]
  have h0 : 0 ≤ (s - c) / s := div_nonneg (by linarith) hs.le
  have h1 : (s - c) / s < 1 := by rw [div_lt_one hs]; linarith
  have := g_mono le_rfl h0 h1
  norm_num at this
  have h3 : 0 ≤ ((s - c) / s) ^ 3 := by positivity
  refine mul_nonneg (by positivity) (by linarith)

include hs1

set_option maxHeartbeats 800000 in
/-- The flux at the pressure given by the formula is within 3 % of the largest. -/
theorem near (he : 0 < e) (hes : e ≤ s) (hr : chokeH w s e = 0) :
    c ≤ e ∧ ∀ q, c ≤ q → q ≤ e → workN w s e / volD w s e ^ 2 ≤ 1.03 ^ 2 * (workN w s q / volD w s q ^ 2) := by
  have hH := chokeH_c_nonneg hw hs hc hcs hq
  have hce : c ≤ e := by
    by_contra hn
    push Not at hn
    have := chokeH_anti hw hs ⟨he, hes⟩ ⟨hc, hcs⟩ hn
    linarith
  have hmono := ratio_mono hw hs hs1 he hes hr.ge
  refine ⟨hce, fun q h1 h2 => ?_⟩
  refine le_trans ?_ (mul_le_mul_of_nonneg_left (hmono ⟨hc, hce⟩ ⟨hc.trans_le h1, h2⟩ h1) (by norm_num))
  rcases hce.eq_or_lt with h | hlt
  · rw [h]
    have := workN_nonneg hw hs hs1 he hes
    have h2 : 0 ≤ workN w s e / volD w s e ^ 2 := by positivity
    linarith
  have hD := volD_pos hw hs hc hcs
  have hDe := volD_pos hw hs he hes
  have hvc := volD_mul hw hs hc
  -- values at the two points
  have Re : workN w s e / volD w s e ^ 2 = e ^ 2 / (w * s) := by
    rw [chokeH, ← volD_mul hw hs he] at hr
    rw [div_eq_div_iff (by positivity) (by positivity)]
    linarith
  have Rc : workN w s c / volD w s c ^ 2 = (c ^ 2 + chokeH w s c / volD w s c ^ 2) / (w * s) := by
    rw [chokeH, ← hvc]
    field_simp
    ring
  -- parameters
  obtain ⟨d, hd⟩ : ∃ d, d = (s - c) / s := ⟨_, rfl⟩
  obtain ⟨m, hm⟩ : ∃ m, m = (e - c) / (s - c) := ⟨_, rfl⟩
  obtain ⟨A, hA⟩ : ∃ A, A = w * (s - c) / c := ⟨_, rfl⟩
  have hsc : 0 < s - c := by linarith
  have hd0 : 0 < d := by rw [hd]; positivity
  have hd1 : d < 1 := by rw [hd, div_lt_one hs]; linarith
  have hm0 : 0 ≤ m := by rw [hm]; exact div_nonneg (by linarith) hsc.le
  have hm1 : m ≤ 1 := by rw [hm, div_le_one hsc]; linarith
  have hA0 : 0 < A := by rw [hA]; positivity
  have ec : c = s * (1 - d) := by rw [hd]; field_simp; ring
  have ee : e = s * (1 - d * (1 - m)) := by rw [hd, hm]; field_simp; ring
  have ew : w = A * (1 - d) / d := by rw [hA, hd]; field_simp; ring
  have hd1' : 0 < 1 - d := by linarith
  have eD : volD w s c = 1 + A := by unfold volD; rw [hA]; field_simp; ring
  have hdA : d * (1 + 2 * A) ≤ 1 := by
    have h1 : s * (1 - d) ^ 2 + 2 * w * (s * (1 - d ^ 2)) = 2 * w := by
      rw [ec] at hq
      have : s * (2 * w * (1 - s * (1 - d ^ 2)) - s * (1 - d) ^ 2) = 0 := by linear_combination hq
      rcases mul_eq_zero.1 this with h | h
      · exact absurd h hs.ne'
      · linarith
    have h2 : 2 * w * d ^ 2 ≤ (1 - d) ^ 2 := by
      have h3 : 0 ≤ (1 - d) ^ 2 + 2 * w * (1 - d ^ 2) := by
        have : 0 ≤ 1 - d ^ 2 := by nlinarith
        positivity
      nlinarith [mul_le_mul_of_nonneg_right hs1 h3]
    have h4 : w * d = A * (1 - d) := by rw [ew]; field_simp
    have h5 : 2 * A * d * (1 - d) ≤ (1 - d) * (1 - d) := by nlinarith
    have := le_of_mul_le_mul_right h5 hd1'
    linarith
  have gd := g_up hd0.le hd1
  have hxd : d * (1 - m) ≤ d := by nlinarith
  have hx0 : 0 ≤ d * (1 - m) := mul_nonneg hd0.le (by linarith)
  have gm := g_mono hx0 hxd hd1
  have hHc := chokeH_c hw hs hc hq
  rw [← hd] at hHc
  have hdiff : chokeH w s c = chokeH w s c - chokeH w s e := by rw [hr, sub_zero]
  have hlow : (1 - d) * (d * m) + w * (d ^ 2 - (d * (1 - m)) ^ 2) + w ^ 2 * (d ^ 3 - (d * (1 - m)) ^ 3) / 3 ≤ w ^ 2 * (d ^ 3 / (3 * (1 - d))) := by
    have e1 : chokeH w s c - chokeH w s e = 2 * w ^ 2 * s ^ 2 * (-log (1 - d) - -log (1 - d * (1 - m))) - 2 * w * (w - 1) * s ^ 2 * (d - d * (1 - m))
        - s ^ 2 * ((w * d + 1 - d) ^ 2 - (w * (d * (1 - m)) + 1 - d * (1 - m)) ^ 2) := by
      unfold chokeH workN
      rw [log_ratio hs hc, log_ratio hs he, ← hd, show (s - e) / s = d * (1 - m) by rw [ee]; field_simp; ring]
      rw [show s - c = s * d by rw [ec]; ring, show s - e = s * (d * (1 - m)) by rw [ee]; ring]
      nth_rewrite 1 [ec]
      nth_rewrite 1 [ee]
      ring
    rw [e1] at hdiff
    rw [hHc] at hdiff
    obtain ⟨x, hx⟩ : ∃ x, x = d * (1 - m) := ⟨_, rfl⟩
    have hdm : d * m = d - x := by rw [hx]; ring
    rw [← hx] at hdiff gm ⊢
    rw [hdm]
    generalize log (1 - d) = l1 at *
    generalize log (1 - x) = l2 at *
    generalize d ^ 3 / (3 * (1 - d)) = r at *
    have hws : 0 < 2 * w ^ 2 * s ^ 2 := by positivity
    have k1 := mul_le_mul_of_nonneg_left gd hws.le
    have k2 := mul_le_mul_of_nonneg_left gm hws.le
    have hs2 : 0 < 2 * s ^ 2 := by positivity
    refine le_of_mul_le_mul_left ?_ hs2
    have k3 : 0 ≤ s ^ 2 * (d - x) ^ 2 := by positivity
    clear * - hdiff k1 k2 k3
    linarith
  have hwd : w * d = A * (1 - d) := by rw [ew]; field_simp
  have hcon : m + A * (2 * m - m ^ 2) + A ^ 2 * (1 - d) * (m - m ^ 2 + m ^ 3 / 3) ≤ A ^ 2 / 3 := by
    have hz : 0 < (1 - d) * d := by positivity
    refine le_of_mul_le_mul_left ?_ hz
    have e1 : w ^ 2 * (d ^ 3 / (3 * (1 - d))) = (1 - d) * d * (A ^ 2 / 3) := by rw [ew]; field_simp
    have e2 : (1 - d) * (d * m) + w * (d ^ 2 - (d * (1 - m)) ^ 2) + w ^ 2 * (d ^ 3 - (d * (1 - m)) ^ 3) / 3
        = (1 - d) * d * (m + A * (2 * m - m ^ 2) + A ^ 2 * (1 - d) * (m - m ^ 2 + m ^ 3 / 3)) := by
      rw [ew]; field_simp; ring
    rw [← e1, ← e2]
    exact hlow
  have hfin := sub_alg hA0 hd0 hdA hm0 hm1 hcon
  have g0 := g_mono le_rfl hd0.le hd1
  norm_num at g0
  have hHlow : c ^ 2 * (2 / 3 * A ^ 2 * d) ≤ chokeH w s c := by
    have e1 : c ^ 2 * (2 / 3 * A ^ 2 * d) = 2 * w ^ 2 * s ^ 2 * (d ^ 3 / 3) := by rw [ec, ew]; field_simp
    rw [e1, hHc]
    exact mul_le_mul_of_nonneg_left (by linarith) (by positivity)
  show workN w s e / volD w s e ^ 2 ≤ 1.03 ^ 2 * (workN w s c / volD w s c ^ 2)
  rw [Re, Rc, ← mul_div_assoc]
  refine div_le_div_of_nonneg_right ?_ (by positivity)
  have ee2 : e = c * (1 + d * m / (1 - d)) := by rw [ee, ec]; field_simp; ring
  have h9 : c ^ 2 * (2 / 3 * A ^ 2 * d / (1 + A) ^ 2) ≤ chokeH w s c / volD w s c ^ 2 := by
    rw [eD, ← mul_div_assoc]
    exact div_le_div_of_nonneg_right hHlow (by positivity)
  rw [ee2, mul_pow]
  have := mul_le_mul_of_nonneg_left hfin (sq_nonneg c)
  clear * - this h9
  linarith

end

end Verif.SubcooledCrit
