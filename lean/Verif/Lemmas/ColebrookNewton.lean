import Verif.Lemmas.ColebrookStep

/-! # Helper lemmas: convergence of `fD_Colebrook` -/

namespace Verif.Flow

open Real

/-- What the solver sees at the friction factor `1/u²`: value and slope up to rounding of the complex step. -/
theorem colebrook_step {Re er u : ℝ} (hRe : 0 < Re) (h0 : 0 ≤ er) (hu1 : 1 ≤ u) (hu2 : u ≤ 13.5) :
    ∃ F D, colebrookEq Re er (1 / u ^ 2, eps) = (F, -(D * eps)) ∧ |F - cres (er / 3.7) (2.51 / Re) u| ≤ 1e-20 ∧
      (1 - 1e-20) * (u ^ 3 / 2 * cslope (er / 3.7) (2.51 / Re) u) ≤ D ∧ D ≤ (1 + 1e-20) * (u ^ 3 / 2 * cslope (er / 3.7) (2.51 / Re) u) := by
  have he : (0 : ℝ) < eps := by norm_num [eps]
  have he1 : (eps : ℝ) ≤ 2.3e-16 := by norm_num [eps]
  have hu : 0 < u := by linarith
  have hu2' : u ^ 2 ≤ 13.5 ^ 2 := pow_le_pow_left₀ hu.le hu2 2
  have hx : 0 < 1 / u ^ 2 := by positivity
  have hxe : (eps : ℝ) ≤ 1 / u ^ 2 := by rw [le_div_iff₀ (by positivity)]; nlinarith
  obtain ⟨p, q, hp, hq, g1, g2, g3, g4, g5, g6⟩ := colebrook_parts hRe h0 hx hxe
  have ha : 0 ≤ er / 3.7 := by positivity
  have hb : 0 < 2.51 / Re := by positivity
  have h10 := log10_pos
  have hL : 0 < 2 / log 10 := by positivity
  have hL1 : 2 / log 10 ≤ 1 := by
    rw [div_le_one h10]
    have : (2 : ℝ) ≤ log 10 := by iv
    exact this
  rw [g6]
  have hδ : 0 ≤ (eps / (1 / u ^ 2)) ^ 2 := by positivity
  have hδ1 : (eps / (1 / u ^ 2)) ^ 2 ≤ (1e-26 : ℝ) := by
    have : eps / (1 / u ^ 2) ≤ (4.2e-14 : ℝ) := by rw [div_div_eq_mul_div, div_one]; nlinarith
    exact (pow_le_pow_left₀ (by positivity) this 2).trans (by norm_num)
  have hpu : p ≤ u := by
    rw [one_div_one_div] at g2
    exact (sq_le_sq₀ hp.le hu.le).1 g2
  have hup : u ≤ p * (1 + (eps / (1 / u ^ 2)) ^ 2) := by
    rw [one_div_one_div, ← mul_pow] at g3
    exact (sq_le_sq₀ hu.le (by positivity)).1 g3
  have ht1 : (2.51 / Re * q / (er / 3.7 + 2.51 / Re * p)) ≤ q / p := by
    rw [div_le_div_iff₀ (by positivity) hp]
    have : 0 ≤ er / 3.7 * q := by positivity
    nlinarith
  have hqp : q / p ≤ eps / (1 / u ^ 2) / 2 := by rw [div_le_iff₀ hp]; exact g1
  have ht0 : 0 < 2.51 / Re * q / (er / 3.7 + 2.51 / Re * p) := by positivity
  have ht2 : (2.51 / Re * q / (er / 3.7 + 2.51 / Re * p)) ^ 2 ≤ (eps / (1 / u ^ 2)) ^ 2 :=
    pow_le_pow_left₀ ht0.le (by have : 0 < eps / (1 / u ^ 2) := by positivity
                                linarith) 2
  have k1 : p * q * 2 ≤ eps * u ^ 4 := by
    have e : p * q * (1 / u ^ 2) ^ 2 * 2 = p * q * 2 / u ^ 4 := by field_simp
    rw [e, div_le_iff₀ (by positivity)] at g4
    exact g4
  have k2 : eps * u ^ 4 ≤ p * q * (1 + (eps / (1 / u ^ 2)) ^ 2) * 2 := by
    generalize (eps / (1 / u ^ 2)) ^ 2 = δ at *
    have e : p * q * ((1 / u ^ 2) ^ 2 * (1 + δ)) * 2 = p * q * (1 + δ) * 2 / u ^ 4 := by field_simp
    rw [e, le_div_iff₀ (by positivity)] at g5
    exact g5
  generalize 2.51 / Re = b at *
  generalize er / 3.7 = a at *
  clear g1 g2 g3 g4 g5 g6 hqp ht1
  generalize (eps / (1 / u ^ 2)) ^ 2 = δ at *
  generalize htt : b * q / (a + b * p) = t at *
  obtain ⟨s1, s2⟩ := step_aux (D := (q + 2 / log 10 * arctan t) / eps) ha hb hu hp hq he hδ hδ1 hL hpu hup k1 k2 htt.symm ht2 (by field_simp)
  refine ⟨_, (q + 2 / log 10 * arctan t) / eps, by rw [div_mul_cancel₀ _ he.ne'], ?_, s1, s2⟩
  have hap : 0 < a + b * p := by positivity
  have hau : 0 < a + b * u := by positivity
  have hs0 : 0 ≤ log √(1 + t ^ 2) := log_nonneg (by rw [one_le_sqrt]; nlinarith)
  have hs1 : log √(1 + t ^ 2) ≤ δ := by
    rw [log_sqrt (by positivity)]
    have := log_le_sub_one_of_pos (show 0 < 1 + t ^ 2 by positivity)
    nlinarith [sq_nonneg t]
  have hl1 : log (a + b * p) ≤ log (a + b * u) := log_le_log hap (by nlinarith)
  have hl2 : log (a + b * u) ≤ log (a + b * p) + δ := by
    have h3 : a + b * u ≤ (a + b * p) * (1 + δ) := by nlinarith [mul_le_mul_of_nonneg_left hup hb.le, mul_nonneg ha hδ]
    have h4 := log_le_log hau h3
    rw [log_mul hap.ne' (by positivity)] at h4
    have := log_le_sub_one_of_pos (show 0 < 1 + δ by positivity)
    linarith
  unfold cres
  generalize log (a + b * p) = l1 at *
  generalize log (a + b * u) = l2 at *
  generalize log √(1 + t ^ 2) = l3 at *
  generalize 2 / log 10 = L at *
  have m1 : u - p ≤ 14 * δ := by
    have : p * δ ≤ 14 * δ := mul_le_mul_of_nonneg_right (by linarith) hδ
    linarith
  have m4 : L * δ ≤ δ := mul_le_of_le_one_left hδ hL1
  have m2 : L * (l1 + l3 - l2) ≤ L * δ := mul_le_mul_of_nonneg_left (by linarith) hL.le
  have m3 : L * -δ ≤ L * (l1 + l3 - l2) := mul_le_mul_of_nonneg_left (by linarith) hL.le
  have e : p + L * (l1 + l3) - (u + L * l2) = p - u + L * (l1 + l3 - l2) := by ring
  rw [mul_neg] at m3
  rw [e, abs_le]
  constructor <;> linarith

theorem cres_bounds {a b u s : ℝ} (ha : 0 ≤ a) (hb : 0 < b) (hu : 0 < u) (hs : 3.2 ≤ s) (hroot : cres a b s = 0) :
    cslope a b u * (u - s) ≤ cres a b u ∧ cres a b u ≤ cslope a b u * (u - s + 0.28 * (u - s) ^ 2 / u) ∧ 1 ≤ cslope a b u := by
  have hs0 : 0 < s := by linarith
  have h10 := log10_pos
  have hL : 0 < 2 / log 10 := by positivity
  have hL1 : 2 / log 10 ≤ 0.87 := by
    rw [div_le_iff₀ h10]
    have : (2 / 0.87 : ℝ) ≤ log 10 := by iv
    linarith
  have hau : 0 < a + b * u := by positivity
  have has : 0 < a + b * s := by positivity
  have l1 : log (a + b * s) - log (a + b * u) ≤ b * (s - u) / (a + b * u) := by
    have := log_le_sub_one_of_pos (show 0 < (a + b * s) / (a + b * u) by positivity)
    rw [log_div has.ne' hau.ne'] at this
    refine this.trans (le_of_eq ?_)
    field_simp
    ring
  have l2 : log (a + b * u) - log (a + b * s) ≤ b * (u - s) / (a + b * s) := by
    have := log_le_sub_one_of_pos (show 0 < (a + b * u) / (a + b * s) by positivity)
    rw [log_div hau.ne' has.ne'] at this
    refine this.trans (le_of_eq ?_)
    field_simp
    ring
  unfold cres at hroot ⊢
  unfold cslope
  generalize log (a + b * s) = x at *
  generalize log (a + b * u) = y at *
  generalize 2 / log 10 = L at *
  have h1 : 0 < b / (a + b * u) := by positivity
  refine ⟨?_, ?_, by nlinarith [mul_pos hL h1]⟩
  · have := mul_le_mul_of_nonneg_left l1 hL.le
    have e : b * (s - u) / (a + b * u) = b / (a + b * u) * (s - u) := by ring
    rw [e] at this
    nlinarith
  · have h2 := mul_le_mul_of_nonneg_left l2 hL.le
    have e : b * (u - s) / (a + b * s) = b / (a + b * u) * (u - s) + b / (a + b * u) * (b / (a + b * s)) * (u - s) ^ 2 := by field_simp; ring
    rw [e] at h2
    have h3 : b / (a + b * s) ≤ 1 / 3.2 := by
      rw [div_le_div_iff₀ has (by norm_num)]
      nlinarith
    have h4 : b / (a + b * u) ≤ 1 / u := by
      rw [div_le_div_iff₀ hau hu]
      nlinarith
    have h5 : 0 < b / (a + b * s) := by positivity
    have h6 : b / (a + b * u) * (b / (a + b * s)) ≤ 1 / u * (1 / 3.2) := mul_le_mul h4 h3 h5.le (by positivity)
    have h7 : L * (b / (a + b * u) * (b / (a + b * s)) * (u - s) ^ 2) ≤ 0.87 * (1 / u * (1 / 3.2) * (u - s) ^ 2) := by
      have := sq_nonneg (u - s)
      gcongr
    have h8 : 0.87 * (1 / u * (1 / 3.2) * (u - s) ^ 2) ≤ 0.28 * (u - s) ^ 2 / u := by
      rw [show 0.87 * (1 / u * (1 / 3.2) * (u - s) ^ 2) = (0.87 / 3.2) * (u - s) ^ 2 / u by field_simp]
      gcongr
      norm_num
    have h9 : 0 ≤ L * (b / (a + b * u)) * (0.28 * (u - s) ^ 2 / u) := by positivity
    nlinarith

end Verif.Flow
