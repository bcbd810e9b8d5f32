import Verif.Model.Kinetics
import Mathlib.Analysis.SpecificLimits.Normed
import Mathlib.Analysis.SpecialFunctions.Gamma.Basic

/-!
# The Bessel series
-/

namespace Verif.Kin

open Real

/-- Term of the Bessel series. -/
noncomputable def ivT (m a : ℝ) (k : ℕ) : ℝ := (a / 2) ^ (2 * (k : ℝ) + m) / ((k.factorial : ℝ) * Gamma (k + m + 1))

theorem iv_eq (m a : ℝ) : iv m a = ∑' k, ivT m a k := rfl

theorem ivT_pos {m a : ℝ} (hm : -1 < m) (ha : 0 < a) (k : ℕ) : 0 < ivT m a k := by
  have : 0 < Gamma (k + m + 1) := Gamma_pos_of_pos (by have : (0 : ℝ) ≤ k := k.cast_nonneg; linarith)
  have : (0 : ℝ) < k.factorial := by exact_mod_cast k.factorial_pos
  unfold ivT
  positivity

theorem ivT_succ {m a : ℝ} (hm : -1 < m) (ha : 0 < a) (k : ℕ) :
    ivT m a (k + 1) = (a / 2) ^ 2 / ((k + 1) * (k + m + 1)) * ivT m a k := by
  have hk : (0 : ℝ) ≤ k := k.cast_nonneg
  have h1 : (0 : ℝ) < k + m + 1 := by linarith
  have h2 : (k : ℝ) + 1 ≠ 0 := by positivity
  have h3 : (k.factorial : ℝ) ≠ 0 := by exact_mod_cast k.factorial_ne_zero
  have h4 : Gamma (k + m + 1) ≠ 0 := (Gamma_pos_of_pos h1).ne'
  have e1 : Gamma (((k + 1 : ℕ) : ℝ) + m + 1) = (k + m + 1) * Gamma (k + m + 1) := by
    rw [← Gamma_add_one h1.ne']; congr 1; push_cast; ring
  have e2 : (a / 2) ^ (2 * (((k + 1 : ℕ) : ℝ)) + m) = (a / 2) ^ 2 * (a / 2) ^ (2 * (k : ℝ) + m) := by
    rw [← rpow_two, ← rpow_add (by positivity)]; congr 1; push_cast; ring
  unfold ivT
  rw [e1, e2, Nat.factorial_succ]
  push_cast
  field_simp

theorem ivT_summable {m a : ℝ} (hm : -1 < m) (ha : 0 < a) : Summable (ivT m a) := by
  refine summable_of_ratio_test_tendsto_lt_one (l := 0) one_pos (Filter.Eventually.of_forall fun k => (ivT_pos hm ha k).ne') ?_
  have e : ∀ k : ℕ, ‖ivT m a (k + 1)‖ / ‖ivT m a k‖ = (a / 2) ^ 2 / ((k + 1) * (k + m + 1)) := fun k => by
    rw [norm_of_nonneg (ivT_pos hm ha _).le, norm_of_nonneg (ivT_pos hm ha _).le, ivT_succ hm ha,
      mul_div_assoc, div_self (ivT_pos hm ha k).ne', mul_one]
  simp_rw [e]
  refine Filter.Tendsto.div_atTop tendsto_const_nhds (Filter.Tendsto.atTop_mul_atTop₀ ?_ ?_)
  · exact (tendsto_natCast_atTop_atTop).atTop_add tendsto_const_nhds
  · exact ((tendsto_natCast_atTop_atTop).atTop_add tendsto_const_nhds).atTop_add tendsto_const_nhds

theorem iv_pos {m a : ℝ} (hm : -1 < m) (ha : 0 < a) : 0 < iv m a :=
  (ivT_summable hm ha).tsum_pos (fun k => (ivT_pos hm ha k).le) 0 (ivT_pos hm ha 0)

/-- The three-term recurrence. -/
theorem iv_rec {m a : ℝ} (hm : 0 < m) (ha : 0 < a) : iv (m - 1) a = 2 * m / a * iv m a + iv (m + 1) a := by
  have s1 : Summable (ivT (m - 1) a) := ivT_summable (by linarith) ha
  have s2 : Summable (ivT m a) := ivT_summable (by linarith) ha
  have s3 : Summable (ivT (m + 1) a) := ivT_summable (by linarith) ha
  have key : ∀ k : ℕ, ivT (m - 1) a (k + 1) = 2 * m / a * ivT m a (k + 1) + ivT (m + 1) a k := by
    intro k
    have hk : (0 : ℝ) ≤ k := k.cast_nonneg
    have h1 : (0 : ℝ) < k + m + 1 := by linarith
    have h3 : (k.factorial : ℝ) ≠ 0 := by exact_mod_cast k.factorial_ne_zero
    have h4 : Gamma (k + m + 1) ≠ 0 := (Gamma_pos_of_pos h1).ne'
    have g1 : Gamma (((k + 1 : ℕ) : ℝ) + (m - 1) + 1) = Gamma (k + m + 1) := by congr 1; push_cast; ring
    have g2 : Gamma (((k + 1 : ℕ) : ℝ) + m + 1) = (k + m + 1) * Gamma (k + m + 1) := by
      rw [← Gamma_add_one h1.ne']; congr 1; push_cast; ring
    have g3 : Gamma ((k : ℝ) + (m + 1) + 1) = (k + m + 1) * Gamma (k + m + 1) := by
      rw [← Gamma_add_one h1.ne']; congr 1; ring
    have p1 : (a / 2) ^ (2 * (((k + 1 : ℕ) : ℝ)) + m) = (a / 2) * (a / 2) ^ (2 * (k : ℝ) + (m + 1)) := by
      rw [← rpow_one_add' (by positivity) (by positivity)]; congr 1; push_cast; ring
    have p2 : (a / 2) ^ (2 * (((k + 1 : ℕ) : ℝ)) + (m - 1)) = (a / 2) ^ (2 * (k : ℝ) + (m + 1)) := by congr 1; push_cast; ring
    unfold ivT
    rw [g1, g2, g3, p1, p2, Nat.factorial_succ]
    push_cast
    have h2 : (k : ℝ) + 1 ≠ 0 := by positivity
    field_simp
    ring
  have key0 : ivT (m - 1) a 0 = 2 * m / a * ivT m a 0 := by
    have p : (a / 2) ^ m = (a / 2) * (a / 2) ^ (m - 1) := by
      rw [← rpow_one_add' (by positivity) (by linarith)]; congr 1; ring
    have hg : Gamma m ≠ 0 := (Gamma_pos_of_pos hm).ne'
    simp only [ivT, Nat.cast_zero, mul_zero, zero_add, Nat.factorial_zero, Nat.cast_one, one_mul, sub_add_cancel]
    rw [Gamma_add_one hm.ne', p]
    field_simp
  rw [iv_eq, iv_eq, iv_eq, s1.tsum_eq_zero_add, s2.tsum_eq_zero_add]
  simp_rw [key]
  rw [(((summable_nat_add_iff 1).2 s2).mul_left _).tsum_add s3, tsum_mul_left, key0]
  ring

theorem iv_neg_one {a : ℝ} (ha : 0 < a) : iv (-1) a = iv 1 a := by
  have e : ∀ k : ℕ, ivT (-1) a (k + 1) = ivT 1 a k := by
    intro k
    have hk : (0 : ℝ) ≤ k := k.cast_nonneg
    have h3 : (k.factorial : ℝ) ≠ 0 := by exact_mod_cast k.factorial_ne_zero
    have h4 : Gamma ((k : ℝ) + 1) ≠ 0 := (Gamma_pos_of_pos (by positivity)).ne'
    have g1 : Gamma (((k + 1 : ℕ) : ℝ) + -1 + 1) = Gamma ((k : ℝ) + 1) := by congr 1; push_cast; ring
    have g2 : Gamma ((k : ℝ) + 1 + 1) = (k + 1) * Gamma (k + 1) := Gamma_add_one (by positivity)
    have p2 : (a / 2) ^ (2 * (((k + 1 : ℕ) : ℝ)) + -1) = (a / 2) ^ (2 * (k : ℝ) + 1) := by congr 1; push_cast; ring
    unfold ivT
    rw [g1, g2, p2, Nat.factorial_succ]
    push_cast
    congr 1
    ring
  have s : Summable (ivT (-1) a) := by
    rw [← summable_nat_add_iff 1]
    simp_rw [e]
    exact ivT_summable (by norm_num) ha
  have e0 : ivT (-1) a 0 = 0 := by simp [ivT]
  rw [iv_eq, iv_eq, s.tsum_eq_zero_add, e0, zero_add]
  simp_rw [e]

theorem iv_rec' {m a : ℝ} (hm : 0 ≤ m) (ha : 0 < a) : iv (m - 1) a = 2 * m / a * iv m a + iv (m + 1) a := by
  rcases hm.eq_or_lt with rfl | hm
  · simp only [zero_sub, mul_zero, zero_div, zero_mul, zero_add]
    exact iv_neg_one ha
  · exact iv_rec hm ha

theorem iv_one_le {a : ℝ} (ha : 0 < a) : iv 1 a ≤ a / 2 * iv 0 a := by
  rw [iv_eq, iv_eq, ← tsum_mul_left]
  refine (ivT_summable (by norm_num) ha).tsum_le_tsum (fun k => ?_) ((ivT_summable (by norm_num) ha).mul_left _)
  have hk : (0 : ℝ) ≤ k := k.cast_nonneg
  have h3 : (0 : ℝ) < k.factorial := by exact_mod_cast k.factorial_pos
  have h4 : 0 < Gamma ((k : ℝ) + 1) := Gamma_pos_of_pos (by positivity)
  have g2 : Gamma ((k : ℝ) + 1 + 1) = (k + 1) * Gamma (k + 1) := Gamma_add_one (by positivity)
  have p : (a / 2) ^ (2 * (k : ℝ) + 1) = (a / 2) * (a / 2) ^ (2 * (k : ℝ)) := by
    rw [add_comm, rpow_one_add' (by positivity) (by positivity)]
  unfold ivT
  rw [g2, p, add_zero, add_zero, mul_div_assoc]
  refine mul_le_mul_of_nonneg_left (div_le_div_of_nonneg_left (by positivity) (by positivity) ?_) (by positivity)
  nlinarith [mul_pos h3 h4]

end Verif.Kin
