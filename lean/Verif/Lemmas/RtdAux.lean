import Verif.Lemmas.RtdDisp

/-! # Helper lemmas: C79: residence time distributions -/

namespace Verif.Rtd

open MeasureTheory Set Filter Real Verif.Dist

theorem ETanks_eq (n : ℕ) (τ t : ℝ) :
    ETanks t τ (n + 1) = exp (-((n + 1 : ℕ) * (t / τ))) * (((n + 1 : ℕ) * (t / τ)) ^ n / Gamma ((n : ℝ) + 1)) * ((n + 1 : ℕ) / τ) := by
  show (t / τ) ^ (n + 1 - 1) * (((n + 1 : ℕ) : ℝ) ^ (n + 1) / Gamma ((n + 1 : ℕ) : ℝ)) * exp (-((n + 1 : ℕ) : ℝ) * (t / τ)) / τ = _
  rw [Nat.add_sub_cancel, Nat.cast_add_one, neg_mul, mul_pow, pow_succ]
  ring

theorem FTanks_eq (n : ℕ) (τ t : ℝ) : FTanks t τ (n + 1) = 1 - exp (-((n + 1 : ℕ) * (t / τ))) * S (n + 1) ((n + 1 : ℕ) * (t / τ)) := by
  show (if t / τ = 0 then (0 : ℝ) else 1 - exp (-((n + 1 : ℕ) : ℝ) * (t / τ)) * S (n + 1) ((n + 1 : ℕ) * (t / τ))) = _
  split_ifs with h
  · rw [h, mul_zero, S_zero, neg_zero, exp_zero]; ring
  · rw [neg_mul]

theorem laminar_E (τ : ℝ) (hτ : 0 < τ) (t : ℝ) : ELaminar t τ = if t < τ / 2 then 0 else τ ^ 2 / (2 * t ^ 3) := by
  show (if t / τ < 1 / 2 then (0 : ℝ) else 0.5 * τ ^ 2 / t ^ 3) = _
  have : t / τ < 1 / 2 ↔ t < τ / 2 := by rw [div_lt_iff₀ hτ]; constructor <;> intro h <;> linarith
  simp only [this]
  split_ifs
  · rfl
  · norm_num; ring

theorem laminar_F (τ : ℝ) (hτ : 0 < τ) (t : ℝ) : FLaminar t τ = if t ≤ τ / 2 then 0 else 1 - τ ^ 2 / (4 * t ^ 2) := by
  show (if t / τ ≤ 1 / 2 then (0 : ℝ) else 1 - 1 / (4 * (t / τ) ^ 2)) = _
  have : t / τ ≤ 1 / 2 ↔ t ≤ τ / 2 := by rw [div_le_iff₀ hτ]; constructor <;> intro h <;> linarith
  simp only [this]
  split_ifs with h
  · rfl
  · have : t ≠ 0 := by intro h0; rw [h0] at h; exact h (by positivity)
    field_simp

theorem laminar_F' (τ : ℝ) (hτ : 0 < τ) (t : ℝ) (ht : τ / 2 ≤ t) : FLaminar t τ = 1 - τ ^ 2 / (4 * t ^ 2) := by
  rw [laminar_F τ hτ]
  split_ifs with h
  · obtain rfl : t = τ / 2 := le_antisymm h ht
    field_simp
    norm_num
  · rfl

theorem laminar_deriv (τ t : ℝ) (h0 : t ≠ 0) : HasDerivAt (fun t => 1 - τ ^ 2 / (4 * t ^ 2)) (τ ^ 2 / (2 * t ^ 3)) t := by
  have h1 : HasDerivAt (fun t : ℝ => 4 * t ^ 2) (4 * (2 * t)) t := by
    simpa using (hasDerivAt_pow 2 t).const_mul 4
  refine (((hasDerivAt_const t (τ ^ 2)).div h1 (by positivity)).const_sub 1).congr_deriv ?_
  field_simp
  ring

theorem disp_E {τ P : ℝ} (hτ : 0 < τ) (hP : 0 < P) (hP' : P ≤ 100) {t : ℝ} (ht : 0 < t) : EDisp t τ P = fP P (t / τ) / τ := by
  have hq : 0 < t / τ := by positivity
  have h : ¬ P > 1e2 := by norm_num; linarith
  show (if t / τ = 0 then (0 : ℝ) else if P > 1e2 then _ else √(P / (π * (t / τ))) / (2 * τ) * exp (-P / (4 * (t / τ)) * (1 - t / τ) ^ 2)) = _
  rw [if_neg hq.ne', if_neg h, ← div_div P π, Real.sqrt_div (by positivity), fP, eP]
  ring

theorem erf_strict : StrictMono erf := strictMono_of_hasDerivAt_pos (fun x => erf_hasDerivAt x) fun x => by
  have := Real.sqrt_pos.2 pi_pos
  positivity

theorem erf_lt_one (x : ℝ) : erf x < 1 :=
  (erf_strict (lt_add_one x)).trans_le (erf_strict.monotone.ge_of_tendsto erf_tendsto_atTop _)

theorem disp_large {τ P : ℝ} (hτ : 0 < τ) (hP : 100 < P) {t : ℝ} (ht : 0 < t) :
    EDisp t τ P = √(P / π) / (2 * τ) * exp (-P / 4 * (1 - t / τ) ^ 2) ∧ FDisp t τ P = 0.5 * (1 + erf (√P / 2 * (t / τ - 1))) := by
  have hq : t / τ ≠ 0 := by positivity
  have h : P > 1e2 := by norm_num; linarith
  constructor
  · show (if t / τ = 0 then (0 : ℝ) else if P > 1e2 then _ else _) = _
    rw [if_neg hq, if_pos h]
  · show (if t / τ = 0 then (0 : ℝ) else if P > 1e2 then _ else _) = _
    rw [if_neg hq, if_pos h]

end Verif.Rtd
