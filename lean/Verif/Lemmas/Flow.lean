import Verif.Model.Flow
import Mathlib.Analysis.SpecialFunctions.Exp
import Mathlib.Analysis.Complex.ExponentialBounds

/-! # Helper lemmas on friction factors -/

namespace Verif.Flow

open Real

theorem pdiv_ok {a b : ℝ} (h : b ≠ 0) : pdiv a b = .ok (a / b) := if_neg h

theorem ok_bind {β γ : Type} (a : β) (f : β → Except Err γ) : ((Except.ok a : Except Err β) >>= f) = f a := rfl

/-- Argument of the logarithm in `fD_Haaland`. -/
noncomputable def harg (Re er : ℝ) : ℝ := (er / 3.7) ^ (1.11 : ℝ) + 6.9 / Re

theorem fDHaaland_eq (Re er : ℝ) : fDHaaland Re er = (1 / (1.8 * logb 10 (harg Re er))) ^ 2 := rfl

theorem rough_nonneg {er : ℝ} (h0 : 0 ≤ er) : 0 ≤ (er / 3.7) ^ (1.11 : ℝ) := rpow_nonneg (by positivity) _

theorem rough_le {er : ℝ} (h0 : 0 ≤ er) (h1 : er ≤ 1) : (er / 3.7) ^ (1.11 : ℝ) ≤ 1 / 3.7 := by
  have hb : er / 3.7 ≤ 1 / 3.7 := div_le_div_of_nonneg_right h1 (by norm_num)
  rcases h0.eq_or_lt with h | h
  · rw [← h, zero_div, zero_rpow (by norm_num)]; norm_num
  · calc (er / 3.7) ^ (1.11 : ℝ) ≤ (er / 3.7) ^ (1 : ℝ) := rpow_le_rpow_of_exponent_ge (by positivity) (hb.trans (by norm_num)) (by norm_num)
      _ = er / 3.7 := rpow_one _
      _ ≤ _ := hb

theorem harg_pos {Re er : ℝ} (hR : 0 < Re) (h0 : 0 ≤ er) : 0 < harg Re er := add_pos_of_nonneg_of_pos (rough_nonneg h0) (by positivity)

theorem harg_lt {Re er : ℝ} (hR : 2300 ≤ Re) (h0 : 0 ≤ er) (h1 : er ≤ 1) : harg Re er < exp (-1) := by
  have h2 : 6.9 / Re ≤ 6.9 / 2300 := div_le_div_of_nonneg_left (by norm_num) (by norm_num) hR
  have := rough_le h0 h1
  have h3 := exp_neg_one_gt_d9
  unfold harg
  calc _ ≤ 1 / 3.7 + 6.9 / 2300 := add_le_add this h2
    _ < 0.3678 := by norm_num
    _ < _ := by linarith

theorem log_harg {Re er : ℝ} (hR : 2300 ≤ Re) (h0 : 0 ≤ er) (h1 : er ≤ 1) : log (harg Re er) < -1 := by
  have := log_lt_log (harg_pos (by linarith) h0) (harg_lt hR h0 h1)
  rwa [log_exp] at this

theorem log10_pos : 0 < log (10 : ℝ) := log_pos (by norm_num)

/-- Friction factor times the squared Reynolds number. -/
noncomputable def phi (Re er : ℝ) : ℝ := if Re < 2300 then 64 * Re else Re ^ 2 * fDHaaland Re er

theorem phi_turb {Re er : ℝ} : Re ^ 2 * fDHaaland Re er = (log 10 / 1.8) ^ 2 * (Re / -log (harg Re er)) ^ 2 := by
  rw [fDHaaland_eq, logb]
  by_cases h : log (harg Re er) = 0
  · simp [h]
  · have := log10_pos
    field_simp

theorem turb_strictMono {er : ℝ} (h0 : 0 ≤ er) (h1 : er ≤ 1) {a b : ℝ} (ha : 2300 ≤ a) (hab : a < b) :
    a / -log (harg a er) < b / -log (harg b er) := by
  have hb : 2300 ≤ b := ha.trans hab.le
  have hla := log_harg ha h0 h1
  have hlb := log_harg hb h0 h1
  have ha0 : 0 < a := by linarith
  have hb0 : 0 < b := by linarith
  have hr : harg a er / harg b er ≤ b / a := by
    rw [div_le_div_iff₀ (harg_pos hb0 h0) ha0, harg, harg]
    have e1 : 6.9 / a * a = 6.9 := by field_simp
    have e2 : b * (6.9 / b) = 6.9 := by field_simp
    nlinarith [rough_nonneg h0]
  have hl : log (harg a er) - log (harg b er) < b / a - 1 := by
    rw [← log_div (harg_pos ha0 h0).ne' (harg_pos hb0 h0).ne']
    refine (log_le_log (div_pos (harg_pos ha0 h0) (harg_pos hb0 h0)) hr).trans_lt ?_
    refine log_lt_sub_one_of_pos (by positivity) ?_
    rw [Ne, div_eq_one_iff_eq ha0.ne']
    exact hab.ne'
  have hba : 1 < b / a := (one_lt_div ha0).2 hab
  rw [div_lt_div_iff₀ (by linarith) (by linarith)]
  have h3 : -log (harg b er) < -log (harg a er) * (b / a) := by nlinarith
  have h4 : a * (-log (harg a er) * (b / a)) = b * -log (harg a er) := by field_simp
  nlinarith

theorem phi_2300 {er : ℝ} (h0 : 0 ≤ er) (h1 : er ≤ 1) : 64 * 2300 < (2300 : ℝ) ^ 2 * fDHaaland 2300 er := by
  rw [phi_turb]
  have hl := log_harg (le_refl (2300 : ℝ)) h0 h1
  have hlow : -(3 * log 10) ≤ log (harg 2300 er) := by
    have : log ((10 : ℝ) ^ (-3 : ℤ)) ≤ log (harg 2300 er) := by
      refine log_le_log (by norm_num) ?_
      have := rough_nonneg h0
      unfold harg
      norm_num at *
      linarith
    rw [log_zpow] at this
    push_cast at this
    linarith
  have hq : 2300 / (3 * log 10) ≤ 2300 / -log (harg 2300 er) := div_le_div_of_nonneg_left (by norm_num) (by linarith) (by linarith)
  have h10 := log10_pos
  have hq2 : (2300 / (3 * log 10)) ^ 2 ≤ (2300 / -log (harg 2300 er)) ^ 2 := pow_le_pow_left₀ (by positivity) hq 2
  calc (64 : ℝ) * 2300 < (log 10 / 1.8) ^ 2 * (2300 / (3 * log 10)) ^ 2 := by
        have : (log 10 / 1.8) ^ 2 * (2300 / (3 * log 10)) ^ 2 = (2300 / 5.4) ^ 2 := by field_simp; norm_num
        rw [this]; norm_num
    _ ≤ _ := mul_le_mul_of_nonneg_left hq2 (by positivity)

theorem phi_strictMono {er : ℝ} (h0 : 0 ≤ er) (h1 : er ≤ 1) {a b : ℝ} (hab : a < b) : phi a er < phi b er := by
  have turb : ∀ {a b : ℝ}, 2300 ≤ a → a < b → a ^ 2 * fDHaaland a er < b ^ 2 * fDHaaland b er := by
    intro a b ha hab
    rw [phi_turb, phi_turb]
    have h10 := log10_pos
    refine mul_lt_mul_of_pos_left ?_ (by positivity)
    refine pow_lt_pow_left₀ (turb_strictMono h0 h1 ha hab) ?_ (by norm_num)
    have := log_harg ha h0 h1
    exact div_nonneg (by linarith) (by linarith)
  unfold phi
  split_ifs with h2 h3 h3
  · linarith
  · push Not at h3
    have h4 := phi_2300 h0 h1
    rcases h3.eq_or_lt with h | h
    · rw [← h]; linarith
    · have := turb (le_refl 2300) h; linarith
  · linarith
  · exact turb (by linarith) hab

/-- `DP_tube` in terms of `phi`. -/
theorem dpTube_eq {Q D L rho mu er : ℝ} (hQ : Q ≠ 0) (hD : 0 < D) (hrho : 0 < rho) (hmu : 0 < mu) :
    dpTube Q D L rho mu er = .ok (mu ^ 2 * L / (2 * rho * D ^ 3) * phi (4 * rho * Q / (π * D * mu)) er) := by
  have hpi := pi_pos
  have hv : π * D ^ 2 ≠ 0 := by positivity
  have hRe : rho * (4 * Q / (π * D ^ 2)) * D / mu = 4 * rho * Q / (π * D * mu) := by field_simp
  have hRe0 : 4 * rho * Q / (π * D * mu) ≠ 0 := by positivity
  unfold dpTube
  rw [pdiv_ok hv, ok_bind, pdiv_ok hmu.ne', ok_bind, hRe, fDtube, phi]
  split_ifs with h
  · rw [pdiv_ok hRe0, ok_bind, dpDarcyWeisbach, pdiv_ok hD.ne', ok_bind]
    refine congrArg Except.ok ?_
    field_simp
  · rw [ok_bind, dpDarcyWeisbach, pdiv_ok hD.ne', ok_bind]
    refine congrArg Except.ok ?_
    field_simp

end Verif.Flow
