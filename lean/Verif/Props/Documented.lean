import Verif.Model.Correlations
import Verif.Model.Rtd
import Verif.Model.Rheology
import Verif.Model.Eos
import Verif.Props.Flow
import Verif.Props.Rtd
import Verif.Spec.Documented
import Verif.Lemmas.Documented

/-!
# C126: the functions evaluate the formulas of their docstrings
-/

namespace Verif

open Real Documented Eos
open Flow (pdiv_ok ok_bind)

/-! ## Heat transfer -/

/-- `fD_Haaland` satisfies Haaland's equation. -/
theorem C126_haaland {Re er : ℝ} (hR : 2300 ≤ Re) (h0 : 0 ≤ er) (h1 : er ≤ 1) : Haaland (Flow.fDHaaland Re er) Re er := by
  have hl : logb 10 ((er / 3.7) ^ (1.11 : ℝ) + 6.9 / Re) < 0 := haaland_log_neg hR h0 h1
  unfold Haaland Flow.fDHaaland
  generalize logb 10 ((er / 3.7) ^ (1.11 : ℝ) + 6.9 / Re) = l at *
  refine ⟨by have : 1.8 * l ≠ 0 := by { intro h; linarith }
             positivity, ?_⟩
  rw [sqrt_sq_eq_abs, abs_of_neg (one_div_neg.2 (by linarith)), neg_mul, one_div_neg_eq_neg_one_div, one_div_one_div]

example : (2300 : ℝ) ≤ 1e5 ∧ (0 : ℝ) ≤ 1e-3 ∧ (1e-3 : ℝ) ≤ 1 := by norm_num

/-- `Nu_tube`: the documented expressions, the turbulent one with a friction factor satisfying Haaland's equation. -/
theorem C126_tube (Re Pr D_L er : ℝ) (h0 : 0 ≤ er) (h1 : er ≤ 1) :
    (Re < 2300 → Correlations.nuTube Re Pr D_L er = tubeLaminar (D_L * Re * Pr)) ∧
    (2300 ≤ Re → ∃ f, Haaland f Re er ∧ Correlations.nuTube Re Pr D_L er = tubeTurbulent f Re Pr) := by
  unfold Correlations.nuTube tubeLaminar tubeTurbulent
  constructor
  · intro h
    rw [if_pos (by norm_num; exact h), show 0.0668 * D_L * Re * Pr = 0.0668 * (D_L * Re * Pr) by ring]
  · intro h
    refine ⟨_, C126_haaland h h0 h1, ?_⟩
    rw [if_neg (by norm_num; exact h), ← sqrt_eq_rpow, show (1e3 : ℝ) = 1000 by norm_num]

example : (0 : ℝ) ≤ 1e-4 ∧ (1e-4 : ℝ) ≤ 1 := by norm_num

/-- `Nu_plate`: laminar below `Re = 5e5` (the docstring has the inequality reversed), mixed above, with a constant that rounds to 871. -/
theorem C126_plate (Re Pr : ℝ) :
    (Re < 500000 → (Correlations.nuPlate Re Pr).1 = plateLaminar Re Pr) ∧
    (500000 ≤ Re → ∃ A, |A - 871| ≤ 1 / 2 ∧ (Correlations.nuPlate Re Pr).1 = plateMixed A Re Pr) := by
  unfold Correlations.nuPlate plateLaminar plateMixed
  dsimp only
  constructor
  · intro h
    rw [if_pos (by norm_num; exact h), sqrt_eq_rpow]
  · intro h
    rw [if_neg (by norm_num; exact h)]
    exact ⟨_, plate_const, rfl⟩

/-- `Nu_cylinder`, `Nu_sphere`, `Nu_drop`. -/
theorem C126_forced (Re Pr mur : ℝ) (hP : 0 < Pr) :
    (Correlations.nuCylinder Re Pr).1 = cylinder Re Pr ∧ (Correlations.nuSphere Re Pr mur).1 = sphere Re Pr mur ∧
      (Correlations.nuDrop Re Pr).1 = drop Re Pr := by
  have h : 0 ≤ 1 + (0.4 / Pr) ^ (2 / 3 : ℝ) := by positivity
  unfold Correlations.nuCylinder Correlations.nuSphere Correlations.nuDrop cylinder sphere drop
  dsimp only
  refine ⟨?_, ?_, ?_⟩
  · rw [← sqrt_eq_rpow, rpow_neg h, ← div_eq_mul_inv, show (282e3 : ℝ) = 282 * 10 ^ 3 by norm_num]
  · rw [← sqrt_eq_rpow, show (0.4 : ℝ) = 2 / 5 by norm_num]
  · rw [← sqrt_eq_rpow]

example : (0 : ℝ) < 0.7 := by norm_num

/-- `Nu_cylinder_free`, `Nu_sphere_free`. -/
theorem C126_free (Ra Pr : ℝ) (hP : 0 < Pr) :
    (Correlations.nuCylinderFree Ra Pr).1 = (0.6 + churchill 0.559 Ra Pr) ^ 2 ∧ (Correlations.nuSphereFree Ra Pr).1 = sphereFree Ra Pr := by
  have h1 : 0 ≤ 1 + (0.559 / Pr) ^ (9 / 16 : ℝ) := by positivity
  have h2 : 0 ≤ 1 + (0.469 / Pr) ^ (9 / 16 : ℝ) := by positivity
  unfold Correlations.nuCylinderFree Correlations.nuSphereFree churchill sphereFree
  dsimp only
  rw [rpow_neg h1, rpow_neg h2, ← div_eq_mul_inv, ← div_eq_mul_inv]
  exact ⟨rfl, rfl⟩

example : (0 : ℝ) < 0.7 := by norm_num

/-- `Nu_plate_free`, for the three orientations. -/
theorem C126_plate_free (Ra Pr : ℝ) (hP : 0 < Pr) (P : Option ℝ) :
    (Correlations.nuPlateFree .vertical Ra (some Pr)).map Prod.fst = .ok ((0.825 + churchill 0.492 Ra Pr) ^ 2) ∧
    (Ra < 10 ^ 7 → (Correlations.nuPlateFree .upper Ra P).map Prod.fst = .ok (0.54 * Ra ^ (1 / 4 : ℝ))) ∧
    (10 ^ 7 ≤ Ra → (Correlations.nuPlateFree .upper Ra P).map Prod.fst = .ok (0.15 * Ra ^ (1 / 3 : ℝ))) ∧
    (Correlations.nuPlateFree .lower Ra P).map Prod.fst = .ok (0.27 * Ra ^ (1 / 4 : ℝ)) := by
  have h1 : 0 ≤ 1 + (0.492 / Pr) ^ (9 / 16 : ℝ) := by positivity
  have e : (1e7 : ℝ) = 10 ^ 7 := by norm_num
  refine ⟨?_, fun h => ?_, fun h => ?_, rfl⟩
  · unfold Correlations.nuPlateFree churchill
    dsimp only
    rw [if_neg hP.ne', rpow_neg h1, ← div_eq_mul_inv]
    rfl
  · show Except.ok (if Ra < 1e7 then _ else _) = _
    rw [e, if_pos h]
  · show Except.ok (if Ra < 1e7 then _ else _) = _
    rw [e, if_neg (not_lt.2 h)]

example : (0 : ℝ) < 0.7 := by norm_num

/-- `Nu_combined`: the cube of the result is the sum or the difference of the cubes. -/
theorem C126_combined (a b : ℝ) :
    Correlations.nuCombined a b true ^ 3 = a ^ 3 + b ^ 3 ∧ Correlations.nuCombined a b false ^ 3 = a ^ 3 - b ^ 3 := by
  have h : ∀ x : ℝ, Correlations.cbrt x ^ 3 = x := by
    intro x
    have k : ∀ y : ℝ, 0 ≤ y → (y ^ (1 / 3 : ℝ)) ^ 3 = y := by
      intro y hy
      rw [← rpow_natCast, ← rpow_mul hy]
      norm_num
    unfold Correlations.cbrt
    split_ifs with hx
    · rw [Odd.neg_pow (by decide), k _ (by linarith), neg_neg]
    · exact k _ (not_lt.1 hx)
  exact ⟨h _, h _⟩

/-- `Nu_cylinder_bank`: the documented product with the constants of Zukauskas for the layout, the correction for the number of rows, and the Reynolds
number of the narrowest passage. -/
theorem C126_bank (v rho mu Pr Prs : ℝ) (al : Bool) (D ST SL : ℝ) (NL : ℕ) (c : ℝ) (hv : 0 ≤ v) (hT : 0 < ST) (hD : D < ST)
    (hS : D < √(SL ^ 2 + (ST / 2) ^ 2)) (hc : (NL, c) ∈ bankRows al ∨ 20 ≤ NL ∧ c = 1) :
    (Correlations.nuCylinderBank v rho mu Pr Prs al D ST SL NL).1 =
      bank c (bankC al (rho * bankV al v D ST SL * D / mu) (ST / SL)) (rho * bankV al v D ST SL * D / mu) Pr Prs := by
  have hc2 : Correlations.bankC2 al NL = c := by
    rcases hc with h | ⟨h, rfl⟩
    · cases al <;> simp only [bankRows, if_true, Bool.false_eq_true, if_false, List.mem_cons, Prod.mk.injEq, List.not_mem_nil, or_false] at h <;>
        rcases h with h | h | h | h | h | h | h | h | h <;> obtain ⟨rfl, rfl⟩ := h <;>
        norm_num [Correlations.bankC2, Correlations.interp, Correlations.tableAligned, Correlations.tableStaggered]
    · rw [Correlations.bankC2, if_neg (not_lt.2 h)]
  have hV : Correlations.bankVmax v D ST SL al = bankV al v D ST SL := by
    have a1 : v * ST / (ST - D) = ST / (ST - D) * v := by ring
    have a2 : ∀ d, v * ST / (2 * (d - D)) = ST / (2 * (d - D)) * v := fun d => by ring
    unfold Correlations.bankVmax bankV
    dsimp only
    rw [a1, a2]
    generalize √(SL ^ 2 + (ST / 2) ^ 2) = d at *
    cases al
    · by_cases h : d < (ST + D) / 2
      · rw [if_pos ⟨rfl, h⟩, if_neg (by decide), max_eq_right]
        exact mul_le_mul_of_nonneg_right (div_le_div_of_nonneg_left hT.le (by linarith) (by linarith)) hv
      · rw [if_neg (fun k => h k.2), if_neg (by decide), max_eq_left]
        push Not at h
        exact mul_le_mul_of_nonneg_right (div_le_div_of_nonneg_left hT.le (by linarith) (by linarith)) hv
    · simp
  have h : ∀ Re : ℝ, Correlations.bankCRe Re ST SL al = (bankC al Re (ST / SL)).1 * Re ^ (bankC al Re (ST / SL)).2 := by
    intro Re
    unfold Correlations.bankCRe bankC
    have e2 : (1e2 : ℝ) = 100 := by norm_num
    have e3 : (1e3 : ℝ) = 1000 := by norm_num
    have e5 : (2e5 : ℝ) = 200000 := by norm_num
    rw [e2, e3, e5]
    by_cases h1 : Re < 100
    · cases al <;> simp [h1] <;> norm_num
    by_cases h2 : Re < 1000
    · cases al <;> simp [h1, h2, not_lt.1 h1] <;> norm_num
    by_cases h3 : Re < 200000
    · cases al
      · by_cases h4 : ST / SL < 2
        · simp [h1, h2, h3, h4, not_lt.1 h2]; norm_num
        · simp [h1, h2, h3, h4, not_lt.1 h2]
      · simp [h1, h2, h3, not_lt.1 h2]
    · cases al <;> simp [h1, h2, h3]
  unfold Correlations.nuCylinderBank bank
  dsimp only
  rw [h, hc2, hV]
  ring

/-- Staggered bank of 7 rows. -/
example : (0 : ℝ) ≤ 6 ∧ (0 : ℝ) < 0.0313 ∧ (0.0164 : ℝ) < 0.0313 ∧ (0.0164 : ℝ) < √(0.0343 ^ 2 + (0.0313 / 2) ^ 2) ∧ (7, (0.95 : ℝ)) ∈ bankRows false := by
  refine ⟨by norm_num, by norm_num, by norm_num, lt_sqrt_of_sq_lt (by norm_num), by simp [bankRows]⟩

/-! ## Reactors -/

/-- `E_tanks_series`, `F_tanks_series` at finite times. -/
theorem C126_tanks (t τ : ℝ) (hτ : 0 < τ) (N : ℕ) (hN : 1 ≤ N) : Rtd.ETanks t τ N = tanksE t τ N ∧ Rtd.FTanks t τ N = tanksF t τ N := by
  obtain ⟨n, rfl⟩ : ∃ n, N = n + 1 := ⟨N - 1, by omega⟩
  constructor
  · show (t / τ) ^ (n + 1 - 1) * (((n + 1 : ℕ) : ℝ) ^ (n + 1) / Gamma ((n + 1 : ℕ) : ℝ)) * exp (-((n + 1 : ℕ) : ℝ) * (t / τ)) / τ = tanksE t τ (n + 1)
    unfold tanksE
    rw [Nat.cast_succ, Gamma_nat_eq_factorial, Nat.add_sub_cancel, show -((n : ℝ) + 1) * (t / τ) = -(((n : ℝ) + 1) * t / τ) by ring]
    ring
  · show (if t / τ = 0 then (0 : ℝ) else 1 - exp (-((n + 1 : ℕ) : ℝ) * (t / τ)) *
      ∑ i ∈ Finset.range (n + 1), (((n + 1 : ℕ) : ℝ) * (t / τ)) ^ i / Gamma ((i : ℝ) + 1)) = tanksF t τ (n + 1)
    unfold tanksF
    split_ifs with h
    · have ht : t = 0 := by rcases div_eq_zero_iff.1 h with h | h; exact h; exact absurd h hτ.ne'
      rw [ht, Finset.sum_range_succ', Finset.sum_eq_zero]
      · simp
      · intro i _
        simp
    · rw [show -((n + 1 : ℕ) : ℝ) * (t / τ) = -(((n + 1 : ℕ) : ℝ) * t / τ) by ring]
      congr 2
      refine Finset.sum_congr rfl fun i _ => ?_
      rw [Gamma_nat_eq_factorial, mul_div_assoc]

example : (0 : ℝ) < 10 ∧ 1 ≤ 3 := by norm_num

/-- `E_laminar_flow`, `F_laminar_flow` at finite times. -/
theorem C126_laminar (t τ : ℝ) (hτ : 0 < τ) :
    Rtd.ELaminar t τ = (if t < τ / 2 then 0 else 1 / 2 * (τ ^ 2 / t ^ 3)) ∧ Rtd.FLaminar t τ = (if t ≤ τ / 2 then 0 else 1 - 1 / 4 * ((t / τ)⁻¹) ^ 2) := by
  have a : t / τ < 1 / 2 ↔ t < τ / 2 := by rw [div_lt_iff₀ hτ]; constructor <;> intro h <;> linarith
  have b : t / τ ≤ 1 / 2 ↔ t ≤ τ / 2 := by rw [div_le_iff₀ hτ]; constructor <;> intro h <;> linarith
  constructor
  · show (if t / τ < 1 / 2 then (0 : ℝ) else 0.5 * τ ^ 2 / t ^ 3) = _
    simp only [a, show (0.5 : ℝ) = 1 / 2 by norm_num, mul_div_assoc]
  · show (if t / τ ≤ 1 / 2 then (0 : ℝ) else 1 - 1 / (4 * (t / τ) ^ 2)) = _
    simp only [b]
    simp only [inv_pow, one_div, mul_inv]

example : (0 : ℝ) < 10 := by norm_num

/-- `E_dispersion_model` at positive times. -/
theorem C126_dispersion_E (t τ Pe : ℝ) (ht : 0 < t) (hτ : 0 < τ) (hP : 0 < Pe) :
    Rtd.EDisp t τ Pe = if 100 < Pe then dispersionE (t / τ) τ Pe else openOpenE (t / τ) τ Pe := by
  have hq : 0 < t / τ := div_pos ht hτ
  show (if t / τ = 0 then (0 : ℝ) else if Pe > 1e2 then √(Pe / π) / (2 * τ) * exp (-Pe / 4 * (1 - t / τ) ^ 2)
    else √(Pe / (π * (t / τ))) / (2 * τ) * exp (-Pe / (4 * (t / τ)) * (1 - t / τ) ^ 2)) = _
  have s2 : ∀ x : ℝ, 0 ≤ x → √(x / 4) = √x / 2 := by
    intro x hx
    rw [sqrt_div hx, show (4 : ℝ) = 2 ^ 2 by norm_num, sqrt_sq (by norm_num)]
  have := pi_pos
  rw [if_neg hq.ne']
  unfold dispersionE openOpenE
  generalize t / τ = q at *
  simp only [gt_iff_lt, show (1e2 : ℝ) = 100 by norm_num]
  split_ifs
  · rw [show Pe / (4 * π) = Pe / π / 4 by field_simp, s2 _ (by positivity), show -Pe / 4 * (1 - q) ^ 2 = -(Pe / 4 * (1 - q) ^ 2) by ring]
    field_simp
  · rw [show Pe / (4 * π * q) = Pe / (π * q) / 4 by field_simp, s2 _ (by positivity),
      show -Pe / (4 * q) * (1 - q) ^ 2 = -(Pe / 4 * ((1 - q) ^ 2 / q)) by field_simp]
    field_simp

example : (0 : ℝ) < 5 ∧ (0 : ℝ) < 10 ∧ (0 : ℝ) < 20 := by norm_num

/-- `F_dispersion_model` at positive times. For `Pe ≤ 100` it is the documented integral *without* the factor `1/t̄`, so the documented
expression is wrong for every mean residence time other than one. -/
theorem C126_dispersion_F (t τ Pe : ℝ) (ht : 0 < t) (hτ : 0 < τ) (hP : 0 < Pe) :
    (100 < Pe → Rtd.FDisp t τ Pe = 1 / 2 * (1 + erf (√Pe / 2 * (t / τ - 1)))) ∧ (Pe ≤ 100 → Rtd.FDisp t τ Pe = openOpenF (t / τ) Pe) := by
  have hq : t / τ ≠ 0 := (div_pos ht hτ).ne'
  have hpi := pi_pos
  constructor
  · intro h
    show (if t / τ = 0 then (0 : ℝ) else if Pe > 1e2 then 0.5 * (1 + erf (√Pe / 2 * (t / τ - 1))) else _) = _
    rw [if_neg hq, if_pos (by norm_num; exact h)]
    norm_num
  · intro h
    show (if t / τ = 0 then (0 : ℝ) else if Pe > 1e2 then _ else ∫ x in (0 : ℝ)..t, Rtd.EDisp x τ Pe) = _
    rw [if_neg hq, if_neg (by norm_num; exact h), openOpenF]
    have e : ∀ x ∈ Set.uIoc 0 t, Rtd.EDisp x τ Pe = (1 / τ) * (fun y => √(Pe / (4 * π)) * (1 / √y * exp (-(Pe / 4 * ((1 - y) ^ 2 / y))))) (x / τ) := by
      intro x hx
      rw [Set.uIoc_of_le ht.le] at hx
      have hx0 : 0 < x / τ := div_pos hx.1 hτ
      rw [C126_dispersion_E x τ Pe hx.1 hτ hP, if_neg (not_lt.2 h), openOpenE]
      generalize x / τ = q at *
      rw [show Pe / (4 * π * q) = Pe / (4 * π) / q by field_simp, sqrt_div (by positivity)]
      ring
    rw [intervalIntegral.integral_congr_ae (Filter.Eventually.of_forall e), intervalIntegral.integral_const_mul,
      intervalIntegral.integral_comp_div (fun y => √(Pe / (4 * π)) * (1 / √y * exp (-(Pe / 4 * ((1 - y) ^ 2 / y))))) hτ.ne',
      intervalIntegral.integral_const_mul, zero_div, smul_eq_mul]
    field_simp

example : (0 : ℝ) < 5 ∧ (0 : ℝ) < 10 ∧ (0 : ℝ) < 20 := by norm_num

/-- The expression in the docstring of `F_dispersion_model` is not the value returned, unless the mean residence time is one. -/
theorem C126_dispersion_F_false (τ Pe : ℝ) (hτ : 0 < τ) (h1 : τ ≠ 1) (hP : 0 < Pe) (hP' : Pe ≤ 100) :
    ∃ t : ℝ, 0 < t ∧ Rtd.FDisp t τ Pe ≠ 1 / τ * openOpenF (t / τ) Pe := by
  obtain ⟨t, ht, ht0⟩ := (((Rtd.C79_open_open τ Pe hτ hP hP').lim.eventually (lt_mem_nhds (show (0 : ℝ) < 1 by norm_num))).and (Filter.eventually_gt_atTop 0)).exists
  refine ⟨t, ht0, fun e => h1 ?_⟩
  rw [← (C126_dispersion_F t τ Pe ht0 hτ hP).2 hP'] at e
  have : (1 / τ - 1) * Rtd.FDisp t τ Pe = 0 := by linarith
  rcases mul_eq_zero.1 this with h | h
  · field_simp at h
    linarith
  · exact absurd h (ne_of_gt ht)

example : (0 : ℝ) < 10 ∧ (10 : ℝ) ≠ 1 ∧ (0 : ℝ) < 20 ∧ (20 : ℝ) ≤ 100 := by norm_num

/-- `Pe_tube`. -/
theorem C126_Pe_tube (Re Sc : ℝ) :
    (Re < 2300 → Rtd.peTube Re (some Sc) = .ok ((1 / (Re * Sc) + Re * Sc / 192)⁻¹)) ∧
    (2300 ≤ Re → Rtd.peTube Re none = .ok ((3 * 10 ^ 7 / Re ^ (2.1 : ℝ) + 1.35 / Re ^ (0.125 : ℝ))⁻¹)) := by
  constructor
  · intro h
    rw [Rtd.peTube, if_pos h, one_div]
  · intro h
    rw [Rtd.peTube, if_neg (not_lt.2 h), one_div, show (3e7 : ℝ) = 3 * 10 ^ 7 by norm_num]

/-! ## Flow -/

/-- `DP_Hagen_Poiseuille`, `DP_Darcy_Weisbach`, `DP_packed_bed` with the friction factor of the docstring. -/
theorem C126_pressure_drop (Q v D L rho mu fD G Dp eps : ℝ) (hD : 0 < D) (hG : 0 < G) (hp : 0 < Dp) (h0 : 0 < eps) (h1 : eps < 1) (hr : 0 < rho) (hm : 0 < mu) :
    Flow.dpHagenPoiseuille Q D L mu = .ok (128 * mu * Q / (π * D ^ 4) * L) ∧ Flow.dpDarcyWeisbach v D L rho fD = .ok (fD * (rho / 2) * (v ^ 2 / D) * L) ∧
      Flow.dpPackedBed G L Dp eps rho mu = .ok (packedBed G eps (packing (Dp * G / (mu * (1 - eps)))) rho Dp L) := by
  have hpi := pi_pos
  have h2 : 0 < 1 - eps := by linarith
  have hR : 0 < Dp * G / (mu * (1 - eps)) := by positivity
  refine ⟨?_, ?_, ?_⟩
  · rw [Flow.dpHagenPoiseuille, pdiv_ok (by positivity)]
    refine congrArg Except.ok ?_
    ring
  · rw [Flow.dpDarcyWeisbach, pdiv_ok hD.ne', ok_bind]
    refine congrArg Except.ok ?_
    ring
  · rw [Flow.dpPackedBed, pdiv_ok (by positivity), ok_bind, pdiv_ok hR.ne', ok_bind, pdiv_ok (rpow_pos_of_pos hR _).ne', ok_bind, pdiv_ok (by positivity)]
    refine congrArg Except.ok ?_
    unfold packedBed packing
    ring

example : (0 : ℝ) < 0.1 ∧ (0 : ℝ) < 0.5 ∧ (0 : ℝ) < 1e-3 ∧ (0 : ℝ) < 0.4 ∧ (0.4 : ℝ) < 1 ∧ (0 : ℝ) < 1000 ∧ (0 : ℝ) < 1e-3 := by norm_num

/-- `DP_GL_Lockhart_Martinelli` multiplies the liquid pressure drop by `1 + C/X + 1/X²` once, as in the literature, ... -/
theorem C126_lockhart_martinelli {mL mG D L rhoL rhoG muL muG er : ℝ} (hmL : 0 < mL) (hmG : 0 < mG) (hD : 0 < D) (hrhoL : 0 < rhoL) (hrhoG : 0 < rhoG)
    (hmuL : 0 < muL) (hmuG : 0 < muG) (h0 : 0 ≤ er) (h1 : er ≤ 1) :
    ∃ pL pG C, Flow.dpTube (mL / rhoL) D 1 rhoL muL er = .ok pL ∧ Flow.dpTube (mG / rhoG) D 1 rhoG muG er = .ok pG ∧ 0 < pL ∧ 0 < pG ∧ 5 ≤ C ∧ C ≤ 20 ∧
      Flow.dpLockhartMartinelli mL mG D L rhoL rhoG muL muG er = .ok (pL * phiL C √(pL / pG) * L) := by
  obtain ⟨pL, pG, a, b, hl, hg, e⟩ := Flow.C59_lockhart_martinelli (L := L) hmL hmG hD hrhoL hrhoG hmuL hmuG h0 h1
  refine ⟨pL, pG, Flow.chisholm (4 * mL / (π * D * muL)) (4 * mG / (π * D * muG)), a, b, hl, hg, ?_, ?_, e.trans (congrArg Except.ok ?_)⟩
  · unfold Flow.chisholm; split_ifs <;> norm_num
  · unfold Flow.chisholm; split_ifs <;> norm_num
  · have hx : 0 < √pL := sqrt_pos.2 hl
    have hy : 0 < √pG := sqrt_pos.2 hg
    have ex : pL = √pL ^ 2 := (sq_sqrt hl.le).symm
    have ey : pG = √pG ^ 2 := (sq_sqrt hg.le).symm
    rw [sqrt_mul hl.le, sqrt_div hl.le, phiL]
    generalize √pL = x at *
    generalize √pG = y at *
    rw [ex, ey]
    field_simp

example : (0 : ℝ) < 1 ∧ (0 : ℝ) < 0.1 ∧ (0 : ℝ) < 0.05 ∧ (0 : ℝ) < 1000 ∧ (0 : ℝ) < 1.2 ∧ (0 : ℝ) < 1e-3 ∧ (0 : ℝ) < 2e-5 ∧ (0 : ℝ) ≤ 0 ∧ (0 : ℝ) ≤ 1 := by norm_num

/-- ... whereas the docstring calls that factor `φ_L` and multiplies by `φ_L²`, which is always larger: for *all* positive flows the returned value is below
the documented one. -/
theorem C126_lockhart_martinelli_false {mL mG D L rhoL rhoG muL muG er : ℝ} (hmL : 0 < mL) (hmG : 0 < mG) (hD : 0 < D) (hL : 0 < L) (hrhoL : 0 < rhoL)
    (hrhoG : 0 < rhoG) (hmuL : 0 < muL) (hmuG : 0 < muG) (h0 : 0 ≤ er) (h1 : er ≤ 1) :
    ∃ pL pG p C, Flow.dpTube (mL / rhoL) D 1 rhoL muL er = .ok pL ∧ Flow.dpTube (mG / rhoG) D 1 rhoG muG er = .ok pG ∧ 5 ≤ C ∧ C ≤ 20 ∧
      Flow.dpLockhartMartinelli mL mG D L rhoL rhoG muL muG er = .ok p ∧ p < pL * phiL C √(pL / pG) ^ 2 * L := by
  obtain ⟨pL, pG, C, a, b, hl, hg, c1, c2, e⟩ := C126_lockhart_martinelli (L := L) hmL hmG hD hrhoL hrhoG hmuL hmuG h0 h1
  refine ⟨pL, pG, _, C, a, b, c1, c2, e, ?_⟩
  have hX : 0 < √(pL / pG) := sqrt_pos.2 (div_pos hl hg)
  have h : 1 < phiL C √(pL / pG) := by
    unfold phiL
    have : 0 < C / √(pL / pG) := div_pos (by linarith) hX
    have : 0 < 1 / √(pL / pG) ^ 2 := by positivity
    linarith
  refine mul_lt_mul_of_pos_right (mul_lt_mul_of_pos_left ?_ hl) hL
  nlinarith

example : (0 : ℝ) < 1 ∧ (0 : ℝ) < 0.1 ∧ (0 : ℝ) < 0.05 ∧ (0 : ℝ) < 10 ∧ (0 : ℝ) < 1000 ∧ (0 : ℝ) < 1.2 ∧ (0 : ℝ) < 1e-3 ∧ (0 : ℝ) < 2e-5 := by norm_num

/-- `DP_GL_Mueller_Bonn`: the equation of Müller-Steinhagen and Heck with Blasius' friction factors of the total flow. -/
theorem C126_mueller_bonn {mL mG D L rhoL rhoG muL muG : ℝ} (hm : 0 < mL + mG) (hD : 0 < D) (hrhoL : 0 < rhoL) (hrhoG : 0 < rhoG) (hmuL : 0 < muL) (hmuG : 0 < muG) :
    let G := (mL + mG) / (π / 4 * D ^ 2)
    Flow.dpMuellerBonn mL mG D L rhoL rhoG muL muG = .ok (muellerHeck (blasius (G * D / muL) * (G ^ 2 / (2 * rhoL * D))) (blasius (G * D / muG) * (G ^ 2 / (2 * rhoG * D)))
      (mG / (mL + mG)) * L) := by
  intro G
  have hpi := pi_pos
  have hG : 0 < G := by positivity
  have g : ∀ rho mu : ℝ, 0 < rho → 0 < mu → Flow.mbGrad G D rho mu = .ok (blasius (G * D / mu) * (G ^ 2 / (2 * rho * D))) := by
    intro rho mu hr hm
    have hR : 0 < G * D / mu := by positivity
    rw [Flow.mbGrad, pdiv_ok hm.ne', ok_bind]
    unfold blasius
    split_ifs with h
    · rw [pdiv_ok hR.ne', ok_bind, pdiv_ok (by positivity)]
      refine congrArg Except.ok ?_
      ring
    · rw [pdiv_ok (rpow_pos_of_pos hR _).ne', ok_bind, pdiv_ok (by positivity)]
      refine congrArg Except.ok ?_
      rw [rpow_neg hR.le, show (0.25 : ℝ) = 1 / 4 by norm_num]
      ring
  unfold Flow.dpMuellerBonn
  dsimp only
  rw [pdiv_ok hm.ne', ok_bind, pdiv_ok (by positivity), ok_bind]
  change (Flow.mbGrad G D rhoL muL >>= _) = _
  rw [g _ _ hrhoL hmuL, ok_bind, g _ _ hrhoG hmuG, ok_bind]
  rfl

example : (0 : ℝ) < 1 + 0.1 ∧ (0 : ℝ) < 0.05 ∧ (0 : ℝ) < 1000 ∧ (0 : ℝ) < 1.2 ∧ (0 : ℝ) < 1e-3 ∧ (0 : ℝ) < 2e-5 := by norm_num

/-- `Cd_sphere`, `vt_Stokes`. -/
theorem C126_sphere (Re g Dp rhop rho mu : ℝ) (hR : 0 < Re) :
    Flow.cdSphere Re = turton Re ∧ Flow.vtStokes g Dp rhop rho mu = Dp ^ 2 * g * (rhop - rho) / (18 * mu) := by
  refine ⟨?_, rfl⟩
  rw [Flow.cdSphere, turton, rpow_neg hR.le, ← div_eq_mul_inv]

example : (0 : ℝ) < 100 := by norm_num

/-- Rheology. -/
theorem C126_rheology (g K n mu0 muinf l C a : ℝ) (hg : 0 < g) (h0 : 0 < mu0) (hl : 0 < l) (hC : 0 < C) (ha : 0 < a) :
    Rheology.muPowerLaw g K n = .ok (K * g ^ (n - 1)) ∧ Rheology.muCross g mu0 l n = .ok (mu0 / (1 + (l * g) ^ (1 - n))) ∧
      Rheology.muCrossModified g mu0 C n = .ok (mu0 / (1 + (C * mu0 * g) ^ (1 - n))) ∧
      Rheology.muCarreauYasuda g mu0 muinf l n a = .ok (muinf + (mu0 - muinf) * (1 + (l * g) ^ a) ^ ((n - 1) / a)) := by
  have p : ∀ x y : ℝ, 0 < x → Rheology.ppow x y = .ok (x ^ y) := fun x y hx => if_neg fun h => hx.ne' h.1
  have hlg : 0 < l * g := by positivity
  have hcg : 0 < C * mu0 * g := by positivity
  refine ⟨?_, ?_, ?_, ?_⟩
  · rw [Rheology.muPowerLaw, p _ _ hg, ok_bind]; rfl
  · rw [Rheology.muCross, p _ _ hlg, ok_bind, pdiv_ok (by positivity)]
  · rw [Rheology.muCrossModified, p _ _ hcg, ok_bind, pdiv_ok (by positivity)]
  · rw [Rheology.muCarreauYasuda, p _ _ hlg, ok_bind, pdiv_ok ha.ne', ok_bind, p _ _ (by positivity), ok_bind]; rfl

example : (0 : ℝ) < 10 ∧ (0 : ℝ) < 1 ∧ (0 : ℝ) < 0.1 ∧ (0 : ℝ) < 1e-5 ∧ (0 : ℝ) < 2 := by norm_num

/-- `aT_WLF`: `log10` of the shift factor, with the universal constants by default. -/
theorem C126_WLF (T T0 C1 C2 : ℝ) (h : C2 + T - T0 ≠ 0) (h' : 51.60 + T - T0 ≠ 0) :
    (∃ aT, Rheology.aTWLF T T0 (some C1) (some C2) = .ok aT ∧ logb 10 aT = -C1 * (T - T0) / (C2 + (T - T0))) ∧
    (∃ aT, Rheology.aTWLF T T0 none none = .ok aT ∧ logb 10 aT = -17.44 * (T - T0) / (51.60 + (T - T0))) := by
  have p : ∀ y : ℝ, Rheology.ppow 10 y = .ok ((10 : ℝ) ^ y) := fun y => if_neg (by norm_num)
  constructor
  · refine ⟨(10 : ℝ) ^ (-C1 * (T - T0) / (C2 + T - T0)), ?_, ?_⟩
    · unfold Rheology.aTWLF
      simp only [ok_bind]
      rw [pdiv_ok h, ok_bind, p]
    · rw [logb_rpow (by norm_num) (by norm_num), add_sub_assoc]
  · refine ⟨(10 : ℝ) ^ (-17.44 * (T - T0) / (51.60 + T - T0)), ?_, ?_⟩
    · unfold Rheology.aTWLF
      simp only [ok_bind]
      rw [pdiv_ok h', ok_bind, p]
    · rw [logb_rpow (by norm_num) (by norm_num), add_sub_assoc]

example : (51.6 : ℝ) + 400 - 373 ≠ 0 := by norm_num

/-! ## Cubic equations of state -/

/-- The parameters `a` and `b` of the three equations in reduced form. For Soave's equation with the default option the polynomial agrees with that of
Graboski and Daubert up to a rounding of its last coefficient. -/
theorem C126_cubic {N : ℕ} (e : Cubic N) (R T : ℝ) (i : Fin N) (hR : 0 < R) (hT : 0 < T) (hTc : 0 < e.Tc i) (hPc : 0 < e.Pc i) :
    (e.kind = .RK → a R e T i * e.Pc i / (R * e.Tc i) ^ 2 = rkA (T / e.Tc i) ∧ b R e i * e.Pc i / (R * e.Tc i) = 0.08664) ∧
    (e.kind = .SRK false → a R e T i * e.Pc i / (R * e.Tc i) ^ 2 = soaveA 0.42748 (fSoave (e.w i)) (T / e.Tc i) ∧ b R e i * e.Pc i / (R * e.Tc i) = 0.08664) ∧
    (e.kind = .SRK true → (∃ f, |f - fGraboski (e.w i)| ≤ 3e-5 * e.w i ^ 2 ∧ a R e T i * e.Pc i / (R * e.Tc i) ^ 2 = soaveA 0.42748 f (T / e.Tc i)) ∧
      b R e i * e.Pc i / (R * e.Tc i) = 0.08664) ∧
    (e.kind = .PR → a R e T i * e.Pc i / (R * e.Tc i) ^ 2 = soaveA 0.45724 (fPR (e.w i)) (T / e.Tc i) ∧ b R e i * e.Pc i / (R * e.Tc i) = 0.07780) := by
  have ea : a R e T i * e.Pc i / (R * e.Tc i) ^ 2 = e.kind.Ωa * alpha e T i := by unfold a; field_simp
  have eb : b R e i * e.Pc i / (R * e.Tc i) = e.kind.Ωb := by unfold b; field_simp
  have hr : 0 < T / e.Tc i := div_pos hT hTc
  rw [ea, eb]
  refine ⟨fun h => ?_, fun h => ?_, fun h => ?_, fun h => ?_⟩
  · refine ⟨?_, by rw [h]; rfl⟩
    unfold alpha
    rw [h]
    show 0.42748 * √(e.Tc i / T) = _
    rw [rkA, rpow_neg hr.le, ← sqrt_eq_rpow, ← sqrt_inv, inv_div]
  · refine ⟨?_, by rw [h]; rfl⟩
    unfold alpha
    rw [h, soaveA, ← sqrt_eq_rpow]
    rfl
  · refine ⟨⟨0.48508 + 1.55171 * e.w i - 0.1561 * e.w i ^ 2, ?_, ?_⟩, by rw [h]; rfl⟩
    · rw [fGraboski, show 0.48508 + 1.55171 * e.w i - 0.1561 * e.w i ^ 2 - (0.48508 + 1.55171 * e.w i - 0.15613 * e.w i ^ 2) = 3e-5 * e.w i ^ 2 by ring,
        abs_of_nonneg (by positivity)]
    · unfold alpha
      rw [h, soaveA, ← sqrt_eq_rpow]
      rfl
  · refine ⟨?_, by rw [h]; rfl⟩
    unfold alpha
    rw [h, soaveA, ← sqrt_eq_rpow]
    rfl

example : (0 : ℝ) < 8.314 ∧ (0 : ℝ) < 300 ∧ (0 : ℝ) < 425.1 ∧ (0 : ℝ) < 37.96e5 := by norm_num

end Verif
