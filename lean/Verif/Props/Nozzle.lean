import Verif.Lemmas.Nozzle
import Verif.Lemmas.OmegaCrit
import Verif.Lemmas.SubcooledCrit
import Mathlib.Analysis.Real.Pi.Bounds

/-!
# C127: relief-valve sizing agrees with ideal nozzle flow
-/

namespace Verif.Prv

open Real Nozzle

/-! ## Gas -/

/-- **C127.** `area_relief_gas`: the reported critical pressure is where the isentropic flow of the gas chokes, and the area is the mass flow divided by the
flux of that flow (at the critical pressure, or at the back pressure if larger) within 0.01 % (choked) or 0.1 % (subcritical). -/
theorem C127_gas {W P1 P2 T k M Z Kd Kb Kc KSH : ℝ} (hk : 1 < k) (hM : 0 < M) (hT : 0 < T) (hZ : 0 < Z) (hP2 : 0 < P2) (hP : P2 < P1) (hW : 0 < W)
    (hKd : 0 < Kd) (hKb : 0 < Kb) (hKc : 0 < Kc) :
    ∃ r Pc, areaGas W P1 P2 T k M Z false Kd Kb Kc KSH = .ok r ∧ ChokesAt (isentrope T M Z (1e5 * P1) k) (1e5 * P1) Pc ∧ r.Pcf = some (Pc / 1e5) ∧
      (r.critical ↔ 1e5 * P2 ≤ Pc) ∧
      (r.critical → |r.A / area (W / 3600) (Kd * Kb * Kc) (flux (isentrope T M Z (1e5 * P1) k) (1e5 * P1) Pc) - 1| ≤ 1e-4) ∧
      (¬ r.critical → |r.A / area (W / 3600) (Kd * Kc) (flux (isentrope T M Z (1e5 * P1) k) (1e5 * P1) (1e5 * P2)) - 1| ≤ 1e-3) := by
  have hP1 : 0 < P1 := hP2.trans hP
  have hP1' : 0 < 1e5 * P1 := by positivity
  have hv : 0 < gasVolume T M Z (1e5 * P1) := by unfold gasVolume; positivity
  obtain ⟨r, h1, h2, h3, h4⟩ := C60_gas (W := W) (Kd := Kd) (Kb := Kb) (Kc := Kc) (KSH := KSH) hk hM (by positivity : 0 ≤ T * Z) hP2 hP
  obtain ⟨c0, c1⟩ := critRatio_mem hk
  have hs : √(1e5 * P1 / gasVolume T M Z (1e5 * P1)) = 100 * P1 * √(1000 / 8.314462618) / √(T * Z / M) := by
    rw [show 1e5 * P1 / gasVolume T M Z (1e5 * P1) = (100 * P1) ^ 2 * (1000 / 8.314462618) / (T * Z / M) by
      unfold gasVolume; field_simp; norm_num, sqrt_div (by positivity), sqrt_mul (by positivity), sqrt_sq (by positivity)]
  have hq : 0 < √(T * Z / M) := sqrt_pos.2 (by positivity)
  have ha0 : 0 < √(1000 / 8.314462618 : ℝ) := sqrt_pos.2 (by norm_num)
  have ha1 : 10.9668 < √(1000 / 8.314462618 : ℝ) := lt_sqrt_of_sq_lt (by norm_num)
  have ha2 : √(1000 / 8.314462618 : ℝ) < 10.9670 := (sqrt_lt' (by norm_num)).2 (by norm_num)
  have b1 : 1.41421 < √(2 : ℝ) := lt_sqrt_of_sq_lt (by norm_num)
  have b2 : √(2 : ℝ) < 1.41422 := (sqrt_lt' (by norm_num)).2 (by norm_num)
  have hpc : 0 < 1e5 * P1 * critRatio k := by positivity
  have hiff : P2 ≤ P1 * critRatio k ↔ 1e5 * P2 ≤ 1e5 * P1 * critRatio k := by
    rw [mul_assoc]
    exact (mul_le_mul_iff_of_pos_left (by norm_num)).symm
  refine ⟨r, _, h1, isentrope_chokes hk hP1' hv, ?_, h3.trans hiff, fun h => ?_, fun h => ?_⟩
  · rw [h2]
    congr 1
    field_simp
  · have hn := sqrt_pos.2 (nozzle_pos hk c0 c1)
    rw [h4, gasArea, if_pos (h3.1 h), isentrope_flux hk hpc hP1' hv, mul_div_cancel_left₀ _ hP1'.ne', hs, sqrt_mul (by norm_num), area]
    generalize √(nozzle k (critRatio k)) = n at *
    generalize √(T * Z / M) = q at *
    generalize √(1000 / 8.314462618 : ℝ) = a at *
    have : √(2 : ℝ) ≠ 0 := by positivity
    generalize √(2 : ℝ) = b at *
    rw [show W * q / (0.03948 * b * n * (Kd * Kb * Kc) * (100 * P1)) / (1e6 * (W / 3600 / (Kd * Kb * Kc * (b * n * (100 * P1 * a / q))))) = 0.0036 / 0.03948 * a by
      field_simp; norm_num, abs_le]
    constructor <;> norm_num <;> linarith
  · have hn := sqrt_pos.2 (nozzle_pos hk (div_pos hP2 hP1) ((div_lt_one hP1).2 hP))
    rw [h4, gasArea, if_neg (fun k => h (h3.2 k)), isentrope_flux hk (by positivity) hP1' hv, mul_div_mul_left _ _ (by norm_num), hs, sqrt_mul (by norm_num), area]
    generalize √(nozzle k (P2 / P1)) = n at *
    generalize √(T * Z / M) = q at *
    generalize √(1000 / 8.314462618 : ℝ) = a at *
    generalize √(2 : ℝ) = b at *
    rw [show 17.9 * W * q / (n * (Kd * Kc) * (100 * P1)) / (1e6 * (W / 3600 / (Kd * Kc * (b * n * (100 * P1 * a / q))))) = 0.06444 * (b * a) by
      field_simp; norm_num, abs_le]
    have l1 : 1.41421 * 10.9668 ≤ b * a := by gcongr
    have l2 : b * a ≤ 1.41422 * 10.9670 := by gcongr
    norm_num at l1 l2 ⊢
    constructor <;> linarith

/-- Air from 7 bar to the atmosphere. -/
example : (1 : ℝ) < 1.4 ∧ (0 : ℝ) < 29 ∧ (0 : ℝ) < 300 ∧ (0 : ℝ) < 1.01325 ∧ (1.01325 : ℝ) < 7 ∧ (0 : ℝ) < 1000 ∧ (0 : ℝ) < 0.975 := by norm_num

/-! ## Liquid -/

/-- **C127.** `area_relief_liquid`: the area solving the sizing equations (which the function returns within 0.0031 %, `C60_liquid_accurate`) passes the flow
of a liquid of density `1000 Gl` at the ideal flux `√(2 ρ ΔP)` times the coefficients and the viscosity correction within 0.05 %; and the Reynolds number
in that correction is `ρ u d / μ` for the mean velocity in the orifice and its diameter, within 0.05 %. -/
theorem C127_liquid {Q P1 P2 mu Gl K A : ℝ} (hQ : 0 < Q) (hmu : 0 < mu) (hG : 0 < Gl) (hK : 0 < K) (hP : P2 < P1) (hA : IsLiquidArea Q P1 P2 mu Gl K A)
    {v : ℝ → ℝ} (hv : ∀ p, v p = 1 / (1000 * Gl)) :
    ∃ Re, |A / area (1000 * Gl * (Q / 60000)) (K / invKv Re) (flux v (1e5 * P1) (1e5 * P2)) - 1| ≤ 5e-4 ∧
      |Re / (1000 * Gl * (Q / 60000 / (A / 1e6)) * √(4 / π * (A / 1e6)) / (mu / 1000)) - 1| ≤ 5e-4 := by
  obtain ⟨hA0, hA⟩ := hA
  have hd : 0 < P1 - P2 := by linarith
  have hpi := pi_pos
  have hR := reA_pos hQ hG hmu hA0
  have hk := invKv_pos hR
  have hk0 : 0 < invKv (reA Q Gl mu A) := by linarith
  refine ⟨reA Q Gl mu A, ?_, ?_⟩
  · have hI : ∫ x in (1e5 * P2)..(1e5 * P1), v x = 1 / (1000 * Gl) * (1e5 * (P1 - P2)) := by
      simp only [hv]
      rw [intervalIntegral.integral_const, smul_eq_mul]
      ring
    have hf : flux v (1e5 * P1) (1e5 * P2) = 1000 * Gl * √(200 * ((P1 - P2) / Gl)) := by
      rw [flux, hI, hv, one_div, div_inv_eq_mul, mul_comm]
      congr 2
      field_simp
      norm_num
    have hs : √(Gl / (100 * (P1 - P2))) * √(200 * ((P1 - P2) / Gl)) = √2 := by
      rw [← sqrt_mul (by positivity)]
      congr 1
      field_simp
      norm_num
    have hz : 0 < √(200 * ((P1 - P2) / Gl)) := sqrt_pos.2 (by positivity)
    have e : A / area (1000 * Gl * (Q / 60000)) (K / invKv (reA Q Gl mu A)) (flux v (1e5 * P1) (1e5 * P2)) = 11.78 * 0.06 * √2 := by
      rw [hf, ← hs, area]
      nth_rewrite 1 [hA]
      rw [area0]
      generalize invKv (reA Q Gl mu A) = i at *
      generalize √(200 * ((P1 - P2) / Gl)) = z at *
      generalize √(Gl / (100 * (P1 - P2))) = y at *
      field_simp
      ring
    have b1 : 1.41421 < √(2 : ℝ) := lt_sqrt_of_sq_lt (by norm_num)
    have b2 : √(2 : ℝ) < 1.41422 := (sqrt_lt' (by norm_num)).2 (by norm_num)
    rw [e, abs_le]
    norm_num at *
    constructor <;> linarith
  · have hz : 0 < √A := sqrt_pos.2 hA0
    have hp : 0 < √π := sqrt_pos.2 hpi
    have e : reA Q Gl mu A / (1000 * Gl * (Q / 60000 / (A / 1e6)) * √(4 / π * (A / 1e6)) / (mu / 1000)) = 0.564 * √π := by
      rw [show 4 / π * (A / 1e6) = (2 / 1000) ^ 2 * (A / π) by ring, sqrt_mul (by positivity), sqrt_sq (by norm_num), sqrt_div hA0.le, reA]
      have hA2 : A = √A ^ 2 := (sq_sqrt hA0.le).symm
      generalize √A = a at *
      rw [hA2]
      generalize √π = p at *
      field_simp
      norm_num
    have b1 : 1.7724 < √π := lt_sqrt_of_sq_lt (by have := pi_gt_d6; norm_num at *; linarith)
    have b2 : √π < 1.7725 := (sqrt_lt' (by norm_num)).2 (by have := pi_lt_d6; norm_num at *; linarith)
    rw [e, abs_le]
    norm_num at *
    constructor <;> linarith

example : ∃ A, IsLiquidArea 1000 7 1 1 1 0.65 A := (C60_liquid_unique (by norm_num) one_pos one_pos (by norm_num) (by norm_num)).exists

/-! ## Two-phase flow -/

private theorem area_ratio {c m n K G : ℝ} (hm : 0 < m) (hK : 0 < K) (hG : 0 < G) (hn : 0 < n) : c * m / (K * G) / area (m / n) K G = c * n / 1e6 := by
  rw [area]
  field_simp

private theorem two_phase_core {W P1 P2 v1 v9 Kd Kb Kc Kv : ℝ} (hW : 0 < W) (hP2 : 0 < P2) (hP : P2 < P1) (hv : 0 < v1) (hv9 : v1 < v9) (hv9' : v9 ≤ 1389 * v1)
    (hKd : 0 < Kd) (hKb : 0 < Kb) (hKc : 0 < Kc) (hKv : 0 < Kv) {v : ℝ → ℝ} (hf : Omega v (1e5 * P1) v1 v9) :
    ∃ r Pcf Pc e, area2phase W P1 P2 v1 v9 Kd Kb Kc Kv = .ok r ∧ r.Pcf = some Pcf ∧ ChokesAt v (1e5 * P1) Pc ∧ (r.critical ↔ P2 ≤ Pcf) ∧
      (¬ r.critical → |r.A / area (W / 3600) (Kd * Kb * Kc * Kv) (flux v (1e5 * P1) (1e5 * P2)) - 1| ≤ 1e-4) ∧
      (r.critical → |r.A / (area (W / 3600) (Kd * Kb * Kc * Kv) (flux v (1e5 * P1) Pc) * (Pc / (1e5 * Pcf))) - 1| ≤ 1e-4) ∧
      Pcf = P1 * omegaEta (9 * (v9 / v1 - 1)) ∧ Pc = 1e5 * P1 * e ∧ 0 < e ∧ e ≤ 1 ∧ chokeH (9 * (v9 / v1 - 1)) 1 e = 0 ∧
      0 < area (W / 3600) (Kd * Kb * Kc * Kv) (flux v (1e5 * P1) Pc) := by
  have hP1 := hP2.trans hP
  have hP1' : 0 < 1e5 * P1 := by positivity
  have hx : 1 < v9 / v1 := (one_lt_div hv).2 hv9
  have hx' : v9 / v1 ≤ 1389 := (div_le_iff₀ hv).2 hv9'
  have hw : 0 < 9 * (v9 / v1 - 1) := by linarith
  have hflux := fun p => Omega.flux (p := p) hf hv hv9
  have key : area2phase W P1 P2 v1 v9 Kd Kb Kc Kv = .ok ⟨some (P1 * 100000 * omegaEta (9 * (v9 / v1 - 1)) / 100000),
      P2 * 100000 ≤ P1 * 100000 * omegaEta (9 * (v9 / v1 - 1)),
      277.8 * W / (Kd * Kb * Kc * Kv * omegaG (P1 * 100000) (P2 * 100000) v1 (9 * (v9 / v1 - 1)) (omegaEta (9 * (v9 / v1 - 1))))⟩ := by
    rw [area2phase, pdiv_ok hv.ne', ok_bind]
    simp only
    rw [if_neg (not_le.2 hw)]
    rfl
  obtain ⟨he, he1⟩ := omegaEta_mem hw (by linarith)
  have hGp := omegaG_pos (P1 := P1 * 100000) (P2 := P2 * 100000) (by linarith) (by linarith) hv hw he
  generalize 9 * (v9 / v1 - 1) = w at *
  generalize omegaEta w = ec at *
  obtain ⟨e, e0, e1, e2, e3, e4⟩ := choke_root (s := 1) hw one_pos le_rfl (by simp [chokeH, workN])
  have ee : e ≠ 1 := by
    rintro rfl
    simp [workN] at e3
    linarith
  have e1' : e < 1 := lt_of_le_of_ne e1 ee
  have hc : 0 < 1e5 * P1 * e := by positivity
  have hG : 0 < √(1e5 * P1 / v1) := sqrt_pos.2 (by positivity)
  have eF : flux v (1e5 * P1) (1e5 * P1 * e) = e * √(1e5 * P1 / (v1 * w)) := by
    rw [hflux _ hc (by nlinarith), mul_div_cancel_left₀ _ hP1'.ne', e3, mul_one, ← sqrt_mul' _ (by positivity),
      show e ^ 2 / w * (1e5 * P1 / v1) = e ^ 2 * (1e5 * P1 / (v1 * w)) by field_simp, sqrt_mul (sq_nonneg _), sqrt_sq e0.le]
  have hz : 0 < √(1e5 * P1 / (v1 * w)) := sqrt_pos.2 (by positivity)
  refine ⟨_, P1 * ec, 1e5 * P1 * e, e, key, congrArg some (by ring), ⟨hc, by nlinarith, fun q hq hq1 => ?_⟩, ?_, fun h => ?_, fun h => ?_, rfl, rfl, e0, e1, e2, ?_⟩
  · rw [hflux q hq hq1, hflux _ hc (by nlinarith), mul_div_cancel_left₀ _ hP1'.ne']
    exact mul_le_mul_of_nonneg_right (sqrt_le_sqrt (e4 _ (by positivity) ((div_le_one hP1').2 hq1))) hG.le
  · show P2 * 100000 ≤ P1 * 100000 * ec ↔ _
    constructor <;> intro h <;> nlinarith
  · change ¬ P2 * 100000 ≤ P1 * 100000 * ec at h
    show |277.8 * W / _ / _ - 1| ≤ _
    have hr : 0 < P2 / P1 := by positivity
    have hD := volD_pos (e := P2 / P1) hw one_pos hr ((div_le_one hP1).2 hP.le)
    have eG : omegaG (P1 * 100000) (P2 * 100000) v1 w ec = flux v (1e5 * P1) (1e5 * P2) := by
      rw [hflux _ (by positivity) (by nlinarith), mul_div_mul_left _ _ (by norm_num), omegaG, if_neg h, mul_div_mul_right _ _ (by norm_num), sqrt_div' _ (sq_nonneg _),
        sqrt_sq hD.le, show P1 * 100000 = 1e5 * P1 by norm_num; ring]
      rw [show -2 * (w * log (P2 / P1) + (w - 1) * (1 - P2 / P1)) = workN w 1 (P2 / P1) by unfold workN; rw [one_div, log_inv]; ring]
      unfold volD
      ring
    rw [eG, area_ratio hW (by positivity) (by rw [← eG]; exact hGp) (by norm_num)]
    norm_num [abs_le]
  · change P2 * 100000 ≤ P1 * 100000 * ec at h
    show |277.8 * W / _ / _ - 1| ≤ _
    rw [eF, omegaG, if_pos h, show P1 * 100000 = 1e5 * P1 by norm_num; ring]
    generalize √(1e5 * P1 / (v1 * w)) = z at *
    rw [show 277.8 * W / (Kd * Kb * Kc * Kv * (ec * z)) / (area (W / 3600) (Kd * Kb * Kc * Kv) (e * z) * (1e5 * P1 * e / (1e5 * (P1 * ec)))) = 277.8 * 3600 / 1e6 by
      unfold area; field_simp]
    norm_num [abs_le]
  · rw [eF]
    unfold area
    positivity

/-- **C127.** `area_relief_2phase` for the fluid of the omega method (specific volume linear in `1/p` through the two given points): there is a
pressure at which its ideal flow chokes. In subcritical flow the area is the mass flow divided by the ideal flux, within 0.01 %. In choked flow it is the
mass flow divided by the choked flux times (exact critical pressure / reported critical pressure), within 0.01 %. If the omega parameter
`9 (v9 / v1 - 1)` is between 0.01 and 1000, the reported critical pressure is within 0.25 % of the exact one, and the area in choked flow within 0.27 %. -/
theorem C127_two_phase {W P1 P2 v1 v9 Kd Kb Kc Kv : ℝ} (hW : 0 < W) (hP2 : 0 < P2) (hP : P2 < P1) (hv : 0 < v1) (hv9 : v1 < v9) (hv9' : v9 ≤ 1389 * v1)
    (hKd : 0 < Kd) (hKb : 0 < Kb) (hKc : 0 < Kc) (hKv : 0 < Kv) {v : ℝ → ℝ} (hf : Omega v (1e5 * P1) v1 v9) :
    ∃ r Pcf Pc, area2phase W P1 P2 v1 v9 Kd Kb Kc Kv = .ok r ∧ r.Pcf = some Pcf ∧ ChokesAt v (1e5 * P1) Pc ∧ (r.critical ↔ P2 ≤ Pcf) ∧
      (¬ r.critical → |r.A / area (W / 3600) (Kd * Kb * Kc * Kv) (flux v (1e5 * P1) (1e5 * P2)) - 1| ≤ 1e-4) ∧
      (r.critical → |r.A / (area (W / 3600) (Kd * Kb * Kc * Kv) (flux v (1e5 * P1) Pc) * (Pc / (1e5 * Pcf))) - 1| ≤ 1e-4) ∧
      (0.01 ≤ 9 * (v9 / v1 - 1) → 9 * (v9 / v1 - 1) ≤ 1000 → |1e5 * Pcf / Pc - 1| ≤ 0.0025 ∧
        (r.critical → |r.A / area (W / 3600) (Kd * Kb * Kc * Kv) (flux v (1e5 * P1) Pc) - 1| ≤ 0.0027)) := by
  obtain ⟨r, Pcf, Pc, e, h1, h2, h3, h4, h5, h6, hf, hc, e0, e1, hr, ha⟩ := two_phase_core hW hP2 hP hv hv9 hv9' hKd hKb hKc hKv hf
  refine ⟨r, Pcf, Pc, h1, h2, h3, h4, h5, h6, fun w1 w2 => ?_⟩
  have hP1 := hP2.trans hP
  have hx := OmegaCrit.omegaEta_accurate w1 w2 e0 e1 hr
  have hq : 1e5 * Pcf / Pc = omegaEta (9 * (v9 / v1 - 1)) / e := by
    rw [hf, hc]
    field_simp
  rw [hq]
  refine ⟨hx, fun h => ?_⟩
  have h6 := h6 h
  rw [← div_div, show Pc / (1e5 * Pcf) = (omegaEta (9 * (v9 / v1 - 1)) / e)⁻¹ by rw [← hq, inv_div], div_inv_eq_mul] at h6
  generalize omegaEta (9 * (v9 / v1 - 1)) / e = x at *
  generalize r.A / area (W / 3600) (Kd * Kb * Kc * Kv) (flux v (1e5 * P1) Pc) = y at *
  rw [abs_le] at *
  constructor <;> nlinarith

/-- Outside that range the correlation is useless: for an omega parameter of 0.0001 (a mixture whose volume hardly changes, at 10 bar) the reported critical
pressure is more than 10 % below the exact one. -/
theorem C127_two_phase_low_false : ∃ P1 P2 v1 v9 : ℝ, 0 < P2 ∧ P2 < P1 ∧ 0 < v1 ∧ v1 < v9 ∧ ∃ v : ℝ → ℝ, Omega v (1e5 * P1) v1 v9 ∧
    ∃ r Pcf Pc, area2phase 1000 P1 P2 v1 v9 0.85 1 1 1 = .ok r ∧ r.Pcf = some Pcf ∧ ChokesAt v (1e5 * P1) Pc ∧ r.critical ∧ 1e5 * Pcf < 0.9 * Pc ∧
      1.1 * area (1000 / 3600) (0.85 * 1 * 1 * 1) (flux v (1e5 * P1) Pc) < r.A := by
  have hw : (9 * ((1 + 0.0001 / 9) / 1 - 1) : ℝ) = 0.0001 := by norm_num
  have ho : Omega (fun p => (1 - 0.0001) + 0.0001 * (1e5 * 10) / p) (1e5 * 10) 1 (1 + 0.0001 / 9) :=
    ⟨⟨1 - 0.0001, 0.0001 * (1e5 * 10), fun p _ => rfl⟩, by norm_num, by norm_num⟩
  refine ⟨10, 0.05, 1, 1 + 0.0001 / 9, by norm_num, by norm_num, by norm_num, by norm_num, _, ho, ?_⟩
  obtain ⟨r, Pcf, Pc, e, h1, h2, h3, h4, -, h6, hf, hc, e0, e1, hr, ha⟩ := two_phase_core (W := 1000) (P1 := 10) (P2 := 0.05) (v1 := 1) (v9 := 1 + 0.0001 / 9)
    (Kd := 0.85) (Kb := 1) (Kc := 1) (Kv := 1) (by norm_num) (by norm_num) (by norm_num) (by norm_num) (by norm_num) (by norm_num) (by norm_num) (by norm_num)
    (by norm_num) (by norm_num) ho
  rw [hw] at hf hr
  have o1 : omegaEta 0.0001 < 0.01244 := by unfold omegaEta; iv
  have o2 : 0.0124 < omegaEta 0.0001 := by unfold omegaEta; iv
  have he : 0.0139 < e := by
    by_contra hn
    push Not at hn
    have h7 : 0 < chokeH 0.0001 1 0.0139 := by unfold chokeH workN; iv
    have := (chokeH_anti (w := 0.0001) (s := 1) (by norm_num) one_pos).antitoneOn ⟨e0, e1⟩ (by norm_num) hn
    linarith
  have hcr : r.critical := h4.2 (by rw [hf]; linarith)
  have h6 := h6 hcr
  refine ⟨r, Pcf, Pc, h1, h2, h3, hcr, by rw [hf, hc]; linarith, ?_⟩
  have hq : 1.111 < Pc / (1e5 * Pcf) := by
    rw [hf, hc, lt_div_iff₀ (by linarith)]
    linarith
  generalize Pc / (1e5 * Pcf) = x at *
  generalize area (1000 / 3600) (0.85 * 1 * 1 * 1) (flux (fun p => (1 - 0.0001) + 0.0001 * (1e5 * 10) / p) (1e5 * 10) Pc) = y at *
  have hxy : 0 < y * x := by positivity
  rw [abs_le, neg_le_sub_iff_le_add, ← sub_le_iff_le_add, le_div_iff₀ hxy] at h6
  nlinarith [h6.1]

/-- A two-phase mixture that doubles its volume at 90 % of the inlet pressure. -/
example : Omega (fun p => 0.01 * (1 - 9) + 0.01 * 9 * 1e6 / p) (1e5 * 10) 0.01 0.02 := by
  refine ⟨⟨0.01 * (1 - 9), 0.01 * 9 * 1e6, fun p _ => rfl⟩, by norm_num, by norm_num⟩

example : (0.01 : ℝ) ≤ 9 * (0.02265 / 0.01945 - 1) ∧ (9 * (0.02265 / 0.01945 - 1) : ℝ) ≤ 1000 := by norm_num

/-! ## Subcooled liquids -/

private theorem etaSt_iff {w s : ℝ} (hw : 0 < w) (hs : 0 < s) : s < etaSt w ↔ 0 < chokeH w s s := by
  have e : chokeH w s s = s * (2 * w * (1 - s) - s) := by
    unfold chokeH workN
    rw [div_self hs.ne', log_one]
    ring
  rw [e, etaSt, lt_div_iff₀ (by positivity), mul_pos_iff_of_pos_left hs]
  constructor <;> intro h <;> linarith

private theorem areaSubcooled_eq {Q P1 P2 Ps rho1 rho9 Kd Kb Kc Kv : ℝ} (hP2 : 0 < P2) (hP : P2 < P1) (hPs : 0 < Ps) (hr9 : 0 < rho9) (hr : rho9 < rho1)
    (hr2 : 18 * rho1 ≠ 19 * rho9) :
    let ws := 9 * (rho1 / rho9 - 1)
    let ec := if Ps / P1 > etaSt ws then etaC ws (Ps / P1) else Ps / P1
    areaSubcooled Q P1 P2 Ps rho1 rho9 Kd Kb Kc Kv = if Ps / P1 < etaSt ws then
        .ok ⟨none, P2 * 100000 ≤ Ps * 100000, 16.67 * Q * rho1 / (Kd * Kb * Kc * Kv * (1.414 * √(rho1 * (P1 * 100000 - 100000 * max Ps P2))))⟩
      else .ok ⟨some (P1 * 100000 * ec / 100000), P2 * 100000 ≤ P1 * 100000 * ec,
        16.67 * Q * rho1 / (Kd * Kb * Kc * Kv * subG (P1 * 100000) rho1 ws (Ps / P1) (if P2 * 100000 ≤ P1 * 100000 * ec then ec else P2 / P1))⟩ := by
  intro ws ec
  have hP1 := hP2.trans hP
  have hx : 1 < rho1 / rho9 := (one_lt_div hr9).2 hr
  have hw : 0 < ws := by simp only [ws]; linarith
  have hw2 : 2 * ws ≠ 1 := by
    intro hc
    apply hr2
    simp only [ws] at hc
    field_simp at hc
    linarith
  have e1 : Ps * 100000 / (P1 * 100000) = Ps / P1 := mul_div_mul_right _ _ (by norm_num)
  have e2 : P2 * 100000 / (P1 * 100000) = P2 / P1 := mul_div_mul_right _ _ (by norm_num)
  have hec_ : subEta_ ws (Ps / P1) = .ok (etaC ws (Ps / P1)) := by
    rw [subEta_, pdiv_ok (sub_ne_zero.2 hw2), ok_bind, pdiv_ok (by positivity), ok_bind, pdiv_ok (by positivity)]
    rfl
  have hmax : (if P2 * 100000 ≤ Ps * 100000 then Ps * 100000 else P2 * 100000) = 100000 * max Ps P2 := by
    split_ifs with h
    · rw [max_eq_left (by linarith)]; ring
    · rw [max_eq_right (by linarith)]; ring
  rw [areaSubcooled, pdiv_ok hr9.ne', ok_bind]
  simp only
  rw [pdiv_ok (by positivity), ok_bind, pdiv_ok (by positivity), ok_bind, pdiv_ok (by positivity), ok_bind, e1, e2, hmax]
  change (if Ps / P1 < etaSt ws then _ else (subEta_ ws (Ps / P1) >>= _)) = _
  by_cases h : Ps / P1 < etaSt ws
  · rw [if_pos h, if_pos h]; rfl
  · rw [if_neg h, if_neg h, hec_]; rfl

private theorem etaC_quad {w s : ℝ} (hw : 0 < w) (hw2 : 2 * w ≠ 1) (hs : 0 < s) (h : etaSt w ≤ s) :
    2 * w * (etaC w s ^ 2 - 2 * etaC w s * s + s) = etaC w s ^ 2 := by
  have hk : 2 * w - 1 ≠ 0 := sub_ne_zero.2 hw2
  have hD : 0 ≤ 1 - 1 / s * ((2 * w - 1) / (2 * w)) := by
    rw [etaSt, div_le_iff₀ (by positivity)] at h
    rw [sub_nonneg, div_mul_div_comm, one_mul, div_le_one (by positivity)]
    have h2 : (2 * w - 1) * (1 + 2 * w) ≤ s * (2 * w) * (1 + 2 * w) := by nlinarith
    exact le_of_mul_le_mul_right h2 (by positivity)
  have hsq := sq_sqrt hD
  unfold etaC
  generalize √(1 - 1 / s * ((2 * w - 1) / (2 * w))) = q at *
  field_simp at hsq ⊢
  linear_combination (2 * w - 1) * hsq

set_option maxHeartbeats 1000000 in
/-- **C127.** `area_relief_2phase_subcooled` for a liquid that flashes at `Ps` along the curve of the omega method. If no critical pressure is reported
(high subcooling), the ideal flow chokes exactly at the saturation pressure. Otherwise it chokes below. The area is the mass flow divided by the ideal flux
at the critical pressure used (saturation pressure or reported critical pressure) or at the back pressure if larger, within 0.05 %, so it is never smaller
than the choked area by more than that. The reported critical pressure is never above the exact one, and the area never exceeds the choked area by more than
3.1 % when the flow chokes. Missing: low subcooling with a back pressure above the saturation pressure, see `C127_subcooled_liquid_false`. -/
theorem C127_subcooled_partial {Q P1 P2 Ps rho1 rho9 Kd Kb Kc Kv : ℝ} (hQ : 0 < Q) (hP2 : 0 < P2) (hP : P2 < P1) (hPs : 0 < Ps) (hPs1 : Ps < P1) (hr9 : 0 < rho9) (hr : rho9 < rho1)
    (hr2 : 18 * rho1 ≠ 19 * rho9) (hKd : 0 < Kd) (hKb : 0 < Kb) (hKc : 0 < Kc) (hKv : 0 < Kv) {v : ℝ → ℝ} (hf : Flashing v (1e5 * Ps) (1 / rho1) (1 / rho9)) :
    ∃ r Pc, areaSubcooled Q P1 P2 Ps rho1 rho9 Kd Kb Kc Kv = .ok r ∧ ChokesAt v (1e5 * P1) Pc ∧ Pc ≤ 1e5 * Ps ∧
      (r.Pcf = none → Pc = 1e5 * Ps ∧ (r.critical ↔ P2 ≤ Ps) ∧
        |r.A / area (rho1 * (Q / 60000)) (Kd * Kb * Kc * Kv) (flux v (1e5 * P1) (1e5 * max Ps P2)) - 1| ≤ 5e-4) ∧
      (∀ Pcf, r.Pcf = some Pcf → 0 < Pcf ∧ Pcf ≤ Ps ∧ (r.critical ↔ P2 ≤ Pcf) ∧
        (P2 ≤ Ps → |r.A / area (rho1 * (Q / 60000)) (Kd * Kb * Kc * Kv) (flux v (1e5 * P1) (1e5 * max Pcf P2)) - 1| ≤ 5e-4) ∧
        1e5 * Pcf ≤ Pc ∧ (1e5 * P2 ≤ Pc → r.A ≤ 1.031 * area (rho1 * (Q / 60000)) (Kd * Kb * Kc * Kv) (flux v (1e5 * P1) Pc))) := by
  have hP1 := hP2.trans hP
  have hP1' : 0 < 1e5 * P1 := by positivity
  have hPs' : 0 < 1e5 * Ps := by positivity
  have hr1 := hr9.trans hr
  have hv : 0 < 1 / rho1 := by positivity
  have hv9 : 1 / rho1 < 1 / rho9 := one_div_lt_one_div_of_lt hr9 hr
  have hx : 1 < rho1 / rho9 := (one_lt_div hr9).2 hr
  have hw : 0 < 9 * (rho1 / rho9 - 1) := by linarith
  have hw2 : 2 * (9 * (rho1 / rho9 - 1)) ≠ 1 := by
    intro hc
    apply hr2
    field_simp at hc
    linarith
  have ew : 9 * (1 / rho9 / (1 / rho1) - 1) = 9 * (rho1 / rho9 - 1) := by field_simp
  have es : 1e5 * Ps / (1e5 * P1) = Ps / P1 := mul_div_mul_left _ _ (by norm_num)
  have hs : 0 < Ps / P1 := by positivity
  have hs1 : Ps / P1 < 1 := (div_lt_one hP1).2 hPs1
  have hlow := fun p => Flashing.flux_low (p := p) (P1 := 1e5 * P1) hf hv hv9 hPs' (by nlinarith)
  have hhigh := fun p => Flashing.flux_high (p := p) (P1 := 1e5 * P1) hf hv hP1'
  rw [ew, es] at hlow
  have hG : 0 < √(1e5 * P1 / (1 / rho1)) := sqrt_pos.2 (by positivity)
  have hst := etaSt_iff hw hs
  have heq := areaSubcooled_eq (Q := Q) (Kd := Kd) (Kb := Kb) (Kc := Kc) (Kv := Kv) hP2 hP hPs hr9 hr hr2
  simp only at heq
  have hcrit := C60_subcooled_critical (es := Ps / P1) hw hw2
  generalize 9 * (rho1 / rho9 - 1) = w at *
  have habove : ∀ q, 1e5 * Ps ≤ q → q ≤ 1e5 * P1 → flux v (1e5 * P1) q ≤ flux v (1e5 * P1) (1e5 * Ps) := by
    intro q h1 h2
    rw [hhigh q h1 h2, hhigh _ le_rfl (by nlinarith)]
    refine mul_le_mul_of_nonneg_right (sqrt_le_sqrt ?_) hG.le
    have : 1e5 * Ps / (1e5 * P1) ≤ q / (1e5 * P1) := div_le_div_of_nonneg_right h1 hP1'.le
    linarith
  by_cases h : Ps / P1 < etaSt w
  · rw [if_pos h] at heq
    refine ⟨_, 1e5 * Ps, heq, ⟨hPs', by nlinarith, fun q hq hq1 => ?_⟩, le_rfl, fun _ => ⟨rfl, ?_, ?_⟩, fun Pcf h => by simp at h⟩
    · rcases le_total q (1e5 * Ps) with hqs | hqs
      · rw [hlow q hq hqs, hlow _ hPs' le_rfl, es]
        exact mul_le_mul_of_nonneg_right (sqrt_le_sqrt (ratio_mono hw hs hs1.le hs le_rfl (hst.1 h).le ⟨by positivity, by
          rw [← es]; exact div_le_div_of_nonneg_right hqs hP1'.le⟩ ⟨hs, le_rfl⟩ (by rw [← es]; exact div_le_div_of_nonneg_right hqs hP1'.le))) hG.le
      · exact habove q hqs hq1
    · show P2 * 100000 ≤ Ps * 100000 ↔ _
      constructor <;> intro h <;> linarith
    · show |16.67 * Q * rho1 / _ / _ - 1| ≤ _
      have hm : max Ps P2 < P1 := max_lt hPs1 hP
      rw [hhigh _ (by have := le_max_left Ps P2; nlinarith) (by nlinarith), mul_div_mul_left _ _ (by norm_num), ← sqrt_mul' _ (by positivity),
        show 2 * (1 - max Ps P2 / P1) * (1e5 * P1 / (1 / rho1)) = 2 * (rho1 * (P1 * 100000 - 100000 * max Ps P2)) by field_simp; norm_num, sqrt_mul (show (0 : ℝ) ≤ 2 by norm_num), area]
      have hz : 0 < √(rho1 * (P1 * 100000 - 100000 * max Ps P2)) := sqrt_pos.2 (mul_pos hr1 (by linarith))
      generalize √(rho1 * (P1 * 100000 - 100000 * max Ps P2)) = z at *
      have b1 : 1.41421 < √(2 : ℝ) := lt_sqrt_of_sq_lt (by norm_num)
      have b2 : √(2 : ℝ) < 1.41422 := (sqrt_lt' (by norm_num)).2 (by norm_num)
      rw [show 16.67 * Q * rho1 / (Kd * Kb * Kc * Kv * (1.414 * z)) / (1e6 * (rho1 * (Q / 60000) / (Kd * Kb * Kc * Kv * (√2 * z)))) = 16.67 * 0.06 / 1.414 * √2 by
        field_simp; norm_num, abs_le]
      norm_num at *
      constructor <;> linarith
  · rw [if_neg h] at heq
    have h' := not_lt.1 h
    have hH : chokeH w (Ps / P1) (Ps / P1) ≤ 0 := not_lt.1 fun k => h (hst.2 k)
    obtain ⟨e, e0, e1, er, e3, e4⟩ := choke_root hw hs hs1.le hH
    have hec : ∀ ec, ec = (if Ps / P1 > etaSt w then etaC w (Ps / P1) else Ps / P1) → 0 < ec ∧ ec ≤ Ps / P1 ∧
        2 * w * (ec ^ 2 - 2 * ec * (Ps / P1) + Ps / P1) = ec ^ 2 := by
      intro ec hec
      rw [hec]
      split_ifs with h1
      · exact ⟨(hcrit h').1, (hcrit h').2, etaC_quad hw hw2 hs h'⟩
      · refine ⟨hs, le_rfl, ?_⟩
        have h2 : Ps / P1 = etaSt w := le_antisymm (not_lt.1 h1) h'
        rw [h2, etaSt]
        field_simp
        ring
    generalize (if Ps / P1 > etaSt w then etaC w (Ps / P1) else Ps / P1) = ec at *
    obtain ⟨ec0, ec1, ecq⟩ := hec ec rfl
    obtain ⟨near1, near2⟩ := SubcooledCrit.near hw hs hs1.le ec0 ec1 ecq e0 e1 er
    have hc : 0 < 1e5 * P1 * e := by positivity
    have hcs : 1e5 * P1 * e ≤ 1e5 * Ps := by
      rw [le_div_iff₀ hP1] at e1
      nlinarith
    have hle : ∀ q, 0 < q → q ≤ 1e5 * Ps → flux v (1e5 * P1) q ≤ flux v (1e5 * P1) (1e5 * P1 * e) := by
      intro q hq hqs
      rw [hlow q hq hqs, hlow _ hc hcs, mul_div_cancel_left₀ _ hP1'.ne']
      exact mul_le_mul_of_nonneg_right (sqrt_le_sqrt (e4 _ (by positivity) (by rw [← es]; exact div_le_div_of_nonneg_right hqs hP1'.le))) hG.le
    refine ⟨_, 1e5 * P1 * e, heq, ⟨hc, by nlinarith, fun q hq hq1 => ?_⟩, hcs, fun h => by simp at h, fun Pcf hp => ?_⟩
    · rcases le_total q (1e5 * Ps) with hqs | hqs
      · exact hle q hq hqs
      · exact (habove q hqs hq1).trans (hle _ hPs' le_rfl)
    · have hp' : Pcf = P1 * ec := by
        simp only [Option.some.injEq] at hp
        rw [← hp]; ring
      have hcritb : P2 * 100000 ≤ P1 * 100000 * ec ↔ P2 ≤ Pcf := by
        rw [hp']
        constructor <;> intro h <;> nlinarith
      have hPcf0 : 0 < Pcf := by rw [hp']; positivity
      have hPcfs : Pcf ≤ Ps := by rw [hp']; rw [le_div_iff₀ hP1] at ec1; linarith
      have hA : P2 ≤ Ps → |16.67 * Q * rho1 / (Kd * Kb * Kc * Kv * subG (P1 * 100000) rho1 w (Ps / P1) (if P2 * 100000 ≤ P1 * 100000 * ec then ec else P2 / P1)) /
          area (rho1 * (Q / 60000)) (Kd * Kb * Kc * Kv) (flux v (1e5 * P1) (1e5 * max Pcf P2)) - 1| ≤ 5e-4 := by
        intro h2s
        have eη : (if P2 * 100000 ≤ P1 * 100000 * ec then ec else P2 / P1) = max Pcf P2 / P1 := by
          split_ifs with k
          · rw [max_eq_left (hcritb.1 k), hp', mul_div_cancel_left₀ _ hP1.ne']
          · rw [max_eq_right (not_le.1 fun j => k (hcritb.2 j)).le]
        rw [eη]
        have hm0 : 0 < max Pcf P2 := lt_max_of_lt_left hPcf0
        have hms : max Pcf P2 ≤ Ps := max_le hPcfs h2s
        generalize max Pcf P2 = m at *
        have hD := volD_pos (e := m / P1) hw hs (by positivity) (div_le_div_of_nonneg_right hms hP1.le)
        have eG : subG (P1 * 100000) rho1 w (Ps / P1) (m / P1) = flux v (1e5 * P1) (1e5 * m) := by
          rw [hlow _ (by positivity) (by nlinarith), mul_div_mul_left _ _ (by norm_num), sqrt_div' _ (sq_nonneg _), sqrt_sq hD.le, subG,
            show P1 * 100000 * rho1 = 1e5 * P1 / (1 / rho1) by rw [div_div_eq_mul_div, div_one, show (1e5 : ℝ) = 100000 by norm_num]; ring]
          unfold workN volD
          ring
        have hGp : 0 < subG (P1 * 100000) rho1 w (Ps / P1) (m / P1) :=
          subG_pos (by positivity) hr1 hw h' (by positivity) (by rw [div_lt_one hP1]; linarith)
        rw [eG] at hGp ⊢
        rw [show 16.67 * Q * rho1 = 16.67 * (rho1 * Q) by ring, show rho1 * (Q / 60000) = rho1 * Q / 60000 by ring, area_ratio (by positivity) (by positivity) hGp (by norm_num)]
        norm_num [abs_le]
      refine ⟨hPcf0, hPcfs, hcritb, hA, ?_, fun h2 => ?_⟩
      · rw [hp', ← mul_assoc]
        exact mul_le_mul_of_nonneg_left near1 hP1'.le
      · have h2s : P2 ≤ Ps := by linarith
        have hA := hA h2s
        show 16.67 * Q * rho1 / _ ≤ _
        generalize 16.67 * Q * rho1 / (Kd * Kb * Kc * Kv * subG (P1 * 100000) rho1 w (Ps / P1) (if P2 * 100000 ≤ P1 * 100000 * ec then ec else P2 / P1)) = A at *
        have hm0 : 0 < max Pcf P2 := lt_max_of_lt_left hPcf0
        have hme : max Pcf P2 / P1 ≤ e := by
          rw [div_le_iff₀ hP1]
          refine max_le ?_ (by nlinarith)
          rw [hp']
          nlinarith
        have hmc : ec ≤ max Pcf P2 / P1 := by
          rw [le_div_iff₀ hP1]
          refine le_trans ?_ (le_max_left _ _)
          rw [hp', mul_comm]
        have hms : 1e5 * max Pcf P2 ≤ 1e5 * Ps := by
          rw [div_le_iff₀ hP1] at hme
          nlinarith
        have hn := near2 _ hmc hme
        have hf1 := hlow _ (by positivity : 0 < 1e5 * max Pcf P2) hms
        have hf2 := hlow _ hc hcs
        rw [mul_div_mul_left _ _ (by norm_num)] at hf1
        rw [mul_div_cancel_left₀ _ hP1'.ne'] at hf2
        have hfl : flux v (1e5 * P1) (1e5 * P1 * e) ≤ 1.03 * flux v (1e5 * P1) (1e5 * max Pcf P2) := by
          rw [hf1, hf2, ← mul_assoc]
          refine mul_le_mul_of_nonneg_right ?_ hG.le
          rw [← sqrt_sq (show (0 : ℝ) ≤ 1.03 by norm_num), ← sqrt_mul (by positivity)]
          exact sqrt_le_sqrt hn
        have hpos2 : 0 < flux v (1e5 * P1) (1e5 * P1 * e) := by
          rw [hf2, e3]
          positivity
        have hpos1 : 0 < flux v (1e5 * P1) (1e5 * max Pcf P2) := by linarith
        generalize flux v (1e5 * P1) (1e5 * P1 * e) = F2 at *
        generalize flux v (1e5 * P1) (1e5 * max Pcf P2) = F1 at *
        have ha1 : 0 < area (rho1 * (Q / 60000)) (Kd * Kb * Kc * Kv) F1 := by unfold area; positivity
        have ha2 : area (rho1 * (Q / 60000)) (Kd * Kb * Kc * Kv) F1 ≤ 1.03 * area (rho1 * (Q / 60000)) (Kd * Kb * Kc * Kv) F2 := by
          have : area (rho1 * (Q / 60000)) (Kd * Kb * Kc * Kv) F1 = area (rho1 * (Q / 60000)) (Kd * Kb * Kc * Kv) F2 * (F2 / F1) := by
            unfold area; field_simp
          rw [this, mul_comm 1.03]
          refine mul_le_mul_of_nonneg_left ((div_le_iff₀ hpos1).2 hfl) ?_
          unfold area; positivity
        have := (abs_le.1 hA).2
        rw [sub_le_iff_le_add, div_le_iff₀ ha1] at this
        linarith

/-- Liquid of density 900 flashing at 8 bar. -/
example : Flashing (fun p => if 8e5 ≤ p then 1 / 900 else (1 / 900 - 9 * (1 / 600 - 1 / 900)) + 9 * (1 / 600 - 1 / 900) * 8e5 / p) (1e5 * 8) (1 / 900) (1 / 600) := by
  refine ⟨fun p hp => if_pos (by norm_num at hp ⊢; linarith), ⟨1 / 900 - 9 * (1 / 600 - 1 / 900), 9 * (1 / 600 - 1 / 900) * 8e5, fun p hp hp1 => ?_⟩, ?_⟩
  · rcases hp1.eq_or_lt with h | h
    · norm_num [h]
    · exact if_neg (by norm_num at h ⊢; linarith)
  · norm_num

/-- **C127 (false as stated).** With low subcooling and a back pressure above the saturation pressure the liquid does not flash, but the function still uses the
two-phase curve: the flux it works with exceeds the flux `√(2 ρ ΔP)` of the liquid, for all such inputs, ... -/
theorem C127_subcooled_liquid_false {Q P1 P2 Ps rho1 rho9 Kd Kb Kc Kv : ℝ} (hP : P2 < P1) (hPs : 0 < Ps) (h2s : Ps < P2) (hr9 : 0 < rho9)
    (hr : rho9 < rho1) (hr2 : 18 * rho1 ≠ 19 * rho9) (hl : 2 * (9 * (rho1 / rho9 - 1)) / (1 + 2 * (9 * (rho1 / rho9 - 1))) ≤ Ps / P1)
    {v : ℝ → ℝ} (hf : Flashing v (1e5 * Ps) (1 / rho1) (1 / rho9)) :
    ∃ r G, areaSubcooled Q P1 P2 Ps rho1 rho9 Kd Kb Kc Kv = .ok r ∧ r.A = 16.67 * Q * rho1 / (Kd * Kb * Kc * Kv * G) ∧ flux v (1e5 * P1) (1e5 * P2) < G := by
  have hP2 := hPs.trans h2s
  have hP1 := hP2.trans hP
  have hP1' : 0 < 1e5 * P1 := by positivity
  have hr1 := hr9.trans hr
  have hv : 0 < 1 / rho1 := by positivity
  have hx : 1 < rho1 / rho9 := (one_lt_div hr9).2 hr
  have hw : 0 < 9 * (rho1 / rho9 - 1) := by linarith
  have hw2 : 2 * (9 * (rho1 / rho9 - 1)) ≠ 1 := by
    intro hc
    apply hr2
    field_simp at hc
    linarith
  have hs : 0 < Ps / P1 := by positivity
  have heq := areaSubcooled_eq (Q := Q) (Kd := Kd) (Kb := Kb) (Kc := Kc) (Kv := Kv) hP2 hP hPs hr9 hr hr2
  simp only at heq
  have hhigh := Flashing.flux_high (p := 1e5 * P2) (P1 := 1e5 * P1) hf hv hP1' (by nlinarith) (by nlinarith)
  have hcrit := C60_subcooled_critical (es := Ps / P1) hw hw2 hl
  generalize 9 * (rho1 / rho9 - 1) = w at *
  have hec : (if Ps / P1 > etaSt w then etaC w (Ps / P1) else Ps / P1) ≤ Ps / P1 := by
    split_ifs
    · exact hcrit.2
    · exact le_rfl
  generalize (if Ps / P1 > etaSt w then etaC w (Ps / P1) else Ps / P1) = ec at *
  have hn : ¬ P2 * 100000 ≤ P1 * 100000 * ec := by
    intro h
    rw [le_div_iff₀ hP1] at hec
    nlinarith
  rw [if_neg (show ¬ Ps / P1 < etaSt w from not_lt.2 hl), if_neg hn] at heq
  refine ⟨_, _, heq, rfl, ?_⟩
  have he0 : 0 < P2 / P1 := by positivity
  have he1 : P2 / P1 < 1 := (div_lt_one hP1).2 hP
  have hse : Ps / P1 < P2 / P1 := div_lt_div_of_pos_right h2s hP1
  have hg : √(P1 * 100000 * rho1) = √(1e5 * P1 / (1 / rho1)) := by
    congr 1
    rw [div_div_eq_mul_div, div_one, show (1e5 : ℝ) = 100000 by norm_num]
    ring
  have hG : 0 < √(1e5 * P1 / (1 / rho1)) := sqrt_pos.2 (by positivity)
  rw [hhigh, mul_div_mul_left _ _ (by norm_num), subG, hg]
  generalize √(1e5 * P1 / (1 / rho1)) = g at *
  generalize P2 / P1 = e at *
  generalize Ps / P1 = s at *
  have hD1 : w * (s / e - 1) + 1 < 1 := by
    have : s / e < 1 := (div_lt_one he0).2 hse
    nlinarith
  have hD0 : 0 < w * (s / e - 1) + 1 := by
    rw [div_le_iff₀ (by positivity)] at hl
    have : s ≤ s / e := by
      rw [le_div_iff₀ he0]
      nlinarith
    nlinarith
  have hN : 2 * (1 - e) < 2 * (1 - s) + 2 * (w * s * log (s / e) - (w - 1) * (s - e)) := by
    have h1 := log_lt_sub_one_of_pos (div_pos he0 hs) (by rw [Ne, div_eq_one_iff_eq hs.ne']; exact hse.ne')
    have h2 : log (s / e) = -log (e / s) := by rw [← log_inv, inv_div]
    have h3 : w * s * log (e / s) < w * s * (e / s - 1) := mul_lt_mul_of_pos_left h1 (by positivity)
    have h4 : w * s * (e / s - 1) = w * (e - s) := by field_simp
    rw [h2]
    linarith
  have hq := sqrt_lt_sqrt (by linarith) hN
  rw [lt_div_iff₀ hD0]
  have h0 := sqrt_nonneg (2 * (1 - e))
  nlinarith [mul_lt_mul_of_pos_right hq hG, mul_nonneg h0 hG.le]

/-- The liquid of the next theorem. -/
example : (9.9 : ℝ) < 10 ∧ (0 : ℝ) < 9.5 ∧ (9.5 : ℝ) < 9.9 ∧ (0 : ℝ) < 450 ∧ (450 : ℝ) < 900 ∧ (18 : ℝ) * 900 ≠ 19 * 450 ∧
    2 * (9 * (900 / 450 - 1)) / (1 + 2 * (9 * (900 / 450 - 1))) ≤ (9.5 / 10 : ℝ) := by norm_num

/-- ... by more than a factor of two for a liquid at 10 bar, saturated at 9.5 bar, that doubles its volume at 90 % of that, discharged to 9.9 bar: the area is
less than half of what the liquid needs. -/
theorem C127_subcooled_undersized_false {Q rho : ℝ} (hQ : 0 < Q) (hr : 0 < rho) {v : ℝ → ℝ} (hf : Flashing v 9.5e5 (1 / rho) (2 / rho)) :
    ∃ r, areaSubcooled Q 10 9.9 9.5 rho (rho / 2) 0.65 1 1 1 = .ok r ∧ r.A < area (rho * (Q / 60000)) 0.65 (flux v 1e6 9.9e5) / 2 := by
  have hr2 : rho / 2 < rho := by linarith
  have e9 : 1 / (rho / 2) = 2 / rho := by rw [one_div_div]
  have ew : 9 * (rho / (rho / 2) - 1) = 9 := by field_simp; norm_num
  have heq := areaSubcooled_eq (Q := Q) (P1 := 10) (P2 := 9.9) (Ps := 9.5) (Kd := 0.65) (Kb := 1) (Kc := 1) (Kv := 1) (rho1 := rho) (rho9 := rho / 2) (by norm_num) (by norm_num)
    (by norm_num) (by positivity) hr2 (by intro h; linarith)
  simp only [ew] at heq
  have hst : etaSt 9 ≤ 9.5 / 10 := by unfold etaSt; norm_num
  have hcrit := C60_subcooled_critical (ws := 9) (es := 9.5 / 10) (by norm_num) (by norm_num) hst
  have hec : (if (9.5 / 10 : ℝ) > etaSt 9 then etaC 9 (9.5 / 10) else 9.5 / 10) ≤ 9.5 / 10 := by
    split_ifs
    · exact hcrit.2
    · exact le_rfl
  generalize (if (9.5 / 10 : ℝ) > etaSt 9 then etaC 9 (9.5 / 10) else 9.5 / 10) = ec at *
  have hn : ¬ (9.9 : ℝ) * 100000 ≤ 10 * 100000 * ec := by
    intro h
    norm_num at h hec
    linarith
  rw [if_neg (not_lt.2 hst), if_neg hn] at heq
  refine ⟨_, heq, ?_⟩
  have hhigh := Flashing.flux_high (p := 9.9e5) (P1 := 1e6) hf (by positivity) (by norm_num) (by norm_num) (by norm_num)
  show 16.67 * Q * rho / _ < _
  have hg : √(10 * 100000 * rho) = √(1e6 / (1 / rho)) := by
    congr 1
    rw [div_div_eq_mul_div, div_one]
    norm_num
  have hG : 0 < √(1e6 / (1 / rho)) := sqrt_pos.2 (by positivity)
  rw [hhigh, subG, hg, area]
  generalize √(1e6 / (1 / rho)) = g at *
  have hL : -0.04136 ≤ log (9.5 / 10 / (9.9 / 10)) := by
    have h1 : log (99 / 95) ≤ 0.04136 := by
      rw [log_le_iff_le_exp (by norm_num)]
      have := quadratic_le_exp_of_nonneg (show (0 : ℝ) ≤ 0.04136 by norm_num)
      norm_num at this ⊢
      linarith
    rw [show (9.5 / 10 / (9.9 / 10) : ℝ) = (99 / 95)⁻¹ by norm_num, log_inv]
    linarith
  have hN : 0.0327 ≤ 2 * (1 - 9.5 / 10) + 2 * (9 * (9.5 / 10) * log (9.5 / 10 / (9.9 / 10)) - (9 - 1) * (9.5 / 10 - 9.9 / 10)) := by
    generalize log (9.5 / 10 / (9.9 / 10)) = l at *
    norm_num at hL ⊢
    linarith
  have hq : 0.1808 ≤ √(2 * (1 - 9.5 / 10) + 2 * (9 * (9.5 / 10) * log (9.5 / 10 / (9.9 / 10)) - (9 - 1) * (9.5 / 10 - 9.9 / 10))) :=
    le_sqrt_of_sq_le (le_trans (by norm_num) hN)
  generalize √(2 * (1 - 9.5 / 10) + 2 * (9 * (9.5 / 10) * log (9.5 / 10 / (9.9 / 10)) - (9 - 1) * (9.5 / 10 - 9.9 / 10))) = x at *
  have hy : √(2 * (1 - 9.9e5 / 1e6)) < 0.14143 := (sqrt_lt' (by norm_num)).2 (by norm_num)
  have hy0 : 0 < √(2 * (1 - 9.9e5 / 1e6) : ℝ) := sqrt_pos.2 (by norm_num)
  generalize √(2 * (1 - 9.9e5 / 1e6) : ℝ) = y at *
  have hx0 : 0 < x := by linarith
  have e1 : 16.67 * Q * rho / (0.65 * 1 * 1 * 1 * (x * g / (9 * (9.5 / 10 / (9.9 / 10) - 1) + 1))) = Q * rho / (0.65 * g) * (16.67 * (7 / 11) / x) := by
    field_simp
    norm_num
  have e2 : 1e6 * (rho * (Q / 60000) / (0.65 * (y * g))) / 2 = Q * rho / (0.65 * g) * (1 / 0.12 / y) := by
    field_simp
    norm_num
  rw [e1, e2]
  refine mul_lt_mul_of_pos_left ?_ (by positivity)
  rw [div_lt_div_iff₀ hx0 hy0]
  norm_num at *
  nlinarith

example : Flashing (fun p => if 9.5e5 ≤ p then 1 / 900 else (1 / 900 - 9 * (2 / 900 - 1 / 900)) + 9 * (2 / 900 - 1 / 900) * 9.5e5 / p) 9.5e5 (1 / 900) (2 / 900) := by
  refine ⟨fun p hp => if_pos hp, ⟨1 / 900 - 9 * (2 / 900 - 1 / 900), 9 * (2 / 900 - 1 / 900) * 9.5e5, fun p hp hp1 => ?_⟩, ?_⟩
  · rcases hp1.eq_or_lt with h | h
    · norm_num [h]
    · exact if_neg (not_le.2 h)
  · norm_num

end Verif.Prv
