import Verif.Props.PrvGas
import Verif.Props.PrvTwo
import Verif.Props.PrvLiquid
import Verif.Spec.Nozzle
import Mathlib.Analysis.SpecialFunctions.Integrals.Basic

/-!
# Fluxes of ideal nozzle flow
-/

namespace Verif.Prv

open Real Nozzle

theorem flux_of_integral {v : ℝ → ℝ} {P1 p I : ℝ} (hI : ∫ x in p..P1, v x = I) (hv : 0 < v p) : flux v P1 p = √(2 * I / v p ^ 2) := by
  rw [flux, hI, sqrt_div' _ (sq_nonneg _), sqrt_sq hv.le]

/-! ### Gas -/

theorem isentrope_integral {T M Z P1 k p : ℝ} (hk : 1 < k) (hp : 0 < p) (hP1 : 0 < P1) :
    ∫ x in p..P1, isentrope T M Z P1 k x = gasVolume T M Z P1 * P1 * (k / (k - 1)) * (1 - (p / P1) ^ ((k - 1) / k)) := by
  have hk0 : 0 < k := by linarith
  have hk1 : 0 < k - 1 := by linarith
  have e : ∀ x ∈ Set.uIcc p P1, isentrope T M Z P1 k x = gasVolume T M Z P1 * P1 ^ (1 / k) * x ^ (-(1 / k)) := by
    intro x hx
    have hx0 : 0 < x := lt_of_lt_of_le (lt_min hp hP1) hx.1
    rw [isentrope, div_rpow hP1.le hx0.le, rpow_neg hx0.le]
    ring
  have h1 : -1 < -(1 / k) := by
    have : 1 / k < 1 := (div_lt_one hk0).2 hk
    linarith
  rw [intervalIntegral.integral_congr e, intervalIntegral.integral_const_mul, integral_rpow (Or.inl h1), show -(1 / k) + 1 = (k - 1) / k by field_simp; ring,
    div_rpow hp.le hP1.le]
  have h2 : P1 ^ (1 / k) * P1 ^ ((k - 1) / k) = P1 := by
    rw [← rpow_add hP1, show 1 / k + (k - 1) / k = 1 by field_simp; ring, rpow_one]
  have h3 := (rpow_pos_of_pos hP1 ((k - 1) / k)).ne'
  rw [← h2]
  rw [h2]
  generalize P1 ^ ((k - 1) / k) = A at *
  generalize P1 ^ (1 / k) = B at *
  rw [← h2]
  field_simp

theorem isentrope_flux {T M Z P1 k p : ℝ} (hk : 1 < k) (hp : 0 < p) (hP1 : 0 < P1) (hv : 0 < gasVolume T M Z P1) :
    flux (isentrope T M Z P1 k) P1 p = √(2 * nozzle k (p / P1)) * √(P1 / gasVolume T M Z P1) := by
  have hr : 0 < p / P1 := div_pos hp hP1
  have hk0 : 0 < k := by linarith
  have ev : isentrope T M Z P1 k p = gasVolume T M Z P1 * (p / P1) ^ (-(1 / k)) := by
    rw [isentrope, rpow_neg hr.le, ← inv_rpow hr.le, inv_div]
  have h0 : 0 < isentrope T M Z P1 k p := by rw [ev]; exact mul_pos hv (rpow_pos_of_pos hr _)
  rw [flux_of_integral (isentrope_integral hk hp hP1) h0, ← sqrt_mul' _ (by positivity), ev, nozzle_factor hk hr]
  congr 1
  have e : (p / P1) ^ (2 / k) = ((p / P1) ^ (1 / k)) ^ 2 := by
    rw [← rpow_natCast, ← rpow_mul hr.le]
    congr 1
    push_cast
    ring
  rw [e, rpow_neg hr.le]
  have := (rpow_pos_of_pos hr (1 / k)).ne'
  generalize (p / P1) ^ (1 / k) = x at *
  generalize (p / P1) ^ ((k - 1) / k) = y at *
  have := hv.ne'
  generalize gasVolume T M Z P1 = g at *
  have : k - 1 ≠ 0 := by linarith
  field_simp

theorem isentrope_chokes {T M Z P1 k : ℝ} (hk : 1 < k) (hP1 : 0 < P1) (hv : 0 < gasVolume T M Z P1) : ChokesAt (isentrope T M Z P1 k) P1 (P1 * critRatio k) := by
  obtain ⟨c0, c1⟩ := critRatio_mem hk
  refine ⟨by positivity, by nlinarith, fun q hq hq1 => ?_⟩
  rw [isentrope_flux hk hq hP1 hv, isentrope_flux hk (by positivity) hP1 hv, mul_div_cancel_left₀ _ hP1.ne']
  refine mul_le_mul_of_nonneg_right (sqrt_le_sqrt (mul_le_mul_of_nonneg_left ?_ (by norm_num))) (sqrt_nonneg _)
  rcases eq_or_ne (q / P1) (critRatio k) with h | h
  · rw [h]
  · exact (C60_gas_choked_max hk (by positivity) h).le

/-! ### Fluids with `v = a + b / p` -/

theorem hyperbola_integral {v : ℝ → ℝ} {a b p q : ℝ} (hp : 0 < p) (hpq : p ≤ q) (h : ∀ x, 0 < x → x ≤ q → v x = a + b / x) :
    ∫ x in p..q, v x = a * (q - p) + b * log (q / p) := by
  have e : ∀ x ∈ Set.uIcc p q, v x = a + b * (1 / x) := by
    intro x hx
    rw [Set.uIcc_of_le hpq] at hx
    rw [h x (hp.trans_le hx.1) hx.2]
    ring
  have h0 : (0 : ℝ) ∉ Set.uIcc p q := by
    rw [Set.uIcc_of_le hpq]
    intro hx
    linarith [hx.1]
  rw [intervalIntegral.integral_congr e, intervalIntegral.integral_add intervalIntegrable_const
    ((intervalIntegral.intervalIntegrable_one_div (fun x hx => ne_of_mem_of_not_mem hx h0) continuousOn_id).const_mul b), intervalIntegral.integral_const,
    intervalIntegral.integral_const_mul, integral_one_div_of_pos hp (hp.trans_le hpq), smul_eq_mul]
  ring

/-- Twice the work of the expansion to the pressure ratio `e ≤ s`, up to the factor `P1 v1`; the fluid flashes at `s`. -/
noncomputable def workN (w s e : ℝ) : ℝ := 2 * (1 - s) + 2 * (w * s * log (s / e) - (w - 1) * (s - e))

/-- Specific volume relative to the inlet. -/
noncomputable def volD (w s e : ℝ) : ℝ := w * (s / e - 1) + 1

/-- The function whose sign decides where the flux is maximal. -/
noncomputable def chokeH (w s e : ℝ) : ℝ := w * s * workN w s e - (w * (s - e) + e) ^ 2

section

variable {w s : ℝ} (hw : 0 < w) (hs : 0 < s) (hs1 : s ≤ 1)

include hw

omit hw in
theorem workN_hasDeriv (hs : 0 < s) {e : ℝ} (he : 0 < e) : HasDerivAt (workN w s) (-2 * volD w s e) e := by
  have h1 : HasDerivAt (fun e => log (s / e)) (-(1 / e)) e := by
    have : HasDerivAt (fun e => log s - log e) (-(1 / e)) e := by
      simpa using (hasDerivAt_log he.ne').const_sub (log s)
    refine this.congr_of_eventuallyEq ?_
    filter_upwards [lt_mem_nhds he] with x hx
    rw [log_div hs.ne' hx.ne']
  have h2 : HasDerivAt (fun e => s - e) (-1) e := (hasDerivAt_id e).const_sub s
  have h3 := ((((h1.const_mul (w * s)).sub (h2.const_mul (w - 1))).const_mul 2).const_add (2 * (1 - s)))
  refine h3.congr_deriv ?_
  rw [volD]
  field_simp
  ring

omit hw in
theorem volD_hasDeriv {e : ℝ} (he : 0 < e) : HasDerivAt (volD w s) (-(w * s / e ^ 2)) e := by
  have h1 : HasDerivAt (fun e => w * (s / e - 1) + 1) (w * (-(s / e ^ 2))) e := by
    have : HasDerivAt (fun e : ℝ => s / e) (-(s / e ^ 2)) e := by
      refine ((hasDerivAt_inv he.ne').const_mul s).congr_deriv ?_
      ring
    exact ((this.sub_const 1).const_mul w).add_const 1
  refine h1.congr_deriv ?_
  ring

include hs

theorem volD_pos {e : ℝ} (he : 0 < e) (hes : e ≤ s) : 0 < volD w s e := by
  have : 1 ≤ s / e := (one_le_div he).2 hes
  unfold volD
  nlinarith

theorem volD_mul {e : ℝ} (he : 0 < e) : volD w s e * e = w * (s - e) + e := by
  rw [volD]
  field_simp

theorem chokeH_hasDeriv {e : ℝ} (he : 0 < e) : HasDerivAt (chokeH w s) (-2 * volD w s e ^ 2 * e) e := by
  have h2 : HasDerivAt (fun e => w * (s - e) + e) (w * (-1) + 1) e := (((hasDerivAt_id e).const_sub s).const_mul w).add (hasDerivAt_id e)
  refine (((workN_hasDeriv hs he).const_mul (w * s)).sub (h2.pow 2)).congr_deriv ?_
  have := volD_mul hw hs he
  rw [← this]
  simp only [Nat.cast_ofNat, Nat.add_one_sub_one, pow_one]
  have e2 : w * s = volD w s e * e + (w - 1) * e := by rw [this]; ring
  rw [e2]
  ring

theorem chokeH_anti : StrictAntiOn (chokeH w s) (Set.Ioc 0 s) := by
  refine strictAntiOn_of_deriv_neg (convex_Ioc _ _) (fun x hx => (chokeH_hasDeriv hw hs hx.1).continuousAt.continuousWithinAt) fun x hx => ?_
  rw [interior_Ioc] at hx
  rw [(chokeH_hasDeriv hw hs hx.1).deriv]
  have := volD_pos hw hs hx.1 hx.2.le
  have := hx.1
  have : 0 < volD w s x ^ 2 * x := by positivity
  linarith

include hs1

theorem workN_nonneg {e : ℝ} (he : 0 < e) (hes : e ≤ s) : 0 ≤ workN w s e := by
  have hd : ∀ x ∈ interior (Set.Ioc 0 s), deriv (workN w s) x ≤ 0 := by
    intro x hx
    rw [interior_Ioc] at hx
    rw [(workN_hasDeriv hs hx.1).deriv]
    have := volD_pos hw hs hx.1 hx.2.le
    linarith
  have h := antitoneOn_of_deriv_nonpos (convex_Ioc 0 s) (fun x hx => (workN_hasDeriv (w := w) hs hx.1).continuousAt.continuousWithinAt)
    (fun x hx => by rw [interior_Ioc] at hx; exact (workN_hasDeriv hs hx.1).differentiableAt.differentiableWithinAt) hd ⟨he, hes⟩ ⟨hs, le_rfl⟩ hes
  refine le_trans ?_ h
  unfold workN
  rw [div_self hs.ne', log_one]
  simp
  exact hs1

theorem chokeH_pos_near : ∃ e, 0 < e ∧ e < s ∧ 0 < chokeH w s e := by
  set L := 2 + (w + 1) ^ 2 / (2 * w ^ 2) with hL
  have hL0 : 0 < L := by positivity
  have hx : exp (-L) < 1 := by rw [← exp_zero]; exact exp_lt_exp.2 (by linarith)
  have hx0 := exp_pos (-L)
  refine ⟨s * exp (-L), by positivity, by nlinarith, ?_⟩
  have hlog : log (s / (s * exp (-L))) = L := by
    rw [div_mul_cancel_left₀ hs.ne', ← exp_neg, neg_neg, log_exp]
  unfold chokeH workN
  rw [hlog]
  have e0 : 0 ≤ s - s * exp (-L) := by nlinarith
  have e1 : s - s * exp (-L) ≤ s := by nlinarith
  have e2 : s * exp (-L) ≤ s := by nlinarith
  have e3 : 0 < s * exp (-L) := by positivity
  generalize s * exp (-L) = e at *
  have a1 : (w - 1) * (s - e) ≤ w * s := by nlinarith
  have a2 : w * (s - e) + e ≤ w * s + s := by nlinarith
  have a3 : 0 ≤ w * (s - e) + e := by positivity
  have a4 : (w * (s - e) + e) ^ 2 ≤ (w * s + s) ^ 2 := by gcongr
  have a5 : w * s * (2 * (w * s * L - w * s)) ≤ w * s * (2 * (1 - s) + 2 * (w * s * L - (w - 1) * (s - e))) := by
    refine mul_le_mul_of_nonneg_left ?_ (by positivity)
    linarith
  have a6 : w * s * (2 * (w * s * L - w * s)) = 2 * w ^ 2 * s ^ 2 + s ^ 2 * (w + 1) ^ 2 := by
    rw [hL]
    field_simp
    ring
  have a7 : (w * s + s) ^ 2 = s ^ 2 * (w + 1) ^ 2 := by ring
  have : 0 < 2 * w ^ 2 * s ^ 2 := by positivity
  linarith

/-- Squared flux up to the factor `P1 / v1`. -/
theorem ratio_hasDeriv {e : ℝ} (he : 0 < e) (hes : e ≤ s) :
    HasDerivAt (fun e => workN w s e / volD w s e ^ 2) (2 * chokeH w s e / (e ^ 2 * volD w s e ^ 3)) e := by
  have hD := volD_pos hw hs he hes
  have hp : HasDerivAt (fun e => volD w s e ^ 2) (2 * volD w s e * -(w * s / e ^ 2)) e := by
    refine ((volD_hasDeriv (w := w) (s := s) he).pow 2).congr_deriv ?_
    simp
  refine ((workN_hasDeriv hs he).div hp (by positivity)).congr_deriv ?_
  rw [chokeH, ← volD_mul hw hs he]
  generalize volD w s e = D at *
  field_simp
  ring

theorem ratio_mono {a : ℝ} (ha : 0 < a) (has : a ≤ s) (h : 0 ≤ chokeH w s a) : MonotoneOn (fun e => workN w s e / volD w s e ^ 2) (Set.Ioc 0 a) := by
  refine monotoneOn_of_deriv_nonneg (convex_Ioc 0 a) (fun x hx => (ratio_hasDeriv hw hs hs1 hx.1 (hx.2.trans has)).continuousAt.continuousWithinAt)
    (fun x hx => ?_) fun x hx => ?_
  · rw [interior_Ioc] at hx
    exact (ratio_hasDeriv hw hs hs1 hx.1 (hx.2.le.trans has)).differentiableAt.differentiableWithinAt
  · rw [interior_Ioc] at hx
    rw [(ratio_hasDeriv hw hs hs1 hx.1 (hx.2.le.trans has)).deriv]
    have hh := chokeH_anti hw hs ⟨hx.1, hx.2.le.trans has⟩ ⟨ha, has⟩ hx.2
    have := volD_pos hw hs hx.1 (hx.2.le.trans has)
    have := hx.1
    have : 0 < chokeH w s x := by linarith
    positivity

theorem ratio_anti {a : ℝ} (ha : 0 < a) (has : a ≤ s) (h : chokeH w s a ≤ 0) : AntitoneOn (fun e => workN w s e / volD w s e ^ 2) (Set.Icc a s) := by
  refine antitoneOn_of_deriv_nonpos (convex_Icc a s) (fun x hx => (ratio_hasDeriv hw hs hs1 (ha.trans_le hx.1) hx.2).continuousAt.continuousWithinAt)
    (fun x hx => ?_) fun x hx => ?_
  · rw [interior_Icc] at hx
    exact (ratio_hasDeriv hw hs hs1 (ha.trans hx.1) hx.2.le).differentiableAt.differentiableWithinAt
  · rw [interior_Icc] at hx
    have hx0 := ha.trans hx.1
    rw [(ratio_hasDeriv hw hs hs1 hx0 hx.2.le).deriv]
    have hh := chokeH_anti hw hs ⟨ha, has⟩ ⟨hx0, hx.2.le⟩ hx.1
    have := volD_pos hw hs hx0 hx.2.le
    exact div_nonpos_of_nonpos_of_nonneg (by linarith) (by positivity)

/-- The root of `chokeH`: the squared flux there is `e² / (w s)`, and largest. -/
theorem choke_root (h : chokeH w s s ≤ 0) : ∃ e, 0 < e ∧ e ≤ s ∧ chokeH w s e = 0 ∧ workN w s e / volD w s e ^ 2 = e ^ 2 / (w * s) ∧
    ∀ q, 0 < q → q ≤ s → workN w s q / volD w s q ^ 2 ≤ workN w s e / volD w s e ^ 2 := by
  obtain ⟨b, hb0, hbs, hb⟩ := chokeH_pos_near hw hs hs1
  have hc : ContinuousOn (chokeH w s) (Set.Icc b s) := fun x hx => (chokeH_hasDeriv hw hs (hb0.trans_le hx.1)).continuousAt.continuousWithinAt
  obtain ⟨e, he, he0⟩ := intermediate_value_Icc' hbs.le hc ⟨h, hb.le⟩
  have hep := hb0.trans_le he.1
  have hD := volD_pos hw hs hep he.2
  refine ⟨e, hep, he.2, he0, ?_, fun q hq hqs => ?_⟩
  · rw [chokeH, ← volD_mul hw hs hep] at he0
    rw [div_eq_div_iff (by positivity) (by positivity)]
    linarith
  · rcases le_total q e with hqe | hqe
    · exact ratio_mono hw hs hs1 hep he.2 he0.ge ⟨hq, hqe⟩ ⟨hep, le_rfl⟩ hqe
    · exact ratio_anti hw hs hs1 hep he.2 he0.le ⟨le_rfl, he.2⟩ ⟨hqe, hqs⟩ hqe

end

/-! ### Fluxes -/

theorem Flashing.volume {v : ℝ → ℝ} {P1 Ps v1 v9 p : ℝ} (h : Flashing v Ps v1 v9) (hv : 0 < v1) (hPs : 0 < Ps) (hP1 : 0 < P1) (hp : 0 < p) (hpq : p ≤ Ps) :
    v p = v1 * volD (9 * (v9 / v1 - 1)) (Ps / P1) (p / P1) := by
  obtain ⟨h1, ⟨a, b, h2⟩, h3⟩ := h
  have e1 := h1 Ps le_rfl
  rw [h2 Ps hPs le_rfl] at e1
  rw [h2 _ (by positivity) (by linarith)] at h3
  rw [h2 p hp hpq, volD, div_div_div_cancel_right₀ hP1.ne']
  have e2 : b = 9 * (v9 - v1) * Ps := by
    field_simp at e1 h3
    nlinarith
  have e3 : a = v1 - 9 * (v9 - v1) := by
    rw [e2] at e1
    field_simp at e1
    linarith
  rw [e2, e3]
  field_simp
  ring

theorem Flashing.flux_low {v : ℝ → ℝ} {P1 Ps v1 v9 p : ℝ} (h : Flashing v Ps v1 v9) (hv : 0 < v1) (hv9 : v1 < v9) (hPs : 0 < Ps) (hPs1 : Ps ≤ P1) (hp : 0 < p) (hpq : p ≤ Ps) :
    flux v P1 p = √(workN (9 * (v9 / v1 - 1)) (Ps / P1) (p / P1) / volD (9 * (v9 / v1 - 1)) (Ps / P1) (p / P1) ^ 2) * √(P1 / v1) := by
  have hP1 := hPs.trans_le hPs1
  have hw : 0 < 9 * (v9 / v1 - 1) := by
    have : 1 < v9 / v1 := (one_lt_div hv).2 hv9
    linarith
  have hI : ∫ x in p..P1, v x = P1 * v1 * workN (9 * (v9 / v1 - 1)) (Ps / P1) (p / P1) / 2 := by
    have hvol := fun x hx hxs => Flashing.volume (P1 := P1) (p := x) h hv hPs hP1 hx hxs
    have hb : ∀ x, 0 < x → x ≤ Ps → v x = v1 * (1 - 9 * (v9 / v1 - 1)) + v1 * (9 * (v9 / v1 - 1)) * Ps / x := by
      intro x hx hxs
      rw [hvol x hx hxs, volD]
      field_simp
      ring
    have i1 := hyperbola_integral hp hpq hb
    have i2 : ∫ x in Ps..P1, v x = v1 * (P1 - Ps) := by
      have e : ∀ x ∈ Set.uIcc Ps P1, v x = v1 := by
        intro x hx
        rw [Set.uIcc_of_le hPs1] at hx
        exact h.1 x hx.1
      rw [intervalIntegral.integral_congr e, intervalIntegral.integral_const, smul_eq_mul]
      ring
    have hint : IntervalIntegrable v MeasureTheory.volume p Ps := by
      refine ContinuousOn.intervalIntegrable ?_
      rw [Set.uIcc_of_le hpq]
      refine ContinuousOn.congr (f := fun x => v1 * (1 - 9 * (v9 / v1 - 1)) + v1 * (9 * (v9 / v1 - 1)) * Ps / x) ?_ fun x hx => hb x (hp.trans_le hx.1) hx.2
      exact continuousOn_const.add (continuousOn_const.div continuousOn_id fun x hx => (hp.trans_le hx.1).ne')
    have hint2 : IntervalIntegrable v MeasureTheory.volume Ps P1 := by
      refine ContinuousOn.intervalIntegrable ?_
      rw [Set.uIcc_of_le hPs1]
      exact continuousOn_const.congr fun x hx => h.1 x hx.1
    rw [← intervalIntegral.integral_add_adjacent_intervals hint hint2, i1, i2, workN, div_div_div_cancel_right₀ hP1.ne']
    generalize log (Ps / p) = l
    field_simp
    ring
  have hvp := Flashing.volume h hv hPs hP1 hp hpq
  have hD := volD_pos hw (div_pos hPs hP1) (div_pos hp hP1) (div_le_div_of_nonneg_right hpq hP1.le)
  rw [flux_of_integral hI (by rw [hvp]; positivity), hvp, ← sqrt_mul' _ (by positivity)]
  congr 1
  generalize workN (9 * (v9 / v1 - 1)) (Ps / P1) (p / P1) = N at *
  generalize volD (9 * (v9 / v1 - 1)) (Ps / P1) (p / P1) = D at *
  field_simp

theorem Flashing.flux_high {v : ℝ → ℝ} {P1 Ps v1 v9 p : ℝ} (h : Flashing v Ps v1 v9) (hv : 0 < v1) (hP1 : 0 < P1) (hp : Ps ≤ p) (hp1 : p ≤ P1) :
    flux v P1 p = √(2 * (1 - p / P1)) * √(P1 / v1) := by
  have hI : ∫ x in p..P1, v x = v1 * (P1 - p) := by
    have e : ∀ x ∈ Set.uIcc p P1, v x = v1 := by
      intro x hx
      rw [Set.uIcc_of_le hp1] at hx
      exact h.1 x (hp.trans hx.1)
    rw [intervalIntegral.integral_congr e, intervalIntegral.integral_const, smul_eq_mul]
    ring
  rw [flux_of_integral hI (by rw [h.1 p hp]; exact hv), h.1 p hp, ← sqrt_mul' _ (by positivity)]
  congr 1
  field_simp

/-- The fluid of the omega method is the flashing liquid with `Ps = P1`, below `P1`. -/
theorem Omega.flux {v : ℝ → ℝ} {P1 v1 v9 p : ℝ} (h : Omega v P1 v1 v9) (hv : 0 < v1) (hv9 : v1 < v9) (hp : 0 < p) (hpq : p ≤ P1) :
    flux v P1 p = √(workN (9 * (v9 / v1 - 1)) 1 (p / P1) / volD (9 * (v9 / v1 - 1)) 1 (p / P1) ^ 2) * √(P1 / v1) := by
  have hP1 := hp.trans_le hpq
  set u : ℝ → ℝ := fun x => if P1 ≤ x then v1 else v x with hu
  obtain ⟨⟨a, b, h1⟩, h2, h3⟩ := h
  have hF : Flashing u P1 v1 v9 := by
    refine ⟨fun x hx => if_pos hx, ⟨a, b, fun x hx hx1 => ?_⟩, ?_⟩
    · rcases hx1.eq_or_lt with e | e
      · rw [hu]; simp only; rw [if_pos e.ge, ← h2, ← e, h1 x hx]
      · rw [hu]; simp only; rw [if_neg (not_le.2 e), h1 x hx]
    · rw [hu]; simp only; rw [if_neg (by linarith), h3]
  have hx : ∀ x, 0 < x → x ≤ P1 → u x = v x := by
    intro x hx hx1
    rcases hx1.eq_or_lt with e | e
    · rw [hu]; simp only; rw [if_pos e.ge, e, h2]
    · rw [hu]; simp only; rw [if_neg (not_le.2 e)]
  have hflux : Nozzle.flux v P1 p = Nozzle.flux u P1 p := by
    unfold Nozzle.flux
    rw [hx p hp hpq, intervalIntegral.integral_congr (f := v) (g := u)]
    intro x hx'
    rw [Set.uIcc_of_le hpq] at hx'
    exact (hx x (hp.trans_le hx'.1) hx'.2).symm
  rw [hflux, Flashing.flux_low hF hv hv9 hP1 le_rfl hp hpq, div_self hP1.ne']

end Verif.Prv
