import Verif.Model.Kinetics
import Mathlib.Analysis.SpecialFunctions.Log.Deriv
import Mathlib.Analysis.SpecialFunctions.ExpDeriv
import Mathlib.Analysis.SpecialFunctions.Log.Monotone

/-!
# C114: Eyring rate coefficients
-/

namespace Verif.Kin

open Real

/-- **C114.** The constructor succeeds exactly for nonnegative entropy and enthalpy of activation, a transmission coefficient in [0, 1] and a temperature range of nonnegative
bounds at least `eps` apart; otherwise `RangeError`. In particular a negative entropy of activation, the usual case for association reactions, is refused. -/
theorem C114_accepts (DSa DHa kappa : ℝ) (Tmin Tmax : WithTop ℝ) :
    ((∃ k, Eyring.init DSa DHa kappa Tmin Tmax = .ok k) ↔ 0 ≤ DSa ∧ 0 ≤ DHa ∧ 0 ≤ kappa ∧ kappa ≤ 1 ∧ 0 ≤ Tmin ∧ 0 ≤ Tmax ∧ okSpan Tmin Tmax) ∧
    (∀ k, Eyring.init DSa DHa kappa Tmin Tmax = .ok k → k = ⟨DSa, DHa, kappa, Tmin, Tmax⟩) ∧
    ∀ e, Eyring.init DSa DHa kappa Tmin Tmax = .error e → e = .RangeError := by
  unfold Eyring.init
  refine ⟨?_, ?_, ?_⟩
  · split_ifs <;> simp_all
  · intro k; split_ifs <;> simp_all
  · intro k; split_ifs <;> simp_all

variable {kB h R : ℝ}

/-- **C114.** `k h / (kappa kB T)` is the Boltzmann factor of the Gibbs energy of activation; hence `ln (k/T)` is linear in `1/T` with slope `-DHa/R` (Eyring plot), and with
no barrier `k = kappa kB T/h`. -/
theorem C114_eyring_plot (hk : 0 < kB) (hh : 0 < h) (hR : R ≠ 0) {T DSa DHa kappa : ℝ} (hT : 0 < T) (hka : 0 < kappa) :
    eyring kB h R T DSa DHa kappa * h / (kappa * kB * T) = exp (-(DHa - T * DSa) / (R * T)) ∧
    log (eyring kB h R T DSa DHa kappa / T) = (log (kappa * kB / h) + DSa / R) + (-DHa / R) * (1 / T) ∧ eyring kB h R T 0 0 kappa = kappa * kB * T / h := by
  have e : (DSa - DHa / T) / R = -(DHa - T * DSa) / (R * T) := by field_simp; ring
  refine ⟨?_, ?_, by simp [eyring]⟩
  · rw [eyring, e]; field_simp
  · rw [eyring, show kappa * kB * T / h * exp ((DSa - DHa / T) / R) / T = kappa * kB / h * exp ((DSa - DHa / T) / R) by field_simp,
      log_mul (by positivity) (exp_pos _).ne', log_exp]
    field_simp
    ring

/-- **C114.** On a constructed object: calls raise exactly for `T ≤ 0`, values are nonnegative, zero exactly for `kappa = 0`, proportional to `kappa`, and grow with temperature
(strictly, even without barrier) and fall with the barrier. -/
theorem C114_call (hk : 0 < kB) (hh : 0 < h) (hR : 0 < R) {k : Eyring} {DSa DHa kappa : ℝ} {Tmin Tmax : WithTop ℝ} (hi : Eyring.init DSa DHa kappa Tmin Tmax = .ok k) :
    (∀ T, (∃ r, k.call kB h R T = .ok r) ↔ 0 < T) ∧
    (∀ T v w, k.call kB h R T = .ok (v, w) → 0 ≤ v ∧ (v = 0 ↔ kappa = 0) ∧ v = kappa * eyring kB h R T DSa DHa 1 ∧
      (w = true ↔ (T : WithTop ℝ) < Tmin ∨ Tmax < (T : WithTop ℝ))) ∧
    (∀ T T' v v' w w', 0 < kappa → T < T' → k.call kB h R T = .ok (v, w) → k.call kB h R T' = .ok (v', w') → v < v') ∧
    ∀ T DHa', 0 < T → DHa < DHa' → 0 < kappa → eyring kB h R T DSa DHa' kappa < eyring kB h R T DSa DHa kappa := by
  obtain ⟨h1, h2, -⟩ := C114_accepts DSa DHa kappa Tmin Tmax
  obtain ⟨hS, hH, hk0, -, -⟩ := h1.1 ⟨k, hi⟩
  have hke := h2 k hi
  have hcall : ∀ T r, k.call kB h R T = .ok r → 0 < T ∧ r = (eyring kB h R T DSa DHa kappa, decide ((T : WithTop ℝ) < Tmin ∨ (T : WithTop ℝ) > Tmax)) := by
    intro T r hr
    unfold Eyring.call at hr
    rw [hke] at hr
    split_ifs at hr with c1 c2
    injection hr with hr
    exact ⟨lt_of_le_of_ne (not_lt.1 c1) (Ne.symm c2), by rw [← hr]⟩
  refine ⟨fun T => ⟨fun ⟨r, hr⟩ => (hcall T r hr).1, fun hT => ?_⟩, fun T v w hr => ?_, fun T T' v v' w w' hka hTT hr hr' => ?_, fun T DHa' hT hD hka => ?_⟩
  · exact ⟨(eyring kB h R T k.DSa k.DHa k.kappa, _), by unfold Eyring.call; rw [if_neg (not_lt.2 hT.le), if_neg hT.ne']⟩
  · obtain ⟨hT, hv⟩ := hcall T _ hr
    injection hv with hv hw
    have e : v = kappa * eyring kB h R T DSa DHa 1 := by rw [hv]; unfold eyring; ring
    have hp : 0 < eyring kB h R T DSa DHa 1 := by unfold eyring; positivity
    refine ⟨by rw [e]; exact mul_nonneg hk0 hp.le, ?_, e, by rw [hw]; simp⟩
    rw [e, mul_eq_zero]
    exact ⟨fun h => h.resolve_right hp.ne', Or.inl⟩
  · obtain ⟨hT, hv⟩ := hcall T _ hr
    obtain ⟨hT', hv'⟩ := hcall T' _ hr'
    injection hv with hv _
    injection hv' with hv' _
    rw [hv, hv']
    unfold eyring
    have hle : exp ((DSa - DHa / T) / R) ≤ exp ((DSa - DHa / T') / R) := by
      refine exp_le_exp.2 (div_le_div_of_nonneg_right ?_ hR.le)
      have := div_le_div_of_nonneg_left hH hT hTT.le
      linarith
    have hlt : kappa * kB * T / h < kappa * kB * T' / h := div_lt_div_of_pos_right (mul_lt_mul_of_pos_left hTT (by positivity)) hh
    exact mul_lt_mul hlt hle (exp_pos _) (by positivity)
  · unfold eyring
    refine mul_lt_mul_of_pos_left (exp_lt_exp.2 (div_lt_div_of_pos_right ?_ hR)) (by positivity)
    have := div_lt_div_of_pos_right hD hT
    linarith

/-- **C114.** The apparent activation energy `R T² d ln k/dT` is `DHa + R T`, and the Eyring coefficient lies above the Arrhenius coefficient that has the same value and slope at
`T0`, touching it only there. -/
theorem C114_arrhenius (hk : 0 < kB) (hh : 0 < h) (hR : 0 < R) {DSa DHa kappa : ℝ} (hka : 0 < kappa) {T0 : ℝ} (hT0 : 0 < T0) :
    HasDerivAt (fun T => log (eyring kB h R T DSa DHa kappa)) ((DHa + R * T0) / (R * T0 ^ 2)) T0 ∧
    ∀ T v : ℝ, 0 < T → equation T (eyring kB h R T0 DSa DHa kappa) ((DHa + R * T0) / R) T0 = .ok v →
      v ≤ eyring kB h R T DSa DHa kappa ∧ (v = eyring kB h R T DSa DHa kappa ↔ T = T0) := by
  have hlog : ∀ T, 0 < T → log (eyring kB h R T DSa DHa kappa) = log (kappa * kB / h) + log T + (DSa - DHa / T) / R := by
    intro T hT
    rw [eyring, show kappa * kB * T / h = kappa * kB / h * T by ring, log_mul (by positivity) (exp_pos _).ne', log_mul (by positivity) hT.ne', log_exp]
  constructor
  · have h1 : HasDerivAt (fun T => log (kappa * kB / h) + log T + (DSa - DHa / T) / R) (T0⁻¹ + (-(-DHa / T0 ^ 2)) / R) T0 := by
      have hd : HasDerivAt (fun T : ℝ => DHa / T) (-DHa / T0 ^ 2) T0 := by
        have := (hasDerivAt_inv hT0.ne').const_mul DHa
        refine (this.congr_deriv ?_).congr_of_eventuallyEq (Filter.Eventually.of_forall fun T => div_eq_mul_inv _ _)
        field_simp
      exact ((hasDerivAt_log hT0.ne').const_add _).add ((hd.const_sub DSa).div_const R)
    refine (h1.congr_deriv ?_).congr_of_eventuallyEq ?_
    · field_simp; ring
    · filter_upwards [lt_mem_nhds hT0] with T hT using hlog T hT
  · intro T v hT hv
    have hv' : v = eyring kB h R T0 DSa DHa kappa * exp (-((DHa + R * T0) / R) * (1 / T - 1 / T0)) := by
      simp only [equation, invT, pdiv, hT.ne', hT0.ne', if_false] at hv
      injection hv with hv
      exact hv.symm
    have hp : ∀ T, 0 < T → 0 < eyring kB h R T DSa DHa kappa := fun T hT => by unfold eyring; positivity
    have hvp : 0 < v := by rw [hv']; exact mul_pos (hp T0 hT0) (exp_pos _)
    have hlv : log (eyring kB h R T DSa DHa kappa) - log v = log (T / T0) - (1 - (T / T0)⁻¹) := by
      rw [hlog T hT, hv', log_mul (hp T0 hT0).ne' (exp_pos _).ne', log_exp, hlog T0 hT0, log_div hT.ne' hT0.ne', inv_div]
      field_simp
      ring
    have hu : 0 < T / T0 := div_pos hT hT0
    have hge : 1 - (T / T0)⁻¹ ≤ log (T / T0) := one_sub_inv_le_log_of_pos hu
    refine ⟨(log_le_log_iff hvp (hp T hT)).1 (by linarith), ⟨fun he => ?_, fun he => ?_⟩⟩
    · by_contra hne
      have hne' : (T / T0)⁻¹ ≠ 1 := fun h1 => hne (by rw [inv_eq_one, div_eq_one_iff_eq hT0.ne'] at h1; exact h1)
      have hlt := log_lt_sub_one_of_pos (inv_pos.2 hu) hne'
      rw [log_inv] at hlt
      rw [he, sub_self] at hlv
      linarith
    · rw [hv', he, sub_self, mul_zero, exp_zero, mul_one]

/-- The docstring example. -/
example : ∃ k, Eyring.init 20 50000 0.8 (273 : ℝ) (373 : ℝ) = .ok k := by
  refine (C114_accepts 20 50000 0.8 _ _).1.2 ⟨by norm_num, by norm_num, by norm_num, by norm_num, ?_, ?_, ?_⟩
  · exact WithTop.coe_le_coe.2 (by norm_num)
  · exact WithTop.coe_le_coe.2 (by norm_num)
  · show eps ≤ (373 : ℝ) - 273
    norm_num [eps]

end Verif.Kin
