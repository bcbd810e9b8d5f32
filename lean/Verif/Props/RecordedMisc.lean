import Verif.Lemmas.Recorded
import Verif.Props.Kinetics
import Verif.Model.Dist
import Verif.Model.Acm
import Verif.Model.Ode
import Mathlib.Tactic.IntervalCases
import Mathlib.Algebra.Order.Archimedean.Real.Basic
import Mathlib.Analysis.SpecialFunctions.Gaussian.GaussianIntegral

/-! # C128: recorded outputs of the kinetic coefficients, the distributions, the integrator and the activity function -/

namespace Verif.Recorded

open Kin Ode Verif.Dist

/-- **C128.** The recorded outputs: kinetic coefficients; that of `Eyring` with the gas constant 8.314462618 of the `scipy` release used then. -/
theorem C128_kinetics :
    (Returns (call ⟨10 ^ (7.63 : ℝ), 32.5e3 / 8.314, ⊤, (261 : ℝ), (366 : ℝ)⟩ ((25 + 273.15 : ℝ) : WithTop ℝ)) fun r =>
      Shows r.1 86.28385101961442 1e-12 ∧ r.2 = false) ∧
    (Returns (call ⟨10 ^ (7.63 : ℝ), 32.5e3 / 8.314, ⊤, (261 : ℝ), (366 : ℝ)⟩ ((50 + 273.15 : ℝ) : WithTop ℝ)) fun r =>
      Shows (kpi 3 r.1 10 0.5) 371.75986615653215 1e-12) ∧
    (Returns (call ⟨1e9, 2e3, (298 : ℝ), ((0 : ℝ) : WithTop ℝ), ⊤⟩ ((25 + 273.15 : ℝ) : WithTop ℝ)) fun r =>
      Shows (ktij 150 200 r.1 30 0.5 0.2) 129008375.03821689 1e-6) ∧
    (Returns (Eyring.call 1.380649e-23 6.62607015e-34 8.314462618 ⟨20, 5e4, 0.8, (273 : ℝ), (373 : ℝ)⟩ (25 + 273.15)) fun r =>
      Shows r.1 95808.36742009166 1e-9 ∧ r.2 = false) := by
  have hT : (0 : ℝ) < 25 + 273.15 := by norm_num
  have hU : (0 : ℝ) < 50 + 273.15 := by norm_num
  refine ⟨?_, ?_, ?_, ?_⟩
  · rw [call_ok hT (by simp)]
    refine ⟨?_, ?_⟩
    · show |(10 : ℝ) ^ (7.63 : ℝ) * Real.exp (-(32.5e3 / 8.314) * (1 / (25 + 273.15) - 0)) - 86.28385101961442| ≤ 1e-12 / 2
      iv
    · rw [decide_eq_false_iff_not, not_or, not_lt, not_lt, WithTop.coe_le_coe, WithTop.coe_le_coe]
      constructor <;> norm_num
  · rw [call_ok hU (by simp)]
    show |kpi 3 ((10 : ℝ) ^ (7.63 : ℝ) * Real.exp (-(32.5e3 / 8.314) * (1 / (50 + 273.15) - 0))) 10 0.5 - 371.75986615653215| ≤ 1e-12 / 2
    unfold kpi
    iv
  · rw [call_ok hT (by simp)]
    show |ktij 150 200 ((1e9 : ℝ) * Real.exp (-2e3 * (1 / (25 + 273.15) - 1 / 298))) 30 0.5 0.2 - 129008375.03821689| ≤ 1e-6 / 2
    unfold ktij ktii
    rw [if_neg (by norm_num), if_neg (by norm_num)]
    push_cast
    iv
  · unfold Eyring.call
    rw [if_neg (not_lt.2 hT.le), if_neg hT.ne']
    refine ⟨?_, ?_⟩
    · show |eyring 1.380649e-23 6.62607015e-34 8.314462618 (25 + 273.15) 20 5e4 0.8 - 95808.36742009166| ≤ 1e-9 / 2
      unfold eyring
      rw [show (0.8 * 1.380649e-23 * (25 + 273.15) / 6.62607015e-34 : ℝ) = 0.8 * 1.380649 * (25 + 273.15) / 6.62607015 * 1e11 by norm_num]
      iv
    · rw [decide_eq_false_iff_not, not_or, not_lt, not_lt, WithTop.coe_le_coe, WithTop.coe_le_coe]
      constructor <;> norm_num

/-- **C128.** The recorded outputs: `FloryHuggins2_activity`. -/
theorem C128_FloryHuggins : Shows (Acm.fh2Activity 0.25 1e6 0.29) 0.62 0.01 := by
  unfold Acm.fh2Activity Shows
  iv

/-- The moments of the Flory distribution of the example. -/
theorem flory_moments (polylog : ℕ → ℝ → ℝ) :
    floryMoment polylog (floryA 100) 0 = .ok 1 ∧ floryMoment polylog (floryA 100) 1 = .ok 100 ∧
    floryMoment polylog (floryA 100) 2 = .ok 19900 ∧ floryMoment polylog (floryA 100) 3 = .ok 5940100 := by
  refine ⟨?_, ?_, ?_, ?_⟩ <;> norm_num [floryMoment, floryA]

/-- **C128.** The recorded outputs: `Flory` (averages, mass pdf and cdf at the number average). -/
theorem C128_Flory (polylog : ℕ → ℝ → ℝ) (m : ℕ → ℝ) (hm : ∀ i ≤ 3, floryMoment polylog (floryA 100) i = .ok (m i)) :
    avgDPn (momentMass m 0.050) = 100 ∧ avgDPw (momentMass m 0.050) = 199 ∧ Shows (avgDPz (momentMass m 0.050)) 298.5 0.1 ∧
    avgPDI (momentMass m 0.050) = 1.99 ∧ avgMn (momentMass m 0.050) = 5 ∧ avgMw (momentMass m 0.050) = 9.950 ∧
    Shows (avgMz (momentMass m 0.050)) 14.925 0.001 ∧
    Shows (pdf (fun k => floryPdf (floryA 100) ⌊k⌋₊) m 0.050 100 1 false) 0.003697296376497271 1e-17 ∧
    Gives (floryCdf (floryA 100) 100 1) 0.26793532 0.00000001 := by
  obtain ⟨e0, e1, e2, e3⟩ := flory_moments polylog
  have m0 : m 0 = 1 := (Except.ok.inj ((hm 0 (by norm_num)).symm.trans e0))
  have m1 : m 1 = 100 := (Except.ok.inj ((hm 1 (by norm_num)).symm.trans e1))
  have m2 : m 2 = 19900 := (Except.ok.inj ((hm 2 (by norm_num)).symm.trans e2))
  have m3 : m 3 = 5940100 := (Except.ok.inj ((hm 3 (by norm_num)).symm.trans e3))
  refine ⟨?_, ?_, ?_, ?_, ?_, ?_, ?_, ?_, ?_⟩
  · norm_num [avgDPn, momentMass, m0, m1]
  · norm_num [avgDPw, momentMass, m2, m1]
  · norm_num [avgDPz, momentMass, m2, m3, Shows, abs_le]
  · norm_num [avgPDI, avgMw, avgMn, momentMass, m0, m1, m2]
  · norm_num [avgMn, momentMass, m0, m1]
  · norm_num [avgMw, momentMass, m2, m1]
  · norm_num [avgMz, momentMass, m2, m3, Shows, abs_le]
  · have e : ⌊(100 : ℝ)⌋₊ = 100 := by
      rw [show (100 : ℝ) = ((100 : ℕ) : ℝ) by norm_num, Nat.floor_natCast]
    simp only [Shows, pdf, floryPdf, floryA, m1, e, Bool.false_eq_true, if_false]
    iv
  · simp only [Gives, Returns, Shows, floryCdf, floryA, one_ne_zero, if_false, if_true]
    iv

-- non-vacuity: the moments used exist
example (polylog : ℕ → ℝ → ℝ) : ∃ m : ℕ → ℝ, ∀ i ≤ 3, floryMoment polylog (floryA 100) i = .ok (m i) := by
  obtain ⟨e0, e1, e2, e3⟩ := flory_moments polylog
  refine ⟨fun i => if i = 0 then 1 else if i = 1 then 100 else if i = 2 then 19900 else 5940100, fun i hi => ?_⟩
  interval_cases i
  · exact e0
  · exact e1
  · exact e2
  · exact e3

/-- **C128.** The recorded outputs: `LogNormal.pdf`. -/
theorem C128_LogNormal :
    Shows (pdf (lnPdf (lnMu 100 3) (lnSigma 3)) (lnMoment (lnMu 100 3) (lnSigma 3)) 0.050 100 1 false) 0.003317780747597256 1e-17 := by
  simp only [Shows, pdf, lnPdf, lnMoment, lnMu, lnSigma, Bool.false_eq_true, if_false]
  iv

/-- **C128.** The recorded outputs: `SchulzZimm.pdf`. -/
theorem C128_SchulzZimm :
    Shows (pdf (szPdf (szK 3) (szTheta 100 3)) (szMoment (szK 3) (szTheta 100 3)) 0.050 100 1 false) 0.0024197072451914337 1e-17 := by
  have h0 : szK 3 = 1 / 2 := by norm_num [szK]
  have h1 : poch (1 / 2) 1 = 1 / 2 := by
    unfold poch
    rw [Real.Gamma_add_one (by norm_num), mul_div_assoc, div_self (Real.Gamma_pos_of_pos (by norm_num)).ne', mul_one]
  simp only [Shows, pdf, szPdf, szMoment, h0, szTheta, Bool.false_eq_true, if_false, Nat.cast_one, h1, Real.Gamma_one_half_eq]
  iv

/-- **C128.** The recorded outputs: `Poisson.pdf`. -/
theorem C128_Poisson : Has (poissonPdf (poissonA 100) 100) fun p => Shows (p * 100 / 100) 0.04006147193133002 1e-14 := by
  have h0 : poissonA 100 = 99 := by norm_num [poissonA]
  have h1 : Real.Gamma (((99 : ℕ) : ℝ) + 1) = (Nat.factorial 99 : ℝ) := Real.Gamma_nat_eq_factorial 99
  unfold poissonPdf poisson
  rw [h0]
  rw [if_neg (by norm_num)]
  have h2 : ((100 : ℕ) : ℝ) + 1 + ((-1 : ℤ) : ℝ) = ((99 : ℕ) : ℝ) + 1 := by norm_num
  have h3 : ((100 : ℕ) : ℝ) + ((-1 : ℤ) : ℝ) = 99 := by norm_num
  simp only [Bool.false_eq_true, if_false, has_some, gammaln]
  rw [h2, h1, h3, Shows]
  iv

/-- On `y' = y + t`, one step of each method multiplies `y + t + 1` by a truncated exponential. -/
theorem linear_loop {step : ℝ → ℝ → ℝ → ℝ} {h q : ℝ} (hs : ∀ t y, step t y h + (t + h) + 1 = q * (y + t + 1)) :
    ∀ (n : ℕ) (t y : ℝ), (stepLoop step h n t y).2 + (t + n * h) + 1 = q ^ n * (y + t + 1) ∧ (stepLoop step h n t y).1 = t + n * h
  | 0, t, y => by simp [stepLoop]
  | n + 1, t, y => by
    obtain ⟨h1, h2⟩ := linear_loop hs n (t + h) (step t y h)
    have h3 := hs t y
    refine ⟨?_, ?_⟩
    · show (stepLoop step h n (t + h) (step t y h)).2 + (t + ((n + 1 : ℕ) : ℝ) * h) + 1 = _
      rw [pow_succ, mul_assoc, ← h3, ← h1]
      push_cast
      ring
    · show (stepLoop step h n (t + h) (step t y h)).1 = _
      rw [h2]
      push_cast
      ring

theorem linear_integrate {step : ℝ → ℝ → ℝ → ℝ} {q : ℝ} (hs : ∀ t y, step t y 1e-3 + (t + 1e-3) + 1 = q * (y + t + 1))
    (h0 : ∀ t y, step t y 0 = y) : (integrate step 0 2 1 1e-3).2 = q ^ 2000 * 2 - 3 := by
  have e : ⌊((2 : ℝ) - 0) / 1e-3⌋ = 2000 := by
    rw [show ((2 : ℝ) - 0) / 1e-3 = ((2000 : ℤ) : ℝ) by norm_num, Int.floor_intCast]
  unfold integrate
  simp only [e]
  have h := (linear_loop hs 2000 0 1).1
  have e2 : (2 : ℝ) - 0 - ((2000 : ℤ) : ℝ) * 1e-3 = 0 := by norm_num
  rw [e2, h0]
  have e3 : (2000 : ℤ).toNat = 2000 := rfl
  rw [e3]
  generalize (stepLoop step 1e-3 2000 0 1).2 = v at h ⊢
  norm_num at h ⊢
  linarith

theorem pow2000 (q : ℝ) : q ^ 2000 = ((q ^ 10) ^ 10) ^ 20 := by
  rw [← pow_mul, ← pow_mul]

/-- **C128.** The recorded outputs: `ode_rk`. -/
theorem C128_ode_rk :
    Gives (odeRk (fun t y : ℝ => y + t) 0 2 1 1e-3 1) 11.763351307112204 1e-11 ∧
    Gives (odeRk (fun t y : ℝ => y + t) 0 2 1 1e-3 2) 11.778107275517668 1e-11 ∧
    Gives (odeRk (fun t y : ℝ => y + t) 0 2 1 1e-3 4) 11.778112197860988 1e-11 := by
  have hz : ¬ (1e-3 : ℝ) = 0 := by norm_num
  refine ⟨?_, ?_, ?_⟩
  · have := linear_integrate (step := stepRk1 fun t y : ℝ => y + t) (q := 1 + 1e-3) (fun t y => by unfold stepRk1; ring) (fun t y => by unfold stepRk1; ring)
    simp only [odeRk, if_true, if_neg hz, this, Gives, Returns, Shows, pow2000]
    iv
  · have := linear_integrate (step := stepRk2 fun t y : ℝ => y + t) (q := 1 + 1e-3 + 1e-3 ^ 2 / 2) (fun t y => by unfold stepRk2; ring) (fun t y => by unfold stepRk2; ring)
    simp only [odeRk, show ¬ (2 : ℕ) = 1 by decide, show ¬ (4 : ℕ) = 1 by decide, show ¬ (4 : ℕ) = 2 by decide, if_true, if_false, if_neg hz, this, Gives, Returns, Shows, pow2000]
    iv
  · have := linear_integrate (step := stepRk4 fun t y : ℝ => y + t) (q := 1 + 1e-3 + 1e-3 ^ 2 / 2 + 1e-3 ^ 3 / 6 + 1e-3 ^ 4 / 24) (fun t y => by unfold stepRk4; ring) (fun t y => by unfold stepRk4; ring)
    simp only [odeRk, show ¬ (2 : ℕ) = 1 by decide, show ¬ (4 : ℕ) = 1 by decide, show ¬ (4 : ℕ) = 2 by decide, if_true, if_false, if_neg hz, this, Gives, Returns, Shows, pow2000]
    iv

end Verif.Recorded
