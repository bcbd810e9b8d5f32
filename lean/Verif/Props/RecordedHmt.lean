import Verif.Lemmas.Recorded
import Verif.Model.Prv
import Verif.Model.Rheology
import Verif.Model.Correlations

/-! # C128: recorded outputs of the rheology, relief valve and heat transfer functions -/

namespace Verif.Recorded

open Flow Prv Rheology Correlations

/-- **C128.** The recorded outputs: viscosity models and the WLF shift factor. -/
theorem C128_rheology :
    Gives (muPowerLaw 1e3 10 0.2) 3.98e-2 1e-4 ∧
    Gives (muCross 20 1 1 0.2) 8.34e-2 1e-4 ∧
    Gives (muCrossModified 1 1e6 2e-5 0.2) 8.34e4 1e2 ∧
    Gives (muCarreauYasuda 20 1 1e-3 1 0.2 2) 9.18e-2 1e-4 ∧
    Gives (aTWLF 393.15 373.15 none none) 1.34e-5 1e-7 := by
  have e : ∀ {x y : ℝ}, 0 < x → ppow x y = .ok (x ^ y) := fun h => if_neg fun c => absurd c.1 (ne_of_gt h)
  refine ⟨?_, ?_, ?_, ?_, ?_⟩
  · evald [muPowerLaw, e]
    iv
  · evald [muCross, e]
    iv
  · evald [muCrossModified, e]
    iv
  · evald [muCarreauYasuda, e]
    iv
  · evald [aTWLF, e]
    iv

/-- **C128.** The recorded outputs: wall heat transfer coefficients and composite diffusivity. -/
theorem C128_walls :
    Gives (uPlane 1e3 2e3 10e-3 6e2 0 0) 6.6e2 1e1 ∧
    Gives (uCyl 2e3 1e3 40e-3 50e-3 6e2 0 0) 6.1e2 1e1 ∧
    Gives (dComposite 1e-10 1e-11 0.05 1) 1.1168831168831167e-11 1e-26 := by
  refine ⟨?_, ?_, ?_⟩
  · evald [uPlane]
    iv
  · evald [uCyl]
    iv
  · evald [dComposite]
    iv

/-- **C128.** The recorded outputs: relief areas of gas, two-phase and subcooled service. -/
theorem C128_relief :
    (Returns (areaGas 24270 6.7 1.01325 348 1.11 51 0.9 false 0.975 1 1 1) fun r => Has r.Pcf (fun P => Shows P 3.90 0.01) ∧ r.critical ∧ Shows r.A 3.70e3 1e1) ∧
    (Returns (area2phase 216560 5.564 2.045 0.01945 0.02265 0.85 1 1 1) fun r => Has r.Pcf (fun P => Shows P 3.65 0.01) ∧ r.critical ∧ Shows r.A 2.45e4 1e2) ∧
    (Returns (areaSubcooled 378.5 20.733 1.703 7.419 511.3 262.7 0.65 1 1 1) fun r => r.Pcf = none ∧ r.critical ∧ Shows r.A 1.35e2 1) := by
  refine ⟨?_, ?_, ?_⟩
  · evald [areaGas, gasPcf, gasCrit, Bool.false_eq_true]
    exact ⟨by iv, by iv, by iv⟩
  · have e : ∀ {P1 P2 v1 w etac : ℝ}, P2 ≤ P1 * etac → omegaG P1 P2 v1 w etac = etac * √(P1 / (v1 * w)) := fun h => if_pos h
    evald [area2phase, omegaEta, e]
    exact ⟨by iv, by iv, by iv⟩
  · evald [areaSubcooled]
    exact ⟨trivial, by iv, by iv⟩

/-- One step of the loop of `area_relief_liquid`. -/
theorem liqLoop_step {Q Gl mu K c A : ℝ} {n : ℕ} (hA : 0 < A) (hR : 0 < 18800 * Q * Gl / (mu * √A)) (hm : mu * √A ≠ 0)
    (hK : K * (1 / (0.9935 + 2.878 / (18800 * Q * Gl / (mu * √A)) ^ (0.5 : ℝ) + 342.75 / (18800 * Q * Gl / (mu * √A)) ^ (1.5 : ℝ))) ≠ 0)
    (hN : 11.78 * Q / (K * (1 / (0.9935 + 2.878 / (18800 * Q * Gl / (mu * √A)) ^ (0.5 : ℝ) + 342.75 / (18800 * Q * Gl / (mu * √A)) ^ (1.5 : ℝ)))) * c ≠ 0) :
    liqLoop Q Gl mu K c (n + 1) A =
      (let N := 11.78 * Q / (K * (1 / (0.9935 + 2.878 / (18800 * Q * Gl / (mu * √A)) ^ (0.5 : ℝ) + 342.75 / (18800 * Q * Gl / (mu * √A)) ^ (1.5 : ℝ)))) * c
      if |(N - A) / N| < 1e-5 then .ok N else liqLoop Q Gl mu K c n N) := by
  have h : 0.9935 + 2.878 / (18800 * Q * Gl / (mu * √A)) ^ (0.5 : ℝ) + 342.75 / (18800 * Q * Gl / (mu * √A)) ^ (1.5 : ℝ) ≠ 0 := by
    intro h
    rw [h, div_zero, mul_zero] at hK
    exact hK rfl
  have e : liqKv Q Gl mu A = some (1 / (0.9935 + 2.878 / (18800 * Q * Gl / (mu * √A)) ^ (0.5 : ℝ) + 342.75 / (18800 * Q * Gl / (mu * √A)) ^ (1.5 : ℝ))) := by
    simp only [liqKv, nsqrt, if_neg (not_lt.2 hA.le), ndiv, bind_some, if_neg hm, if_neg (not_le.2 hR), if_neg h]
  simp only [liqLoop, e, ndiv, if_neg hK, if_neg hN]

set_option maxHeartbeats 4000000 in
set_option synthInstance.maxHeartbeats 400000 in
set_option synthInstance.maxSize 8192 in
/-- **C128.** The recorded outputs: `area_relief_liquid`. -/
theorem C128_relief_liquid : Gives (areaLiquid 6814 18.96 3.45 396 0.9 0.65 0.97 1) 3172 1 := by
  evald [areaLiquid, nsqrt]
  rw [liqLoop_step (by iv) (by iv) (ne_of_gt (by iv)) (ne_of_gt (by iv)) (ne_of_gt (by iv))]
  simp only []
  rw [if_neg (not_lt.2 (by iv)), liqLoop_step (by iv) (by iv) (ne_of_gt (by iv)) (ne_of_gt (by iv)) (ne_of_gt (by iv))]
  simp only []
  rw [if_neg (not_lt.2 (by iv)), liqLoop_step (by iv) (by iv) (ne_of_gt (by iv)) (ne_of_gt (by iv)) (ne_of_gt (by iv))]
  simp only []
  rw [if_pos (by iv)]
  evald []
  iv

set_option maxHeartbeats 1000000 in
/-- **C128.** The recorded outputs: heat transfer correlations. -/
theorem C128_Nu :
    Shows (nuTube (1e3 * 2.0 * 25e-3 / 1e-3) (4.2e3 * 1e-3 / 0.6) 0 0 * 0.6 / 25e-3) 7.8e3 1e2 ∧
    Shows ((nuCylinder (1e3 * 2.0 * 33.7e-3 / 1e-3) (4.2e3 * 1e-3 / 0.6)).1 * 0.6 / 33.7e-3) 7.0e3 1e2 ∧
    Shows ((nuCylinderFree (9.81 * 362e-6 * (330 - 290) * 33.7e-3 ^ 3 / (0.70e-3 / 1.0e3) ^ 2 * (4.2e3 * 0.70e-3 / 0.63)) (4.2e3 * 0.70e-3 / 0.63)).1 * 0.63 / 33.7e-3) 1.1e3 1e2 ∧
    Shows (nuDrop (1.2 * 3.8 * 1e-3 / 1.6e-5) 0.7).1 11.0 0.1 ∧
    (Returns (nuTank .wall .HE3 (120 / 60 * (2.0 / 3) ^ 2 * 1e3 / 1e-3) (1e-3 * 4.2e3 / 0.6) 1.0 (1 / 3) 1 1 0.04 1 2) fun Nu => Shows (Nu * 0.6 / 2.0) 1.6e3 1e2) ∧
    Shows ((nuCylinderBank 6.0 1.2 1.8e-5 0.72 0.71 false 16.4e-3 31.3e-3 34.3e-3 7).1 * 0.025 / 16.4e-3) 1.4e2 1e1 ∧
    Shows ((nuSphereFree (9.81 * 362e-6 * (330 - 290) * 50e-3 ^ 3 / (0.70e-3 / 1.0e3) ^ 2 * (4.2e3 * 0.70e-3 / 0.63)) (4.2e3 * 0.70e-3 / 0.63)).1 * 0.63 / 50e-3) 7.8e2 1e1 ∧
    (Returns (nuPlateFree .vertical (9.81 * (1 / ((310 + 290) / 2)) * (310 - 290) * 3.0 ^ 3 / 15.9e-6 ^ 2 * 0.707) (some 0.707)) fun Nu => Shows (Nu.1 * 26.3e-3 / 3.0) 3.7 0.1) ∧
    Shows (nuCombined 20.0 10.0 true) 20.8 0.1 := by
  refine ⟨?_, ?_, ?_, ?_, ?_, ?_, ?_, ?_, ?_⟩
  · evald [nuTube, fDHaaland]
    iv
  · evald [nuCylinder]
    iv
  · evald [nuCylinderFree]
    iv
  · evald [nuDrop]
    iv
  · evald [nuTank, tankPar]
    iv
  · have h1 : bankVmax 6.0 16.4e-3 31.3e-3 34.3e-3 false = 6.0 * 31.3e-3 / (31.3e-3 - 16.4e-3) :=
      if_neg fun h => absurd h.2 (not_lt.2 (by iv))
    have h2 : bankC2 false 7 = 0.95 := by
      norm_num [bankC2, interp, tableStaggered]
    have h3 : bankCRe (1.2 * (6.0 * 31.3e-3 / (31.3e-3 - 16.4e-3)) * 16.4e-3 / 1.8e-5) 31.3e-3 34.3e-3 false =
        0.35 * (31.3e-3 / 34.3e-3) ^ (0.2 : ℝ) * (1.2 * (6.0 * 31.3e-3 / (31.3e-3 - 16.4e-3)) * 16.4e-3 / 1.8e-5) ^ (0.60 : ℝ) := by
      unfold bankCRe
      rw [if_neg Bool.false_ne_true, if_neg (not_lt.2 (by iv)), if_neg fun h => absurd h.2 (not_lt.2 (by iv)), if_pos ⟨by iv, by iv⟩, if_pos (by iv)]
    simp only [Shows, nuCylinderBank, h1, h2, h3]
    iv
  · evald [nuSphereFree]
    iv
  · evald [nuPlateFree]
    iv
  · evald [nuCombined, cbrt]
    iv

end Verif.Recorded
