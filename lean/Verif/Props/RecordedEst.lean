import Verif.Lemmas.Recorded
import Verif.Model.Transport
import Verif.Model.Rackett
import Verif.Model.VrentasDuda

/-! # C128: recorded outputs of the property estimation methods -/

namespace Verif.Recorded

open Vaporization Transport

theorem odiv_ok {a b : ℝ} (h : b ≠ 0) : odiv a b = some (a / b) := if_neg h

theorem fpow_ok {a b : ℝ} (h : 0 < a) : fpow a b = some (a ^ b) := by
  unfold fpow
  rw [if_neg (not_lt.2 h.le)]

set_option synthInstance.maxHeartbeats 400000 in
set_option synthInstance.maxSize 4096 in
set_option maxHeartbeats 1000000 in
/-- **C128.** The recorded outputs: vapour pressures and enthalpies of vaporisation. -/
theorem C128_vaporization :
    (Has (dhvlPitzer 8.31446261815324 (273.15 + 50) 425.0 0.122) fun h => Shows (h / 1e3) 17.5 0.1) ∧
    (Has (dhvlVetere 8.31446261815324 259.8 425.0 51.5e5) fun h => Shows (h / 1e3) 21.6 0.1) ∧
    (Returns (dhvlKV 8.31446261815324 268.6 (some 54.1e-3) .hydrocarbon) fun o => Has o fun h => Shows (h / 1e3) 22.4 0.1) ∧
    (Has (dhvlWatson 22.9 258.0 (273.15 + 50) 425.0) fun h => Shows h 19.0 0.1) ∧
    (Has (plLeeKesler 298.15 420.0 644.0 45.40e5) fun P => Shows P 6.6e2 1e1) ∧
    (Has (plAmbroseWalton 268.7 425.0 43.3e5 0.195) fun P => Shows P 1.0e5 1e4) ∧
    (Has (plWilson 268.7 425.0 43.3e5 0.195) fun P => Shows P 1.0e5 1e4) := by
  refine ⟨?_, ?_, ?_, ?_, ?_, ?_, ?_⟩
  · evald [dhvlPitzer, odiv_ok, fpow_ok]
    iv
  · evald [dhvlVetere, odiv_ok, fpow_ok]
    iv
  · evald [dhvlKV, odiv_ok, fpow_ok, log10, reduceCtorEq]
    iv
  · evald [dhvlWatson, odiv_ok, fpow_ok]
    iv
  · evald [plLeeKesler, fLK, odiv_ok, fpow_ok]
    iv
  · evald [plAmbroseWalton, odiv_ok, fpow_ok]
    iv
  · evald [plWilson, odiv_ok, fpow_ok]
    iv

/-- **C128.** The recorded outputs: diffusivities. -/
theorem C128_diffusivity :
    Shows (dlWilkeChang 298 62.5e-3 18.0e-3 910 0.89e-3 2.6) 1.3e-9 1e-10 ∧
    Gives (dlHaydukMinhas 298 .aqueous 62.5e-3 910 0.89e-3) 1.3e-9 1e-10 ∧
    Shows (dlStokesEinstein 1.380649e-23 298.0 100e-9 1e-3) 2.2e-12 1e-13 ∧
    Gives (dvWilkeLee 298 1e5 62.5e-3 18.0e-3 910 (some 959) 260 (some 373)) 1.10e-5 1e-7 ∧
    Gives (dvWilkeLee 298 1e5 62.5e-3 18.0e-3 910 none 260 none) 1.37e-5 1e-7 := by
  refine ⟨?_, ?_, ?_, ?_, ?_⟩
  · evald [dlWilkeChang]
    iv
  · evald [dlHaydukMinhas]
    iv
  · evald [dlStokesEinstein]
    iv
  · evald [dvWilkeLee, wilkeLeeB, omegaD]
    iv
  · evald [dvWilkeLee, wilkeLeeB, omegaD]
    iv

set_option synthInstance.maxHeartbeats 400000 in
set_option synthInstance.maxSize 4096 in
set_option maxHeartbeats 1000000 in
/-- **C128.** The recorded outputs: thermal conductivities. -/
theorem C128_conductivity :
    (Has (klmx2Li ![0.5, 0.5] ![0.172, 0.124] ![0.909, 0.681]) fun k => Shows k 1.43e-1 1e-3) ∧
    Gives (kvpc 8.31446261815324 6.02214076e23 1.84e-4 28.05e-3 282.4 50.4e5 0.280) 1.69e-2 1e-4 ∧
    Gives (kvmxpc 8.31446261815324 6.02214076e23 1.12e-4 ![0.5, 0.5] ![28.05e-3, 42.08e-3] ![282.4, 364.9] ![50.4e5, 46.0e5] ![0.280, 0.274] ![0.089, 0.144]) 3.82e-2 1e-4 ∧
    (Has (kvmx2Wassilijewa ![0.5, 0.5] ![1.00e-2, 1.55e-2] ![104.15, 106.17]) fun k => Shows k 1.28e-2 1e-4) := by
  refine ⟨?_, ?_, ?_, ?_⟩
  · evald [klmx2Li, Fin.sum_univ_two, Matrix.cons_val_zero, Matrix.cons_val_one, Mixing.quadratic]
    iv
  · evald [kvpc]
    iv
  · have e : List.finRange 2 = [0, 1] := rfl
    simp only [kvmxpc, e, List.foldl_cons, List.foldl_nil, kvmxStep, Fin.sum_univ_two, Matrix.cons_val_zero, Matrix.cons_val_one, zero_ne_one, one_ne_zero, if_true, if_false]
    evald [kvpc]
    iv
  · evald [kvmx2Wassilijewa, sqrtMean, Fin.sum_univ_two, Matrix.cons_val_zero, Matrix.cons_val_one]
    iv

set_option synthInstance.maxHeartbeats 400000 in
set_option synthInstance.maxSize 4096 in
set_option maxHeartbeats 4000000 in
/-- **C128.** The recorded outputs: viscosities. -/
theorem C128_viscosity :
    Shows (mulmx2Perry ![0.5, 0.5] ![0.76, 0.59] false) 0.67 0.01 ∧
    (Has (muvmx2HerningZipperer ![0.5, 0.5] ![130e-7, 100e-7] ![28e-3, 56e-3]) fun m => Shows m 1.12e-5 1e-7) ∧
    Shows (muvpcJossi (130 / 184) 28.05e-3 282.4 50.4e5) 6.76e-6 1e-8 ∧
    Shows (muvmxpcDeanStiel 8.31446261815324 1.12e-4 ![0.5, 0.5] ![28.05e-3, 42.08e-3] ![282.4, 364.9] ![50.4e5, 46.0e5] ![0.280, 0.274]) 2.32e-5 1e-7 ∧
    (Has (muvLucas 350 10e5 28.05e-3 282.4 50.4e5 0.280 0) fun m => Shows m 1.20e-5 1e-7) ∧
    (Has (muvmxLucas 8.31446261815324 350 10e5 ![0.6, 0.4] ![28e-3, 28e-3] ![282.4, 126.2] ![50.4e5, 33.9e5] ![0.280, 0.290] ![0, 0]) fun m => Shows m 1.45e-5 1e-7) := by
  refine ⟨?_, ?_, ?_, ?_, ?_, ?_⟩
  · evald [mulmx2Perry, Fin.sum_univ_two, Matrix.cons_val_zero, Matrix.cons_val_one, Bool.false_eq_true]
    iv
  · evald [muvmx2HerningZipperer, sqrtMean, Fin.sum_univ_two, Matrix.cons_val_zero, Matrix.cons_val_one]
    iv
  · evald [muvpcJossi]
    iv
  · evald [muvmxpcDeanStiel, Fin.sum_univ_two, Matrix.cons_val_zero, Matrix.cons_val_one, Mixing.pseudocritical]
    iv
  · have e : lucasFP0 (350 / 282.4) 282.4 50.4e5 0.280 0 = some (0 + 1) := if_pos (by iv)
    have e2 : ¬ ((350 / 282.4 : ℝ) ≤ 1 ∧ (10e5 / 50.4e5 : ℝ) < 1) := fun h => absurd h.1 (not_le.2 (by iv))
    evald [muvLucas, e, lucasMu, lucasZ, lucasHigh, e2]
    iv
  · have e0 : lucasFP0 (350 / 282.4) 282.4 50.4e5 0.280 0 = some (0 + 1) := if_pos (by iv)
    have e1 : lucasFP0 (350 / 126.2) 126.2 33.9e5 0.290 0 = some (0 + 1) := if_pos (by iv)
    have e : odot ![0.6, 0.4] (fun i => lucasFP0 (350 / (![282.4, 126.2] i : ℝ)) (![282.4, 126.2] i) (![50.4e5, 33.9e5] i) (![0.280, 0.290] i) (![(0 : ℝ), 0] i)) =
        some (0.6 * (0 + 1) + 0.4 * (0 + 1)) := by
      unfold odot
      rw [if_pos]
      · simp only [Fin.sum_univ_two, Matrix.cons_val_zero, Matrix.cons_val_one, e0, e1, Option.getD_some]
      · intro i
        fin_cases i
        · show (lucasFP0 (350 / 282.4) 282.4 50.4e5 0.280 0).isSome
          rw [e0]; rfl
        · show (lucasFP0 (350 / 126.2) 126.2 33.9e5 0.290 0).isSome
          rw [e1]; rfl
    have e2 : ¬ ((350 / (0.6 * 282.4 + 0.4 * 126.2) : ℝ) ≤ 1 ∧ (10e5 / (8.31446261815324 * (0.6 * 282.4 + 0.4 * 126.2) * (0.6 * 0.280 + 0.4 * 0.290) / (0.6 * (8.31446261815324 * 282.4 * 0.280 / 50.4e5) + 0.4 * (8.31446261815324 * 126.2 * 0.290 / 33.9e5))) : ℝ) < 1) := fun h => absurd h.1 (not_le.2 (by iv))
    evald [muvmxLucas, e, Fin.sum_univ_two, Matrix.cons_val_zero, Matrix.cons_val_one, lucasMu, lucasZ, lucasHigh, e2]
    iv

/-- **C128.** The recorded outputs: `VL_Rackett`. -/
theorem C128_Rackett : Returns (Rackett.vlRackett 350.0 425.0 43.3e5 none (some 0.195)) fun o => Has o fun v => Shows v 1.01e-4 1e-6 := by
  evald [Rackett.vlRackett, Rackett.vlRackett.body, Rackett.R, fpow_ok]
  iv

/-- **C128.** The recorded outputs: `VrentasDudaBinary`. -/
theorem C128_VrentasDuda :
    (Returns (VrentasDuda.call 8.31446261815324 ⟨4.82e-4, 0, 0.917, 0.728, 0.82, 1.45e-3, 4.33e-4, -86.32, -258.2, 0, 0, 1, 0.5⟩ 0.2 (25 + 273.15) false)
      fun o => Has o fun D => Shows D 3.79e-8 1e-10) ∧
    (Returns (VrentasDuda.call 8.31446261815324 ⟨4.82e-4, 0, 0.917, 0.728, 0.82, 1.45e-3, 4.33e-4, -86.32, -258.2, 0, 0, 1, 0.5⟩ 0.2 (25 + 273.15) true)
      fun o => Has o fun D => Shows D 7.40e-8 1e-10) := by
  have e : VrentasDuda.selfd 8.31446261815324 ⟨4.82e-4, 0, 0.917, 0.728, 0.82, 1.45e-3, 4.33e-4, -86.32, -258.2, 0, 0, 1, 0.5⟩ 0.2 (25 + 273.15) =
      some (4.82e-4 * Real.exp (-0 / (8.31446261815324 * (25 + 273.15))) * Real.exp (-(0.2 * 0.917 + (1 - 0.2) * 0.82 * 0.728) /
        (0.2 * (1.45e-3 / 1) * (-86.32 - 0 + (25 + 273.15)) + (1 - 0.2) * (4.33e-4 / 1) * (-258.2 - 0 + (25 + 273.15))))) := by
    unfold VrentasDuda.selfd
    rw [if_neg]
    · rfl
    · rintro (h | h)
      · exact absurd h (ne_of_gt (by iv))
      · unfold VrentasDuda.freeVolume at h
        exact absurd h (ne_of_gt (by iv))
  refine ⟨?_, ?_⟩
  · evald [VrentasDuda.call, VrentasDuda.mutuald, e, Bool.false_eq_true]
    iv
  · evald [VrentasDuda.call, e]
    iv

end Verif.Recorded
