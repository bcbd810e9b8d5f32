import Verif.Spec.Recorded
import Verif.Lemmas.Interval
import Verif.Model.StepGrowth
import Verif.Model.Copo
import Verif.Model.CopoMulti
import Verif.Model.DistMisc
import Verif.Props.CopoMulti
import Mathlib.Tactic.FinCases
import Mathlib.LinearAlgebra.Matrix.Nondegenerate

/-! # C128: recorded outputs of the step-growth and copolymerisation functions -/

namespace Verif.Recorded

open StepGrowth Copo CopoMulti DistMisc Utils

/-- **C128.** The recorded averages of the step-growth functions. -/
theorem C128_stepgrowth :
    Gives2 (case1 (0.99 : ℚ) (1.0 / 1.01) 100 90) 6367 12645 1 ∧
    Gives2 (case3 (0.99 : ℚ) 0.95 (1.0 / 1.01) 100 90) 2729 5332 1 ∧
    Gives (case5 (0.99 : ℚ) 0.95 ((2 * 1.0 + 0.01) / (2 * 1.01)) (0.01 / (2 * 1)) 100 90 40) 6860 1 ∧
    Gives (case6 (0.99 : ℚ) (2.0 / 0.01) 100 80) 5367 1 ∧
    Gives (case7 (0.99 : ℚ) 0.98 (2.0 / 1.0) 100 80) 5200 1 ∧
    Gives (case8 (0.99 : ℚ) 0.95 ((0.6 + 0.4) / 1.01) (0.4 / 0.6) 100 90 50) 2823 1 ∧
    Gives (case9 (0.99 : ℚ) 0.98 0.999 ((0.6 + 0.9) / (1.0 + 0.5)) (0.5 / 1.0) (0.9 / 0.6) 100 80 90 70) 9961 1 ∧
    Gives (case10 (0.99 : ℚ) 0.98 0.999 ((0.6 + 0.4) / 1.01) (0.6 / 0.4) 100 90 50) 6076 1 ∧
    Gives (case11 (0.99 : ℚ) 0.999 0.98 (1.5 / 1.01) (1.0 / 1.01) 100 90 50) 5553 1 ∧
    (Returns (floryAf 4 (100 : ℚ) 0.30) fun o => Has o fun M => Shows M.1 250 1 ∧ Shows M.2.1 1300 1 ∧ Shows M.2.2 7762 1) ∧
    Gives2 (miller1 (0.1 : ℚ) 0.9 1.0 3 150 100 80 0.95 0.90) 1233 5024 1 ∧
    (Has (miller2 (1 : ℚ) 1.5 3 100 80 ![0.1, 0.2, 0.4]) fun M => Shows M.1 275 1 ∧ Shows M.2 3822 1) ∧
    Has (stockmayer ![1, 0.01] ![1.01, 0.03] ![2, 3] ![2, 1] ![100, 150] ![80, 40] 0.99) fun M => Shows M.1 8951 1 ∧ Shows M.2 34722 1 := by
  refine ⟨by decide +kernel, by decide +kernel, by decide +kernel, by decide +kernel, by decide +kernel, by decide +kernel, by decide +kernel,
    by decide +kernel, by decide +kernel, by decide +kernel, by decide +kernel, by decide +kernel, ?_⟩
  simp only [stockmayer, Fin.sum_univ_two, Matrix.cons_val_zero, Matrix.cons_val_one]
  rw [if_neg (by
    rw [not_and_or]
    right
    rw [not_le]
    refine Real.lt_sqrt_of_sq_lt ?_
    norm_num)]
  simp only [Has, Shows]
  norm_num [abs_le]

/-- **C128.** The recorded results of the functions for two monomers and for moments of distributions. -/
theorem C128_binary :
    (Has (instBinary (0.5 : ℚ) 0.16 0.70) fun F => Shows F 0.406 0.001) ∧
    (Has (instBinary (0.2 : ℚ) 0.16 0.70) fun F => Shows F 0.21487603 1e-8) ∧
    (Has (instBinary (0.6 : ℚ) 0.16 0.70) fun F => Shows F 0.45812808 1e-8) ∧
    (Has (instBinary (0.8 : ℚ) 0.16 0.70) fun F => Shows F 0.58259325 1e-8) ∧
    (Has (kpBinary (0.5 : ℚ) 0.16 0.70 100 1000) fun k => Shows k 622 1) ∧
    (Has (kpBinary (0.2 : ℚ) 0.16 0.70 100 1000) fun k => Shows k 880 1e-8) ∧
    (Has (kpBinary (0.6 : ℚ) 0.16 0.70 100 1000) fun k => Shows k 523.87096774 1e-8) ∧
    (Has (kpBinary (0.8 : ℚ) 0.16 0.70 100 1000) fun k => Shows k 317.18309859 1e-8) ∧
    Gives2 (finemannRoss [((0.186 : ℚ), (0.196 : ℚ)), (0.299, 0.279), (0.527, 0.415), (0.600, 0.473), (0.700, 0.542), (0.798, 0.634)]) 0.27 0.84 0.01 ∧
    convolveMoments [(1 : ℚ), 1e2, 2e4] [1, 50, 5e4] = .ok [1, 1.5e2, 8e4] ∧
    convolveMomentsSelf [(1 : ℚ), 1e2, 2e4] 2 = .ok [1, 3e2, 1.2e5] := by
  decide +kernel

/-- The reactivity ratios of the examples with three monomers. -/
def r3 : Matrix (Fin 3) (Fin 3) ℚ := ![![1, 0.2, 3.0], ![2.3, 1, 0.4], ![0.9, 1.5, 1]]

/-- Their cross-propagation coefficients. -/
def k3 : Matrix (Fin 3) (Fin 3) ℚ := ![![0, 500, 30], ![50, 0, 300], ![200, 40, 0]]

/-- Their composition. -/
def f3 : Fin 3 → ℚ := ![0.5, 0.3, 0.2]

/-- The recorded transition probabilities. -/
def P3 : Matrix (Fin 3) (Fin 3) ℚ := ![![0.24193548, 0.72580645, 0.03225806], ![0.21367521, 0.29487179, 0.49145299], ![0.58139535, 0.20930233, 0.20930233]]

/-- The solution of the composition balance. -/
def F3 : Fin 3 → ℚ := ![94550 / 294199, 120744 / 294199, 78905 / 294199]

theorem solve_eq {solve : Matrix (Fin 3) (Fin 3) ℚ → (Fin 3 → ℚ) → Option (Fin 3 → ℚ)} (hs : IsSolve solve) {A : Matrix (Fin 3) (Fin 3) ℚ} {b y : Fin 3 → ℚ}
    (hd : A.det ≠ 0) (hy : ∀ i, A.mulVec y i = b i) : solve A b = some y := by
  obtain ⟨x, hx⟩ := hs.total A b hd
  have h := hs.sound _ _ _ hx
  have : x - y = 0 := Matrix.eq_zero_of_mulVec_eq_zero hd (by rw [Matrix.mulVec_sub, h, sub_eq_zero]; exact (funext hy).symm)
  rw [hx, sub_eq_zero.1 this]

/-- **C128.** The recorded results of the functions for several monomers. -/
theorem C128_multicomponent {solve : Matrix (Fin 3) (Fin 3) ℚ → (Fin 3 → ℚ) → Option (Fin 3 → ℚ)} (hs : IsSolve solve) :
    (Shows (instTernary (0.5 : ℚ) 0.3 0.2 2.3 3.0 0.9 0.4 1.5).1 0.32 0.01 ∧ Shows (instTernary (0.5 : ℚ) 0.3 0.2 2.3 3.0 0.9 0.4 1.5).2.1 0.41 0.01 ∧
      Shows (instTernary (0.5 : ℚ) 0.3 0.2 2.3 3.0 0.9 0.4 1.5).2.2 0.27 0.01) ∧
    (Returns (instMulti solve (some f3) (some r3) none) fun o => Has o fun F => Shows (F 0) 0.32138111 1e-8 ∧ Shows (F 1) 0.41041608 1e-8 ∧
      Shows (F 2) 0.26820282 1e-8) ∧
    (Shows (radTernary (0.5 : ℚ) 0.3 500 50 30 200 300 40).1 0.25 0.01 ∧ Shows (radTernary (0.5 : ℚ) 0.3 500 50 30 200 300 40).2.1 0.48 0.01 ∧
      Shows (radTernary (0.5 : ℚ) 0.3 500 50 30 200 300 40).2.2 0.27 0.01) ∧
    (Has (radMulti solve f3 k3) fun p => Shows (p 0) 0.25012791 1e-8 ∧ Shows (p 1) 0.47956341 1e-8 ∧ Shows (p 2) 0.27030868 1e-8) ∧
    (∀ i j : Fin 3, Shows (transitionsMulti f3 r3 i j : ℚ) (P3 i j) 1e-8) ∧
    (Shows (seqMean (transitionsMulti f3 r3 0 0)) 1.31914894 1e-8 ∧ Shows (seqMean (transitionsMulti f3 r3 1 1)) 1.41818182 1e-8 ∧
      Shows (seqMean (transitionsMulti f3 r3 2 2)) 1.26470588 1e-8) ∧
    (Shows (seqProb (transitionsMulti f3 r3 0 0) 1) 0.75806452 1e-8 ∧ Shows (seqProb (transitionsMulti f3 r3 0 0) 5) 0.00259719 1e-8 ∧
      Shows (seqProb (transitionsMulti f3 r3 1 1) 1) 0.70512821 1e-8 ∧ Shows (seqProb (transitionsMulti f3 r3 1 1) 5) 0.00533091 1e-8 ∧
      Shows (seqProb (transitionsMulti f3 r3 2 2) 1) 0.79069767 1e-8 ∧ Shows (seqProb (transitionsMulti f3 r3 2 2) 5) 0.00151742 1e-8) := by
  refine ⟨by decide +kernel, ?_, by decide +kernel, ?_, fun i j => by fin_cases i <;> fin_cases j <;> decide +kernel, by decide +kernel, by decide +kernel⟩
  · show Returns (.ok (solve (compMatrix (transitionsMulti f3 r3)) lastOne)) _
    rw [solve_eq hs (A := compMatrix (transitionsMulti f3 r3)) (y := F3) (by rw [Matrix.det_fin_three]; decide +kernel) (by decide +kernel)]
    decide +kernel
  · rw [radMulti, solve_eq hs (A := radMatrix f3 k3) (y := ![4400 / 17591, 8436 / 17591, 4755 / 17591]) (by rw [Matrix.det_fin_three]; decide +kernel) (by decide +kernel)]
    decide +kernel

-- non-vacuity: an exact solver
example := C128_multicomponent (exactSolve_isSolve 3)

/-- **C128.** The recorded triad fractions. -/
theorem C128_tuples {solve : Matrix (Fin 3) (Fin 3) ℚ → (Fin 3 → ℚ) → Option (Fin 3 → ℚ)} (hs : IsSolve solve) :
    Returns (instMulti solve none none (some (transitionsMulti f3 r3))) fun o => Has o fun F =>
      let A := tuplesMulti (fun i => F (Fin.ofNat 3 i)) (fun i j => transitionsMulti f3 r3 (Fin.ofNat 3 i) (Fin.ofNat 3 j)) 3 3
      Shows (dget A [0, 0, 0]) 0.018811329044450834 1e-15 ∧ Shows (dget A [1, 0, 1]) 0.06365013630778116 1e-15 := by
  show Returns (.ok (solve (compMatrix (transitionsMulti f3 r3)) lastOne)) _
  rw [solve_eq hs (A := compMatrix (transitionsMulti f3 r3)) (y := F3) (by rw [Matrix.det_fin_three]; decide +kernel) (by decide +kernel)]
  decide +kernel

/-- **C128.** The recorded reactivity ratios estimated from Q-e values. -/
theorem C128_Qe : let r := convertQe ![1.0, 0.78, 0.026] ![-0.80, 0.40, -0.88]
    Shows (r 0 0) 1 1e-9 ∧ Shows (r 0 1) 4.90888315e-01 1e-9 ∧ Shows (r 0 2) 4.10035538e+01 1e-7 ∧ Shows (r 1 0) 4.82651046e-01 1e-9 ∧
      Shows (r 1 2) 1.79788736e+01 1e-7 ∧ Shows (r 2 0) 2.42325444e-02 1e-10 ∧ Shows (r 2 1) 1.08066091e-02 1e-10 := by
  refine ⟨?_, ?_, ?_, ?_, ?_, ?_, ?_⟩
  · show |1.0 / 1.0 * Real.exp (-(-0.80) * (-0.80 - -0.80)) - 1| ≤ 1e-9 / 2
    iv
  · show |1.0 / 0.78 * Real.exp (-(-0.80) * (-0.80 - 0.40)) - 4.90888315e-01| ≤ 1e-9 / 2
    iv
  · show |1.0 / 0.026 * Real.exp (-(-0.80) * (-0.80 - -0.88)) - 4.10035538e+01| ≤ 1e-7 / 2
    iv
  · show |0.78 / 1.0 * Real.exp (-0.40 * (0.40 - -0.80)) - 4.82651046e-01| ≤ 1e-9 / 2
    iv
  · show |0.78 / 0.026 * Real.exp (-0.40 * (0.40 - -0.88)) - 1.79788736e+01| ≤ 1e-7 / 2
    iv
  · show |0.026 / 1.0 * Real.exp (-(-0.88) * (-0.88 - -0.80)) - 2.42325444e-02| ≤ 1e-10 / 2
    iv
  · show |0.026 / 0.78 * Real.exp (-(-0.88) * (-0.88 - 0.40)) - 1.08066091e-02| ≤ 1e-10 / 2
    iv

/-- **C128.** The recorded conversion between polymer standards. -/
theorem C128_standards : Shows (convertStandards 1e5 6.82e-3 1.28e-2 0.77 0.69) 1.19e5 1e3 := by
  unfold Shows convertStandards
  iv

end Verif.Recorded
