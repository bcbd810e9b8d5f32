import Verif.Lemmas.FlashBal
import Verif.Props.RootsScalar

/-! # Helper lemmas: C118: bubble and dew points of ideal mixtures -/

namespace Verif.Flash

open Finset

variable {N : ℕ}

theorem normalize_scale {v w : Vec N} {c : ℝ} (hc : c ≠ 0) (h : ∀ i, v i = c * w i) : normalize v = normalize w := by
  funext i
  simp only [normalize, h, ← mul_sum]
  rw [mul_div_mul_left _ _ hc]

theorem normalize_self {v : Vec N} (h : ∑ i, v i = 1) : normalize v = v := by
  funext i
  simp [normalize, h]

theorem lnKb_raoult {w Ps : Vec N} (hw : ∑ i, w i = 1) (hPs : ∀ i, 0 < Ps i) {P : ℝ} (hP : 0 < P) :
    lnKb w (fun i => Ps i / P) = (∑ i, w i * Real.log (Ps i)) - Real.log P := by
  simp only [lnKb]
  have : ∀ i, w i * Real.log (Ps i / P) = w i * Real.log (Ps i) - w i * Real.log P := fun i => by
    rw [Real.log_div (hPs i).ne' hP.ne', mul_sub]
  simp only [this, sum_sub_distrib, ← sum_mul, hw, one_mul]

theorem paramsTVall_raoult {w Ps : Vec N} (hw : ∑ i, w i = 1) (hPs : ∀ i, 0 < Ps i) {P : ℝ} (hP : 0 < P) {T beta Pref : ℝ} {x y : Vec N} {Kcalc : KFun N}
    (hK : ∀ P x y, Kcalc T P x y = fun i => Ps i / P) (hwe : weights beta y (fun i => Ps i / P) = w) :
    paramsTVall T P x y beta Kcalc Pref = (fun i => Real.log (Ps i) - ∑ i, w i * Real.log (Ps i), Real.exp (∑ i, w i * Real.log (Ps i)) / P, ∑ i, w i * Real.log (Ps i), 0) := by
  have hP' : 0 < P + 1000 := by linarith
  have hB : ((∑ i, w i * Real.log (Ps i)) - Real.log (P + 1000) - ((∑ i, w i * Real.log (Ps i)) - Real.log P) + Real.log ((P + 1000) / P)) * Pref / 1000 = 0 := by
    rw [Real.log_div hP'.ne' hP.ne']; ring
  simp only [paramsTVall, hK, hwe, lnKb_raoult hw hPs hP, lnKb_raoult hw hPs hP', hB]
  refine Prod.ext (funext fun i => ?_) (Prod.ext ?_ (Prod.ext ?_ rfl))
  · simp only
    rw [Real.log_div (hPs i).ne' hP.ne']; ring
  · simp only
    rw [Real.exp_sub, Real.exp_log hP]
  · simp only
    ring

theorem paramsTV_raoult {w Ps : Vec N} (hw : ∑ i, w i = 1) (hPs : ∀ i, 0 < Ps i) {P : ℝ} (hP : 0 < P) {T beta Pref : ℝ} {x y : Vec N} {Kcalc : KFun N}
    (hK : ∀ P x y, Kcalc T P x y = fun i => Ps i / P) (hwe : weights beta y (fun i => Ps i / P) = w) :
    paramsTV T P x y beta Kcalc Pref 0 = (fun i => Real.log (Ps i) - ∑ i, w i * Real.log (Ps i), ∑ i, w i * Real.log (Ps i), fun i => Ps i / P) := by
  simp only [paramsTV, hK, hwe, lnKb_raoult hw hPs hP]
  refine Prod.ext (funext fun i => ?_) (Prod.ext ?_ rfl)
  · simp only
    rw [Real.log_div (hPs i).ne' hP.ne']; ring
  · simp only
    ring

theorem newton_pressure {Kb A P Pref : ℝ} (hKb : 0 < Kb) (hP : P = Real.exp A / Kb) (h9 : 1e-9 ≤ P) :
    ∃ sol, rootNewton (pressureEq Kb A 0 Pref) P 0 1e-10 (49 + 1) = .ok sol ∧ sol.1.success = true ∧ sol.1.x = P := by
  have hp : 0 < P := by norm_num at h9; linarith
  have hlog : Real.log Kb + Real.log P = A := by
    rw [hP, Real.log_div (Real.exp_pos _).ne' hKb.ne', Real.log_exp]; ring
  have hf : |(pressureEq Kb A 0 Pref (P, eps)).1| ≤ 1e-10 := by
    simp only [pressureEq]
    rw [Complex.log_re, norm_mul, Complex.norm_real, Real.norm_of_nonneg hKb.le, Complex.norm_add_mul_I,
      show P ^ 2 + eps ^ 2 = P ^ 2 * (1 + (eps / P) ^ 2) by field_simp, Real.sqrt_mul (sq_nonneg _), Real.sqrt_sq hp.le]
    have h3 : (0 : ℝ) < 1 + (eps / P) ^ 2 := by positivity
    rw [Real.log_mul hKb.ne' (mul_pos hp (Real.sqrt_pos.2 h3)).ne', Real.log_mul hp.ne' (Real.sqrt_pos.2 h3).ne', Real.log_sqrt h3.le]
    have h4 : 0 ≤ Real.log (1 + (eps / P) ^ 2) := Real.log_nonneg (by nlinarith [sq_nonneg ((eps : ℝ) / P)])
    have h5 : Real.log (1 + (eps / P) ^ 2) ≤ (eps / P) ^ 2 := by
      have := Real.log_le_sub_one_of_pos h3
      linarith
    have h6 : ((eps : ℝ) / P) ≤ 1e-6 := by
      rw [div_le_iff₀ hp]
      norm_num [eps] at h9 ⊢
      linarith
    have h7 : ((eps : ℝ) / P) ^ 2 ≤ 1e-12 := by
      have : 0 ≤ (eps : ℝ) / P := div_nonneg eps_pos.le hp.le
      calc ((eps : ℝ) / P) ^ 2 ≤ (1e-6) ^ 2 := pow_le_pow_left₀ this h6 2
        _ = 1e-12 := by norm_num
    rw [abs_le]
    norm_num at h7 ⊢
    constructor <;> linarith
  rw [rootNewton, newtonLoop]
  simp only [derivativeComplex]
  exact ⟨_, if_pos hf, rfl, rfl⟩

/-- The convergence threshold exists as soon as one vapour pressure exceeds 1. -/
theorem minPos_raoult {w Ps : Vec N} (hw0 : ∀ i, 0 ≤ w i) (hw : ∑ i, w i = 1) (hPs : ∀ i, 0 < Ps i) (h1 : ∃ i, 1 < Ps i) :
    ∃ v, minPos (List.ofFn (fun i => Real.log (Ps i) - ∑ i, w i * Real.log (Ps i)) ++ [∑ i, w i * Real.log (Ps i)]) = .ok v ∧ 0 < v := by
  obtain ⟨i, hi⟩ := h1
  have hl : 0 < Real.log (Ps i) := Real.log_pos hi
  by_cases h : ∑ i, w i * Real.log (Ps i) < Real.log (Ps i)
  · obtain ⟨v, hv⟩ := minPos_ok (l := List.ofFn (fun i => Real.log (Ps i) - ∑ i, w i * Real.log (Ps i)) ++ [∑ i, w i * Real.log (Ps i)])
      (v := Real.log (Ps i) - ∑ i, w i * Real.log (Ps i)) (List.mem_append_left _ (List.mem_ofFn.2 ⟨i, rfl⟩)) (by linarith)
    exact ⟨v, hv, (minPos_spec hv).2⟩
  · obtain ⟨v, hv⟩ := minPos_ok (l := List.ofFn (fun i => Real.log (Ps i) - ∑ i, w i * Real.log (Ps i)) ++ [∑ i, w i * Real.log (Ps i)])
      (v := ∑ i, w i * Real.log (Ps i)) (List.mem_append_right _ (by simp)) (by linarith)
    exact ⟨v, hv, (minPos_spec hv).2⟩

/-- One pass of `flash2_TV` when the K-values are vapour pressures over pressure and the phase split is at its end (`beta` 0 or 1). -/
theorem flashTV_onepass {F : ℝ} {z Ps w xs ys : Vec N} {T beta R P0 atol rtol Pe : ℝ} {n : ℕ} {x0 y0 : Option (Vec N)} {Kcalc : KFun N}
    (hK : ∀ P x y, Kcalc T P x y = fun i => Ps i / P) (hPs : ∀ i, 0 < Ps i) (h1 : ∃ i, 1 < Ps i) (hw0 : ∀ i, 0 ≤ w i) (hw : ∑ i, w i = 1) (hP0 : 0 < P0) (hrt : 0 ≤ rtol)
    (hR : ∀ u Kb0, innerR u Kb0 beta (normalize z) (n + 1) atol = .ok (some R)) (hy : phaseY (normalize z) (fun i => Ps i / P0) beta = ys)
    (hwe : ∀ P, 0 < P → weights beta ys (fun i => Ps i / P) = w)
    (hx' : normalize (ioP (fun i => Real.log (Ps i) - ∑ i, w i * Real.log (Ps i)) (Real.exp (∑ i, w i * Real.log (Ps i)) / P0) R (normalize z)) = xs)
    (hy' : normalize (ioEup (fun i => Real.log (Ps i) - ∑ i, w i * Real.log (Ps i)) (Real.exp (∑ i, w i * Real.log (Ps i)) / P0) R (normalize z)) = ys)
    (hKb : 0 < ioKb (fun i => Real.log (Ps i) - ∑ i, w i * Real.log (Ps i)) (Real.exp (∑ i, w i * Real.log (Ps i)) / P0) R (normalize z))
    (hPe : Pe = Real.exp (∑ i, w i * Real.log (Ps i)) /
      ioKb (fun i => Real.log (Ps i) - ∑ i, w i * Real.log (Ps i)) (Real.exp (∑ i, w i * Real.log (Ps i)) / P0) R (normalize z)) (h9 : 1e-9 ≤ Pe) :
    flashTV F z T beta Kcalc x0 y0 P0 (n + 1) atol rtol =
      .ok ⟨true, .converged, T, Pe, F, some (F - F * beta), some (F * beta), some beta, normalize z, xs, ys, fun i => Ps i / Pe⟩ := by
  have hpe : 0 < Pe := by norm_num at h9; linarith
  obtain ⟨sol, hs1, hs2, hs3⟩ := newton_pressure (Pref := 100000) hKb hPe h9
  obtain ⟨v, hv, hv0⟩ := minPos_raoult hw0 hw hPs h1
  have hc : ∀ f : Option (Fin N) → ℝ, AllClose f f (v * rtol) := fun f i => by
    rw [sub_self, abs_zero]
    positivity
  simp only [flashTV, hK, hy, paramsTVall_raoult hw hPs hP0 hK (hwe P0 hP0), tvLoop, hR, ok_bind, hx', hy', ← hPe]
  rw [hs1]
  simp only [ok_bind, hs2, hs3, Bool.not_true, Bool.false_eq_true, if_false, paramsTV_raoult hw hPs hpe hK (hwe Pe hpe), hv, if_pos (hc _)]
  rfl

end Verif.Flash
