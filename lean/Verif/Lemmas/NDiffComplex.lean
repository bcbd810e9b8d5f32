import Verif.Lemmas.NDiff
import Mathlib.Analysis.Complex.TaylorSeries
import Mathlib.Analysis.Complex.Liouville
import Mathlib.Analysis.Complex.RealDeriv

/-!
# The complex step on analytic functions
-/

namespace Verif.NDiff

open Complex

/-- Derivatives of a function that is real on the real axis are real there. -/
theorem iteratedDeriv_real {f : ℂ → ℂ} {x R : ℝ} (hf : DifferentiableOn ℂ f (Metric.ball (x : ℂ) R))
    (hr : ∀ t : ℝ, |t - x| < R → (f t).im = 0) (n : ℕ) : ∀ t : ℝ, |t - x| < R → (iteratedDeriv n f t).im = 0 := by
  have mem : ∀ t : ℝ, |t - x| < R → (t : ℂ) ∈ Metric.ball (x : ℂ) R := by
    intro t ht
    rw [Metric.mem_ball, Complex.dist_eq, ← Complex.ofReal_sub, Complex.norm_real]
    exact ht
  have an : AnalyticOnNhd ℂ f (Metric.ball (x : ℂ) R) := hf.analyticOnNhd Metric.isOpen_ball
  induction n with
  | zero => intro t ht; rw [iteratedDeriv_zero]; exact hr t ht
  | succ n ih =>
    intro t ht
    have han := an.iterated_deriv n
    rw [← iteratedDeriv_eq_iterate] at han
    have hd := ((han t (mem t ht)).differentiableAt).hasDerivAt.comp_ofReal
    have him := Complex.imCLM.hasFDerivAt.comp_hasDerivAt t hd
    have hz : (fun s : ℝ => (iteratedDeriv n f s).im) =ᶠ[nhds t] fun _ => 0 := by
      have ho : IsOpen {s : ℝ | |s - x| < R} := isOpen_lt (by fun_prop) (by fun_prop)
      filter_upwards [ho.mem_nhds ht] with s hs
      exact ih s hs
    have h0 : HasDerivAt (fun s : ℝ => (iteratedDeriv n f s).im) 0 t := (hasDerivAt_const t (0 : ℝ)).congr_of_eventuallyEq hz
    rw [iteratedDeriv_succ]
    exact him.unique h0

/-- Value and derivative by the complex step. -/
theorem complex_analytic {f : ℂ → ℂ} {x R B e : ℝ} (he : 0 < e) (hR : 2 * e ≤ R) (hf : DiffContOnCl ℂ f (Metric.ball (x : ℂ) R))
    (hB : ∀ z ∈ Metric.sphere (x : ℂ) R, ‖f z‖ ≤ B) (hr : ∀ t : ℝ, |t - x| < R → (f t).im = 0) :
    |(f ⟨x, e⟩).im - e * (deriv f x).re| ≤ 2 * B * (e / R) ^ 3 ∧ |(f ⟨x, e⟩).re - (f x).re| ≤ 2 * B * (e / R) ^ 2 := by
  have hR0 : 0 < R := by linarith
  have hq0 : 0 ≤ e / R := by positivity
  have hq : e / R ≤ 1 / 2 := by rw [div_le_iff₀ hR0]; linarith
  have hz : (⟨x, e⟩ : ℂ) - x = e * I := by apply Complex.ext <;> simp
  have hmem : (⟨x, e⟩ : ℂ) ∈ Metric.ball (x : ℂ) R := by
    rw [Metric.mem_ball, Complex.dist_eq, hz]
    simp [abs_of_pos he]
    linarith
  have hs := Complex.hasSum_taylorSeries_on_ball hf.differentiableOn hmem
  rw [hz] at hs
  have real := fun n => iteratedDeriv_real hf.differentiableOn hr n x (by simpa using hR0)
  have hB0 : 0 ≤ B := (norm_nonneg _).trans (hB (x + R) (by simp [abs_of_pos hR0]))
  have norm : ∀ n : ℕ, ‖((n.factorial : ℂ))⁻¹ • (e * I) ^ n • iteratedDeriv n f x‖ ≤ B * (e / R) ^ n := by
    intro n
    have h1 := Complex.norm_iteratedDeriv_le_of_forall_mem_sphere_norm_le n hR0 hf hB
    have h2 : (0 : ℝ) < n.factorial := by exact_mod_cast n.factorial_pos
    rw [norm_smul, norm_smul, norm_inv, norm_pow, norm_mul, Complex.norm_I, mul_one, Complex.norm_real, Real.norm_of_nonneg he.le,
      Complex.norm_natCast, div_pow]
    calc (n.factorial : ℝ)⁻¹ * (e ^ n * ‖iteratedDeriv n f x‖) ≤ (n.factorial : ℝ)⁻¹ * (e ^ n * (n.factorial * B / R ^ n)) := by gcongr
      _ = _ := by field_simp
  have geo : ∀ m : ℕ, HasSum (fun n : ℕ => B * (e / R) ^ (n + m)) (B * (e / R) ^ m * (1 - e / R)⁻¹) := by
    intro m
    have := (hasSum_geometric_of_lt_one hq0 (by linarith)).mul_left (B * (e / R) ^ m)
    have e2 : (fun n : ℕ => B * (e / R) ^ (n + m)) = fun n => B * (e / R) ^ m * (e / R) ^ n := by
      funext n; rw [pow_add]; ring
    rw [e2]
    exact this
  have le : ∀ m : ℕ, B * (e / R) ^ m * (1 - e / R)⁻¹ ≤ 2 * B * (e / R) ^ m := by
    intro m
    have h1 : (1 - e / R)⁻¹ ≤ 2 := by
      rw [inv_le_comm₀ (by linarith) (by norm_num)]
      linarith
    have h2 : 0 ≤ B * (e / R) ^ m := by positivity
    linarith [mul_le_mul_of_nonneg_left h1 h2]
  constructor
  · have h := (hasSum_nat_add_iff' 3).2 (Complex.hasSum_im hs)
    have b := (h.norm_le_of_bounded (geo 3) fun n => (Complex.abs_im_le_norm _).trans (norm (n + 3))).trans (le 3)
    refine le_trans (le_of_eq ?_) b
    rw [Real.norm_eq_abs]
    congr 2
    have r0 := real 0
    have r2 := real 2
    rw [iteratedDeriv_zero] at r0
    simp [Finset.sum_range_succ, r0, r2, pow_two, iteratedDeriv_one]
  · have h := (hasSum_nat_add_iff' 2).2 (Complex.hasSum_re hs)
    have b := (h.norm_le_of_bounded (geo 2) fun n => (Complex.abs_re_le_norm _).trans (norm (n + 2))).trans (le 2)
    refine le_trans (le_of_eq ?_) b
    rw [Real.norm_eq_abs]
    congr 2
    have r1 := real 1
    rw [iteratedDeriv_one] at r1
    simp [Finset.sum_range_succ, r1, iteratedDeriv_one]

end Verif.NDiff
