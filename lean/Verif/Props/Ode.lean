import Verif.Lemmas.OdeRk4
import Mathlib.Analysis.SpecialFunctions.ExpDeriv
import Mathlib.Analysis.Calculus.Deriv.Pow

/-!
# C11: `ode_rk` integrates over exactly `[t0, tf]` with the promised order

`Ode.odeRk f t0 tf y0 h order` models the public function.
-/

namespace Verif.Ode

variable {α : Type*} [Field α] [LinearOrder α] [FloorRing α] [IsStrictOrderedRing α]

/-- The one-step method behind an order, spelled out independently of the model. -/
def textbookStep (order : ℕ) (f : α → α → α) (t y h : α) : α :=
  match order with
  | 1 => y + h * f t y
  | 2 => y + h * f (t + h / 2) (y + h / 2 * f t y)
  | _ =>
    y + h / 6 * (f t y
      + 2 * f (t + h / 2) (y + h / 2 * f t y)
      + 2 * f (t + h / 2) (y + h / 2 * f (t + h / 2) (y + h / 2 * f t y))
      + f (t + h) (y + h * f (t + h / 2) (y + h / 2 * f (t + h / 2) (y + h / 2 * f t y))))

omit [LinearOrder α] [FloorRing α] [IsStrictOrderedRing α] in
theorem textbook_rk1 (f : α → α → α) : textbookStep 1 f = stepRk1 f := by
  funext t y h; simp only [textbookStep, stepRk1]; ring

omit [LinearOrder α] [FloorRing α] [IsStrictOrderedRing α] in
theorem textbook_rk2 (f : α → α → α) : textbookStep 2 f = stepRk2 f := by
  funext t y h; simp only [textbookStep, stepRk2]
  rw [show h / 2 * f t y = f t y * h / 2 by ring]; ring

omit [LinearOrder α] [FloorRing α] [IsStrictOrderedRing α] in
theorem textbook_rk4 (f : α → α → α) : textbookStep 4 f = stepRk4 f := by
  funext t y h; simp only [textbookStep, stepRk4]
  rw [show h / 2 * f t y = f t y * h / 2 by ring,
    show h / 2 * f (t + h / 2) (y + f t y * h / 2) = f (t + h / 2) (y + f t y * h / 2) * h / 2 by ring]
  rw [mul_comm h (f (t + h / 2) (y + f (t + h / 2) (y + f t y * h / 2) * h / 2))]
  ring

omit [IsStrictOrderedRing α] in
theorem odeRk_ok (f : α → α → α) (t0 tf y0 h : α) (hh : h ≠ 0) (order : ℕ) (ho : order = 1 ∨ order = 2 ∨ order = 4) :
    odeRk f t0 tf y0 h order = .ok (integrate (textbookStep order f) t0 tf y0 h).2 := by
  rcases ho with rfl | rfl | rfl
  · simp [odeRk, hh, textbook_rk1]
  · simp [odeRk, hh, textbook_rk2]
  · simp [odeRk, hh, textbook_rk4]

/-- **C11.** When `h` points from `t0` to `tf`, `ode_rk` makes a number `n` of full Runge-Kutta steps of the requested
order on the grid `t0 + i h`, followed by one step of length `hf`, a fraction in `[0,1)` of `h`, that ends exactly
at `tf`. -/
theorem C11_steps_cover_interval (f : α → α → α) (t0 tf y0 h : α) (order : ℕ)
    (ho : order = 1 ∨ order = 2 ∨ order = 4) (hh : h ≠ 0) (hdir : 0 ≤ (tf - t0) / h) :
    ∃ (n : ℕ) (hf : α), t0 + n * h + hf = tf ∧ 0 ≤ hf / h ∧ hf / h < 1 ∧
      odeRk f t0 tf y0 h order =
        .ok (textbookStep order f (t0 + n * h) (gridSol (textbookStep order f) t0 y0 h n) hf) := by
  obtain ⟨n, hf, h1, h2, h3, h4⟩ := integrate_spec (textbookStep order f) t0 tf y0 h hh hdir
  exact ⟨n, hf, h1, h2, h3, by rw [odeRk_ok f t0 tf y0 h hh order ho, h4]⟩

example : odeRk (fun _ y : ℚ => y) 0 (5 / 2) 1 1 1 = .ok 6 := by
  have : ⌊(5 / 2 : ℚ)⌋ = 2 := by rw [Int.floor_eq_iff]; norm_num
  norm_num [odeRk, integrate, this, show Int.toNat 2 = 2 from rfl, stepLoop, stepRk1]

/-- **C11.** Orders 1, 2 and 4 integrate right-hand sides that are polynomials in `t` of degree 0, 1 and 3 exactly, for any
step size. -/
theorem C11_exact_quadrature (c0 c1 c2 c3 t0 tf y0 h : α) (hh : h ≠ 0) (hdir : 0 ≤ (tf - t0) / h) :
    odeRk (fun _ _ => c0) t0 tf y0 h 1 = .ok (y0 + c0 * (tf - t0)) ∧
    odeRk (fun t _ => c0 + c1 * t) t0 tf y0 h 2 = .ok (y0 + c0 * (tf - t0) + c1 / 2 * (tf ^ 2 - t0 ^ 2)) ∧
    odeRk (fun t _ => c0 + c1 * t + c2 * t ^ 2 + c3 * t ^ 3) t0 tf y0 h 4 =
      .ok (y0 + c0 * (tf - t0) + c1 / 2 * (tf ^ 2 - t0 ^ 2) + c2 / 3 * (tf ^ 3 - t0 ^ 3) + c3 / 4 * (tf ^ 4 - t0 ^ 4)) := by
  refine ⟨?_, ?_, ?_⟩
  · simp only [odeRk, if_true, hh, if_false]
    rw [integrate_quadrature _ (fun t => c0 * t) _ _ _ _ _ hh hdir]
    · congr 1; ring
    · intro t y h; simp only [stepRk1]; ring
  · norm_num [odeRk, hh]
    rw [integrate_quadrature _ (fun t => c0 * t + c1 / 2 * t ^ 2) _ _ _ _ _ hh hdir]
    · ring
    · intro t y h; simp only [stepRk2]; field_simp; ring
  · norm_num [odeRk, hh]
    rw [integrate_quadrature _ (fun t => c0 * t + c1 / 2 * t ^ 2 + c2 / 3 * t ^ 3 + c3 / 4 * t ^ 4) _ _ _ _ _ hh hdir]
    · ring
    · intro t y h; simp only [stepRk4]; field_simp; ring

/-- **C11.** On `y' = λ y` every step of length `s` multiplies by the Taylor polynomial of `exp(λ s)` of the degree of the
order. -/
theorem C11_linear_ode (lam t0 tf y0 h : α) (hh : h ≠ 0) (hdir : 0 ≤ (tf - t0) / h) :
    ∃ (n : ℕ) (hf : α), n * h + hf = tf - t0 ∧ 0 ≤ hf / h ∧ hf / h < 1 ∧
      (∀ R : α → α, (∀ s, R s = 1 + lam * s) →
        odeRk (fun _ y => lam * y) t0 tf y0 h 1 = .ok (R hf * R h ^ n * y0)) ∧
      (∀ R : α → α, (∀ s, R s = 1 + lam * s + (lam * s) ^ 2 / 2) →
        odeRk (fun _ y => lam * y) t0 tf y0 h 2 = .ok (R hf * R h ^ n * y0)) ∧
      (∀ R : α → α, (∀ s, R s = 1 + lam * s + (lam * s) ^ 2 / 2 + (lam * s) ^ 3 / 6 + (lam * s) ^ 4 / 24) →
        odeRk (fun _ y => lam * y) t0 tf y0 h 4 = .ok (R hf * R h ^ n * y0)) := by
  have hn : 0 ≤ ⌊(tf - t0) / h⌋ := Int.floor_nonneg.mpr hdir
  obtain ⟨n, hn'⟩ := Int.eq_ofNat_of_zero_le hn
  have key : ∀ step : α → α → α → α, (integrate step t0 tf y0 h).2 =
      step (t0 + n * h) (gridSol step t0 y0 h n) ((tf - t0) - n * h) := by
    intro step
    unfold integrate
    dsimp only
    rw [hn', stepLoop_eq]
    simp
  refine ⟨n, (tf - t0) - n * h, by ring, ?_, ?_, ?_, ?_, ?_⟩
  · have := Int.floor_le ((tf - t0) / h)
    rw [hn'] at this
    rw [sub_div, mul_div_assoc, div_self hh]
    push_cast at this
    linarith
  · have := Int.lt_floor_add_one ((tf - t0) / h)
    rw [hn'] at this
    rw [sub_div, mul_div_assoc, div_self hh]
    push_cast at this
    linarith
  · intro R hR
    have hs : ∀ t y h : α, stepRk1 (fun _ y => lam * y) t y h = R h * y := by
      intro t y h; rw [hR]; simp only [stepRk1]; ring
    simp only [odeRk, if_true, hh, if_false]
    rw [key, hs, gridSol_linear _ R hs]
    congr 1; ring
  · intro R hR
    have hs : ∀ t y h : α, stepRk2 (fun _ y => lam * y) t y h = R h * y := by
      intro t y h; rw [hR]; simp only [stepRk2]; field_simp; ring
    norm_num [odeRk, hh]
    rw [key, hs, gridSol_linear _ R hs]
    ring
  · intro R hR
    have hs : ∀ t y h : α, stepRk4 (fun _ y => lam * y) t y h = R h * y := by
      intro t y h; rw [hR]; simp only [stepRk4]; field_simp; ring
    norm_num [odeRk, hh]
    rw [key, hs, gridSol_linear _ R hs]
    ring

-- non-vacuity of the direction hypothesis, forwards and backwards
example : (0 : ℚ) ≤ (2 - 1) / (1 / 3) ∧ (0 : ℚ) ≤ (1 - 2) / (-1 / 3) := by norm_num

/-- **C11.** Any other order is refused with `ValueError`; a zero step with `ZeroDivisionError`. -/
theorem C11_refusal (f : α → α → α) (t0 tf y0 h : α) (order : ℕ) :
    (order ≠ 1 → order ≠ 2 → order ≠ 4 → odeRk f t0 tf y0 h order = .error .ValueError) ∧
    ((order = 1 ∨ order = 2 ∨ order = 4) → h = 0 → odeRk f t0 tf y0 h order = .error .ZeroDivisionError) := by
  refine ⟨fun h1 h2 h4 => by simp [odeRk, h1, h2, h4], ?_⟩
  rintro (rfl | rfl | rfl) rfl <;> simp [odeRk]

/-- **C11 (negative result).** If `h` points away from `tf` (for instance `h > 0` and `tf < t0`) nothing is raised and the
answer belongs to another time: on `y' = 1` all three orders return a value different from the exact `y0 + (tf - t0)`. -/
theorem C11_wrong_direction_silently_wrong (t0 tf y0 h : α) (order : ℕ) (ho : order = 1 ∨ order = 2 ∨ order = 4)
    (hh : h ≠ 0) (hdir : (tf - t0) / h < 0) :
    ∃ y, odeRk (fun _ _ => 1) t0 tf y0 h order = .ok y ∧ y ≠ y0 + (tf - t0) := by
  obtain ⟨hf, h1, -, h2⟩ := integrate_backward (textbookStep order (fun _ _ : α => (1 : α))) t0 tf y0 h hh hdir
  refine ⟨_, odeRk_ok _ t0 tf y0 h hh order ho, ?_⟩
  rw [h2]
  have : textbookStep order (fun _ _ : α => (1 : α)) t0 y0 hf = y0 + hf := by
    rcases ho with rfl | rfl | rfl <;> simp only [textbookStep] <;> ring
  dsimp only
  rw [this]
  intro hc
  have : hf = tf - t0 := by linear_combination hc
  rw [this] at h1
  linarith

/-- **C11 (negative result), concrete.** Integrating `y' = 1` from `t = 1` back to `t = 0` with `h = 1` returns `y(1)`. -/
theorem C11_backward_false : odeRk (fun _ _ => 1) 1 0 5 1 4 = .ok (5 : ℚ) := by
  have : ⌊(-1 : ℚ)⌋ = -1 := by rw [Int.floor_eq_iff]; norm_num
  norm_num [odeRk, integrate, this, show (-1 : ℤ).toNat = 0 from rfl, stepLoop, stepRk4]

/-- **C11.** First-order convergence of order 1: for a right-hand side that is `L`-Lipschitz in `y`, and an exact solution
whose slope is `M`-Lipschitz in time, the global error is at most `M e^{L(tf-t0)} (tf-t0) · h`. -/
theorem C11_order1_converges (f : ℝ → ℝ → ℝ) (y : ℝ → ℝ) (t0 tf h L M : ℝ) (hh : 0 < h) (hT : t0 ≤ tf) (hL : 0 ≤ L)
    (hM : 0 ≤ M) (hf : ∀ t u v, |f t u - f t v| ≤ L * |u - v|) (hy : ∀ t, HasDerivAt y (f t (y t)) t)
    (hLip : ∀ t s, |f t (y t) - f s (y s)| ≤ M * |t - s|) :
    ∃ v, odeRk f t0 tf (y t0) h 1 = .ok v ∧
      |v - y tf| ≤ Real.exp (L * (tf - t0)) * (tf - t0) * (M * h) := by
  refine ⟨(integrate (stepRk1 f) t0 tf (y t0) h).2, by simp [odeRk, hh.ne'], ?_⟩
  refine integrate_error _ y t0 tf h L (M * h) hh hT hL (by positivity)
    (fun t u v s hs => stepRk1_stable f L hL hf t u v s hs) ?_
  intro t s _ hs hsh _
  have := taylor1 y (fun t => f t (y t)) hy M hM hLip t s hs
  simp only [stepRk1]
  rw [mul_comm (f t (y t)) s]
  refine this.trans ?_
  have := mul_le_mul_of_nonneg_left hsh (mul_nonneg hM hs)
  nlinarith

/-- **C11.** Second-order convergence of order 2, for solutions with Lipschitz first and second derivatives. -/
theorem C11_order2_converges (f : ℝ → ℝ → ℝ) (y y'' : ℝ → ℝ) (t0 tf h L M M2 : ℝ) (hh : 0 < h) (hT : t0 ≤ tf)
    (hL : 0 ≤ L) (hM : 0 ≤ M) (hM2 : 0 ≤ M2) (hf : ∀ t u v, |f t u - f t v| ≤ L * |u - v|)
    (hy : ∀ t, HasDerivAt y (f t (y t)) t) (hLip : ∀ t s, |f t (y t) - f s (y s)| ≤ M * |t - s|)
    (hy2 : ∀ t, HasDerivAt (fun t => f t (y t)) (y'' t) t) (hLip2 : ∀ t s, |y'' t - y'' s| ≤ M2 * |t - s|) :
    ∃ v, odeRk f t0 tf (y t0) h 2 = .ok v ∧
      |v - y tf| ≤ Real.exp (L * (tf - t0)) * (tf - t0) * ((M2 + L * M) / 4 * h ^ 2) := by
  refine ⟨(integrate (stepRk2 f) t0 tf (y t0) h).2, by simp [odeRk, hh.ne'], ?_⟩
  refine integrate_error _ y t0 tf h L _ hh hT hL (by positivity)
    (fun t u v s hs => stepRk2_stable f L hL hf t u v s hs) ?_
  intro t s _ hs hsh _
  have a1 := taylor1 y (fun t => f t (y t)) hy M hM hLip t (s / 2) (by positivity)
  have a2 := midpoint2 y (fun t => f t (y t)) y'' hy hy2 M2 hM2 hLip2 (t + s / 2) (s / 2) (by positivity)
  rw [show t + s / 2 + s / 2 = t + s by ring, show t + s / 2 - s / 2 = t by ring] at a2
  have a3 := hf (t + s / 2) (y (t + s / 2)) (y t + f t (y t) * s / 2)
  have a4 : |f (t + s / 2) (y (t + s / 2)) - f (t + s / 2) (y t + f t (y t) * s / 2)| ≤ L * (M * (s / 2) ^ 2) := by
    refine a3.trans (mul_le_mul_of_nonneg_left ?_ hL)
    rw [show y t + f t (y t) * s / 2 = y t + s / 2 * f t (y t) by ring]
    exact a1
  have e : y (t + s) - stepRk2 f t (y t) s =
      (y (t + s) - y t - 2 * (s / 2) * f (t + s / 2) (y (t + s / 2))) +
        s * (f (t + s / 2) (y (t + s / 2)) - f (t + s / 2) (y t + f t (y t) * s / 2)) := by
    simp only [stepRk2]; ring
  rw [e]
  refine (abs_add_le _ _).trans ?_
  rw [abs_mul, abs_of_nonneg hs]
  have a5 := mul_le_mul_of_nonneg_left a4 hs
  have hc : 0 ≤ (M2 + L * M) / 4 * s := by positivity
  have h2 : s ^ 2 ≤ h ^ 2 := pow_le_pow_left₀ hs hsh 2
  have := mul_le_mul_of_nonneg_left h2 hc
  nlinarith

/-- **C11.** Fourth-order convergence of order 4: for every four times continuously differentiable right-hand side, Lipschitz in `y`, the error at `tf` is at most
a constant times `h⁴`, for all step sizes. -/
theorem C11_order4_converges (f : ℝ → ℝ → ℝ) (y : ℝ → ℝ) (t0 tf L : ℝ) (hT : t0 ≤ tf) (hL : 0 ≤ L) (hf : ∀ t u v, |f t u - f t v| ≤ L * |u - v|)
    (hs : ContDiff ℝ 4 fun p : ℝ × ℝ => f p.1 p.2) (hy : ∀ t, HasDerivAt y (f t (y t)) t) :
    ∃ C, 0 ≤ C ∧ ∀ h, 0 < h → ∃ v, odeRk f t0 tf (y t0) h 4 = .ok v ∧ |v - y tf| ≤ C * h ^ 4 := by
  obtain ⟨C, hC, hloc⟩ := rk4_smooth f y t0 tf hs hy
  refine ⟨Real.exp (L * (tf - t0)) * (tf - t0) * C, mul_nonneg (mul_nonneg (Real.exp_pos _).le (by linarith)) hC, fun h hh => ?_⟩
  refine ⟨(integrate (stepRk4 f) t0 tf (y t0) h).2, by simp [odeRk, hh.ne'], ?_⟩
  rw [mul_assoc]
  refine integrate_error _ y t0 tf h L (C * h ^ 4) hh hT hL (by positivity)
    (fun t u v s hs => stepRk4_stable f L hL hf t u v s hs) ?_
  intro t s ht hs hsh hts
  refine (hloc t s ht hs hts).trans ?_
  have h2 : s ^ 4 ≤ h ^ 4 := pow_le_pow_left₀ hs hsh 4
  have := mul_le_mul_of_nonneg_left h2 (mul_nonneg hC hs)
  nlinarith

-- non-vacuity: `y' = y + t` with `y = 2 eᵗ - t - 1` (the example of the docstring)
example : ∃ C, 0 ≤ C ∧ ∀ h, 0 < h → ∃ v, odeRk (fun t y => y + t) 0 2 1 h 4 = .ok v ∧ |v - (2 * Real.exp 2 - 3)| ≤ C * h ^ 4 := by
  have := C11_order4_converges (fun t y => y + t) (fun t => 2 * Real.exp t - t - 1) 0 2 1 (by norm_num) (by norm_num)
    (fun t u v => by rw [add_sub_add_right_eq_sub, one_mul]) (contDiff_snd.add contDiff_fst)
    (fun t => ((((Real.hasDerivAt_exp t).const_mul 2).sub (hasDerivAt_id t)).sub_const 1).congr_deriv (by ring))
  have e1 : (2 : ℝ) * Real.exp 0 - 0 - 1 = 1 := by rw [Real.exp_zero]; norm_num
  have e2 : (2 : ℝ) * Real.exp 2 - 2 - 1 = 2 * Real.exp 2 - 3 := by ring
  simpa only [e1, e2] using this

-- non-vacuity: `y' = t`, `y = t²/2` meets all the smoothness hypotheses (with L = 0, M = 1, M2 = 0)
example : (∀ t u v : ℝ, |t - t| ≤ 0 * |u - v|) ∧ (∀ t : ℝ, HasDerivAt (fun t : ℝ => t ^ 2 / 2) t t) ∧
    (∀ t s : ℝ, |t - s| ≤ 1 * |t - s|) ∧ (∀ t : ℝ, HasDerivAt (fun t : ℝ => t) 1 t) := by
  refine ⟨fun t u v => by simp, fun t => ?_, fun t s => by simp, fun t => hasDerivAt_id t⟩
  have := (hasDerivAt_pow 2 t).div_const 2
  refine this.congr_deriv ?_
  norm_num

end Verif.Ode
