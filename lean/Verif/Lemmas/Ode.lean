import Verif.Model.Ode
import Verif.Spec.Ode
import Verif.Lemmas.Tactics
import Mathlib.Algebra.Order.Floor.Ring
import Mathlib.Analysis.SpecialFunctions.Exp
import Mathlib.Analysis.Complex.Exponential
import Mathlib.Analysis.Calculus.Deriv.MeanValue
import Mathlib.Analysis.Calculus.Deriv.Add
import Mathlib.Analysis.Calculus.Deriv.Mul
import Mathlib.Analysis.Calculus.Deriv.Comp

/-! # Helper lemmas for `ode_rk` -/

namespace Verif.Ode

section field
variable {α : Type*} [Field α] [LinearOrder α] [FloorRing α] [IsStrictOrderedRing α]

omit [LinearOrder α] [FloorRing α] [IsStrictOrderedRing α] in
theorem gridSol_shift (step : α → α → α → α) (t y h : α) (n : ℕ) :
    gridSol step (t + h) (step t y h) h n = gridSol step t y h (n + 1) := by
  induction n with
  | zero => simp [gridSol]
  | succ n ih =>
    rw [gridSol, ih]
    conv_rhs => rw [gridSol]
    congr 1
    push_cast; ring

omit [LinearOrder α] [FloorRing α] [IsStrictOrderedRing α] in
theorem stepLoop_eq (step : α → α → α → α) (h : α) (n : ℕ) (t y : α) :
    stepLoop step h n t y = (t + n * h, gridSol step t y h n) := by
  induction n generalizing t y with
  | zero => simp [stepLoop, gridSol]
  | succ n ih =>
    rw [stepLoop, ih, gridSol_shift]
    simp only [Prod.mk.injEq, and_true]
    push_cast; ring

/-- For an interval traversed in the direction of `h`, `integrate` is `n` full steps and one final shorter step that ends
exactly at `tf`. -/
theorem integrate_spec (step : α → α → α → α) (t0 tf y0 h : α) (hh : h ≠ 0) (hdir : 0 ≤ (tf - t0) / h) :
    ∃ (n : ℕ) (hf : α), t0 + n * h + hf = tf ∧ 0 ≤ hf / h ∧ hf / h < 1 ∧
      integrate step t0 tf y0 h = (tf, step (t0 + n * h) (gridSol step t0 y0 h n) hf) := by
  have hn : 0 ≤ ⌊(tf - t0) / h⌋ := Int.floor_nonneg.mpr hdir
  obtain ⟨n, hn'⟩ := Int.eq_ofNat_of_zero_le hn
  refine ⟨n, (tf - t0) - n * h, by ring, ?_, ?_, ?_⟩
  · have := Int.floor_le ((tf - t0) / h)
    rw [hn'] at this
    rw [sub_div, mul_div_assoc, div_self hh]
    push_cast at this
    linarith
  · have := Int.lt_floor_add_one ((tf - t0) / h)
    rw [hn'] at this
    rw [sub_div, mul_div_assoc, div_self hh]
    push_cast at this
    linarith
  · unfold integrate
    dsimp only
    rw [hn', stepLoop_eq]
    simp
/-- In the opposite direction no full step is made: there is a single step with the sign of `h`. -/
theorem integrate_backward (step : α → α → α → α) (t0 tf y0 h : α) (hh : h ≠ 0) (hdir : (tf - t0) / h < 0) :
    ∃ hf : α, 0 ≤ hf / h ∧ hf / h < 1 ∧ integrate step t0 tf y0 h = (t0 + hf, step t0 y0 hf) := by
  have hn : ⌊(tf - t0) / h⌋ < 0 := by
    rw [Int.floor_lt]; simpa using hdir
  refine ⟨(tf - t0) - ⌊(tf - t0) / h⌋ * h, ?_, ?_, ?_⟩
  · rw [sub_div, mul_div_assoc, div_self hh]
    have := Int.floor_le ((tf - t0) / h)
    linarith
  · rw [sub_div, mul_div_assoc, div_self hh]
    have := Int.lt_floor_add_one ((tf - t0) / h)
    linarith
  · unfold integrate
    dsimp only
    rw [show ⌊(tf - t0) / h⌋.toNat = 0 by omega]
    rfl

omit [LinearOrder α] [FloorRing α] [IsStrictOrderedRing α] in
/-- A step that is exact for a quadrature with antiderivative `P` gives exact grid values. -/
theorem gridSol_quadrature (step : α → α → α → α) (P : α → α)
    (hstep : ∀ t y h, step t y h = y + (P (t + h) - P t)) (t0 y0 h : α) (n : ℕ) :
    gridSol step t0 y0 h n = y0 + (P (t0 + n * h) - P t0) := by
  induction n with
  | zero => simp [gridSol]
  | succ n ih =>
    rw [gridSol, hstep, ih]
    rw [show t0 + n * h + h = t0 + ((n + 1 : ℕ) : α) * h by push_cast; ring]
    ring

theorem integrate_quadrature (step : α → α → α → α) (P : α → α)
    (hstep : ∀ t y h, step t y h = y + (P (t + h) - P t)) (t0 tf y0 h : α) (hh : h ≠ 0)
    (hdir : 0 ≤ (tf - t0) / h) : (integrate step t0 tf y0 h).2 = y0 + (P tf - P t0) := by
  obtain ⟨n, hf, h1, -, -, h2⟩ := integrate_spec step t0 tf y0 h hh hdir
  rw [h2]
  dsimp only
  rw [hstep, gridSol_quadrature step P hstep, h1]
  ring

omit [LinearOrder α] [FloorRing α] [IsStrictOrderedRing α] in
theorem gridSol_linear (step : α → α → α → α) (R : α → α)
    (hstep : ∀ t y h, step t y h = R h * y) (t0 y0 h : α) (n : ℕ) :
    gridSol step t0 y0 h n = R h ^ n * y0 := by
  induction n with
  | zero => simp [gridSol]
  | succ n ih => rw [gridSol, hstep, ih]; ring

end field

section real

/-- Discrete Gronwall: accumulation of local errors. -/
theorem gridSol_error (step : ℝ → ℝ → ℝ → ℝ) (y : ℝ → ℝ) (t0 h L τ : ℝ) (hh : 0 ≤ h) (hL : 0 ≤ L) (hτ : 0 ≤ τ)
    (hstab : ∀ t u v, |step t u h - step t v h| ≤ Real.exp (L * h) * |u - v|) (N : ℕ)
    (hloc : ∀ i < N, |y (t0 + i * h + h) - step (t0 + i * h) (y (t0 + i * h)) h| ≤ τ * h) (n : ℕ) (hn : n ≤ N) :
    |gridSol step t0 (y t0) h n - y (t0 + n * h)| ≤ Real.exp (L * (n * h)) * (n * h) * τ := by
  induction n with
  | zero => simp [gridSol]
  | succ n ih =>
    have ih := ih (by omega)
    have hl := hloc n (by omega)
    have hs := hstab (t0 + n * h) (gridSol step t0 (y t0) h n) (y (t0 + n * h))
    rw [gridSol]
    have e1 : t0 + ((n + 1 : ℕ) : ℝ) * h = t0 + n * h + h := by push_cast; ring
    rw [e1]
    have tri : |step (t0 + n * h) (gridSol step t0 (y t0) h n) h - y (t0 + n * h + h)| ≤
        |step (t0 + n * h) (gridSol step t0 (y t0) h n) h - step (t0 + n * h) (y (t0 + n * h)) h| +
        |y (t0 + n * h + h) - step (t0 + n * h) (y (t0 + n * h)) h| := by
      rw [abs_sub_comm (y (t0 + n * h + h))]
      exact abs_sub_le _ _ _
    have e2 : Real.exp (L * (((n + 1 : ℕ) : ℝ) * h)) = Real.exp (L * h) * Real.exp (L * (n * h)) := by
      rw [← Real.exp_add]; congr 1; push_cast; ring
    have h1 : (1 : ℝ) ≤ Real.exp (L * (((n + 1 : ℕ) : ℝ) * h)) := Real.one_le_exp (by positivity)
    calc _ ≤ Real.exp (L * h) * (Real.exp (L * (n * h)) * (n * h) * τ) + τ * h := by
          have := mul_le_mul_of_nonneg_left ih (Real.exp_pos (L * h)).le
          linarith
      _ ≤ Real.exp (L * (((n + 1 : ℕ) : ℝ) * h)) * (n * h) * τ
            + Real.exp (L * (((n + 1 : ℕ) : ℝ) * h)) * (τ * h) := by
          rw [e2]
          have : τ * h ≤ Real.exp (L * (((n + 1 : ℕ) : ℝ) * h)) * (τ * h) :=
            le_mul_of_one_le_left (by positivity) h1
          rw [e2] at this
          linarith
      _ = _ := by push_cast; ring

theorem stepRk1_stable (f : ℝ → ℝ → ℝ) (L : ℝ) (hL : 0 ≤ L) (hf : ∀ t u v, |f t u - f t v| ≤ L * |u - v|)
    (t u v h : ℝ) (hh : 0 ≤ h) : |stepRk1 f t u h - stepRk1 f t v h| ≤ Real.exp (L * h) * |u - v| := by
  have h1 : |stepRk1 f t u h - stepRk1 f t v h| ≤ (1 + L * h) * |u - v| := by
    have : stepRk1 f t u h - stepRk1 f t v h = (u - v) + h * (f t u - f t v) := by unfold stepRk1; ring
    rw [this]
    refine (abs_add_le _ _).trans ?_
    rw [abs_mul, abs_of_nonneg hh]
    have := mul_le_mul_of_nonneg_left (hf t u v) hh
    linarith
  have h2 := Real.add_one_le_exp (L * h)
  refine h1.trans (mul_le_mul_of_nonneg_right (by linarith) (abs_nonneg _))

theorem stepRk2_stable (f : ℝ → ℝ → ℝ) (L : ℝ) (hL : 0 ≤ L) (hf : ∀ t u v, |f t u - f t v| ≤ L * |u - v|)
    (t u v h : ℝ) (hh : 0 ≤ h) : |stepRk2 f t u h - stepRk2 f t v h| ≤ Real.exp (L * h) * |u - v| := by
  set d := |u - v| with hd
  have hd0 : 0 ≤ d := abs_nonneg _
  have a1 := hf t u v
  have a2 := hf (t + h / 2) (u + f t u * h / 2) (v + f t v * h / 2)
  have a3 : |(u + f t u * h / 2) - (v + f t v * h / 2)| ≤ d + h / 2 * (L * d) := by
    have : (u + f t u * h / 2) - (v + f t v * h / 2) = (u - v) + h / 2 * (f t u - f t v) := by ring
    rw [this]
    refine (abs_add_le _ _).trans ?_
    rw [abs_mul, abs_of_nonneg (by positivity : (0 : ℝ) ≤ h / 2)]
    have := mul_le_mul_of_nonneg_left a1 (by positivity : (0 : ℝ) ≤ h / 2)
    linarith
  have h1 : |stepRk2 f t u h - stepRk2 f t v h| ≤ (1 + L * h + (L * h) ^ 2 / 2) * d := by
    have : stepRk2 f t u h - stepRk2 f t v h = (u - v) +
        h * (f (t + h / 2) (u + f t u * h / 2) - f (t + h / 2) (v + f t v * h / 2)) := by unfold stepRk2; ring
    rw [this]
    refine (abs_add_le _ _).trans ?_
    rw [abs_mul, abs_of_nonneg hh]
    have b1 := mul_le_mul_of_nonneg_left a3 hL
    have b2 := mul_le_mul_of_nonneg_left (a2.trans b1) hh
    nlinarith
  have h2 := Real.quadratic_le_exp_of_nonneg (by positivity : 0 ≤ L * h)
  exact h1.trans (mul_le_mul_of_nonneg_right h2 hd0)

theorem stepRk4_stable (f : ℝ → ℝ → ℝ) (L : ℝ) (hL : 0 ≤ L) (hf : ∀ t u v, |f t u - f t v| ≤ L * |u - v|)
    (t u v h : ℝ) (hh : 0 ≤ h) : |stepRk4 f t u h - stepRk4 f t v h| ≤ Real.exp (L * h) * |u - v| := by
  have key : ∀ (t' a b c : ℝ) (p q : ℝ), 0 ≤ c → |p - q| ≤ a → |u - v| = b →
      |f t' (u + p * c) - f t' (v + q * c)| ≤ L * (b + c * a) := by
    intro t' a b c p q hc hpq hb
    refine (hf _ _ _).trans (mul_le_mul_of_nonneg_left ?_ hL)
    have : (u + p * c) - (v + q * c) = (u - v) + c * (p - q) := by ring
    rw [this]
    refine (abs_add_le _ _).trans ?_
    rw [abs_mul, abs_of_nonneg hc, hb]
    have := mul_le_mul_of_nonneg_left hpq hc
    linarith
  set d := |u - v| with hd
  have hd0 : 0 ≤ d := abs_nonneg _
  have h2 : 0 ≤ h / 2 := by positivity
  have a1 := hf t u v
  rw [← hd] at a1
  have a2 := key (t + h / 2) _ d (h / 2) _ _ h2 a1 rfl
  have a3 := key (t + h / 2) _ d (h / 2) _ _ h2 a2 rfl
  have a4 := key (t + h) _ d h _ _ hh a3 rfl
  have hx : 0 ≤ L * h := by positivity
  have hexp : 1 + L * h + (L * h) ^ 2 / 2 + (L * h) ^ 3 / 6 + (L * h) ^ 4 / 24 ≤ Real.exp (L * h) := by
    have := Real.sum_le_exp_of_nonneg hx 5
    simp only [Finset.sum_range_succ, Finset.sum_range_zero, Nat.factorial] at this
    norm_num at this
    linarith
  refine le_trans ?_ (mul_le_mul_of_nonneg_right hexp hd0)
  unfold stepRk4
  dsimp only
  simp only [mul_div_assoc]
  set k1 := f t u
  set k1' := f t v
  set k2 := f (t + h / 2) (u + k1 * (h / 2))
  set k2' := f (t + h / 2) (v + k1' * (h / 2))
  set k3 := f (t + h / 2) (u + k2 * (h / 2))
  set k3' := f (t + h / 2) (v + k2' * (h / 2))
  set k4 := f (t + h) (u + k3 * h)
  set k4' := f (t + h) (v + k3' * h)
  have : u + (k1 + 2 * k2 + 2 * k3 + k4) * (h / 6) - (v + (k1' + 2 * k2' + 2 * k3' + k4') * (h / 6)) =
      (u - v) + h / 6 * ((k1 - k1') + 2 * (k2 - k2') + 2 * (k3 - k3') + (k4 - k4')) := by ring
  rw [this]
  refine (abs_add_le _ _).trans ?_
  rw [abs_mul, abs_of_nonneg (by positivity : (0 : ℝ) ≤ h / 6)]
  have b : |(k1 - k1') + 2 * (k2 - k2') + 2 * (k3 - k3') + (k4 - k4')| ≤
      |k1 - k1'| + 2 * |k2 - k2'| + 2 * |k3 - k3'| + |k4 - k4'| := by
    refine (abs_add_le _ _).trans (add_le_add ?_ le_rfl)
    refine (abs_add_le _ _).trans (add_le_add ?_ ?_)
    · refine (abs_add_le _ _).trans (add_le_add le_rfl ?_)
      rw [abs_mul, abs_two]
    · rw [abs_mul, abs_two]
  have c : |(k1 - k1') + 2 * (k2 - k2') + 2 * (k3 - k3') + (k4 - k4')| ≤
      L * d + 2 * (L * (d + h / 2 * (L * d))) + 2 * (L * (d + h / 2 * (L * (d + h / 2 * (L * d))))) +
      L * (d + h * (L * (d + h / 2 * (L * (d + h / 2 * (L * d)))))) := by linarith
  have := mul_le_mul_of_nonneg_left c (by positivity : (0 : ℝ) ≤ h / 6)
  refine (add_le_add le_rfl this).trans (le_of_eq ?_)
  ring

/-- Global error of `integrate` for a stable step. -/
theorem integrate_error (step : ℝ → ℝ → ℝ → ℝ) (y : ℝ → ℝ) (t0 tf h L τ : ℝ) (hh : 0 < h) (hT : t0 ≤ tf) (hL : 0 ≤ L)
    (hτ : 0 ≤ τ) (hstab : ∀ t u v s, 0 ≤ s → |step t u s - step t v s| ≤ Real.exp (L * s) * |u - v|)
    (hloc : ∀ t s, t0 ≤ t → 0 ≤ s → s ≤ h → t + s ≤ tf → |y (t + s) - step t (y t) s| ≤ τ * s) :
    |(integrate step t0 tf (y t0) h).2 - y tf| ≤ Real.exp (L * (tf - t0)) * (tf - t0) * τ := by
  obtain ⟨n, hf, h1, h2, h3, h4⟩ := integrate_spec step t0 tf (y t0) h hh.ne' (div_nonneg (by linarith) hh.le)
  rw [h4]
  dsimp only
  have hf0 : 0 ≤ hf := by
    have := mul_nonneg h2 hh.le; rwa [div_mul_cancel₀ _ hh.ne'] at this
  have hf1 : hf ≤ h := by
    rw [div_lt_one hh] at h3; exact h3.le
  have hg := gridSol_error step y t0 h L τ hh.le hL hτ (fun t u v => hstab t u v h hh.le) n
    (fun i hi => hloc _ _ (by have : 0 ≤ (i : ℝ) * h := by positivity
                              linarith) hh.le le_rfl (by
      have : ((i : ℝ) + 1) * h ≤ n * h := mul_le_mul_of_nonneg_right (by exact_mod_cast hi) hh.le
      nlinarith)) n le_rfl
  have hl := hloc (t0 + n * h) hf (by have : 0 ≤ (n : ℝ) * h := by positivity
                                      linarith) hf0 hf1 (by linarith)
  have hs := hstab (t0 + n * h) (gridSol step t0 (y t0) h n) (y (t0 + n * h)) hf hf0
  rw [h1] at hl
  have hTe : tf - t0 = n * h + hf := by linarith
  have tri := abs_sub_le (step (t0 + n * h) (gridSol step t0 (y t0) h n) hf) (step (t0 + n * h) (y (t0 + n * h)) hf) (y tf)
  rw [abs_sub_comm (step (t0 + n * h) (y (t0 + n * h)) hf) (y tf)] at tri
  have e2 : Real.exp (L * (tf - t0)) = Real.exp (L * hf) * Real.exp (L * (n * h)) := by
    rw [← Real.exp_add, hTe]; congr 1; ring
  have h1' : (1 : ℝ) ≤ Real.exp (L * (tf - t0)) := Real.one_le_exp (mul_nonneg hL (by linarith))
  have := mul_le_mul_of_nonneg_left hg (Real.exp_pos (L * hf)).le
  have h5 : τ * hf ≤ Real.exp (L * (tf - t0)) * (τ * hf) := le_mul_of_one_le_left (by positivity) h1'
  have h6 : Real.exp (L * hf) * (Real.exp (L * (n * h)) * (n * h) * τ) = Real.exp (L * (tf - t0)) * (n * h) * τ := by
    rw [e2]; ring
  rw [abs_sub_comm]
  calc |y tf - step (t0 + n * h) (gridSol step t0 (y t0) h n) hf|
      ≤ Real.exp (L * (tf - t0)) * (n * h) * τ + Real.exp (L * (tf - t0)) * (τ * hf) := by
        rw [abs_sub_comm]; linarith
    _ = _ := by rw [hTe]; ring

/-- Mean value estimate on one step. -/
theorem taylor1 (y y' : ℝ → ℝ) (hy : ∀ t, HasDerivAt y (y' t) t) (M : ℝ) (hM : 0 ≤ M)
    (hLip : ∀ t s, |y' t - y' s| ≤ M * |t - s|) (t s : ℝ) (hs : 0 ≤ s) :
    |y (t + s) - (y t + s * y' t)| ≤ M * s ^ 2 := by
  rcases hs.eq_or_lt with rfl | hs
  · simp
  obtain ⟨c, ⟨hc1, hc2⟩, hc⟩ := exists_hasDerivAt_eq_slope y y' (show t < t + s by linarith)
    (fun x _ => (hy x).continuousAt.continuousWithinAt) (fun x _ => hy x)
  have e : y (t + s) - (y t + s * y' t) = s * (y' c - y' t) := by
    rw [mul_sub, hc, add_sub_cancel_left]; field_simp; ring
  rw [e, abs_mul, abs_of_pos hs]
  have h1 := hLip c t
  have h2 : |c - t| ≤ s := by rw [abs_of_pos (by linarith)]; linarith
  have h3 := h1.trans (mul_le_mul_of_nonneg_left h2 hM)
  have := mul_le_mul_of_nonneg_left h3 hs.le
  nlinarith

/-- Midpoint estimate on one step. -/
theorem midpoint2 (y y' y'' : ℝ → ℝ) (hy : ∀ t, HasDerivAt y (y' t) t) (hy' : ∀ t, HasDerivAt y' (y'' t) t) (M : ℝ)
    (hM : 0 ≤ M) (hLip : ∀ t s, |y'' t - y'' s| ≤ M * |t - s|) (m u : ℝ) (hu : 0 ≤ u) :
    |y (m + u) - y (m - u) - 2 * u * y' m| ≤ 2 * M * u ^ 3 := by
  rcases hu.eq_or_lt with rfl | hu
  · simp
  have hφ : ∀ v, HasDerivAt (fun v => y (m + v) - y (m - v) - 2 * v * y' m) (y' (m + v) + y' (m - v) - 2 * y' m) v := by
    intro v
    have h1 : HasDerivAt (fun v => y (m + v)) (y' (m + v) * 1) v :=
      HasDerivAt.comp v (hy (m + v)) ((hasDerivAt_id v).const_add m)
    have h2 : HasDerivAt (fun v => y (m - v)) (y' (m - v) * (-1)) v :=
      HasDerivAt.comp v (hy (m - v)) ((hasDerivAt_id v).const_sub m)
    have h3 : HasDerivAt (fun v : ℝ => 2 * v * y' m) (2 * 1 * y' m) v :=
      ((hasDerivAt_id v).const_mul 2).mul_const (y' m)
    refine ((h1.sub h2).sub h3).congr_deriv ?_
    ring
  obtain ⟨c, ⟨hc1, hc2⟩, hc⟩ := exists_hasDerivAt_eq_slope _ _ hu
    (fun x _ => (hφ x).continuousAt.continuousWithinAt) (fun x _ => hφ x)
  obtain ⟨a, ⟨ha1, ha2⟩, ha⟩ := exists_hasDerivAt_eq_slope y' y'' (show m < m + c by linarith)
    (fun x _ => (hy' x).continuousAt.continuousWithinAt) (fun x _ => hy' x)
  obtain ⟨b, ⟨hb1, hb2⟩, hb⟩ := exists_hasDerivAt_eq_slope y' y'' (show m - c < m by linarith)
    (fun x _ => (hy' x).continuousAt.continuousWithinAt) (fun x _ => hy' x)
  have e1 : y' (m + c) + y' (m - c) - 2 * y' m = c * (y'' a - y'' b) := by
    have hc0 := hc1.ne'
    rw [mul_sub, ha, hb, add_sub_cancel_left, sub_sub_cancel]; field_simp; ring
  have e2 : y (m + u) - y (m - u) - 2 * u * y' m = u * (c * (y'' a - y'' b)) := by
    rw [← e1, hc]; field_simp; simp; ring
  rw [e2, abs_mul, abs_mul, abs_of_pos hu, abs_of_pos hc1]
  have h1 := hLip a b
  have h2 : |a - b| ≤ 2 * u := by rw [abs_of_pos (by linarith)]; linarith
  have h3 := h1.trans (mul_le_mul_of_nonneg_left h2 hM)
  have h4 : c * |y'' a - y'' b| ≤ u * (M * (2 * u)) :=
    mul_le_mul hc2.le h3 (abs_nonneg _) hu.le
  have := mul_le_mul_of_nonneg_left h4 hu.le
  nlinarith

end real

end Verif.Ode
