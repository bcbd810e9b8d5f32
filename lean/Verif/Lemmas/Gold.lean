import Verif.Model.Gold
import Verif.Lemmas.Dist
import Verif.Lemmas.DistCont
import Mathlib.Analysis.Calculus.Deriv.MeanValue
import Mathlib.Analysis.SpecialFunctions.Exponential
import Mathlib.Analysis.SpecialFunctions.Exp

/-! # Helper lemmas: Weibull-Nycander-Gold distribution -/

namespace Verif.Gold

open Real Verif.Dist Filter Topology

/-- Remainder of the exponential series. -/
noncomputable def h (k : ℕ) (x : ℝ) : ℝ := exp x - ∑ j ∈ Finset.range k, x ^ j / (j.factorial : ℝ)

theorem h_zero (x : ℝ) : h 0 x = exp x := by simp [h]

theorem h_succ (k : ℕ) (x : ℝ) : h k x = h (k + 1) x + x ^ k / (k.factorial : ℝ) := by
  unfold h; rw [Finset.sum_range_succ]; ring

theorem h_at_zero (k : ℕ) : h (k + 1) 0 = 0 := by
  unfold h
  rw [Finset.sum_range_succ']
  simp

theorem h_deriv (k : ℕ) (x : ℝ) : HasDerivAt (h (k + 1)) (h k x) x := by
  induction k with
  | zero =>
    have : HasDerivAt (fun y => exp y - 1) (exp x) x := (hasDerivAt_exp x).sub_const 1
    rw [h_zero]
    refine this.congr_of_eventuallyEq (Eventually.of_forall fun y => ?_)
    simp [h]
  | succ k ih =>
    have h1 : HasDerivAt (fun y => h (k + 1) y - y ^ (k + 1) / ((k + 1).factorial : ℝ)) (h k x - (((k + 1 : ℕ) : ℝ) * x ^ (k + 1 - 1)) / ((k + 1).factorial : ℝ)) x :=
      ih.sub ((hasDerivAt_pow (k + 1) x).div_const _)
    have e : (fun y => h (k + 1) y - y ^ (k + 1) / ((k + 1).factorial : ℝ)) = h (k + 1 + 1) := by
      funext y; rw [h_succ (k + 1)]; ring
    rw [e] at h1
    refine h1.congr_deriv ?_
    rw [h_succ k, Nat.factorial_succ]
    have : (k.factorial : ℝ) ≠ 0 := by positivity
    have : ((k : ℝ) + 1) ≠ 0 := by positivity
    push_cast
    field_simp
    simp

theorem h_cont (k : ℕ) : Continuous (h k) := by
  unfold h; fun_prop

theorem h_pos (k : ℕ) {x : ℝ} (hx : 0 < x) : 0 < h k x := by
  induction k generalizing x with
  | zero => rw [h_zero]; exact exp_pos x
  | succ k ih =>
    have sm : StrictMonoOn (h (k + 1)) (Set.Ici 0) := by
      refine strictMonoOn_of_deriv_pos (convex_Ici 0) (h_cont _).continuousOn fun y hy => ?_
      rw [interior_Ici] at hy
      rw [(h_deriv k y).deriv]
      exact ih hy
    have := sm (Set.mem_Ici.2 le_rfl) (Set.mem_Ici.2 hx.le) hx
    rwa [h_at_zero] at this

theorem h_sign (k : ℕ) {x : ℝ} (hx : x < 0) : 0 < (-1) ^ k * h k x := by
  induction k generalizing x with
  | zero => rw [h_zero]; simpa using exp_pos x
  | succ k ih =>
    have hd : ∀ y, HasDerivAt (fun y => (-1) ^ (k + 1) * h (k + 1) y) ((-1) ^ (k + 1) * h k y) y := fun y => (h_deriv k y).const_mul _
    have sm : StrictAntiOn (fun y => (-1) ^ (k + 1) * h (k + 1) y) (Set.Iic 0) := by
      refine strictAntiOn_of_deriv_neg (convex_Iic 0) (continuous_const.mul (h_cont _)).continuousOn fun y hy => ?_
      rw [interior_Iic] at hy
      rw [(hd y).deriv]
      have := ih hy
      rw [pow_succ]
      linarith
    have := sm (Set.mem_Iic.2 hx.le) (Set.mem_Iic.2 le_rfl) hx
    simpa [h_at_zero] using this

theorem h_scale (k : ℕ) {c x : ℝ} (hc : 1 ≤ c) (hx : 0 ≤ x) : c ^ k * h k x ≤ h k (c * x) := by
  induction k generalizing x with
  | zero => rw [h_zero, h_zero, pow_zero, one_mul, exp_le_exp]; nlinarith
  | succ k ih =>
    have hd : ∀ y, HasDerivAt (fun y => h (k + 1) (c * y) - c ^ (k + 1) * h (k + 1) y) (h k (c * y) * c - c ^ (k + 1) * h k y) y := by
      intro y
      have h1 : HasDerivAt (fun y : ℝ => c * y) c y := by simpa using (hasDerivAt_id y).const_mul c
      exact ((h_deriv k (c * y)).comp y h1).sub ((h_deriv k y).const_mul _)
    have mo : MonotoneOn (fun y => h (k + 1) (c * y) - c ^ (k + 1) * h (k + 1) y) (Set.Ici 0) := by
      refine monotoneOn_of_deriv_nonneg (convex_Ici 0) (fun y _ => (hd y).continuousAt.continuousWithinAt) (fun y _ => (hd y).differentiableAt.differentiableWithinAt) fun y hy => ?_
      rw [interior_Ici] at hy
      rw [(hd y).deriv]
      have := ih (le_of_lt hy)
      rw [pow_succ]
      nlinarith
    have := mo (Set.mem_Ici.2 le_rfl) (Set.mem_Ici.2 hx) hx
    simp only [mul_zero, h_at_zero, sub_zero] at this
    linarith

theorem h_abs (k : ℕ) (x : ℝ) : |h k x| ≤ h k |x| := by
  have := Complex.norm_exp_sub_sum_le_exp_norm_sub_sum (x : ℂ) k
  have e : (Complex.exp x - ∑ m ∈ Finset.range k, (x : ℂ) ^ m / (m.factorial : ℂ)) = ((h k x : ℝ) : ℂ) := by
    unfold h; push_cast; rfl
  rw [e, Complex.norm_real, Complex.norm_real] at this
  exact this

theorem h_tendsto (x : ℝ) : Tendsto (fun k => h k x) atTop (𝓝 0) := by
  have hs : HasSum (fun n : ℕ => x ^ n / (n.factorial : ℝ)) (exp x) := by
    rw [Real.exp_eq_exp_ℝ]; exact NormedSpace.expSeries_div_hasSum_exp x
  have := (tendsto_const_nhds (x := exp x)).sub hs.tendsto_sum_nat
  rw [sub_self] at this
  exact this

theorem pow_h_tendsto (c x : ℝ) : Tendsto (fun k => c ^ k * h k x) atTop (𝓝 0) := by
  refine squeeze_zero_norm (fun k => ?_) (h_tendsto (max 1 |c| * |x|))
  rw [norm_mul, norm_pow, Real.norm_eq_abs, Real.norm_eq_abs]
  have h0 : 0 ≤ h k |x| := (abs_nonneg _).trans (h_abs k x)
  calc |c| ^ k * |h k x| ≤ (max 1 |c|) ^ k * h k |x| :=
        mul_le_mul (pow_le_pow_left₀ (abs_nonneg _) (le_max_right _ _) k) (h_abs k x) (abs_nonneg _) (by positivity)
    _ ≤ _ := h_scale k (le_max_left _ _) (abs_nonneg x)

theorem natpow_h_tendsto (c x : ℝ) : Tendsto (fun k : ℕ => (k : ℝ) * (c ^ k * h k x)) atTop (𝓝 0) := by
  have h2 := pow_h_tendsto (2 * max 1 |c|) |x|
  refine squeeze_zero_norm (fun k => ?_) h2
  rw [norm_mul, norm_mul, norm_pow, Real.norm_eq_abs, Real.norm_eq_abs, Real.norm_eq_abs, Nat.abs_cast]
  have h0 : 0 ≤ h k |x| := (abs_nonneg _).trans (h_abs k x)
  have hk : (k : ℝ) ≤ 2 ^ k := by exact_mod_cast Nat.lt_two_pow_self.le
  have hc : |c| ^ k ≤ max 1 |c| ^ k := pow_le_pow_left₀ (abs_nonneg _) (le_max_right _ _) k
  rw [mul_pow]
  calc (k : ℝ) * (|c| ^ k * |h k x|) ≤ 2 ^ k * (max 1 |c| ^ k * h k |x|) := by
        refine mul_le_mul hk (mul_le_mul hc (h_abs k x) (abs_nonneg _) (by positivity)) (by positivity) (by positivity)
    _ = _ := by ring

/-! ## Sums of `c^k h_k` -/

/-- Telescoped partial sum, `k = 1, …, n`. -/
theorem sum_pow_h (c x : ℝ) (n : ℕ) : (c - 1) * ∑ k ∈ Finset.range n, c ^ (k + 1) * h (k + 1) x
    = c ^ (n + 1) * h (n + 1) x - c * h 1 x + c * (∑ k ∈ Finset.range (n + 1), (c * x) ^ k / (k.factorial : ℝ) - 1) := by
  induction n with
  | zero => simp
  | succ n ih =>
    rw [Finset.sum_range_succ, mul_add, ih, Finset.sum_range_succ _ (n + 1), h_succ (n + 1), mul_pow c x (n + 1)]
    ring

theorem sum_mul_pow_h (c x : ℝ) (n : ℕ) : (c - 1) * ∑ k ∈ Finset.range n, ((k + 1 : ℕ) : ℝ) * (c ^ (k + 1) * h (k + 1) x)
    = ((n + 1 : ℕ) : ℝ) * (c ^ (n + 1) * h (n + 1) x) - ∑ k ∈ Finset.range (n + 1), c ^ (k + 1) * h (k + 1) x
      + c * (c * x) * ∑ k ∈ Finset.range n, (c * x) ^ k / (k.factorial : ℝ) := by
  induction n with
  | zero => simp
  | succ n ih =>
    rw [Finset.sum_range_succ, mul_add, ih, Finset.sum_range_succ _ (n + 1), Finset.sum_range_succ (fun k => (c * x) ^ k / (k.factorial : ℝ)) n, h_succ (n + 1), Nat.factorial_succ]
    have : (n.factorial : ℝ) ≠ 0 := by positivity
    have : ((n : ℝ) + 1) ≠ 0 := by positivity
    push_cast
    rw [mul_pow c x n]
    field_simp
    ring

theorem exp_tendsto (x : ℝ) : Tendsto (fun n => ∑ k ∈ Finset.range n, x ^ k / (k.factorial : ℝ)) atTop (𝓝 (exp x)) := by
  have hs : HasSum (fun n : ℕ => x ^ n / (n.factorial : ℝ)) (exp x) := by
    rw [Real.exp_eq_exp_ℝ]; exact NormedSpace.expSeries_div_hasSum_exp x
  exact hs.tendsto_sum_nat

theorem tendsto_sum_pow_h {c : ℝ} (hc : c ≠ 1) (x : ℝ) :
    Tendsto (fun n => ∑ k ∈ Finset.range n, c ^ (k + 1) * h (k + 1) x) atTop (𝓝 (c * (exp (c * x) - exp x) / (c - 1))) := by
  have h1 : c - 1 ≠ 0 := sub_ne_zero.2 hc
  have t1 := (pow_h_tendsto c x).comp (tendsto_add_atTop_nat 1)
  have t2 := (exp_tendsto (c * x)).comp (tendsto_add_atTop_nat 1)
  have t := ((t1.sub_const (c * h 1 x)).add ((t2.sub_const 1).const_mul c)).div_const (c - 1)
  have e : (0 - c * h 1 x + c * (exp (c * x) - 1)) / (c - 1) = c * (exp (c * x) - exp x) / (c - 1) := by
    congr 1; simp [h]; ring
  rw [e] at t
  refine t.congr fun n => ?_
  rw [div_eq_iff h1, mul_comm _ (c - 1), sum_pow_h]; rfl

theorem tendsto_sum_mul_pow_h {c : ℝ} (hc : c ≠ 1) (x : ℝ) :
    Tendsto (fun n => ∑ k ∈ Finset.range n, ((k + 1 : ℕ) : ℝ) * (c ^ (k + 1) * h (k + 1) x)) atTop
      (𝓝 ((c * (c * x) * exp (c * x) - c * (exp (c * x) - exp x) / (c - 1)) / (c - 1))) := by
  have h1 : c - 1 ≠ 0 := sub_ne_zero.2 hc
  have t1 := (natpow_h_tendsto c x).comp (tendsto_add_atTop_nat 1)
  have t2 := (tendsto_sum_pow_h hc x).comp (tendsto_add_atTop_nat 1)
  have t := ((t1.sub t2).add ((exp_tendsto (c * x)).const_mul (c * (c * x)))).div_const (c - 1)
  have e : (0 - c * (exp (c * x) - exp x) / (c - 1) + c * (c * x) * exp (c * x)) / (c - 1)
      = (c * (c * x) * exp (c * x) - c * (exp (c * x) - exp x) / (c - 1)) / (c - 1) := by congr 1; ring
  rw [e] at t
  refine t.congr fun n => ?_
  rw [div_eq_iff h1, mul_comm _ (c - 1), sum_mul_pow_h]; rfl

/-! ## The loops -/

theorem sumLoop_eq (a : ℝ) (n : ℕ) : ∀ j : ℕ, sumLoop a n (j + 1) (a ^ j / (j.factorial : ℝ)) (∑ i ∈ Finset.range (j + 1), a ^ i / (i.factorial : ℝ))
    = ∑ i ∈ Finset.range (j + 1 + n), a ^ i / (i.factorial : ℝ) := by
  induction n with
  | zero => intro j; rfl
  | succ n ih =>
    intro j
    have e : a ^ j / (j.factorial : ℝ) * (a / ((j + 1 : ℕ) : ℝ)) = a ^ (j + 1) / ((j + 1).factorial : ℝ) := by
      rw [Nat.factorial_succ, pow_succ]; push_cast; field_simp
    show sumLoop a n (j + 1 + 1) _ _ = _
    rw [e, ← Finset.sum_range_succ, ih (j + 1)]
    congr 2; omega

theorem sumLoop_one (a : ℝ) {k : ℕ} (hk : k ≠ 0) : sumLoop a (k - 1) 1 1 1 = exp a - h k a := by
  have := sumLoop_eq a (k - 1) 0
  simp only [Nat.factorial, Nat.cast_one, div_one, pow_zero, zero_add, Finset.sum_range_one] at this
  rw [this, h, show 1 + (k - 1) = k by omega]; ring

/-- Whatever the loop does, it adds up consecutive terms up to some index; it stops early only at a term below `100 eps`. -/
theorem tailLoop_eq (a : ℝ) (k n : ℕ) : ∀ j : ℕ, k ≤ j → ∃ m, j ≤ m ∧ m ≤ j + n ∧
    (m < j + n → |a ^ m / (m.factorial : ℝ)| < eps * 100) ∧
    tailLoop a n (j + 1) (a ^ j / (j.factorial : ℝ)) (h k a - h (j + 1) a) = h k a - h (m + 1) a := by
  induction n with
  | zero => intro j _; exact ⟨j, le_rfl, le_rfl, fun h => absurd h (lt_irrefl _), rfl⟩
  | succ n ih =>
    intro j hj
    have e : a ^ j / (j.factorial : ℝ) * (a / ((j + 1 : ℕ) : ℝ)) = a ^ (j + 1) / ((j + 1).factorial : ℝ) := by
      rw [Nat.factorial_succ, pow_succ]; push_cast; field_simp
    have e2 : h k a - h (j + 1) a + a ^ (j + 1) / ((j + 1).factorial : ℝ) = h k a - h (j + 1 + 1) a := by rw [h_succ (j + 1)]; ring
    show ∃ m, _ ∧ _ ∧ _ ∧ (if |a ^ j / (j.factorial : ℝ) * (a / ((j + 1 : ℕ) : ℝ))| < eps * 100 then h k a - h (j + 1) a + a ^ j / (j.factorial : ℝ) * (a / ((j + 1 : ℕ) : ℝ))
      else tailLoop a n (j + 1 + 1) (a ^ j / (j.factorial : ℝ) * (a / ((j + 1 : ℕ) : ℝ))) (h k a - h (j + 1) a + a ^ j / (j.factorial : ℝ) * (a / ((j + 1 : ℕ) : ℝ)))) = _
    rw [e, e2]
    split_ifs with hlt
    · exact ⟨j + 1, by omega, by omega, fun _ => hlt, rfl⟩
    · obtain ⟨m, h1, h2, h3, h4⟩ := ih (j + 1) (by omega)
      exact ⟨m, by omega, by omega, fun h => h3 (by omega), h4⟩

/-- Alternating remainder: for `-(k+1) ≤ a ≤ 0` it is bounded by the first omitted term. -/
theorem h_alternating {a : ℝ} {k : ℕ} (ha : a < 0) : |h k a| ≤ |a ^ k / (k.factorial : ℝ)| := by
  have s1 := h_sign k ha
  have s2 := h_sign (k + 1) ha
  have e := h_succ k a
  have hs : |h k a| = (-1) ^ k * h k a := by
    rcases neg_one_pow_eq_or ℝ k with h | h <;> rw [h] at s1 ⊢
    · rw [one_mul] at *; exact abs_of_pos s1
    · rw [neg_one_mul] at *; exact abs_of_neg (by linarith)
  have : (-1) ^ k * h k a ≤ (-1) ^ k * (a ^ k / (k.factorial : ℝ)) := by
    rw [e, mul_add]
    rw [pow_succ] at s2
    linarith
  rw [hs]
  refine this.trans ((le_abs_self _).trans ?_)
  rw [abs_mul, abs_pow, abs_neg, abs_one, one_pow, one_mul]

end Verif.Gold
