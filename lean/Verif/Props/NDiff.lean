import Verif.Lemmas.NDiff
import Mathlib.Tactic.ComputeDegree

/-!
# C10: finite differences are exact on the polynomials they should be exact on; C71: scaling factors
-/

namespace Verif.NDiff

open Function Polynomial

/-- **C10.** For every polynomial `p` with real coefficients, the pair returned by `derivative_complex` differs from
`(p'(x), p(x))` by at most `eps²` times a sum of Taylor coefficients of order ≥ 3 (derivative) or ≥ 2 (value); in
particular the derivative is exact up to degree 2 and the value up to degree 1. -/
theorem C10_complex_step (p : ℝ[X]) (x : ℝ) :
    |(derivativeComplex (fun z => aeval z p) x).1 - p.derivative.eval x| ≤
        eps ^ 2 * ∑ j ∈ Finset.range (p.natDegree + 1), (if j < 3 then 0 else |(hasseDeriv j p).eval x|) ∧
    |(derivativeComplex (fun z => aeval z p) x).2 - p.eval x| ≤
        eps ^ 2 * ∑ j ∈ Finset.range (p.natDegree + 1), (if j < 2 then 0 else |(hasseDeriv j p).eval x|) ∧
    (p.natDegree ≤ 2 → (derivativeComplex (fun z => aeval z p) x).1 = p.derivative.eval x) ∧
    (p.natDegree ≤ 1 → (derivativeComplex (fun z => aeval z p) x).2 = p.eval x) := by
  have h1 := complex_im_bound p x
  have h2 := complex_re_bound p x
  refine ⟨h1, h2, fun hd => ?_, fun hd => ?_⟩
  · rw [Finset.sum_eq_zero, mul_zero] at h1
    · exact sub_eq_zero.mp (abs_eq_zero.mp (le_antisymm h1 (abs_nonneg _)))
    · intro j hj
      rw [if_pos]
      have := Finset.mem_range.mp hj
      omega
  · rw [Finset.sum_eq_zero, mul_zero] at h2
    · exact sub_eq_zero.mp (abs_eq_zero.mp (le_antisymm h2 (abs_nonneg _)))
    · intro j hj
      rw [if_pos]
      have := Finset.mem_range.mp hj
      omega

example : (X ^ 2 + C 3 * X : ℝ[X]).natDegree ≤ 2 := by compute_degree

/-- **C10.** `derivative_centered` returns the exact derivative of a quadratic polynomial for every step, including the
default one, and a "mean value" that exceeds `f(x)` by exactly `a s²`, where `s` is the step that was used. -/
theorem C10_centered_difference (a b c x h : ℝ) (hh : 0 ≤ h) :
    ∃ s, 0 < s ∧ (0 < h → s = h * (1 + |x|)) ∧
      derivativeCentered (fun t => a * t ^ 2 + b * t + c) x h = (2 * a * x + b, a * x ^ 2 + b * x + c + a * s ^ 2) := by
  have hx : 0 < 1 + |x| := by positivity
  refine ⟨(if h = 0 then hDefault else h) * (1 + |x|), ?_, ?_, ?_⟩
  · split_ifs with h0
    · exact mul_pos hDefault_pos hx
    · exact mul_pos (lt_of_le_of_ne hh (Ne.symm h0)) hx
  · intro h0; rw [if_neg h0.ne']
  · have hs : (if h = 0 then hDefault else h) * (1 + |x|) ≠ 0 := by
      split_ifs with h0
      · exact (mul_pos hDefault_pos hx).ne'
      · exact mul_ne_zero h0 hx.ne'
    simp only [derivativeCentered, Prod.mk.injEq]
    generalize (if h = 0 then hDefault else h) * (1 + |x|) = s at hs
    constructor
    · field_simp; ring
    · ring

/-- **C10.** Centred difference on cubics: the error is exactly the leading coefficient times `s²` (second order). -/
theorem C10_centered_difference_order (a3 a2 a1 a0 x h : ℝ) (hh : 0 < h) :
    (derivativeCentered (fun t => a3 * t ^ 3 + a2 * t ^ 2 + a1 * t + a0) x h).1 =
      3 * a3 * x ^ 2 + 2 * a2 * x + a1 + a3 * (h * (1 + |x|)) ^ 2 := by
  have hs : h * (1 + |x|) ≠ 0 := by positivity
  simp only [derivativeCentered, if_neg hh.ne']
  generalize h * (1 + |x|) = s at hs
  field_simp
  ring

/-- **C10.** `jacobian_forward` returns, column by column, the forward difference quotient at `x` (all other components at
their original values although the work vector is modified in place), whatever the initial content of `J`. -/
theorem C10_jacobian_columns {n m : ℕ} (f : (Fin n → ℝ) → (Fin m → ℝ)) (x : Fin n → ℝ) (fx : Fin m → ℝ)
    (sclx : Fin n → ℝ) (ndigit : Option ℕ) (J0 : Fin m → Fin n → ℝ) (hscl : ∀ i, sclx i ≠ 0) (r : Fin m) (c : Fin n) :
    ∃ s, 0 < s ∧ jacobianForward f x fx sclx ndigit J0 r c = (f (update x c (x c + s)) r - fx r) / s := by
  refine ⟨_, stepSize_pos _ (Real.sqrt_pos.mpr (noise_pos ndigit)) x sclx c (hscl c), ?_⟩
  rw [jacobianForward_eq]
  rfl

/-- **C10.** `jacobian_forward` is exact on affine maps. -/
theorem C10_jacobian_affine {n m : ℕ} (A : Fin m → Fin n → ℝ) (b : Fin m → ℝ) (x sclx : Fin n → ℝ)
    (ndigit : Option ℕ) (J0 : Fin m → Fin n → ℝ) (hscl : ∀ i, sclx i ≠ 0) :
    jacobianForward (fun x r => ∑ k, A r k * x k + b r) x (fun r => ∑ k, A r k * x k + b r) sclx ndigit J0 = A := by
  funext r c
  rw [jacobianForward_eq, sum_bump]
  have := (stepSize_pos _ (Real.sqrt_pos.mpr (noise_pos ndigit)) x sclx c (hscl c)).ne'
  field_simp
  ring

/-- **C10.** `hessian_forward` is symmetric for every function. -/
theorem C10_hessian_symmetric {n : ℕ} (f : (Fin n → ℝ) → ℝ) (x : Fin n → ℝ) (fx : ℝ) (sclx : Fin n → ℝ)
    (ndigit : Option ℕ) (H0 : Fin n → Fin n → ℝ) (h00 fh0 : Fin n → ℝ) (i j : Fin n) :
    hessianForward f x fx sclx ndigit H0 h00 fh0 i j = hessianForward f x fx sclx ndigit H0 h00 fh0 j i := by
  unfold hessianForward
  rw [hessianLoop1_eq, hessianLoop2_eq, hessianLoop2_eq]
  rcases lt_trichotomy i j with h | h | h
  · simp [h, h.ne, h.ne', not_lt.mpr h.le]
  · subst h; rfl
  · simp [h, h.ne, h.ne', not_lt.mpr h.le]

/-- **C10.** `hessian_forward` returns the exact Hessian `A` of a polynomial `c + b·x + ½ xᵀAx` of degree two in any number of
variables, at every point and for every (non-zero) scaling. -/
theorem C10_hessian_exact {n : ℕ} (c : ℝ) (b : Fin n → ℝ) (A : Fin n → Fin n → ℝ) (hA : ∀ i j, A i j = A j i)
    (x sclx : Fin n → ℝ) (ndigit : Option ℕ) (H0 : Fin n → Fin n → ℝ) (h00 fh0 : Fin n → ℝ) (hscl : ∀ i, sclx i ≠ 0) :
    hessianForward (fun x => c + ∑ i, b i * x i + (∑ i, ∑ j, A i j * x i * x j) / 2) x
      (c + ∑ i, b i * x i + (∑ i, ∑ j, A i j * x i * x j) / 2) sclx ndigit H0 h00 fh0 = A := by
  change hessianForward (quad c b A) x (quad c b A x) sclx ndigit H0 h00 fh0 = A
  funext i j
  unfold hessianForward
  rw [hessianLoop1_eq, hessianLoop2_eq]
  have hpos : ∀ i, stepSize (noise ndigit ^ ((1 : ℝ) / 3)) x sclx i ≠ 0 := fun i =>
    (stepSize_pos _ (Real.rpow_pos_of_pos (noise_pos ndigit) _) x sclx i (hscl i)).ne'
  rw [offDiag_quad c b A hA x _ i j (hpos i) (hpos j), offDiag_quad c b A hA x _ j i (hpos j) (hpos i),
    diag_quad c b A hA x _ i (hpos i)]
  split_ifs with h1 h2
  · rw [h1]
  · rfl
  · exact hA j i

/-- **C10.** `hessian2_centered` returns the exact (symmetric) Hessian of a quadratic polynomial in two variables. -/
theorem C10_hessian2_exact (a b c d e g x0 x1 h : ℝ) :
    hessian2Centered (fun x => a * x.1 ^ 2 + b * x.1 * x.2 + c * x.2 ^ 2 + d * x.1 + e * x.2 + g) (x0, x1) h =
      (2 * a, 2 * c, b, b) := by
  have hs : (if h = 0 then hDefault else h) ≠ 0 := by
    split_ifs with h0
    · exact hDefault_pos.ne'
    · exact h0
  have h0 : (if h = 0 then hDefault else h) * (1 + |x0|) ≠ 0 := mul_ne_zero hs (by positivity)
  have h1 : (if h = 0 then hDefault else h) * (1 + |x1|) ≠ 0 := mul_ne_zero hs (by positivity)
  simp only [hessian2Centered, Prod.mk.injEq]
  generalize (if h = 0 then hDefault else h) * (1 + |x0|) = s0 at h0
  generalize (if h = 0 then hDefault else h) * (1 + |x1|) = s1 at h1
  refine ⟨?_, ?_, ?_, ?_⟩ <;> field_simp <;> ring

-- non-vacuity of the scaling hypothesis and of the symmetry hypothesis
example : (∀ i : Fin 3, (fun _ : Fin 3 => (2 : ℝ)) i ≠ 0) ∧
    (∀ i j : Fin 2, (fun i j : Fin 2 => ((i : ℕ) * (j : ℕ) : ℝ)) i j = (fun i j : Fin 2 => ((i : ℕ) * (j : ℕ) : ℝ)) j i) :=
  ⟨fun _ => by norm_num, fun i j => by simp [mul_comm]⟩

/-- **C71.** `scalex` gives every element a positive factor that depends only on its value: with all elements zero the factor
is 1; otherwise every nonzero element is scaled to a magnitude in `(1/10, 1]`, and zero elements get at least ten times
the factor of any nonzero one. -/
theorem C71_scalex (x : List ℝ) :
    ∃ g : ℝ → ℝ, scalex x = x.map g ∧ (∀ v ∈ x, 0 < g v) ∧
      ((∀ v ∈ x, v = 0) → ∀ v ∈ x, g v = 1) ∧
      (∀ v ∈ x, v ≠ 0 → 1 / 10 < g v * |v| ∧ g v * |v| ≤ 1) ∧
      (∀ v ∈ x, v ≠ 0 → 0 ∈ x → 10 * g v ≤ g 0) := by
  unfold scalex
  split
  · rename_i xmin xmax hmin hmax
    obtain ⟨hm1, hm2⟩ := min?_pos_aux _ _ hmin
    obtain ⟨hM1, hM2⟩ := max?_aux _ _ hmax
    simp only [List.mem_map, List.mem_filter, decide_not, Bool.not_eq_eq_eq_not, Bool.not_true, decide_eq_false_iff_not] at hm1
    obtain ⟨w, ⟨hw1, hw2⟩, rfl⟩ := hm1
    have hmin0 : 0 < |w| := abs_pos.mpr hw2
    have hwM : |w| ≤ xmax := hM2 _ (List.mem_map.mpr ⟨w, hw1, rfl⟩)
    have hM0 : 0 < xmax := hmin0.trans_le hwM
    have hminv : ∀ v ∈ x, v ≠ 0 → |w| ≤ |v| := fun v hv hv0 =>
      hm2 _ (List.mem_map.mpr ⟨v, List.mem_filter.mpr ⟨hv, by simpa using hv0⟩, rfl⟩)
    have hmaxv : ∀ v ∈ x, |v| ≤ xmax := fun v hv => hM2 _ (List.mem_map.mpr ⟨v, hv, rfl⟩)
    refine ⟨_, rfl, ?_, ?_, ?_, ?_⟩
    · intro v hv
      split_ifs with h1 h2
      · positivity
      · have := abs_pos.mpr h1; positivity
      · positivity
    · intro h; exact absurd (h w hw1) hw2
    · intro v hv hv0
      have hv1 := abs_pos.mpr hv0
      rw [if_neg hv0]
      split_ifs with h2
      · rw [one_div_mul_cancel hv1.ne']; norm_num
      · push Not at h2
        rw [Real.logb_lt_iff_lt_rpow (by norm_num) (by positivity), Real.rpow_one, div_lt_iff₀ hmin0] at h2
        constructor
        · rw [one_div_mul_eq_div, lt_div_iff₀ hM0]
          have := hminv v hv hv0
          linarith
        · rw [one_div_mul_eq_div, div_le_one hM0]
          exact hmaxv v hv
    · intro v hv hv0 _
      have hv1 := abs_pos.mpr hv0
      rw [if_neg hv0, if_pos rfl]
      split_ifs with h2
      · rw [mul_one_div]
        exact div_le_div_of_nonneg_left (by norm_num) hmin0 (hminv v hv hv0)
      · rw [mul_one_div]
        exact div_le_div_of_nonneg_left (by norm_num) hmin0 hwM
  · rename_i hnone
    refine ⟨_, rfl, fun v hv => by norm_num, fun _ v _ => rfl, ?_, ?_⟩
    all_goals
      intro v hv hv0
      exfalso
      cases h1 : ((x.filter (fun v => v ≠ 0)).map (fun v => |v|)).min? with
      | none =>
        rw [List.min?_eq_none_iff, List.map_eq_nil_iff, List.filter_eq_nil_iff] at h1
        exact h1 v hv (by simpa using hv0)
      | some a =>
        cases h2 : (x.map (fun v => |v|)).max? with
        | none =>
          rw [List.max?_eq_none_iff, List.map_eq_nil_iff] at h2
          rw [h2] at hv; simp at hv
        | some b => exact hnone a b h1 h2

example : ∃ v ∈ ([1 / 100, 0, 1, 1000] : List ℝ), v ≠ 0 := ⟨1, by simp, by norm_num⟩

/-- **C71 (negative result).** For an array of integer dtype the factors are truncated to integers: if all elements have
magnitude at least 2, every scaling factor is 0 (so `1/sclx`, as used for the finite-difference step, is a division by
zero). -/
theorem C71_scalex_integer_false (x : List ℤ) (hx : ∀ v ∈ x, 2 ≤ |v|) : scalexInt x = x.map fun _ => 0 := by
  unfold scalexInt scalex
  have hx' : ∀ v ∈ x, (2 : ℝ) ≤ |(v : ℝ)| := fun v hv => by exact_mod_cast hx v hv
  split
  · rename_i xmin xmax hmin hmax
    obtain ⟨hM1, hM2⟩ := max?_aux _ _ hmax
    rw [List.map_map, List.map_map]
    refine List.map_congr_left fun v hv => ?_
    have hv2 := hx' v hv
    have hv0 : (v : ℝ) ≠ 0 := by intro h; rw [h] at hv2; norm_num at hv2
    have hvM : |(v : ℝ)| ≤ xmax := hM2 _ (by simpa using ⟨v, hv, rfl⟩)
    simp only [Function.comp_apply, if_neg hv0]
    have key : ∀ d : ℝ, 2 ≤ d → trunc (1 / d) = 0 := by
      intro d hd
      unfold trunc
      rw [if_pos (by positivity), Int.floor_eq_iff]
      constructor
      · simp; linarith
      · simp
        rw [inv_lt_one₀ (by linarith)]
        linarith
    split_ifs
    · exact key _ hv2
    · exact key _ (hv2.trans hvM)
  · rename_i hnone
    cases x with
    | nil => rfl
    | cons v l =>
      exfalso
      have hv0 : (v : ℝ) ≠ 0 := by
        have := hx' v (by simp); intro h; rw [h] at this; norm_num at this
      cases h1 : (((((v :: l).map fun v : ℤ => (v : ℝ))).filter (fun v => v ≠ 0)).map (fun v => |v|)).min? with
      | none =>
        rw [List.min?_eq_none_iff, List.map_eq_nil_iff, List.filter_eq_nil_iff] at h1
        exact h1 v (by simp) (by simpa using hv0)
      | some a =>
        cases h2 : ((((v :: l).map fun v : ℤ => (v : ℝ))).map (fun v => |v|)).max? with
        | none =>
          rw [List.max?_eq_none_iff, List.map_eq_nil_iff] at h2
          simp at h2
        | some b => exact hnone a b h1 h2

example : scalexInt [2, -30] = [0, 0] := C71_scalex_integer_false [2, -30] (by simp)

end Verif.NDiff
