import Verif.Model.CopoDrift
import Verif.Spec.CopoDrift
import Verif.Lemmas.Copo
import Mathlib.Analysis.SpecialFunctions.Log.Deriv
import Mathlib.MeasureTheory.Integral.IntervalIntegral.FundThmCalculus
import Mathlib.Topology.Order.ProjIcc

/-! # Lemmas on the drift equation -/

namespace Verif.CopoDrift

open Set Verif.Copo

/-- Solution of a linear equation `y' = c y`. -/
theorem lin_ode {T : ℝ} {y c : ℝ → ℝ} (hc : ContinuousOn c (Icc 0 T)) (hy : ContinuousOn y (Icc 0 T))
    (h : ∀ t ∈ Ico 0 T, HasDerivWithinAt y (c t * y t) (Ici t) t) : ∃ E : ℝ → ℝ, ∀ t ∈ Icc 0 T, y t = y 0 * Real.exp (E t) := by
  rcases lt_or_ge T 0 with hT | hT
  · exact ⟨0, fun t ht => absurd (ht.1.trans ht.2) (not_le.2 hT)⟩
  let C : ℝ → ℝ := fun t => c (projIcc 0 T hT t)
  have hC : Continuous C := by
    have := (continuousOn_iff_continuous_domRestrict.1 hc).comp (continuous_projIcc (h := hT))
    exact this
  have hCe : ∀ t ∈ Icc 0 T, C t = c t := fun t ht => by
    show c _ = _
    rw [projIcc_of_mem hT ht]
  let E : ℝ → ℝ := fun t => ∫ s in (0 : ℝ)..t, C s
  have hE : ∀ t, HasDerivAt E (C t) t := fun t => (hC.integral_hasStrictDerivAt 0 t).hasDerivAt
  refine ⟨E, fun t ht => ?_⟩
  have key : ∀ t ∈ Icc 0 T, y t * Real.exp (-E t) = y 0 * Real.exp (-E 0) := by
    refine constant_of_has_deriv_right_zero ?_ ?_
    · refine hy.mul (Real.continuous_exp.comp_continuousOn ?_)
      exact (Continuous.continuousOn (continuous_iff_continuousAt.2 fun t => (hE t).continuousAt)).neg
    · intro t ht
      have h1 := (h t ht).mul ((hE t).neg.exp).hasDerivWithinAt (s := Ici t)
      refine h1.congr_deriv ?_
      rw [hCe t ⟨ht.1, ht.2.le⟩]; ring
  have h1 := key t ht
  have hE0 : E 0 = 0 := intervalIntegral.integral_same
  rw [hE0, neg_zero, Real.exp_zero, mul_one, Real.exp_neg] at h1
  rw [← h1, mul_assoc, inv_mul_cancel₀ (Real.exp_pos _).ne', mul_one]

/-- One component of a drift trajectory: composition `f`, derivative `d`, reactivity ratios `a`, `b` along it (constant for the terminal model), copolymer
composition `F`. -/
structure Traj (T : ℝ) (f d a b F : ℝ → ℝ) : Prop where
  cf : ContinuousOn f (Icc 0 T)
  cd : ContinuousOn d (Icc 0 T)
  ca : ContinuousOn a (Icc 0 T)
  cb : ContinuousOn b (Icc 0 T)
  inst : ∀ t ∈ Icc 0 T, instBinary (f t) (a t) (b t) = some (F t)
  deq : ∀ t ∈ Icc 0 T, d t = (f t - F t) / (1 - t + eps)
  deriv : ∀ t ∈ Ico 0 T, HasDerivWithinAt f (d t) (Ici t) t

/-- The denominator of the Mayo-Lewis equation. -/
def den (f a b : ℝ) : ℝ := a * f ^ 2 + 2 * f * (1 - f) + b * (1 - f) ^ 2

/-- `F1 < f1`, `= f1`, `> f1` according to the sign of this. -/
def sgn (f a b : ℝ) : ℝ := (1 - a) * f - (1 - b) * (1 - f)

theorem eps_pos' : (0 : ℝ) < eps := by unfold eps; positivity

theorem inst_den {f a b F : ℝ} (h : instBinary f a b = some F) : den f a b ≠ 0 ∧ f - F = f * (1 - f) * sgn f a b / den f a b := by
  simp only [instBinary, fdiv] at h
  split_ifs at h with h0
  have hd : den f a b ≠ 0 := h0
  refine ⟨hd, ?_⟩
  have : F = (a * f ^ 2 + f * (1 - f)) / den f a b := (Option.some.inj h).symm
  rw [this]
  rw [eq_div_iff hd, sub_mul, div_mul_cancel₀ _ hd]
  simp only [den, sgn]; ring

namespace Traj

variable {T : ℝ} {f d a b F : ℝ → ℝ}

theorem w_pos (hT : T ≤ 1) {t : ℝ} (ht : t ∈ Icc 0 T) : 0 < 1 - t + eps := by
  have := eps_pos'
  have := ht.2
  linarith

theorem cw (hT : T ≤ 1) : ContinuousOn (fun t : ℝ => (1 - t + eps)⁻¹) (Icc 0 T) :=
  ContinuousOn.inv₀ (by fun_prop) fun t ht => (w_pos hT ht).ne'

theorem cden (h : Traj T f d a b F) : ContinuousOn (fun t => (den (f t) (a t) (b t))⁻¹) (Icc 0 T) := by
  refine ContinuousOn.inv₀ ?_ fun t ht => (inst_den (h.inst t ht)).1
  have := h.cf
  have := h.ca
  have := h.cb
  unfold den
  fun_prop

theorem csgn (h : Traj T f d a b F) : ContinuousOn (fun t => sgn (f t) (a t) (b t)) (Icc 0 T) := by
  have := h.cf
  have := h.ca
  have := h.cb
  unfold sgn
  fun_prop

theorem d_eq (h : Traj T f d a b F) {t : ℝ} (ht : t ∈ Icc 0 T) :
    d t = f t * (1 - f t) * sgn (f t) (a t) (b t) * (den (f t) (a t) (b t))⁻¹ * (1 - t + eps)⁻¹ := by
  rw [h.deq t ht, (inst_den (h.inst t ht)).2, div_eq_mul_inv, div_eq_mul_inv]

/-- `f` keeps its sign. -/
theorem low (h : Traj T f d a b F) (hT : T ≤ 1) : ∃ E : ℝ → ℝ, ∀ t ∈ Icc 0 T, f t = f 0 * Real.exp (E t) := by
  refine lin_ode (c := fun t => (1 - f t) * sgn (f t) (a t) (b t) * (den (f t) (a t) (b t))⁻¹ * (1 - t + eps)⁻¹) ?_ h.cf ?_
  · exact (((continuousOn_const.sub h.cf).mul h.csgn).mul h.cden).mul (cw hT)
  · intro t ht
    refine (h.deriv t ht).congr_deriv ?_
    rw [h.d_eq ⟨ht.1, ht.2.le⟩]; ring

/-- `1 - f` keeps its sign. -/
theorem high (h : Traj T f d a b F) (hT : T ≤ 1) : ∃ E : ℝ → ℝ, ∀ t ∈ Icc 0 T, 1 - f t = (1 - f 0) * Real.exp (E t) := by
  refine lin_ode (y := fun t => 1 - f t) (c := fun t => -(f t * sgn (f t) (a t) (b t) * (den (f t) (a t) (b t))⁻¹ * (1 - t + eps)⁻¹)) ?_
    (continuousOn_const.sub h.cf) ?_
  · exact (((h.cf.mul h.csgn).mul h.cden).mul (cw hT)).neg
  · intro t ht
    refine ((h.deriv t ht).const_sub 1).congr_deriv ?_
    rw [h.d_eq ⟨ht.1, ht.2.le⟩]; ring

theorem mem (h : Traj T f d a b F) (hT : T ≤ 1) (h0 : f 0 ∈ Icc (0 : ℝ) 1) : ∀ t ∈ Icc 0 T, f t ∈ Icc (0 : ℝ) 1 := by
  intro t ht
  obtain ⟨E, hE⟩ := h.low hT
  obtain ⟨G, hG⟩ := h.high hT
  have h1 : 0 ≤ 1 - f t := by
    rw [hG t ht]; exact mul_nonneg (sub_nonneg.2 h0.2) (Real.exp_pos _).le
  exact ⟨by rw [hE t ht]; exact mul_nonneg h0.1 (Real.exp_pos _).le, by linarith⟩

theorem mem_Ioo (h : Traj T f d a b F) (hT : T ≤ 1) (h0 : f 0 ∈ Ioo (0 : ℝ) 1) : ∀ t ∈ Icc 0 T, f t ∈ Ioo (0 : ℝ) 1 := by
  intro t ht
  obtain ⟨E, hE⟩ := h.low hT
  obtain ⟨G, hG⟩ := h.high hT
  have h1 : 0 < 1 - f t := by
    rw [hG t ht]; exact mul_pos (sub_pos.2 h0.2) (Real.exp_pos _)
  exact ⟨by rw [hE t ht]; exact mul_pos h0.1 (Real.exp_pos _), by linarith⟩

/-- With constant reactivity ratios `F1 - f1` keeps its sign. -/
theorem sign {r1 r2 : ℝ} (h : Traj T f d (fun _ => r1) (fun _ => r2) F) (hT : T ≤ 1) :
    ∃ E : ℝ → ℝ, ∀ t ∈ Icc 0 T, sgn (f t) r1 r2 = sgn (f 0) r1 r2 * Real.exp (E t) := by
  refine lin_ode (y := fun t => sgn (f t) r1 r2) (c := fun t => (2 - r1 - r2) * (f t * (1 - f t) * (den (f t) r1 r2)⁻¹ * (1 - t + eps)⁻¹)) ?_ h.csgn ?_
  · exact continuousOn_const.mul (((h.cf.mul (continuousOn_const.sub h.cf)).mul h.cden).mul (cw hT))
  · intro t ht
    have h1 : HasDerivWithinAt (fun t => sgn (f t) r1 r2) ((1 - r1) * d t - (1 - r2) * (0 - d t)) (Ici t) t := by
      unfold sgn
      exact ((h.deriv t ht).const_mul _).sub (((hasDerivWithinAt_const t _ (1 : ℝ)).sub (h.deriv t ht)).const_mul _)
    refine h1.congr_deriv ?_
    rw [h.d_eq ⟨ht.1, ht.2.le⟩]; ring

/-- The trajectory is the integral of its derivative. -/
theorem integral (h : Traj T f d a b F) {s t : ℝ} (hs : 0 ≤ s) (hst : s ≤ t) (ht : t ≤ T) : ∫ u in s..t, d u = f t - f s := by
  refine intervalIntegral.integral_eq_sub_of_hasDeriv_right ?_ ?_ ?_
  · rw [uIcc_of_le hst]; exact h.cf.mono fun u hu => ⟨hs.trans hu.1, hu.2.trans ht⟩
  · intro u hu
    rw [min_eq_left hst, max_eq_right hst] at hu
    exact (h.deriv u ⟨hs.trans hu.1.le, hu.2.trans_le ht⟩).mono Ioi_subset_Ici_self
  · refine ContinuousOn.intervalIntegrable ?_
    rw [uIcc_of_le hst]; exact h.cd.mono fun u hu => ⟨hs.trans hu.1, hu.2.trans ht⟩

/-- Material balance. -/
theorem balance (h : Traj T f d a b F) (hT : T ≤ 1) {t : ℝ} (ht : t ∈ Icc 0 T) : (1 - t + eps) * f t + ∫ u in (0 : ℝ)..t, F u = (1 + eps) * f 0 := by
  have hF : ∀ u ∈ Icc 0 T, F u = f u - (1 - u + eps) * d u := by
    intro u hu
    have := (w_pos hT hu).ne'
    rw [h.deq u hu]; field_simp; ring
  have hcF : ContinuousOn F (Icc 0 T) := by
    refine ContinuousOn.congr (f := fun u => f u - (1 - u + eps) * d u) ?_ fun u hu => hF u hu
    have := h.cf
    have := h.cd
    fun_prop
  have key : ∫ u in (0 : ℝ)..t, -F u = (1 - t + eps) * f t - (1 - 0 + eps) * f 0 := by
    refine intervalIntegral.integral_eq_sub_of_hasDeriv_right (f := fun u => (1 - u + eps) * f u) ?_ ?_ ?_
    · rw [uIcc_of_le ht.1]
      have := h.cf.mono (Icc_subset_Icc_right ht.2)
      fun_prop
    · intro u hu
      rw [min_eq_left ht.1, max_eq_right ht.1] at hu
      have hu' : u ∈ Ico 0 T := ⟨hu.1.le, hu.2.trans_le ht.2⟩
      have h1 : HasDerivWithinAt (fun u : ℝ => 1 - u + eps) (-1) (Ioi u) u := by
        simpa using ((hasDerivWithinAt_id u (Ioi u)).const_sub 1).add_const eps
      refine (h1.mul ((h.deriv u hu').mono Ioi_subset_Ici_self)).congr_deriv ?_
      rw [hF u ⟨hu'.1, hu'.2.le⟩]; ring
    · refine ContinuousOn.intervalIntegrable ?_
      rw [uIcc_of_le ht.1]; exact (hcF.mono (Icc_subset_Icc_right ht.2)).neg
  rw [intervalIntegral.integral_neg] at key
  linarith

/-- Two trajectories of the terminal model from the same composition coincide. -/
theorem unique {r1 r2 : ℝ} {g e G : ℝ → ℝ} (h : Traj T f d (fun _ => r1) (fun _ => r2) F) (h' : Traj T g e (fun _ => r1) (fun _ => r2) G) (hT : T ≤ 1)
    (h0 : f 0 = g 0) : ∀ t ∈ Icc 0 T, f t = g t := by
  let q : ℝ → ℝ := fun t => r1 * r2 * (f t * (1 - g t) + g t * (1 - f t)) + r1 * f t * g t + r2 * (1 - f t) * (1 - g t)
  have hq : ∀ t ∈ Icc 0 T, F t - G t = (f t - g t) * (q t * (den (f t) r1 r2)⁻¹ * (den (g t) r1 r2)⁻¹) := by
    intro t ht
    have i1 := inst_den (h.inst t ht)
    have i2 := inst_den (h'.inst t ht)
    have e1 : F t = f t - f t * (1 - f t) * sgn (f t) r1 r2 / den (f t) r1 r2 := by linarith [i1.2]
    have e2 : G t = g t - g t * (1 - g t) * sgn (g t) r1 r2 / den (g t) r1 r2 := by linarith [i2.2]
    rw [e1, e2]
    have n1 := i1.1
    have n2 := i2.1
    have k1 : f t - f t * (1 - f t) * sgn (f t) r1 r2 / den (f t) r1 r2 = (r1 * f t ^ 2 + f t * (1 - f t)) / den (f t) r1 r2 := by
      rw [eq_div_iff n1, sub_mul, div_mul_cancel₀ _ n1]; simp only [den, sgn]; ring
    have k2 : g t - g t * (1 - g t) * sgn (g t) r1 r2 / den (g t) r1 r2 = (r1 * g t ^ 2 + g t * (1 - g t)) / den (g t) r1 r2 := by
      rw [eq_div_iff n2, sub_mul, div_mul_cancel₀ _ n2]; simp only [den, sgn]; ring
    rw [k1, k2, div_sub_div _ _ n1 n2, div_eq_iff (mul_ne_zero n1 n2)]
    have : (f t - g t) * (q t * (den (f t) r1 r2)⁻¹ * (den (g t) r1 r2)⁻¹) * (den (f t) r1 r2 * den (g t) r1 r2) = (f t - g t) * q t := by
      field_simp
    rw [this]
    simp only [q, den]; ring
  obtain ⟨E, hE⟩ := lin_ode (T := T) (y := fun t => f t - g t)
    (c := fun t => (1 - q t * (den (f t) r1 r2)⁻¹ * (den (g t) r1 r2)⁻¹) * (1 - t + eps)⁻¹) (by
      have hqc : ContinuousOn q (Icc 0 T) := by
        have := h.cf
        have := h'.cf
        fun_prop
      exact (continuousOn_const.sub ((hqc.mul h.cden).mul h'.cden)).mul (cw hT)) (h.cf.sub h'.cf) (by
      intro t ht
      have ht' : t ∈ Icc 0 T := ⟨ht.1, ht.2.le⟩
      refine ((h.deriv t ht).sub (h'.deriv t ht)).congr_deriv ?_
      rw [h.deq t ht', h'.deq t ht', ← sub_div, show f t - F t - (g t - G t) = f t - g t - (F t - G t) by ring, hq t ht', div_eq_mul_inv]; ring)
  intro t ht
  have := hE t ht
  simp only [h0, sub_self, zero_mul] at this
  linarith

end Traj

end Verif.CopoDrift
