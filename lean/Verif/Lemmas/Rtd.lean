import Verif.Model.Rtd
import Verif.Spec.Rtd
import Verif.Lemmas.DistCont
import Verif.Lemmas.Convert
import Mathlib.Analysis.SpecialFunctions.ImproperIntegrals

/-!
# Lemmas on residence time distributions
-/

namespace Verif.Rtd

open MeasureTheory Set Filter Real

theorem core {E F : ℝ → ℝ} (h0 : F 0 = 0) (hc : ContinuousOn F (Ici 0)) (hd : ∀ t, 0 < t → HasDerivWithinAt F (E t) (Ioi t) t)
    (hE : ∀ t, 0 < t → 0 ≤ E t) : (∀ t, 0 ≤ t → F t = ∫ x in (0 : ℝ)..t, E x) ∧ MonotoneOn F (Ici 0) := by
  have key : ∀ a b, 0 ≤ a → a ≤ b → ∫ x in a..b, E x = F b - F a := by
    intro a b ha hab
    have hc' : ContinuousOn F (Icc a b) := hc.mono fun x hx => ha.trans hx.1
    have hd' : ∀ x ∈ Ioo a b, HasDerivWithinAt F (E x) (Ioi x) x := fun x hx => hd x (ha.trans_lt hx.1)
    have hi := intervalIntegral.integrableOn_deriv_right_of_nonneg hc' hd' fun x hx => hE x (ha.trans_lt hx.1)
    exact intervalIntegral.integral_eq_sub_of_hasDeriv_right_of_le hab hc' hd'
      ((intervalIntegrable_iff_integrableOn_Ioc_of_le hab).2 hi)
  refine ⟨fun t ht => by rw [key 0 t le_rfl ht, h0, sub_zero], fun a ha b hb hab => ?_⟩
  have h := key a b ha hab
  have : 0 ≤ ∫ x in a..b, E x := by
    rw [intervalIntegral.integral_of_le hab]
    exact setIntegral_nonneg measurableSet_Ioc fun x hx => hE x (lt_of_le_of_lt ha hx.1)
  linarith

/-- Differentiable version: everything but the mean. -/
theorem isRtd_of {E F M : ℝ → ℝ} {μ : ℝ} (h0 : F 0 = 0) (hc : ContinuousWithinAt F (Ici 0) 0) (hd : ∀ t, 0 < t → HasDerivAt F (E t) t)
    (hE : ∀ t, 0 ≤ t → 0 ≤ E t) (hl : Tendsto F atTop (nhds 1)) (hM0 : M 0 = 0) (hMc : ContinuousWithinAt M (Ici 0) 0)
    (hMd : ∀ t, 0 < t → HasDerivAt M (t * E t) t) (hMl : Tendsto M atTop (nhds μ)) : IsRtd E F μ := by
  have hco : ContinuousOn F (Ici 0) := by
    intro x hx
    rcases (show (0 : ℝ) ≤ x from hx).eq_or_lt with rfl | hx
    · exact hc
    · exact (hd x hx).continuousAt.continuousWithinAt
  obtain ⟨c1, c2⟩ := core h0 hco (fun t ht => (hd t ht).hasDerivWithinAt) fun t ht => hE t ht.le
  have n2 : ∀ x ∈ Ioi (0 : ℝ), 0 ≤ x * E x := fun x hx => mul_nonneg (le_of_lt hx) (hE x (le_of_lt hx))
  refine ⟨h0, c2, hl, hE, c1, ?_, ?_, ?_⟩
  · rw [integral_Ioi_of_hasDerivAt_of_nonneg hc (fun x hx => hd x hx) (fun x hx => hE x (le_of_lt hx)) hl, h0, sub_zero]
  · exact integrableOn_Ioi_deriv_of_nonneg hMc (fun x hx => hMd x hx) n2 hMl
  · rw [integral_Ioi_of_hasDerivAt_of_nonneg hMc (fun x hx => hMd x hx) n2 hMl, hM0, sub_zero]

/-- The Erlang sum. -/
noncomputable def S (N : ℕ) (x : ℝ) : ℝ := ∑ i ∈ Finset.range N, x ^ i / Gamma ((i : ℝ) + 1)

theorem S_hasDerivAt (n : ℕ) (x : ℝ) : HasDerivAt (fun x => 1 - exp (-x) * S (n + 1) x) (exp (-x) * (x ^ n / Gamma ((n : ℝ) + 1))) x := by
  have hS : HasDerivAt (S (n + 1)) (S n x) x := by
    have h : ∀ i ∈ Finset.range (n + 1), HasDerivAt (fun x : ℝ => x ^ i / Gamma ((i : ℝ) + 1)) ((i : ℝ) * x ^ (i - 1) / Gamma ((i : ℝ) + 1)) x :=
      fun i _ => (hasDerivAt_pow i x).div_const _
    have h := HasDerivAt.fun_sum h
    refine h.congr_deriv ?_
    rw [Finset.sum_range_succ', S]
    simp only [Nat.cast_zero, zero_mul, zero_div, add_zero]
    refine Finset.sum_congr rfl fun i _ => ?_
    rw [Nat.add_sub_cancel, Nat.cast_add_one, Gamma_add_one (by positivity : ((i : ℝ) + 1) ≠ 0)]
    have : Gamma ((i : ℝ) + 1) ≠ 0 := (Gamma_pos_of_pos (by positivity)).ne'
    field_simp
  have he : HasDerivAt (fun x : ℝ => exp (-x)) (-exp (-x)) x := by
    simpa using (hasDerivAt_neg x).exp
  refine ((he.mul hS).const_sub 1).congr_deriv ?_
  have : S (n + 1) x = S n x + x ^ n / Gamma ((n : ℝ) + 1) := Finset.sum_range_succ _ n
  rw [this]
  ring

theorem S_zero (n : ℕ) : S (n + 1) 0 = 1 := by
  rw [S, Finset.sum_range_succ']
  simp

theorem S_tendsto (N : ℕ) : Tendsto (fun x => 1 - exp (-x) * S N x) atTop (nhds 1) := by
  have : Tendsto (fun x => exp (-x) * S N x) atTop (nhds 0) := by
    simp only [S, Finset.mul_sum]
    have : Tendsto (fun x : ℝ => ∑ i ∈ Finset.range N, exp (-x) * (x ^ i / Gamma ((i : ℝ) + 1))) atTop (nhds (∑ i ∈ Finset.range N, 0)) := by
      refine tendsto_finsetSum _ fun i _ => ?_
      have := (tendsto_pow_mul_exp_neg_atTop_nhds_zero i).div_const (Gamma ((i : ℝ) + 1))
      rw [zero_div] at this
      exact this.congr fun x => by ring
    simpa using this
  simpa using this.const_sub 1

end Verif.Rtd
