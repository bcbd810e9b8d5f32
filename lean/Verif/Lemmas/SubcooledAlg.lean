import Mathlib.Analysis.SpecialFunctions.Log.Deriv
import Mathlib.Analysis.Calculus.Deriv.MeanValue

/-!
# Inequalities for the critical pressure ratio of subcooled liquids

Used in `Lemmas/SubcooledCrit.lean`. The polynomial inequalities are proved in Bernstein form on a few intervals.
-/

namespace Verif.SubcooledCrit

open Real

/-! ### The logarithm -/

theorem g_mono {x d : ℝ} (hx : 0 ≤ x) (hxd : x ≤ d) (hd : d < 1) :
    -log (1 - x) - (x + x ^ 2 / 2 + x ^ 3 / 3) ≤ -log (1 - d) - (d + d ^ 2 / 2 + d ^ 3 / 3) := by
  have hder : ∀ t : ℝ, t < 1 → HasDerivAt (fun t => -log (1 - t) - (t + t ^ 2 / 2 + t ^ 3 / 3)) (1 / (1 - t) - (1 + t + t ^ 2)) t := by
    intro t ht
    have h1 := (((hasDerivAt_id' t).const_sub 1).log (by linarith : (1 : ℝ) - t ≠ 0)).fun_neg
    have h2 := (((hasDerivAt_id' t).fun_add ((hasDerivAt_pow 2 t).div_const 2))).fun_add ((hasDerivAt_pow 3 t).div_const 3)
    refine (h1.fun_sub h2).congr_deriv ?_
    norm_num
    ring
  have hm := monotoneOn_of_deriv_nonneg (convex_Ico (0 : ℝ) 1) (fun t ht => (hder t ht.2).continuousAt.continuousWithinAt)
    (fun t ht => by rw [interior_Ico] at ht; exact (hder t ht.2).differentiableAt.differentiableWithinAt) (fun t ht => by
      rw [interior_Ico] at ht
      rw [(hder t ht.2).deriv]
      have h1 : 0 < 1 - t := by linarith [ht.2]
      have e : 1 / (1 - t) - (1 + t + t ^ 2) = t ^ 3 / (1 - t) := by field_simp; ring
      rw [e]
      have := ht.1
      positivity)
  exact hm ⟨hx, hxd.trans_lt hd⟩ ⟨hx.trans hxd, hd⟩ hxd

theorem g_up {d : ℝ} (h0 : 0 ≤ d) (hd : d < 1) : -log (1 - d) ≤ d + d ^ 2 / 2 + d ^ 3 / (3 * (1 - d)) := by
  have hder : ∀ t : ℝ, t < 1 → HasDerivAt (fun t => t + t ^ 2 / 2 + t ^ 3 / (3 * (1 - t)) - -log (1 - t)) (1 + t + (3 * t ^ 2 * (3 * (1 - t)) - t ^ 3 * (-3)) / (3 * (1 - t)) ^ 2 - 1 / (1 - t)) t := by
    intro t ht
    have h0 : (1 : ℝ) - t ≠ 0 := by linarith
    have h1 := (((hasDerivAt_id' t).const_sub 1).log h0).fun_neg
    have h3 := (hasDerivAt_pow 3 t).fun_div (((hasDerivAt_id' t).const_sub 1).const_mul 3) (by simpa using h0)
    have h2 := (((hasDerivAt_id' t).fun_add ((hasDerivAt_pow 2 t).div_const 2))).fun_add h3
    refine (h2.fun_sub h1).congr_deriv ?_
    norm_num
    ring
  have hm := monotoneOn_of_deriv_nonneg (convex_Ico (0 : ℝ) 1) (fun t ht => (hder t ht.2).continuousAt.continuousWithinAt)
    (fun t ht => by rw [interior_Ico] at ht; exact (hder t ht.2).differentiableAt.differentiableWithinAt) (fun t ht => by
      rw [interior_Ico] at ht
      rw [(hder t ht.2).deriv]
      have h1 : 0 < 1 - t := by linarith [ht.2]
      have e : 1 + t + (3 * t ^ 2 * (3 * (1 - t)) - t ^ 3 * (-3)) / (3 * (1 - t)) ^ 2 - 1 / (1 - t) = t ^ 3 / (3 * (1 - t) ^ 2) := by field_simp; ring
      rw [e]
      have := ht.1
      positivity)
  have := hm ⟨le_rfl, by norm_num⟩ ⟨h0, hd⟩ h0
  norm_num at this
  linarith

/-! ### The algebraic bound -/

/-- The constraint on `m` for a given `A`, at the largest `d`. -/
noncomputable def con (A m : ℝ) : ℝ := m + A * (2 * m - m ^ 2) + 2 * A ^ 3 / (1 + 2 * A) * (m - m ^ 2 + m ^ 3 / 3)

theorem con_mono {A x y : ℝ} (hA : 0 < A) (hx : 0 ≤ x) (hxy : x ≤ y) (hy : y ≤ 1) : con A x ≤ con A y := by
  unfold con
  have hK : 0 < 2 * A ^ 3 / (1 + 2 * A) := by positivity
  generalize 2 * A ^ 3 / (1 + 2 * A) = K at *
  have h1 : 0 ≤ (y - x) * (2 - (x + y)) := mul_nonneg (by linarith) (by linarith)
  have h2 : 0 ≤ (y - x) * (1 - (x + y) + (x ^ 2 + x * y + y ^ 2) / 3) := mul_nonneg (by linarith) (by nlinarith [sq_nonneg (x - 1), sq_nonneg (y - 1), sq_nonneg (x + y - 2)])
  have h3 := mul_nonneg hA.le h1
  have h4 := mul_nonneg hK.le h2
  nlinarith

/-- If `2 A p` violates the constraint, `m` is below. -/
theorem m_le {A m p : ℝ} (hA : 0 < A) (hp : 0 ≤ p) (hm0 : 0 ≤ m) (hm : m ≤ 1) (hc : con A m ≤ A ^ 2 / 3)
    (hG : A * (1 + 2 * A) / 3 < 2 * p * (1 + 2 * A) ^ 2 - 4 * A ^ 2 * p ^ 2 * (1 + 2 * A) + 4 * A ^ 3 * p * (1 - 2 * A * p + 4 * A ^ 2 * p ^ 2 / 3)) : m / (2 * A) ≤ p := by
  rw [div_le_iff₀ (by positivity)]
  by_contra hn
  push Not at hn
  have h1 := con_mono hA (by positivity) hn.le hm
  have h2 : con A (p * (2 * A)) = A * (2 * p * (1 + 2 * A) ^ 2 - 4 * A ^ 2 * p ^ 2 * (1 + 2 * A) + 4 * A ^ 3 * p * (1 - 2 * A * p + 4 * A ^ 2 * p ^ 2 / 3)) / (1 + 2 * A) := by
    unfold con
    field_simp
    ring
  have h3 : A ^ 2 / 3 < con A (p * (2 * A)) := by
    rw [h2, lt_div_iff₀ (by positivity)]
    nlinarith
  linarith

noncomputable def target (A : ℝ) : ℝ := 0.03 + 1.03 * 0.49 * (2 / 3 * (A ^ 2 / ((1 + 2 * A) * (1 + A) ^ 2)))

theorem cell1 {A m : ℝ} (hA : 0 < A) (ha : 0 ≤ A) (hb : A ≤ 7 / 25) (hm0 : 0 ≤ m) (hm : m ≤ 1) (hc : con A m ≤ A ^ 2 / 3) : m / (2 * A) ≤ target A := by
  obtain ⟨u, hu⟩ : ∃ u, u = A - 0 := ⟨_, rfl⟩
  obtain ⟨v, hv⟩ : ∃ v, v = 7 / 25 - A := ⟨_, rfl⟩
  have hu0 : 0 ≤ u := by linarith
  have hv0 : 0 ≤ v := by linarith
  have huv : 0 < u + v := by rw [hu, hv]; norm_num
  refine (m_le (p := 3 / 100) hA (by norm_num) hm0 hm hc ?_).trans ?_
  · have h : 0 < 1171875 / 33614 * v ^ 5 + 16046875 / 100842 * u ^ 1 * v ^ 4 + 18036475 / 67228 * u ^ 2 * v ^ 3 + 13456151 / 67228 * u ^ 3 * v ^ 2 + 290554871 / 5042100 * u ^ 4 * v ^ 1 + 391531097 / 262609375 * u ^ 5 := by
      rcases hu0.eq_or_lt with h | h
      · have hv1 : 0 < v := by linarith
        positivity
      · positivity
    rw [hu, hv] at h
    linarith
  · unfold target
    have : 0 < A ^ 2 / ((1 + 2 * A) * (1 + A) ^ 2) := by positivity
    linarith

theorem cell2 {A m : ℝ} (hA : 0 < A) (ha : 7 / 25 ≤ A) (hb : A ≤ 1 / 2) (hm0 : 0 ≤ m) (hm : m ≤ 1) (hc : con A m ≤ A ^ 2 / 3) : m / (2 * A) ≤ target A := by
  obtain ⟨u, hu⟩ : ∃ u, u = A - 7 / 25 := ⟨_, rfl⟩
  obtain ⟨v, hv⟩ : ∃ v, v = 1 / 2 - A := ⟨_, rfl⟩
  have hu0 : 0 ≤ u := by linarith
  have hv0 : 0 ≤ v := by linarith
  have huv : 0 < u + v := by rw [hu, hv]; norm_num
  refine (m_le (p := 1 / 25) hA (by norm_num) hm0 hm hc ?_).trans ?_
  · have h : 0 < 757902625184 / 7549265625 * v ^ 5 + 25738832816 / 60394125 * u ^ 1 * v ^ 4 + 546508816 / 805255 * u ^ 2 * v ^ 3 + 234638560 / 483153 * u ^ 3 * v ^ 2 + 22216000 / 161051 * u ^ 4 * v ^ 1 + 2510000 / 483153 * u ^ 5 := by
      rcases hu0.eq_or_lt with h | h
      · have hv1 : 0 < v := by linarith
        positivity
      · positivity
    rw [hu, hv] at h
    linarith
  · unfold target
    have h : 150 / 5047 ≤ A ^ 2 / ((1 + 2 * A) * (1 + A) ^ 2) := by
      rw [le_div_iff₀ (by positivity)]
      have h : 0 ≤ 1537400 / 6717557 * v ^ 3 + 52345600 / 6717557 * u ^ 1 * v ^ 2 + 124551250 / 6717557 * u ^ 2 * v ^ 1 + 73343750 / 6717557 * u ^ 3 := by positivity
      rw [hu, hv] at h
      linarith
    linarith

theorem cell3 {A m : ℝ} (hA : 0 < A) (ha : 1 / 2 ≤ A) (hb : A ≤ 1) (hm0 : 0 ≤ m) (hm : m ≤ 1) (hc : con A m ≤ A ^ 2 / 3) : m / (2 * A) ≤ target A := by
  obtain ⟨u, hu⟩ : ∃ u, u = A - 1 / 2 := ⟨_, rfl⟩
  obtain ⟨v, hv⟩ : ∃ v, v = 1 - A := ⟨_, rfl⟩
  have hu0 : 0 ≤ u := by linarith
  have hv0 : 0 ≤ v := by linarith
  have huv : 0 < u + v := by rw [hu, hv]; norm_num
  refine (m_le (p := 483 / 10000) hA (by norm_num) hm0 hm hc ?_).trans ?_
  · have h : 0 < 428419328587 / 187500000000 * v ^ 5 + 179777865587 / 18750000000 * u ^ 1 * v ^ 4 + 23536389529 / 1562500000 * u ^ 2 * v ^ 3 + 25933204337 / 2343750000 * u ^ 3 * v ^ 2 + 8984939587 / 2343750000 * u ^ 4 * v ^ 1 + 1033947029 / 1953125000 * u ^ 5 := by
      rcases hu0.eq_or_lt with h | h
      · have hv1 : 0 < v := by linarith
        positivity
      · positivity
    rw [hu, hv] at h
    linarith
  · unfold target
    have h : 549 / 10094 ≤ A ^ 2 / ((1 + 2 * A) * (1 + A) ^ 2) := by
      rw [le_div_iff₀ (by positivity)]
      have h : 0 ≤ 212 / 5047 * v ^ 3 + 9295 / 5047 * u ^ 1 * v ^ 2 + 23656 / 5047 * u ^ 2 * v ^ 1 + 14024 / 5047 * u ^ 3 := by positivity
      rw [hu, hv] at h
      linarith
    linarith

theorem cell4 {A m : ℝ} (hA : 0 < A) (ha : 1 ≤ A) (hb : A ≤ 3 / 2) (hm0 : 0 ≤ m) (hm : m ≤ 1) (hc : con A m ≤ A ^ 2 / 3) : m / (2 * A) ≤ target A := by
  obtain ⟨u, hu⟩ : ∃ u, u = A - 1 := ⟨_, rfl⟩
  obtain ⟨v, hv⟩ : ∃ v, v = 3 / 2 - A := ⟨_, rfl⟩
  have hu0 : 0 ≤ u := by linarith
  have hv0 : 0 ≤ v := by linarith
  have huv : 0 < u + v := by rw [hu, hv]; norm_num
  refine (m_le (p := 483 / 10000) hA (by norm_num) hm0 hm hc ?_).trans ?_
  · have h : 0 < 1033947029 / 1953125000 * v ^ 5 + 3422424761 / 2343750000 * u ^ 1 * v ^ 4 + 1227715011 / 781250000 * u ^ 2 * v ^ 3 + 2610004283 / 1562500000 * u ^ 3 * v ^ 2 + 33545568547 / 18750000000 * u ^ 4 * v ^ 1 + 47494795547 / 62500000000 * u ^ 5 := by
      rcases hu0.eq_or_lt with h | h
      · have hv1 : 0 < v := by linarith
        positivity
      · positivity
    rw [hu, hv] at h
    linarith
  · unfold target
    have h : 549 / 10094 ≤ A ^ 2 / ((1 + 2 * A) * (1 + A) ^ 2) := by
      rw [le_div_iff₀ (by positivity)]
      have h : 0 ≤ 14024 / 5047 * v ^ 3 + 60488 / 5047 * u ^ 1 * v ^ 2 + 82959 / 5047 * u ^ 2 * v ^ 1 + 35946 / 5047 * u ^ 3 := by positivity
      rw [hu, hv] at h
      linarith
    linarith

theorem cell5 {A m : ℝ} (hA : 0 < A) (ha : 3 / 2 ≤ A) (hb : A ≤ 2) (hm0 : 0 ≤ m) (hm : m ≤ 1) (hc : con A m ≤ A ^ 2 / 3) : m / (2 * A) ≤ target A := by
  obtain ⟨u, hu⟩ : ∃ u, u = A - 3 / 2 := ⟨_, rfl⟩
  obtain ⟨v, hv⟩ : ∃ v, v = 2 - A := ⟨_, rfl⟩
  have hu0 : 0 ≤ u := by linarith
  have hv0 : 0 ≤ v := by linarith
  have huv : 0 < u + v := by rw [hu, hv]; norm_num
  refine (m_le (p := 483 / 10000) hA (by norm_num) hm0 hm hc ?_).trans ?_
  · have h : 0 < 47494795547 / 62500000000 * v ^ 5 + 54469409047 / 9375000000 * u ^ 1 * v ^ 4 + 20805815599 / 1171875000 * u ^ 2 * v ^ 3 + 10275762419 / 390625000 * u ^ 3 * v ^ 2 + 2748252136 / 146484375 * u ^ 4 * v ^ 1 + 3779438098 / 732421875 * u ^ 5 := by
      rcases hu0.eq_or_lt with h | h
      · have hv1 : 0 < v := by linarith
        positivity
      · positivity
    rw [hu, hv] at h
    linarith
  · unfold target
    have h : 549 / 10094 ≤ A ^ 2 / ((1 + 2 * A) * (1 + A) ^ 2) := by
      rw [le_div_iff₀ (by positivity)]
      have h : 0 ≤ 35946 / 5047 * v ^ 3 + 132717 / 5047 * u ^ 1 * v ^ 2 + 160004 / 5047 * u ^ 2 * v ^ 1 + 62684 / 5047 * u ^ 3 := by positivity
      rw [hu, hv] at h
      linarith
    linarith

theorem cell6 {A m : ℝ} (hA : 0 < A) (ha : 2 ≤ A) (hb : A ≤ 6) (hm0 : 0 ≤ m) (hm : m ≤ 1) (hc : con A m ≤ A ^ 2 / 3) : m / (2 * A) ≤ target A := by
  obtain ⟨u, hu⟩ : ∃ u, u = A - 2 := ⟨_, rfl⟩
  obtain ⟨v, hv⟩ : ∃ v, v = 6 - A := ⟨_, rfl⟩
  have hu0 : 0 ≤ u := by linarith
  have hv0 : 0 ≤ v := by linarith
  have huv : 0 < u + v := by rw [hu, hv]; norm_num
  refine (m_le (p := 483 / 10000) hA (by norm_num) hm0 hm hc ?_).trans ?_
  · have h : 0 < 1889719049 / 12000000000000 * v ^ 5 + 6014462897 / 2400000000000 * u ^ 1 * v ^ 4 + 5615887897 / 400000000000 * u ^ 2 * v ^ 3 + 38084572823 / 1200000000000 * u ^ 3 * v ^ 2 + 65828284469 / 2400000000000 * u ^ 4 * v ^ 1 + 31933721719 / 4000000000000 * u ^ 5 := by
      rcases hu0.eq_or_lt with h | h
      · have hv1 : 0 < v := by linarith
        positivity
      · positivity
    rw [hu, hv] at h
    linarith
  · unfold target
    have h : 549 / 10094 ≤ A ^ 2 / ((1 + 2 * A) * (1 + A) ^ 2) := by
      rw [le_div_iff₀ (by positivity)]
      have h : 0 ≤ 15671 / 646016 * v ^ 3 + 103109 / 646016 * u ^ 1 * v ^ 2 + 24483 / 92288 * u ^ 2 * v ^ 1 + 279 / 13184 * u ^ 3 := by positivity
      rw [hu, hv] at h
      linarith
    linarith

theorem cell7 {A m : ℝ} (hA : 0 < A) (ha : 6 ≤ A) (hb : A ≤ 10) (hm0 : 0 ≤ m) (hm : m ≤ 1) (hc : con A m ≤ A ^ 2 / 3) : m / (2 * A) ≤ target A := by
  obtain ⟨u, hu⟩ : ∃ u, u = A - 6 := ⟨_, rfl⟩
  obtain ⟨v, hv⟩ : ∃ v, v = 10 - A := ⟨_, rfl⟩
  have hu0 : 0 ≤ u := by linarith
  have hv0 : 0 ≤ v := by linarith
  have huv : 0 < u + v := by rw [hu, hv]; norm_num
  refine (m_le (p := 1 / 25) hA (by norm_num) hm0 hm hc ?_).trans ?_
  · have h : 0 < 10059 / 2000000 * v ^ 5 + 17321 / 480000 * u ^ 1 * v ^ 4 + 393 / 4000 * u ^ 2 * v ^ 3 + 10097 / 80000 * u ^ 3 * v ^ 2 + 3659 / 48000 * u ^ 4 * v ^ 1 + 337 / 19200 * u ^ 5 := by
      rcases hu0.eq_or_lt with h | h
      · have hv1 : 0 < v := by linarith
        positivity
      · positivity
    rw [hu, hv] at h
    linarith
  · unfold target
    have h : 150 / 5047 ≤ A ^ 2 / ((1 + 2 * A) * (1 + A) ^ 2) := by
      rw [le_div_iff₀ (by positivity)]
      have h : 0 ≤ 879 / 3296 * v ^ 3 + 23763 / 23072 * u ^ 1 * v ^ 2 + 194645 / 161504 * u ^ 2 * v ^ 1 + 8825 / 23072 * u ^ 3 := by positivity
      rw [hu, hv] at h
      linarith
    linarith

theorem cell8 {A m : ℝ} (hA : 0 < A) (ha : 10 ≤ A) (hb : A ≤ 17) (hm0 : 0 ≤ m) (hm : m ≤ 1) (hc : con A m ≤ A ^ 2 / 3) : m / (2 * A) ≤ target A := by
  obtain ⟨u, hu⟩ : ∃ u, u = A - 10 := ⟨_, rfl⟩
  obtain ⟨v, hv⟩ : ∃ v, v = 17 - A := ⟨_, rfl⟩
  have hu0 : 0 ≤ u := by linarith
  have hv0 : 0 ≤ v := by linarith
  have huv : 0 < u + v := by rw [hu, hv]; norm_num
  refine (m_le (p := 3 / 100) hA (by norm_num) hm0 hm hc ?_).trans ?_
  · have h : 0 < 113 / 168070 * v ^ 5 + 60967 / 12605250 * u ^ 1 * v ^ 4 + 1618277 / 126052500 * u ^ 2 * v ^ 3 + 654683 / 42017500 * u ^ 3 * v ^ 2 + 1088197 / 126052500 * u ^ 4 * v ^ 1 + 2945707 / 1575656250 * u ^ 5 := by
      rcases hu0.eq_or_lt with h | h
      · have hv1 : 0 < v := by linarith
        positivity
      · positivity
    rw [hu, hv] at h
    linarith
  · unfold target
    have : 0 < A ^ 2 / ((1 + 2 * A) * (1 + A) ^ 2) := by positivity
    linarith

theorem m_bound {A m : ℝ} (hA : 0 < A) (hm0 : 0 ≤ m) (hm : m ≤ 1) (hc : con A m ≤ A ^ 2 / 3) : m / (2 * A) ≤ target A := by
  rcases le_or_gt A (7 / 25) with h1 | h1
  · exact cell1 hA hA.le h1 hm0 hm hc
  rcases le_or_gt A (1 / 2) with h2 | h2
  · exact cell2 hA h1.le h2 hm0 hm hc
  rcases le_or_gt A (1) with h3 | h3
  · exact cell3 hA h2.le h3 hm0 hm hc
  rcases le_or_gt A (3 / 2) with h4 | h4
  · exact cell4 hA h3.le h4 hm0 hm hc
  rcases le_or_gt A (2) with h5 | h5
  · exact cell5 hA h4.le h5 hm0 hm hc
  rcases le_or_gt A (6) with h6 | h6
  · exact cell6 hA h5.le h6 hm0 hm hc
  rcases le_or_gt A (10) with h7 | h7
  · exact cell7 hA h6.le h7 hm0 hm hc
  rcases le_or_gt A (17) with h8 | h8
  · exact cell8 hA h7.le h8 hm0 hm hc
  have h : m / (2 * A) ≤ 0.03 := by
    rw [div_le_iff₀ (by positivity)]
    linarith
  unfold target
  have : 0 < A ^ 2 / ((1 + 2 * A) * (1 + A) ^ 2) := by positivity
  linarith

/-- The bound for all `d`. -/
theorem sub_alg {A d m : ℝ} (hA : 0 < A) (hd : 0 < d) (hdA : d * (1 + 2 * A) ≤ 1) (hm0 : 0 ≤ m) (hm : m ≤ 1)
    (hc : m + A * (2 * m - m ^ 2) + A ^ 2 * (1 - d) * (m - m ^ 2 + m ^ 3 / 3) ≤ A ^ 2 / 3) :
    (1 + d * m / (1 - d)) ^ 2 ≤ 1.03 ^ 2 * (1 + 2 / 3 * A ^ 2 * d / (1 + A) ^ 2) := by
  have hA1 : 0 < 1 + 2 * A := by linarith
  have hd1 : d ≤ 1 / (1 + 2 * A) := (le_div_iff₀ hA1).2 hdA
  have hdl : 1 / (1 + 2 * A) < 1 := by rw [div_lt_one hA1]; linarith
  have hd2 : 0 < 1 - d := by linarith
  have ek : 1 - 1 / (1 + 2 * A) = 2 * A / (1 + 2 * A) := by field_simp; ring
  have hcon : con A m ≤ A ^ 2 / 3 := by
    refine le_trans ?_ hc
    unfold con
    have h1 : 0 ≤ m - m ^ 2 + m ^ 3 / 3 := by nlinarith [mul_nonneg hm0 (sub_nonneg.2 hm), pow_nonneg hm0 3]
    have h2 : 2 * A ^ 3 / (1 + 2 * A) ≤ A ^ 2 * (1 - d) := by
      rw [show 2 * A ^ 3 / (1 + 2 * A) = A ^ 2 * (2 * A / (1 + 2 * A)) by ring, ← ek]
      have : 0 ≤ A ^ 2 := by positivity
      nlinarith
    nlinarith [mul_le_mul_of_nonneg_right h2 h1]
  have hb := m_bound hA hm0 hm hcon
  obtain ⟨q, hq⟩ : ∃ q, q = A ^ 2 / (1 + A) ^ 2 := ⟨_, rfl⟩
  have hq0 : 0 < q := by rw [hq]; positivity
  have hq1 : q ≤ 1 := by rw [hq, div_le_one (by positivity)]; nlinarith
  -- `d (m / (1 - d) - c q) ≤ 0.03`
  have hmain : d * m / (1 - d) ≤ 0.03 + 1.03 * 0.49 * (2 / 3 * (q * d)) := by
    rcases le_or_gt (m / (1 - d)) (1.03 * 0.49 * (2 / 3 * q)) with h | h
    · have := mul_le_mul_of_nonneg_left h hd.le
      rw [mul_div_assoc]
      linarith
    · have h1 : m / (1 - d) ≤ m / (1 - 1 / (1 + 2 * A)) := div_le_div_of_nonneg_left hm0 (by linarith) (by linarith)
      have h2 : d * (m / (1 - d) - 1.03 * 0.49 * (2 / 3 * q)) ≤ 1 / (1 + 2 * A) * (m / (1 - 1 / (1 + 2 * A)) - 1.03 * 0.49 * (2 / 3 * q)) :=
        mul_le_mul hd1 (by linarith) (by linarith) (by positivity)
      have h3 : 1 / (1 + 2 * A) * (m / (1 - 1 / (1 + 2 * A))) = m / (2 * A) := by rw [ek]; field_simp
      have h4 : target A = 0.03 + 1 / (1 + 2 * A) * (1.03 * 0.49 * (2 / 3 * q)) := by
        rw [target, hq]
        field_simp
      rw [mul_div_assoc]
      linarith
  have hx0 : 0 ≤ d * m / (1 - d) := by positivity
  have hqd : q * d ≤ 0.1 := by
    have : q * d ≤ A ^ 2 / (1 + A) ^ 2 * (1 / (1 + 2 * A)) := by rw [← hq]; exact mul_le_mul_of_nonneg_left hd1 hq0.le
    refine this.trans ?_
    rw [div_mul_div_comm, mul_one, div_le_iff₀ (by positivity)]
    nlinarith [sq_nonneg (A - 1.5), sq_nonneg (A - 1), mul_nonneg hA.le (sq_nonneg (A - 1.5)), mul_nonneg hA.le (sq_nonneg (A - 1.6))]
  rw [show 2 / 3 * A ^ 2 * d / (1 + A) ^ 2 = 2 / 3 * (q * d) by rw [hq]; ring]
  have hqd0 : 0 < q * d := by positivity
  generalize q * d = z at *
  generalize d * m / (1 - d) = y at *
  nlinarith

end Verif.SubcooledCrit
