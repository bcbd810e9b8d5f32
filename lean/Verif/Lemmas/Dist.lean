import Verif.Model.Dist
import Verif.Lemmas.Tactics
import Verif.Lemmas.Convert
import Mathlib.Analysis.SpecificLimits.Normed
import Mathlib.Analysis.SpecialFunctions.Gamma.Deligne
import Mathlib.Analysis.SpecialFunctions.Exponential
import Mathlib.MeasureTheory.Integral.IntegralEqImproper
import Mathlib.Tactic.FieldSimp

/-! # Helper lemmas: discrete distributions -/

namespace Verif.Dist

open Real

/-! ### Flory -/

theorem choose1 (k : ℕ) : ((k + 1).choose 1 : ℝ) = k + 1 := by simp

theorem choose2 (k : ℕ) : ((k + 2).choose 2 : ℝ) = (k + 2) * (k + 1) / 2 := by
  induction k with
  | zero => norm_num
  | succ k ih =>
    rw [show k + 1 + 2 = (k + 2) + 1 by ring, Nat.choose_succ_succ' (k + 2) 1]
    push_cast
    rw [ih]; simp; ring

theorem choose3 (k : ℕ) : ((k + 3).choose 3 : ℝ) = (k + 3) * (k + 2) * (k + 1) / 6 := by
  induction k with
  | zero => norm_num
  | succ k ih =>
    rw [show k + 1 + 3 = (k + 3) + 1 by ring, Nat.choose_succ_succ' (k + 3) 2]
    push_cast
    rw [ih, show k + 3 = (k + 1) + 2 by ring, choose2]; push_cast; ring

theorem choose4 (k : ℕ) : ((k + 4).choose 4 : ℝ) = (k + 4) * (k + 3) * (k + 2) * (k + 1) / 24 := by
  induction k with
  | zero => norm_num
  | succ k ih =>
    rw [show k + 1 + 4 = (k + 4) + 1 by ring, Nat.choose_succ_succ' (k + 4) 3]
    push_cast
    rw [ih, show k + 4 = (k + 1) + 3 by ring, choose3]; push_cast; ring

theorem flory_hasSum (a : ℝ) (h0 : 0 ≤ a) (h1 : a < 1) (j : ℕ) :
    HasSum (fun k : ℕ => ((k + j).choose j : ℝ) * ((1 - a) * a ^ k)) (1 / (1 - a) ^ j) := by
  have hn : ‖a‖ < 1 := by rw [Real.norm_eq_abs, abs_of_nonneg h0]; exact h1
  have h := (hasSum_choose_mul_geometric_of_norm_lt_one j hn).mul_left (1 - a)
  have hp : (1 - a) ≠ 0 := by linarith
  have e : (1 - a) * (1 / (1 - a) ^ (j + 1)) = 1 / (1 - a) ^ j := by rw [pow_succ]; field_simp
  rw [e] at h
  refine h.congr_fun ?_ |> fun h => h
  intro k; ring

theorem flory_moment_hasSum (polylog : ℕ → ℝ → ℝ) (a : ℝ) (h0 : 0 ≤ a) (h1 : a < 1)
    (hpl : 0 < a → ∀ n, 5 ≤ n → HasSum (fun k : ℕ => ((k : ℝ) + 1) ^ n * a ^ (k + 1)) (polylog n a)) (order : ℕ) (v : ℝ)
    (hv : floryMoment polylog a order = .ok v) :
    HasSum (fun k : ℕ => ((k : ℝ) + 1) ^ order * ((1 - a) * a ^ k)) v := by
  have hp : (1 - a) ≠ 0 := by linarith
  have H0 := flory_hasSum a h0 h1 0
  have H1 := flory_hasSum a h0 h1 1
  have H2 := flory_hasSum a h0 h1 2
  have H3 := flory_hasSum a h0 h1 3
  have H4 := flory_hasSum a h0 h1 4
  simp only [Nat.choose_zero_right, Nat.cast_one, choose1, choose2, choose3, choose4] at H0 H1 H2 H3 H4
  unfold floryMoment at hv
  dsimp only at hv
  split_ifs at hv with e0 e1 e2 e3 e4 e5 <;> simp only [Except.ok.injEq] at hv <;> subst hv
  · subst e0; simpa using H0
  · subst e1; simpa using H1
  · subst e2
    refine hasSum_of_eq ((H2.mul_left 2).sub H1) ?_ ?_
    · intro k; ring
    · rw [pow_one]; ring
  · subst e3
    refine hasSum_of_eq (((H3.mul_left 6).sub (H2.mul_left 6)).add H1) ?_ ?_
    · intro k; ring
    · rw [pow_one]; ring
  · subst e4
    refine hasSum_of_eq ((((H4.mul_left 24).sub (H3.mul_left 36)).add (H2.mul_left 14)).sub H1) ?_ ?_
    · intro k; ring
    · rw [pow_one]; ring
  · have ha : 0 < a := lt_of_le_of_ne h0 (Ne.symm e5)
    refine hasSum_of_eq ((hpl ha order (by omega)).mul_left ((1 - a) / a)) (fun k => ?_) rfl
    rw [pow_succ]; field_simp

theorem flory_cdf0 (a : ℝ) (k : ℕ) : ∑ i ∈ Finset.range k, (1 - a) * a ^ i = 1 - a ^ k := by
  induction k with
  | zero => simp
  | succ k ih => rw [Finset.sum_range_succ, ih]; ring

theorem flory_cdf1 (a : ℝ) (h1 : a ≠ 1) (k : ℕ) :
    ∑ i ∈ Finset.range k, ((i : ℝ) + 1) * ((1 - a) * a ^ i) = (a ^ k * (-a * k + k + 1) - 1) / (a - 1) := by
  have : a - 1 ≠ 0 := sub_ne_zero.mpr h1
  rw [eq_div_iff this]
  induction k with
  | zero => simp
  | succ k ih =>
    rw [Finset.sum_range_succ, add_mul, ih]
    push_cast
    ring

/-! ### Poisson -/

theorem pow_eq_stirling (n x : ℕ) :
    x ^ n = ∑ j ∈ Finset.range (n + 1), Nat.stirlingSecond n j * x.descFactorial j := by
  induction n with
  | zero => simp
  | succ n ih =>
    have key : ∀ j, x * x.descFactorial j = x.descFactorial (j + 1) + j * x.descFactorial j := by
      intro j
      rw [Nat.descFactorial_succ, ← add_mul]
      by_cases h : j ≤ x
      · rw [Nat.sub_add_cancel h]
      · rw [Nat.descFactorial_of_lt (by omega)]; simp
    rw [pow_succ, ih, mul_comm, Finset.mul_sum, Finset.sum_range_succ' _ (n + 1)]
    rw [show Nat.stirlingSecond (n + 1) 0 = 0 from Nat.stirlingSecond_succ_zero n, zero_mul, add_zero]
    have e1 : ∀ j, Nat.stirlingSecond (n + 1) (j + 1) * x.descFactorial (j + 1) =
        (j + 1) * Nat.stirlingSecond n (j + 1) * x.descFactorial (j + 1) + Nat.stirlingSecond n j * x.descFactorial (j + 1) := by
      intro j
      rw [Nat.stirlingSecond_succ_succ]; ring
    rw [Finset.sum_congr rfl fun j _ => e1 j, Finset.sum_add_distrib]
    have e2 : ∀ j, x * (Nat.stirlingSecond n j * x.descFactorial j) =
        j * Nat.stirlingSecond n j * x.descFactorial j + Nat.stirlingSecond n j * x.descFactorial (j + 1) := by
      intro j
      rw [mul_left_comm, key]; ring
    rw [Finset.sum_congr rfl fun j _ => e2 j, Finset.sum_add_distrib]
    congr 1
    rw [Finset.sum_range_succ' (fun j => j * Nat.stirlingSecond n j * x.descFactorial j) n,
      Finset.sum_range_succ (fun j => (j + 1) * Nat.stirlingSecond n (j + 1) * x.descFactorial (j + 1)) n,
      Nat.stirlingSecond_eq_zero_of_lt (Nat.lt_succ_self n)]
    simp

theorem succ_pow_eq_stirling (n k : ℕ) :
    (k + 1) ^ n = ∑ j ∈ Finset.Ico 1 (n + 2), Nat.stirlingSecond (n + 1) j * k.descFactorial (j - 1) := by
  have h := pow_eq_stirling (n + 1) (k + 1)
  rw [Finset.sum_range_succ', show Nat.stirlingSecond (n + 1) 0 = 0 from Nat.stirlingSecond_succ_zero n, zero_mul, add_zero] at h
  rw [Finset.sum_Ico_eq_sum_range]
  apply Nat.eq_of_mul_eq_mul_left (Nat.succ_pos k)
  rw [Nat.succ_eq_add_one, ← pow_succ', h, Finset.mul_sum]
  refine Finset.sum_congr (by simp) fun j _ => ?_
  rw [Nat.succ_descFactorial_succ, show 1 + j - 1 = j by omega, add_comm 1 j]
  ring

theorem hasSum_descFactorial (a : ℝ) (j : ℕ) :
    HasSum (fun k : ℕ => (k.descFactorial j : ℝ) * (exp (-a) * a ^ k / k.factorial)) (a ^ j) := by
  have he : HasSum (fun k : ℕ => a ^ k / k.factorial) (exp a) := by
    rw [Real.exp_eq_exp_ℝ]
    exact NormedSpace.expSeries_div_hasSum_exp a
  rw [← hasSum_nat_add_iff' j]
  have hz : ∑ i ∈ Finset.range j, (i.descFactorial j : ℝ) * (exp (-a) * a ^ i / i.factorial) = 0 := by
    apply Finset.sum_eq_zero
    intro i hi
    rw [Nat.descFactorial_of_lt (Finset.mem_range.mp hi)]; simp
  rw [hz, sub_zero]
  refine hasSum_of_eq (he.mul_left (exp (-a) * a ^ j)) ?_ ?_
  · intro k
    have h1 : ((k + j).descFactorial j : ℝ) * (k.factorial : ℝ) = ((k + j).factorial : ℝ) := by
      have := Nat.factorial_mul_descFactorial (show j ≤ k + j by omega)
      rw [Nat.add_sub_cancel] at this
      rw [mul_comm]; exact_mod_cast this
    have hk : (k.factorial : ℝ) ≠ 0 := by positivity
    have hkj : ((k + j).factorial : ℝ) ≠ 0 := by positivity
    rw [← h1] at hkj ⊢
    have hd : ((k + j).descFactorial j : ℝ) ≠ 0 := left_ne_zero_of_mul hkj
    rw [pow_add]
    field_simp
  · rw [mul_right_comm, ← exp_add, neg_add_cancel, exp_zero, one_mul]

theorem poisson_moment_hasSum (a : ℝ) (order : ℕ) :
    HasSum (fun k : ℕ => ((k : ℝ) + 1) ^ order * (exp (-a) * a ^ k / k.factorial)) (poissonMoment a order) := by
  have hgen : HasSum (fun k : ℕ => ((k : ℝ) + 1) ^ order * (exp (-a) * a ^ k / k.factorial))
      (∑ j ∈ Finset.Ico 1 (order + 2), (Nat.stirlingSecond (order + 1) j : ℝ) * a ^ (j - 1)) := by
    have : (fun k : ℕ => ((k : ℝ) + 1) ^ order * (exp (-a) * a ^ k / k.factorial)) = fun k : ℕ =>
        ∑ j ∈ Finset.Ico 1 (order + 2), (Nat.stirlingSecond (order + 1) j : ℝ) *
          ((k.descFactorial (j - 1) : ℝ) * (exp (-a) * a ^ k / k.factorial)) := by
      funext k
      have h := congrArg (fun n : ℕ => (n : ℝ)) (succ_pow_eq_stirling order k)
      push_cast at h
      rw [h, Finset.sum_mul]
      exact Finset.sum_congr rfl fun j _ => by ring
    rw [this]
    exact hasSum_sum fun j _ => (hasSum_descFactorial a (j - 1)).mul_left _
  unfold poissonMoment
  split_ifs with h0 h1 h2 h3
  · subst h0; simpa [Finset.sum_Ico_succ_top, Nat.stirlingSecond] using hgen
  · subst h1
    convert hgen using 1
    norm_num [Finset.sum_Ico_succ_top, Nat.stirlingSecond]; ring
  · subst h2
    convert hgen using 1
    norm_num [Finset.sum_Ico_succ_top, Nat.stirlingSecond]; ring
  · subst h3
    convert hgen using 1
    norm_num [Finset.sum_Ico_succ_top, Nat.stirlingSecond]; ring
  · exact hgen

theorem poisson_pdf_eq (a : ℝ) (ha : 0 < a) (k : ℕ) : poissonPdf a (k + 1) = some (exp (-a) * a ^ k / k.factorial) := by
  unfold poissonPdf poisson
  rw [if_neg ha.ne']
  congr 1
  have hg : gammaln (((k + 1 : ℕ) : ℝ) + 1 + ((if (false : Bool) = true then 0 else -1 : ℤ) : ℝ)) = log (k.factorial : ℝ) := by
    unfold gammaln
    rw [show ((k + 1 : ℕ) : ℝ) + 1 + ((if (false : Bool) = true then 0 else -1 : ℤ) : ℝ) = (k : ℝ) + 1 by push_cast; simp,
      Real.Gamma_nat_eq_factorial, abs_of_pos (by positivity)]
  rw [hg, show (((k + 1 : ℕ) : ℝ) + ((if (false : Bool) = true then 0 else -1 : ℤ) : ℝ)) = (k : ℝ) by push_cast; simp]
  rw [exp_sub, exp_sub, exp_log (by positivity), mul_comm, exp_mul, exp_log ha, rpow_natCast, exp_neg]
  field_simp

/-- Partial sums of the Poisson probabilities. -/
noncomputable def poisQ (k : ℕ) (a : ℝ) : ℝ := ∑ i ∈ Finset.range k, exp (-a) * a ^ i / i.factorial

theorem poisQ_deriv (k : ℕ) (x : ℝ) : HasDerivAt (poisQ (k + 1)) (-(exp (-x) * x ^ k / k.factorial)) x := by
  induction k with
  | zero =>
    have : poisQ 1 = fun x => exp (-x) := by funext x; simp [poisQ]
    rw [this]
    have := (hasDerivAt_neg x).exp
    simpa using this
  | succ k ih =>
    have : poisQ (k + 1 + 1) = fun x => poisQ (k + 1) x + exp (-x) * x ^ (k + 1) / ((k + 1).factorial : ℝ) := by
      funext x; simp only [poisQ]; rw [Finset.sum_range_succ _ (k + 1)]
    rw [this]
    have h1 : HasDerivAt (fun x : ℝ => exp (-x)) (-exp (-x)) x := by simpa using (hasDerivAt_neg x).exp
    have h2 := ((h1.mul (hasDerivAt_pow (k + 1) x)).div_const ((k + 1).factorial : ℝ))
    refine hasDerivAt_of_eq (ih.add h2) (fun _ => rfl) ?_
    rw [Nat.factorial_succ]
    push_cast
    have : (k.factorial : ℝ) ≠ 0 := by positivity
    have : ((k : ℝ) + 1) ≠ 0 := by positivity
    field_simp
    simp

theorem poisQ_tendsto (k : ℕ) : Filter.Tendsto (poisQ k) Filter.atTop (nhds 0) := by
  unfold poisQ
  rw [show (0 : ℝ) = ∑ i ∈ Finset.range k, (0 : ℝ) by simp]
  refine tendsto_finsetSum _ fun i _ => ?_
  have h := (tendsto_pow_mul_exp_neg_atTop_nhds_zero i).div_const (i.factorial : ℝ)
  rw [zero_div] at h
  refine h.congr fun x => ?_
  ring

theorem gammaincc_nat (k : ℕ) (a : ℝ) (ha : 0 < a) : gammaincc ((k + 1 : ℕ) : ℝ) a = poisQ (k + 1) a := by
  unfold gammaincc
  have hd : ∀ x ∈ Set.Ici a, HasDerivAt (fun x => -poisQ (k + 1) x) (exp (-x) * x ^ k / k.factorial) x := by
    intro x _
    exact hasDerivAt_of_eq (poisQ_deriv k x).neg (fun _ => rfl) (by ring)
  have hpos : ∀ x ∈ Set.Ioi a, 0 ≤ exp (-x) * x ^ k / k.factorial := by
    intro x hx
    have : 0 < x := ha.trans hx
    positivity
  have ht : Filter.Tendsto (fun x => -poisQ (k + 1) x) Filter.atTop (nhds 0) := by
    simpa using (poisQ_tendsto (k + 1)).neg
  have hi := MeasureTheory.integral_Ioi_of_hasDerivAt_of_nonneg' hd hpos ht
  have e : ∀ x ∈ Set.Ioi a, x ^ (((k + 1 : ℕ) : ℝ) - 1) * exp (-x) = k.factorial * (exp (-x) * x ^ k / k.factorial) := by
    intro x hx
    have hk : (k.factorial : ℝ) ≠ 0 := by positivity
    rw [show (((k + 1 : ℕ) : ℝ) - 1) = (k : ℝ) by push_cast; ring, rpow_natCast]
    field_simp
  rw [MeasureTheory.setIntegral_congr_fun measurableSet_Ioi e, MeasureTheory.integral_const_mul, hi]
  rw [show Gamma ((k + 1 : ℕ) : ℝ) = k.factorial by push_cast; exact Real.Gamma_nat_eq_factorial k]
  have hk : (k.factorial : ℝ) ≠ 0 := by positivity
  field_simp
  ring

theorem poisQ_first_moment (k : ℕ) (a : ℝ) :
    ∑ i ∈ Finset.range (k + 1), ((i : ℝ) + 1) * (exp (-a) * a ^ i / i.factorial) =
      (a + 1) * poisQ (k + 1) a - exp (-a) * a ^ (k + 1) / k.factorial := by
  induction k with
  | zero => simp [poisQ]; ring
  | succ k ih =>
    rw [Finset.sum_range_succ, ih]
    have : poisQ (k + 1 + 1) a = poisQ (k + 1) a + exp (-a) * a ^ (k + 1) / ((k + 1).factorial : ℝ) := by
      simp only [poisQ]; rw [Finset.sum_range_succ _ (k + 1)]
    rw [this, Nat.factorial_succ]
    push_cast
    have : (k.factorial : ℝ) ≠ 0 := by positivity
    have : ((k : ℝ) + 1) ≠ 0 := by positivity
    field_simp
    ring

/-- The averages computed from a moment sequence are ordered as soon as two Hankel forms are non-negative. -/
theorem averages_ordered (m : ℕ → ℝ) (M0 : ℝ) (hM : 0 < M0) (h0 : 0 < m 0) (h1 : 0 < m 1) (h2 : 0 < m 2)
    (q0 : ∀ t, 0 ≤ m 2 - 2 * t * m 1 + t ^ 2 * m 0) (q1 : ∀ t, 0 ≤ m 3 - 2 * t * m 2 + t ^ 2 * m 1) :
    avgDPn (momentMass m M0) ≤ avgDPw (momentMass m M0) ∧ avgDPw (momentMass m M0) ≤ avgDPz (momentMass m M0) ∧
    avgMn (momentMass m M0) ≤ avgMw (momentMass m M0) ∧ avgMw (momentMass m M0) ≤ avgMz (momentMass m M0) ∧
    1 ≤ avgPDI (momentMass m M0) ∧ avgMn (momentMass m M0) = M0 * avgDPn (momentMass m M0) ∧
    avgMw (momentMass m M0) = M0 * avgDPw (momentMass m M0) ∧ avgMz (momentMass m M0) = M0 * avgDPz (momentMass m M0) ∧
    avgM0 (momentMass m M0) = M0 := by
  have hM' := hM.ne'
  have d0 : avgDPn (momentMass m M0) = m 1 / m 0 := by simp [avgDPn, momentMass]
  have d1 : avgDPw (momentMass m M0) = m 2 / m 1 := by
    simp only [avgDPw, momentMass]; norm_num; field_simp
  have d2 : avgDPz (momentMass m M0) = m 3 / m 2 := by
    simp only [avgDPz, momentMass]; norm_num; norm_cast; field_simp
  have n0 : avgMn (momentMass m M0) = M0 * (m 1 / m 0) := by simp [avgMn, momentMass]; ring
  have n1 : avgMw (momentMass m M0) = M0 * (m 2 / m 1) := by
    simp only [avgMw, momentMass]; norm_num; norm_cast; field_simp
  have n2 : avgMz (momentMass m M0) = M0 * (m 3 / m 2) := by
    simp only [avgMz, momentMass]; norm_num; norm_cast; field_simp
  have o1 : m 1 / m 0 ≤ m 2 / m 1 := by
    rw [div_le_div_iff₀ h0 h1]
    have := q0 (m 1 / m 0)
    field_simp at this
    nlinarith
  have o2 : m 2 / m 1 ≤ m 3 / m 2 := by
    rw [div_le_div_iff₀ h1 h2]
    have := q1 (m 2 / m 1)
    field_simp at this
    nlinarith
  rw [d0, d1, d2, n0, n1, n2, avgPDI, avgM0, n0, n1, d0]
  refine ⟨o1, o2, by gcongr, by gcongr, ?_, rfl, rfl, rfl, by field_simp⟩
  rw [le_div_iff₀ (by positivity), one_mul]
  gcongr

end Verif.Dist
