import Verif.Lemmas.TransportMix

/-! # C68: mixing rules of transport properties are means -/

namespace Verif.Transport

open Finset Real Verif.Vaporization

variable {N : ℕ}

/-- C68. The vapour mixing rules `MUVMX2_Herning_Zipperer` and `KVMX2_Wassilijewa` are the same function: the mean of the pure values with weights
`y_i sqrt(M_i)`. It lies between the smallest and the largest value of the components present, needs no normalised composition, and does not
depend on components that are absent. -/
theorem C68_vapor_mean {y q M : Fin N → ℝ} (hy : ∀ i, 0 ≤ y i) (hM : ∀ i, 0 < M i) {k : Fin N} (hk : 0 < y k) :
    ∃ r, muvmx2HerningZipperer y q M = some r ∧ kvmx2Wassilijewa y q M = some r ∧ r * ∑ i, y i * √(M i) = ∑ i, y i * √(M i) * q i ∧
      (∀ lo hi, (∀ i, 0 < y i → lo ≤ q i ∧ q i ≤ hi) → lo ≤ r ∧ r ≤ hi) ∧
      (∀ c, 0 < c → muvmx2HerningZipperer (fun i => c * y i) q M = some r) ∧
      ∀ q', (∀ i, 0 < y i → q' i = q i) → muvmx2HerningZipperer y q' M = some r := by
  have hs := weights_pos hy hM hk
  refine ⟨_, sqrtMean_eq hs, sqrtMean_eq hs, div_mul_cancel₀ _ hs.ne', fun lo hi h => ?_, fun c hc => ?_, fun q' h => ?_⟩
  · refine wmean_bounds (fun i => mul_nonneg (hy i) (sqrt_nonneg _)) hs fun i hi => h i ?_
    exact lt_of_le_of_ne (hy i) fun e => hi (by rw [← e, zero_mul])
  · have e : ∀ f : Fin N → ℝ, ∑ i, c * y i * f i = c * ∑ i, y i * f i := fun f => by rw [mul_sum]; exact sum_congr rfl fun i _ => by ring
    have e2 : ∑ i, c * y i * √(M i) * q i = c * ∑ i, y i * √(M i) * q i := by rw [mul_sum]; exact sum_congr rfl fun i _ => by ring
    unfold muvmx2HerningZipperer
    rw [sqrtMean_eq (by rw [e]; positivity), e2, e fun i => √(M i), mul_div_mul_left _ _ hc.ne']
  · unfold muvmx2HerningZipperer
    rw [sqrtMean_eq hs]
    congr 2
    refine sum_congr rfl fun i _ => ?_
    rcases (hy i).eq_or_lt with e | e
    · rw [← e]; ring
    · rw [h i e]

/-- Methane and propane. -/
example : ∃ r, muvmx2HerningZipperer ![0.5, 0.5] ![1.1e-5, 8e-6] ![0.016, 0.044] = some r ∧ 8e-6 ≤ r ∧ r ≤ 1.1e-5 := by
  obtain ⟨r, h1, -, -, h2, -⟩ := C68_vapor_mean (N := 2) (y := ![0.5, 0.5]) (q := ![1.1e-5, 8e-6]) (M := ![0.016, 0.044])
    (by intro i; fin_cases i <;> norm_num) (by intro i; fin_cases i <;> norm_num) (k := 0) (by norm_num)
  exact ⟨r, h1, h2 _ _ (by intro i _; fin_cases i <;> norm_num)⟩

/-- C68. An all-zero composition gives no number. -/
theorem C68_vapor_empty (q M : Fin N → ℝ) : muvmx2HerningZipperer (fun _ => 0) q M = none := by
  simp [muvmx2HerningZipperer, sqrtMean]

/-- C68. `MULMX2_Perry` lies between the smallest and the largest viscosity, and its two variants are ordered: the logarithmic rule never exceeds
the cubic one, which never exceeds the arithmetic mean. -/
theorem C68_perry {x mu : Fin N → ℝ} (hx : ∀ i, 0 ≤ x i) (hs : ∑ i, x i = 1) (hmu : ∀ i, 0 < mu i) :
    mulmx2Perry x mu false ≤ mulmx2Perry x mu true ∧ mulmx2Perry x mu true ≤ ∑ i, x i * mu i ∧
      ∀ lo hi, (∀ i, x i ≠ 0 → lo ≤ mu i ∧ mu i ≤ hi) → ∀ hc, lo ≤ mulmx2Perry x mu hc ∧ mulmx2Perry x mu hc ≤ hi := by
  have c3 : ∀ i, (mu i ^ (1 / 3 : ℝ)) ^ 3 = mu i := fun i => by
    rw [← rpow_natCast, ← rpow_mul (hmu i).le]; norm_num
  have A : mulmx2Perry x mu false ≤ mulmx2Perry x mu true := by
    have e : ∀ i, mu i ^ (1 / 3 : ℝ) = exp (log (mu i) / 3) := fun i => by rw [rpow_def_of_pos (hmu i)]; congr 1; ring
    have j := convexOn_exp.map_sum_le (t := univ) (w := x) (p := fun i => log (mu i) / 3) (fun i _ => hx i) hs fun i _ => Set.mem_univ _
    simp only [smul_eq_mul] at j
    have p : exp (∑ i, x i * log (mu i)) = exp (∑ i, x i * (log (mu i) / 3)) ^ 3 := by
      rw [← exp_nat_mul, mul_sum]
      congr 1
      refine sum_congr rfl fun i _ => ?_
      push_cast; ring
    simp only [mulmx2Perry, Bool.false_eq_true, if_false, if_true]
    rw [p]
    refine pow_le_pow_left₀ (exp_pos _).le (j.trans (le_of_eq (sum_congr rfl fun i _ => by rw [e]))) 3
  have B : mulmx2Perry x mu true ≤ ∑ i, x i * mu i := by
    have := Real.pow_arith_mean_le_arith_mean_pow univ x (fun i => mu i ^ (1 / 3 : ℝ)) (fun i _ => hx i) hs (fun i _ => (rpow_pos_of_pos (hmu i) _).le) 3
    simp only [c3] at this
    simpa only [mulmx2Perry, if_true] using this
  refine ⟨A, B, fun lo hi h hc => ?_⟩
  have hb := wmean_bounds hx (by rw [hs]; exact one_pos) h
  rw [hs, div_one] at hb
  have L : lo ≤ mulmx2Perry x mu false := by
    simp only [mulmx2Perry, Bool.false_eq_true, if_false]
    rcases le_or_gt lo 0 with hl | hl
    · exact hl.trans (exp_pos _).le
    · rw [← exp_log hl]
      refine exp_le_exp.2 ?_
      have := wmean_bounds (q := fun i => log (mu i)) (lo := log lo) (hi := log hi) hx (by rw [hs]; exact one_pos)
        (fun i hi' => ⟨log_le_log hl (h i hi').1, log_le_log (hmu i) (h i hi').2⟩)
      rw [hs, div_one] at this
      exact this.1
  cases hc
  · exact ⟨L, A.trans (B.trans hb.2)⟩
  · exact ⟨L.trans A, B.trans hb.2⟩

/-- A 30/70 mixture of 0.6 and 0.9 mPa·s liquids. -/
example : 6e-4 ≤ mulmx2Perry ![0.3, 0.7] ![6e-4, 9e-4] false ∧ mulmx2Perry ![0.3, 0.7] ![6e-4, 9e-4] false ≤ 9e-4 :=
  (C68_perry (N := 2) (x := ![0.3, 0.7]) (mu := ![6e-4, 9e-4]) (by intro i; fin_cases i <;> norm_num) (by norm_num [Fin.sum_univ_two])
    (by intro i; fin_cases i <;> norm_num)).2.2 _ _ (by intro i _; fin_cases i <;> norm_num) false

/-- C68. `KLMX2_Li` lies between the harmonic and the arithmetic mean of the pure conductivities, both weighted with the volumes `w_i / rho_i`, hence
between their extremes; it needs no normalised composition. -/
theorem C68_li {w k rho : Fin N → ℝ} (hw : ∀ i, 0 ≤ w i) (hk : ∀ i, 0 < k i) (hr : ∀ i, 0 < rho i) {c : Fin N} (hc : 0 < w c) :
    ∃ r, klmx2Li w k rho = some r ∧ (∑ i, w i / rho i) / (∑ i, w i / rho i / k i) ≤ r ∧ r ≤ (∑ i, w i / rho i * k i) / ∑ i, w i / rho i ∧
      (∀ lo hi, (∀ i, 0 < w i → lo ≤ k i ∧ k i ≤ hi) → lo ≤ r ∧ r ≤ hi) ∧ ∀ f, 0 < f → klmx2Li (fun i => f * w i) k rho = some r := by
  have hv : ∀ i, 0 ≤ w i / rho i := fun i => div_nonneg (hw i) (hr i).le
  have hs : 0 < ∑ i, w i / rho i := sum_pos' (fun i _ => hv i) ⟨c, mem_univ _, div_pos hc (hr c)⟩
  obtain ⟨s, es⟩ : ∃ s, s = ∑ i, w i / rho i := ⟨_, rfl⟩
  obtain ⟨p, ep⟩ : ∃ p : Fin N → ℝ, p = fun i => w i / rho i / s := ⟨_, rfl⟩
  have hp : ∀ i, 0 ≤ p i := fun i => by rw [ep]; exact div_nonneg (hv i) (es ▸ hs.le)
  have hp1 : ∑ i, p i = 1 := by rw [ep, ← sum_div, ← es, div_self (es ▸ hs.ne')]
  have heq : klmx2Li w k rho = some (Mixing.quadratic p fun i j => 2 / (1 / k j + 1 / k i)) := by
    unfold klmx2Li
    dsimp only
    rw [if_neg hs.ne', ← es, ep]
  -- double sums of separable functions
  have sep : ∀ f : Fin N → ℝ, ∑ j, p j * ∑ i, p i * ((f j + f i) / 2) = ∑ i, p i * f i := fun f => by
    have e1 : ∀ j, ∑ i, p i * ((f j + f i) / 2) = (f j + ∑ i, p i * f i) / 2 := fun j => by
      have : ∀ i, p i * ((f j + f i) / 2) = p i * (f j / 2) + p i * f i / 2 := fun i => by ring
      simp only [this]
      rw [sum_add_distrib, ← sum_mul, hp1, ← sum_div]; ring
    simp only [e1]
    have e2 : ∀ j, p j * ((f j + ∑ i, p i * f i) / 2) = p j * f j / 2 + p j * ((∑ i, p i * f i) / 2) := fun j => by ring
    simp only [e2]
    rw [sum_add_distrib, ← sum_mul, hp1, ← sum_div]; ring
  have mono : ∀ F G : Fin N → Fin N → ℝ, (∀ i j, F i j ≤ G i j) → ∑ j, p j * ∑ i, p i * F i j ≤ ∑ j, p j * ∑ i, p i * G i j := fun F G h =>
    sum_le_sum fun j _ => mul_le_mul_of_nonneg_left (sum_le_sum fun i _ => mul_le_mul_of_nonneg_left (h i j) (hp i)) (hp j)
  have U : Mixing.quadratic p (fun i j => 2 / (1 / k j + 1 / k i)) ≤ ∑ i, p i * k i := by
    rw [← sep k]
    refine mono _ (fun i j => (k j + k i) / 2) fun i j => ?_
    have h1 := hk i
    have h2 := hk j
    have e : (2 : ℝ) / (1 / k j + 1 / k i) = 2 * (k i * k j) / (k i + k j) := by field_simp
    rw [e, div_le_iff₀ (by positivity)]
    nlinarith [sq_nonneg (k i - k j)]
  have hA : 0 < ∑ i, p i * (1 / k i) := sum_pos' (fun i _ => mul_nonneg (hp i) (one_div_pos.2 (hk i)).le)
    ⟨c, mem_univ _, mul_pos (by rw [ep]; exact div_pos (div_pos hc (hr c)) (es ▸ hs)) (one_div_pos.2 (hk c))⟩
  have L : 1 / (∑ i, p i * (1 / k i)) ≤ Mixing.quadratic p (fun i j => 2 / (1 / k j + 1 / k i)) := by
    have hsep := sep fun i => 2 / (∑ i, p i * (1 / k i)) - 1 / k i / (∑ i, p i * (1 / k i)) ^ 2
    have ev : ∑ i, p i * (2 / (∑ i, p i * (1 / k i)) - 1 / k i / (∑ i, p i * (1 / k i)) ^ 2) = 1 / ∑ i, p i * (1 / k i) := by
      have : ∀ A : ℝ, ∀ i, p i * (2 / A - 1 / k i / A ^ 2) = p i * (2 / A) - p i * (1 / k i) / A ^ 2 := fun A i => by ring
      simp only [this]
      rw [sum_sub_distrib, ← sum_mul, hp1, ← sum_div]
      generalize ∑ i, p i * (1 / k i) = A at *
      field_simp; ring
    rw [← ev, ← hsep]
    refine mono _ _ fun i j => ?_
    have h1 := one_div_pos.2 (hk i)
    have h2 := one_div_pos.2 (hk j)
    generalize ∑ i, p i * (1 / k i) = A at *
    generalize 1 / k i = u at *
    generalize 1 / k j = v at *
    have e : (2 : ℝ) / (v + u) - (2 / A - v / A ^ 2 + (2 / A - u / A ^ 2)) / 2 = (v + u - 2 * A) ^ 2 / (2 * A ^ 2 * (v + u)) := by
      field_simp; ring
    have : 0 ≤ (v + u - 2 * A) ^ 2 / (2 * A ^ 2 * (v + u)) := by positivity
    linarith
  have eU : ∑ i, p i * k i = (∑ i, w i / rho i * k i) / ∑ i, w i / rho i := by
    rw [sum_div, ← es]
    exact sum_congr rfl fun i _ => by rw [ep]; ring
  have eL : 1 / (∑ i, p i * (1 / k i)) = (∑ i, w i / rho i) / (∑ i, w i / rho i / k i) := by
    have : ∑ i, p i * (1 / k i) = (∑ i, w i / rho i / k i) / s := by
      rw [sum_div]
      exact sum_congr rfl fun i _ => by rw [ep]; ring
    rw [this, one_div_div, es]
  have hp0 : ∀ i, p i ≠ 0 → 0 < w i := fun i h => lt_of_le_of_ne (hw i) fun e => h (by rw [ep]; simp [← e])
  refine ⟨_, heq, eL ▸ L, eU ▸ U, fun lo hi h => ⟨?_, ?_⟩, fun f hf => ?_⟩
  · rcases le_or_gt lo 0 with hl | hl
    · exact hl.trans ((one_div_pos.2 hA).le.trans L)
    · refine le_trans ?_ L
      have := (wmean_bounds (q := fun i => 1 / k i) (lo := 0) (hi := 1 / lo) hp (by rw [hp1]; exact one_pos)
        fun i hi' => ⟨(one_div_pos.2 (hk i)).le, one_div_le_one_div_of_le hl (h i (hp0 i hi')).1⟩).2
      rw [hp1, div_one] at this
      rw [le_one_div hl hA]
      exact this
  · have := (wmean_bounds (q := k) hp (by rw [hp1]; exact one_pos) fun i hi' => h i (hp0 i hi')).2
    rw [hp1, div_one] at this
    exact U.trans this
  · rw [← heq]
    have e : ∀ i, f * w i / rho i = f * (w i / rho i) := fun i => by ring
    unfold klmx2Li
    simp only [e, ← mul_sum]
    rw [if_neg (by positivity), if_neg hs.ne']
    simp only [mul_div_mul_left _ _ hf.ne']

/-- A 30/70 (by mass) mixture of water and methanol. -/
example : ∃ r, klmx2Li ![0.3, 0.7] ![0.6, 0.2] ![1000, 790] = some r ∧ 0.2 ≤ r ∧ r ≤ 0.6 := by
  obtain ⟨r, h1, -, -, h2, -⟩ := C68_li (N := 2) (w := ![0.3, 0.7]) (k := ![0.6, 0.2]) (rho := ![1000, 790])
    (by intro i; fin_cases i <;> norm_num) (by intro i; fin_cases i <;> norm_num) (by intro i; fin_cases i <;> norm_num) (c := 0) (by norm_num)
  exact ⟨r, h1, h2 _ _ (by intro i _; fin_cases i <;> norm_num)⟩

/-- C68. `DVMX` is the harmonic mean of the binary diffusion coefficients: its reciprocal resistance formula holds, it lies between the extremes of the
components present, never exceeds the arithmetic mean, and needs no normalised composition. -/
theorem C68_dvmx {x D : Fin N → ℝ} (hx : ∀ i, 0 ≤ x i) (hD : ∀ i, 0 < D i) {k : Fin N} (hk : 0 < x k) :
    ∃ r, dvmx x D = some r ∧ 0 < r ∧ (∑ i, x i) / r = ∑ i, x i / D i ∧ r ≤ (∑ i, x i * D i) / ∑ i, x i ∧
      (∀ lo hi, (∀ i, 0 < x i → lo ≤ D i ∧ D i ≤ hi) → lo ≤ r ∧ r ≤ hi) ∧ ∀ c, 0 < c → dvmx (fun i => c * x i) D = some r := by
  have h1 : 0 < ∑ i, x i := sum_pos' (fun i _ => hx i) ⟨k, mem_univ _, hk⟩
  have h2 : 0 < ∑ i, x i / D i := sum_pos' (fun i _ => div_nonneg (hx i) (hD i).le) ⟨k, mem_univ _, div_pos hk (hD k)⟩
  have hx0 : ∀ i, x i ≠ 0 → 0 < x i := fun i h => lt_of_le_of_ne (hx i) h.symm
  have tan : ∀ r : ℝ, 0 < r → ∀ i, 2 * r * x i - r ^ 2 * (x i / D i) ≤ x i * D i := fun r hr i => by
    have hd := hD i
    have : 0 ≤ x i * ((D i - r) ^ 2 / D i) := mul_nonneg (hx i) (by positivity)
    have e : x i * D i - (2 * r * x i - r ^ 2 * (x i / D i)) = x i * ((D i - r) ^ 2 / D i) := by field_simp; ring
    linarith
  refine ⟨_, odiv_pos_local h2, div_pos h1 h2, ?_, ?_, fun lo hi h => ⟨?_, ?_⟩, fun c hc => ?_⟩
  · field_simp
  · rw [le_div_iff₀ h1]
    have := sum_le_sum fun i (_ : i ∈ univ) => tan _ (div_pos h1 h2) i
    rw [sum_sub_distrib, ← mul_sum, ← mul_sum] at this
    generalize ∑ i, x i = s at *
    generalize ∑ i, x i / D i = t at *
    have e : 2 * (s / t) * s - (s / t) ^ 2 * t = s / t * s := by field_simp; ring
    linarith
  · rw [le_div_iff₀ h2, mul_sum]
    refine sum_le_sum fun i _ => ?_
    rcases (hx i).eq_or_lt with e | e
    · simp [← e]
    · rw [mul_div_assoc', div_le_iff₀ (hD i), mul_comm]
      exact mul_le_mul_of_nonneg_left (h i e).1 e.le
  · rw [div_le_iff₀ h2, mul_sum]
    refine sum_le_sum fun i _ => ?_
    rcases (hx i).eq_or_lt with e | e
    · simp [← e]
    · rw [mul_div_assoc', le_div_iff₀ (hD i), mul_comm hi]
      exact mul_le_mul_of_nonneg_left (h i e).2 e.le
  · have e : ∀ i, c * x i / D i = c * (x i / D i) := fun i => by ring
    unfold dvmx
    simp only [e, ← mul_sum]
    rw [odiv_pos_local (by positivity), mul_div_mul_left _ _ hc.ne']

example : ∃ r, dvmx ![0.2, 0.3] ![1e-5, 2e-5] = some r ∧ 1e-5 ≤ r ∧ r ≤ 2e-5 := by
  obtain ⟨r, h1, -, -, -, h2, -⟩ := C68_dvmx (N := 2) (x := ![0.2, 0.3]) (D := ![1e-5, 2e-5])
    (by intro i; fin_cases i <;> norm_num) (by intro i; fin_cases i <;> norm_num) (k := 0) (by norm_num)
  exact ⟨r, h1, h2 _ _ (by intro i _; fin_cases i <;> norm_num)⟩

end Verif.Transport
