import Verif.Lemmas.ColebrookNewton

/-!
# One pass of the loop of `fD_Colebrook`
-/

namespace Verif.Flow

open Real

/-- The Newton step, relative to the iterate. -/
theorem rel_step {F D u R S t : ℝ} (hu : 1 ≤ u) (hS : 1 ≤ S) (ht : |t| ≤ 0.015) (h1 : S * (u * t) ≤ R) (h2 : R ≤ S * (u * t + 0.28 * (u * t) ^ 2 / u)) (hF : |F - R| ≤ 1e-20)
    (hD1 : (1 - 1e-20) * (u ^ 3 / 2 * S) ≤ D) (hD2 : D ≤ (1 + 1e-20) * (u ^ 3 / 2 * S)) :
    ∃ K, F / D = 2 / u ^ 2 * K ∧ t - 1e-18 ≤ K ∧ K ≤ t + 0.28 * t ^ 2 + 1e-18 := by
  have hu0 : 0 < u := by linarith
  have hD : 0 < D := lt_of_lt_of_le (by have : (0:ℝ) < 1 - 1e-20 := by norm_num
                                        positivity) hD1
  obtain ⟨t1, t2⟩ := abs_le.1 ht
  obtain ⟨f1, f2⟩ := abs_le.1 hF
  have e1 : u * t + 0.28 * (u * t) ^ 2 / u = u * (t + 0.28 * t ^ 2) := by field_simp
  rw [e1] at h2
  have hP : 1 ≤ S * u := by nlinarith
  obtain ⟨E, hE⟩ : ∃ E, E = 2 * D / u ^ 2 := ⟨_, rfl⟩
  have hE1 : (1 - 1e-20) * (S * u) ≤ E := by
    rw [hE, le_div_iff₀ (by positivity)]
    nlinarith
  have hE2 : E ≤ (1 + 1e-20) * (S * u) := by
    rw [hE, div_le_iff₀ (by positivity)]
    nlinarith
  have hE0 : 0 < E := by rw [hE]; positivity
  refine ⟨F / E, by rw [hE]; field_simp, ?_, ?_⟩
  · rw [le_div_iff₀ hE0]
    have h3 : (S * u) * t ≤ R := by linarith
    generalize S * u = P at *
    have h4 : (t - 1e-18) * E ≤ (t - 1e-18) * P + 0.02 * (1e-20 * P) := by
      have : |E - P| ≤ 1e-20 * P := abs_le.2 ⟨by linarith, by linarith⟩
      have h5 : |(t - 1e-18) * (E - P)| ≤ 0.02 * (1e-20 * P) := by
        rw [abs_mul]
        exact mul_le_mul (abs_le.2 ⟨by linarith, by linarith⟩) this (abs_nonneg _) (by norm_num)
      have := (abs_le.1 h5).2
      linarith
    linarith
  · rw [div_le_iff₀ hE0]
    have hq : t ^ 2 ≤ 0.015 ^ 2 := by rw [← sq_abs]; exact pow_le_pow_left₀ (abs_nonneg t) ht 2
    have hq0 := sq_nonneg t
    have h3 : R ≤ (S * u) * (t + 0.28 * t ^ 2) := by linarith
    generalize S * u = P at *
    generalize t ^ 2 = q at *
    have h4 : (t + 0.28 * q + 1e-18) * P - 0.02 * (1e-20 * P) ≤ (t + 0.28 * q + 1e-18) * E := by
      have : |E - P| ≤ 1e-20 * P := abs_le.2 ⟨by linarith, by linarith⟩
      have h5 : |(t + 0.28 * q + 1e-18) * (E - P)| ≤ 0.02 * (1e-20 * P) := by
        rw [abs_mul]
        exact mul_le_mul (abs_le.2 ⟨by linarith, by linarith⟩) this (abs_nonneg _) (by norm_num)
      have := (abs_le.1 h5).1
      linarith
    linarith

/-- A small step means a small error. -/
theorem colebrook_stop {u s t K T : ℝ} (hst : s = u * (1 - t)) (hu : 0 < u) (hT : T ≤ 0.015) (hu20 : 10.24 ≤ u ^ 2) (hu21 : u ^ 2 ≤ 180) (hq : t ^ 2 ≤ T * |t|)
    (k1 : t - 1e-18 ≤ K) (k2 : K ≤ t + 0.28 * t ^ 2 + 1e-18) (hK : |2 / u ^ 2 * K| ≤ 1e-6) : |1 / u ^ 2 - 1 / s ^ 2| ≤ 1.01e-6 := by
  have hx0 : 0 < 1 / u ^ 2 := by positivity
  have hK1 : |K| * (2 / u ^ 2) ≤ 1e-6 := by rwa [abs_mul, abs_of_pos (by positivity), mul_comm] at hK
  rw [mul_div_assoc', div_le_iff₀ (by positivity)] at hK1
  have hK2 : |K| ≤ 9e-5 := by linarith
  have hKt : |t| ≤ 1.0043 * |K| + 2e-18 := by
    have h5 : |K - t| ≤ 0.28 * t ^ 2 + 1e-18 := abs_le.2 ⟨by nlinarith [sq_nonneg t], by linarith⟩
    have h6 : |t| ≤ |K| + |K - t| := by
      have := abs_sub_abs_le_abs_sub t K
      rw [abs_sub_comm t K] at this
      linarith
    have h7 : t ^ 2 ≤ 0.015 * |t| := hq.trans (mul_le_mul_of_nonneg_right hT (abs_nonneg t))
    linarith
  have ht3 : |t| ≤ 1e-4 := by linarith
  obtain ⟨a1, a2⟩ := abs_le.1 ht3
  have e2 : 1 / u ^ 2 - 1 / s ^ 2 = 1 / u ^ 2 * (t * (t - 2)) / (1 - t) ^ 2 := by
    rw [hst]
    have : 1 - t ≠ 0 := by linarith
    field_simp
    ring
  have h1t : (0.9998 : ℝ) ≤ (1 - t) ^ 2 := by nlinarith
  rw [e2, abs_div, abs_of_pos (show 0 < (1 - t) ^ 2 by linarith), div_le_iff₀ (by linarith), abs_mul, abs_mul, abs_of_pos hx0]
  have h8 : |t - 2| ≤ 2.0001 := abs_le.2 ⟨by linarith, by linarith⟩
  have h9 : |t| * |t - 2| ≤ (1.0043 * |K| + 2e-18) * 2.0001 := mul_le_mul hKt h8 (abs_nonneg _) (by positivity)
  have h10 : 1 / u ^ 2 * (|t| * |t - 2|) ≤ 1 / u ^ 2 * ((1.0043 * |K| + 2e-18) * 2.0001) := mul_le_mul_of_nonneg_left h9 hx0.le
  have h11 : 1 / u ^ 2 * ((1.0043 * |K| + 2e-18) * 2.0001) ≤ 1.0095e-6 := by
    rw [one_div, inv_mul_le_iff₀ (by positivity)]
    linarith
  nlinarith

set_option maxHeartbeats 1000000 in
/-- One pass of the loop: it stops close to the root, or goes on much closer to it. -/
theorem colebrook_pass {Re er u s t T : ℝ} (hRe : 0 < Re) (h0 : 0 ≤ er) (hs1 : 3.3 ≤ s) (hs2 : s ≤ 13.15) (hroot : cres (er / 3.7) (2.51 / Re) s = 0)
    (hst : s = u * (1 - t)) (hu : 0 < u) (hT : T ≤ 0.015) (ht : |t| ≤ T) (n k : ℕ) (hk : k + 1 < 50) (fx : Option ℝ) (m : ℕ) (calls : List (ℝ × ℝ)) :
    (∃ r, newtonLoop (colebrookEq Re er) 1e-6 1e-6 50 (n + 1) k (1 / u ^ 2) fx m calls = .ok r ∧ r.1.success = true ∧ |r.1.x - 1 / s ^ 2| ≤ 1.01e-6) ∨
      (3e-6 < T ∧ ∃ u' t' fx' m' calls', newtonLoop (colebrookEq Re er) 1e-6 1e-6 50 (n + 1) k (1 / u ^ 2) fx m calls =
        newtonLoop (colebrookEq Re er) 1e-6 1e-6 50 n (k + 1) (1 / u' ^ 2) fx' m' calls' ∧ 0 < u' ∧ s = u' * (1 - t') ∧ |t'| ≤ 3.7 * T ^ 2 + 1e-17) := by
  have he : (0 : ℝ) < eps := by norm_num [eps]
  have he1 : (eps : ℝ) ≤ 1 := by norm_num [eps]
  have ht15 := ht.trans hT
  obtain ⟨t1, t2⟩ := abs_le.1 ht15
  have hu1 : 3.2 ≤ u := by nlinarith
  have hu2 : u ≤ 13.4 := by nlinarith
  have ha : 0 ≤ er / 3.7 := by positivity
  have hb : 0 < 2.51 / Re := by positivity
  obtain ⟨F, D, e, hF, hD1, hD2⟩ := colebrook_step hRe h0 (by linarith : 1 ≤ u) (by linarith)
  obtain ⟨c1, c2, c3⟩ := cres_bounds ha hb hu (by linarith : 3.2 ≤ s) hroot
  have eus : u - s = u * t := by rw [hst]; ring
  rw [eus] at c1 c2
  obtain ⟨K, eK, k1, k2⟩ := rel_step (by linarith : 1 ≤ u) c3 ht15 c1 c2 hF hD1 hD2
  have hD : 1 < D := by
    have h3 : (3.2 : ℝ) ^ 3 ≤ u ^ 3 := pow_le_pow_left₀ (by norm_num) hu1 3
    have h4 : u ^ 3 / 2 * 1 ≤ u ^ 3 / 2 * cslope (er / 3.7) (2.51 / Re) u := mul_le_mul_of_nonneg_left c3 (by positivity)
    nlinarith
  clear c1 c2 c3 hD1 hD2 hF eus
  have hq : t ^ 2 ≤ T * |t| := by rw [← sq_abs, sq]; exact mul_le_mul_of_nonneg_right ht (abs_nonneg t)
  have hq' : t ^ 2 ≤ T ^ 2 := by rw [← sq_abs]; exact pow_le_pow_left₀ (abs_nonneg t) ht 2
  have hu20 : (10.24 : ℝ) ≤ u ^ 2 := by nlinarith
  have hu21 : u ^ 2 ≤ 180 := by nlinarith
  have hx0 : 0 < 1 / u ^ 2 := by positivity
  have stop : |F / D| ≤ 1e-6 → |1 / u ^ 2 - 1 / s ^ 2| ≤ 1.01e-6 := fun hK => colebrook_stop hst hu hT hu20 hu21 hq k1 k2 (by rwa [← eK])
  rw [newtonLoop]
  simp only [derivativeComplex, e]
  have eD : -(D * eps) / eps = -D := by field_simp
  rw [eD]
  by_cases g1 : |F| ≤ 1e-6
  · left
    rw [if_pos g1]
    refine ⟨_, rfl, rfl, stop ?_⟩
    rw [abs_div, abs_of_pos (show 0 < D by linarith), div_le_iff₀ (by linarith)]
    nlinarith
  rw [if_neg g1, if_neg (by rw [abs_neg, abs_of_pos (by linarith)]; linarith)]
  have eF : -F / -D = F / D := by rw [neg_div_neg_eq]
  rw [eF]
  by_cases g2 : |F / D| ≤ 1e-6
  · left
    rw [if_pos g2]
    exact ⟨_, rfl, rfl, stop g2⟩
  right
  rw [if_neg g2, if_pos hk]
  have hKabs : |K| ≤ |t| + 0.28 * t ^ 2 + 1e-18 := by
    have h3 := le_abs_self t
    have h4 := neg_abs_le t
    exact abs_le.2 ⟨by nlinarith [sq_nonneg t], by linarith⟩
  have hK3 : |K| ≤ 0.016 := by
    have : t ^ 2 ≤ 0.015 * |t| := hq.trans (mul_le_mul_of_nonneg_right hT (abs_nonneg t))
    linarith
  obtain ⟨a1, a2⟩ := abs_le.1 hK3
  have hpos : 0 < 1 + 2 * K := by linarith
  have hw : 0 < √(1 + 2 * K) := sqrt_pos.2 hpos
  have hw2 : √(1 + 2 * K) ^ 2 = 1 + 2 * K := sq_sqrt hpos.le
  refine ⟨?_, u / √(1 + 2 * K), 1 - (1 - t) * √(1 + 2 * K), _, _, _, by
    rw [eK, div_pow, hw2]
    congr 2
    field_simp, by positivity, ?_, ?_⟩
  · by_contra hc
    push Not at hc
    apply g2
    rw [eK, abs_mul, abs_of_pos (by positivity), div_mul_eq_mul_div, div_le_iff₀ (by positivity)]
    have : t ^ 2 ≤ 0.015 * |t| := hq.trans (mul_le_mul_of_nonneg_right hT (abs_nonneg t))
    linarith
  · rw [sub_sub_cancel, hst]
    field_simp
  · have e3 : (1 - (1 - t) * √(1 + 2 * K)) * (1 + (1 - t) * √(1 + 2 * K)) = 1 - (1 - t) ^ 2 * (1 + 2 * K) := by
      linear_combination (-(1 - t) ^ 2) * hw2
    have hg : 0 < (1 - t) * √(1 + 2 * K) := mul_pos (by linarith) hw
    have h5 : |1 - (1 - t) * √(1 + 2 * K)| ≤ |1 - (1 - t) ^ 2 * (1 + 2 * K)| := by
      rw [← e3, abs_mul]
      refine le_mul_of_one_le_right (abs_nonneg _) ?_
      rw [abs_of_pos (by linarith)]
      linarith
    refine h5.trans ?_
    have hd : |K - t| ≤ 0.28 * t ^ 2 + 1e-18 := abs_le.2 ⟨by nlinarith [sq_nonneg t], by linarith⟩
    have e4 : 1 - (1 - t) ^ 2 * (1 + 2 * K) = t ^ 2 * (3 - 2 * t) - 2 * (1 - t) ^ 2 * (K - t) := by ring
    rw [e4]
    have h6 : |t ^ 2 * (3 - 2 * t)| ≤ t ^ 2 * 3.03 := by
      rw [abs_mul, abs_of_nonneg (sq_nonneg t)]
      exact mul_le_mul_of_nonneg_left (abs_le.2 ⟨by linarith, by linarith⟩) (sq_nonneg t)
    have h7 : |2 * (1 - t) ^ 2 * (K - t)| ≤ 2.07 * (0.28 * t ^ 2 + 1e-18) := by
      rw [abs_mul]
      refine mul_le_mul ?_ hd (abs_nonneg _) (by norm_num)
      rw [abs_of_nonneg (by positivity)]
      nlinarith
    have h8 := abs_sub (t ^ 2 * (3 - 2 * t)) (2 * (1 - t) ^ 2 * (K - t))
    linarith

end Verif.Flow
