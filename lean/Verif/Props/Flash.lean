import Verif.Lemmas.FlashAux

/-!
# C55-C58, C83, C84: two-phase flash
-/

namespace Verif.Flash

open Finset

section RR

variable {α : Type*} [Field α] [LinearOrder α] [IsStrictOrderedRing α] {N : ℕ} {K z : Fin N → α}

/-! ### C55 -/

/-- **C55.** Between the asymptotes (all denominators positive) the Rachford-Rice function is strictly decreasing, as soon as one component
present in the feed has `K ≠ 1`. -/
theorem C55_decreasing (hz : ∀ i, 0 ≤ z i) (hne : ∃ i, 0 < z i ∧ K i ≠ 1) {a b : α} (ha : ∀ i, 0 < 1 + a * (K i - 1)) (hb : ∀ i, 0 < 1 + b * (K i - 1))
    (hab : a < b) : rr b K z < rr a K z := by
  have hd := rr_diff' (z := z) (fun i => (ha i).ne') fun i => (hb i).ne'
  have hpos : 0 < dd K z a b := by
    obtain ⟨i, hi, hki⟩ := hne
    refine sum_pos' (fun j _ => div_nonneg (mul_nonneg (hz j) (sq_nonneg _)) (mul_pos (ha j) (hb j)).le) ⟨i, mem_univ _, ?_⟩
    exact div_pos (mul_pos hi (dd_pos.pow_pos_of_ne_sq hki)) (mul_pos (ha i) (hb i))
  have := mul_pos (sub_pos.2 hab) hpos
  linarith

/-- **C55.** Hence at most one vapour fraction between the asymptotes. -/
theorem C55_unique (hz : ∀ i, 0 ≤ z i) (hne : ∃ i, 0 < z i ∧ K i ≠ 1) {a b : α} (ha : ∀ i, 0 < 1 + a * (K i - 1)) (hb : ∀ i, 0 < 1 + b * (K i - 1))
    (ra : rr a K z = 0) (rb : rr b K z = 0) : a = b := by
  rcases lt_trichotomy a b with h | h | h
  · exact absurd (C55_decreasing hz hne ha hb h) (by rw [ra, rb]; exact lt_irrefl _)
  · exact h
  · exact absurd (C55_decreasing hz hne hb ha h) (by rw [ra, rb]; exact lt_irrefl _)

/-! ### C56 -/

/-- **C56.** Whatever the K-values, feed, initial guess, tolerance and iteration limit, the returned vapour fraction lies in [0, 1]; on success the
reported residual is the one at the returned point and is within tolerance, except for single-phase feeds, where the returned point is 0
with a negative residual or 1 with a positive one. -/
theorem C56_certified (beta0 : Option α) (maxiter : ℕ) (atol : α) (r : RRResult α) (h : solveRR K z beta0 maxiter atol = .ok r) :
    0 ≤ r.beta ∧ r.beta ≤ 1 ∧ r.niter ≤ maxiter ∧
      (r.success = true → r.F = rr r.beta K z ∧ (|rr r.beta K z| ≤ atol ∨ (r.beta = 0 ∧ r.F < 0) ∨ (r.beta = 1 ∧ 0 < r.F))) ∧
      (r.success = false → r.niter = maxiter ∧ atol < |r.F|) := by
  by_cases h0 : rr 0 K z < 0
  · simp only [solveRR, if_pos h0, Except.ok.injEq] at h
    subst h
    exact ⟨le_rfl, zero_le_one, Nat.zero_le _, fun _ => ⟨rfl, Or.inr (Or.inl ⟨rfl, h0⟩)⟩, by simp⟩
  by_cases h1 : rr 1 K z > 0
  · simp only [solveRR, if_neg h0, if_pos h1, Except.ok.injEq] at h
    subst h
    exact ⟨zero_le_one, le_rfl, Nat.zero_le _, fun _ => ⟨rfl, Or.inr (Or.inr ⟨rfl, h1⟩)⟩, by simp⟩
  obtain ⟨b, hb, hb1, -, e⟩ := solveRR_mid (beta0 := beta0) (maxiter := maxiter) (atol := atol) h0 h1
  rw [e] at h
  obtain ⟨c1, c2, c3, c4⟩ := rrLoop_spec atol _ _ _ _ _ _ _ (betaMin_range K z).1 (betaMin_range K z).2 (betaMax_range K z).1 (betaMax_range K z).2 hb hb1 h
  have hm : 1 ≤ maxiter := by
    rcases Nat.eq_zero_or_pos maxiter with rfl | hm
    · simp [rrLoop] at h
    · exact hm
  refine ⟨c1, c2, ?_, fun hs => ⟨(c3 hs).2.1, Or.inl (c3 hs).1⟩, fun hs => ⟨by simpa using (c4 hs).1, (c4 hs).2 hm⟩⟩
  cases hs : r.success
  · have := (c4 hs).1; omega
  · have := (c3 hs).2.2; omega

/-- **C56.** Single-phase feeds are recognised at once: subcooled (`Σ z K < 1`) gives 0, superheated (`Σ z/K < 1`) gives 1. -/
theorem C56_single_phase (hK : ∀ i, 0 < K i) (hz : ∀ i, 0 ≤ z i) (hz1 : ∑ i, z i = 1) (beta0 : Option α) (maxiter : ℕ) (atol : α) :
    (∑ i, z i * K i < 1 → solveRR K z beta0 maxiter atol = .ok ⟨true, 0, 0, (∑ i, z i * K i) - 1⟩) ∧
    (∑ i, z i / K i < 1 → solveRR K z beta0 maxiter atol = .ok ⟨true, 0, 1, 1 - ∑ i, z i / K i⟩) := by
  have e0 := rr_zero (K := K) hz1
  have e1 := rr_one hK hz1
  refine ⟨fun h => ?_, fun h => ?_⟩
  · have : rr 0 K z < 0 := by rw [e0]; linarith
    simp only [solveRR, if_pos this]
    rw [e0]
  · have h1 : rr 1 K z > 0 := by rw [e1]; linarith
    have h0 : ¬ rr 0 K z < 0 := by
      have hd := rr_diff (z := z) hK (a := 0) (b := 1) le_rfl zero_le_one zero_le_one le_rfl
      have := dd_nonneg hK hz (a := 0) (b := 1) le_rfl zero_le_one zero_le_one le_rfl
      rw [sub_zero, one_mul] at hd
      linarith
    simp only [solveRR, if_neg h0, if_pos h1]
    rw [e1]

/-- **C56.** The solver only fails to return (unbound local variables) for a two-phase feed with `maxiter = 0`. -/
theorem C56_error_iff (beta0 : Option α) (maxiter : ℕ) (atol : α) :
    (∃ r, solveRR K z beta0 maxiter atol = .ok r) ↔ (maxiter ≠ 0 ∨ rr 0 K z < 0 ∨ 0 < rr 1 K z) := by
  by_cases h0 : rr 0 K z < 0
  · simp [solveRR, h0]
  by_cases h1 : rr 1 K z > 0
  · have h1' : 0 < rr 1 K z := h1
    simp [solveRR, h0, h1']
  obtain ⟨b, hb, hb1, -, e⟩ := solveRR_mid (beta0 := beta0) (maxiter := maxiter) (atol := atol) h0 h1
  rw [e]
  constructor
  · rintro ⟨r, hr⟩
    left
    rintro rfl
    simp [rrLoop] at hr
  · rintro (h | h | h)
    · exact rrLoop_ok K z atol _ _ _ _ _ _ (Or.inr (Nat.pos_of_ne_zero h))
    · exact absurd h h0
    · exact absurd h h1

/-- **C56.** Convergence, with an explicit iteration count: for positive K-values and a normalised feed, `3 n + 1` passes suffice as soon as
`2/atol Σ z (K-1)²/min(1,K)² ≤ n`; and then the vapour fraction is within `atol / Σ z (K-1)²/max(1,K)²` of the exact root (if there is one in [0, 1]). -/
theorem C56_converges (hK : ∀ i, 0 < K i) (hz : ∀ i, 0 ≤ z i) (hz1 : ∑ i, z i = 1) (beta0 : Option α) (maxiter n : ℕ) (atol : α) (hat : 0 < atol)
    (hn : 2 * (∑ i, z i * (K i - 1) ^ 2 / min 1 (K i) ^ 2) / atol ≤ n) (hm : 3 * n + 1 ≤ maxiter) :
    ∃ r, solveRR K z beta0 maxiter atol = .ok r ∧ r.success = true ∧ r.niter ≤ 3 * n + 1 := by
  change 2 * slopeMax K z / atol ≤ n at hn
  by_cases h0 : rr 0 K z < 0
  · exact ⟨_, by simp only [solveRR, if_pos h0]; rfl, rfl, Nat.zero_le _⟩
  by_cases h1 : rr 1 K z > 0
  · exact ⟨_, by simp only [solveRR, if_neg h0, if_pos h1]; rfl, rfl, Nat.zero_le _⟩
  obtain ⟨b, hb, hb1, hbb, e⟩ := solveRR_mid (beta0 := beta0) (maxiter := maxiter) (atol := atol) h0 h1
  rw [e]
  by_cases hne : ∃ i, 0 < z i ∧ K i ≠ 1
  · have hG : 0 < slopeMax K z := (dd_pos hK hz hne le_rfl zero_le_one le_rfl zero_le_one).trans_le
      (dd_le_max (a := 0) (b := 0) hK hz le_rfl zero_le_one le_rfl zero_le_one)
    have r1 := rr_betaMin hK hz hz1 (not_lt.1 h0)
    have r2 := rr_betaMax hK hz hz1 (not_lt.1 h1)
    obtain ⟨m1, m2⟩ := betaMin_range K z
    obtain ⟨M1, M2⟩ := betaMax_range K z
    have hle : betaMin K z ≤ betaMax K z := by
      by_contra hc
      have := C55_decreasing hz hne (fun i => den_pos (hK i) M1 M2) (fun i => den_pos (hK i) m1 m2) (not_le.1 hc)
      linarith
    obtain ⟨q1, q2⟩ := hbb hle
    refine (rrLoop_converges (d := atol / slopeMax K z) (good_rr hK hz) (div_pos hat hG) hG (by rw [div_mul_cancel₀ _ hG.ne']) n
      (betaMin K z, betaMax K z, b) 0 maxiter none ⟨m1, q1, q2, M2, r1, r2⟩ ?_ hm).imp fun r hr => ⟨hr.1, hr.2.1, by simpa using hr.2.2⟩
    have : (1 : α) ≤ n * (atol / slopeMax K z / 2) := by
      rw [div_le_iff₀ hat] at hn
      rw [div_div, ← mul_div_assoc, le_div_iff₀ (by positivity)]
      linarith
    simp only [len]
    linarith
  · have hz0 : ∀ b, rr b K z = 0 := by
      intro b
      by_contra hc
      exact hne (rr_ne_zero hz hc)
    obtain ⟨m, rfl⟩ : ∃ k, maxiter = k + 1 := ⟨maxiter - 1, by omega⟩
    refine ⟨⟨true, 1, b, 0⟩, ?_, rfl, by simp⟩
    simp only [rrLoop, hz0, abs_zero, if_pos hat.le]

/-- **C56.** Accuracy of the vapour fraction. -/
theorem C56_accuracy (hK : ∀ i, 0 < K i) (hz : ∀ i, 0 ≤ z i) (beta0 : Option α) (maxiter : ℕ) (atol : α) (r : RRResult α)
    (h : solveRR K z beta0 maxiter atol = .ok r) (hs : r.success = true) (b : α) (hb : 0 ≤ b) (hb1 : b ≤ 1) (hroot : rr b K z = 0) :
    |r.beta - b| * (∑ i, z i * (K i - 1) ^ 2 / max 1 (K i) ^ 2) ≤ max atol 0 := by
  change |r.beta - b| * slopeMin K z ≤ max atol 0
  obtain ⟨c1, c2, -, c4, -⟩ := C56_certified beta0 maxiter atol r h
  have hd := rr_diff (z := z) hK c1 c2 hb hb1
  have hdd := dd_nonneg hK hz c1 c2 hb hb1
  have hmin := dd_ge_min hK hz c1 c2 hb hb1
  have habs : |r.beta - b| * slopeMin K z ≤ |rr r.beta K z| := by
    have : |rr r.beta K z| = |r.beta - b| * dd K z r.beta b := by
      have e : rr r.beta K z = (b - r.beta) * dd K z r.beta b := by linarith
      rw [e, abs_mul, abs_of_nonneg hdd, abs_sub_comm]
    rw [this]
    exact mul_le_mul_of_nonneg_left hmin (abs_nonneg _)
  obtain ⟨e, h3⟩ := c4 hs
  rcases h3 with h3 | ⟨h3, h4⟩ | ⟨h3, h4⟩
  · exact habs.trans (h3.trans (le_max_left _ _))
  · rw [e, h3] at h4
    rw [h3] at hd hdd
    have := mul_nonneg hb hdd
    rw [sub_zero] at hd
    linarith
  · rw [e, h3] at h4
    rw [h3] at hd hdd
    have := mul_nonneg (sub_nonneg.2 hb1) hdd
    have e : (b - 1) * dd K z 1 b = -((1 - b) * dd K z 1 b) := by ring
    linarith

/-- **C56** (false as the field `F` of the result suggests): when the iteration limit is reached, the reported residual is not the residual at the
reported vapour fraction. -/
theorem C56_reported_false : ∃ (K z : Fin 2 → ℚ) (r : RRResult ℚ), (∀ i, 0 < K i) ∧ (∀ i, 0 < z i) ∧ ∑ i, z i = 1 ∧
    solveRR K z (some 0) 1 (1 / 1000000000) = .ok r ∧ r.F ≠ rr r.beta K z := by
  refine ⟨![2, 1 / 2], ![1 / 2, 1 / 2], ⟨false, 1, 2 / 5, 1 / 4⟩, ?_, ?_, ?_, ?_, ?_⟩
  · intro i; fin_cases i <;> norm_num
  · intro i; fin_cases i <;> norm_num
  · norm_num [Fin.sum_univ_two]
  · decide +kernel
  · norm_num [rr, Fin.sum_univ_two]

example : solveRR ![2, 1 / 2] ![1 / 2, 1 / 2] (none : Option ℚ) 10 (1 / 1000000) = .ok ⟨true, 1, 1 / 2, 0⟩ := by decide +kernel

example : ∃ r, solveRR ![2, 1 / 2] ![1 / 2, 1 / 2] (some (0 : ℚ)) 37 (1 / 4) = .ok r ∧ r.success = true ∧ r.niter ≤ 37 :=
  C56_converges (by intro i; fin_cases i <;> norm_num) (by intro i; fin_cases i <;> norm_num) (by norm_num [Fin.sum_univ_two]) _ _ 12 _ (by norm_num)
    (by norm_num [Fin.sum_univ_two]) (by norm_num)

end RR

variable {N : ℕ}

/-- **C55.** The derivative returned together with the residual is its derivative. -/
theorem C55_derivative (K z : Fin N → ℝ) (b : ℝ) (hb : ∀ i, 1 + b * (K i - 1) ≠ 0) : HasDerivAt (fun b => rr b K z) (drr b K z) b := by
  simp only [rr, drr]
  rw [← sum_neg_distrib]
  refine HasDerivAt.fun_sum fun i _ => ?_
  have h1 : HasDerivAt (fun b : ℝ => 1 + b * (K i - 1)) (K i - 1) b := by simpa using ((hasDerivAt_id b).mul_const (K i - 1)).const_add 1
  refine ((hasDerivAt_const b (z i * (K i - 1))).div h1 (hb i)).congr_deriv ?_
  ring

/-- **C55.** For positive K-values, not all equal to 1, a vapour fraction strictly between 0 and 1 exists if and only if `Σ z K > 1` and `Σ z/K > 1`. -/
theorem C55_two_phase_iff {K z : Fin N → ℝ} (hK : ∀ i, 0 < K i) (hz : ∀ i, 0 ≤ z i) (hz1 : ∑ i, z i = 1) (hne : ∃ i, 0 < z i ∧ K i ≠ 1) :
    (∃ b, 0 < b ∧ b < 1 ∧ rr b K z = 0) ↔ 1 < ∑ i, z i * K i ∧ 1 < ∑ i, z i / K i := by
  have e0 := rr_zero (K := K) hz1
  have e1 := rr_one hK hz1
  constructor
  · rintro ⟨b, h0, h1, hr⟩
    have a := C55_decreasing hz hne (fun i => den_pos (hK i) le_rfl zero_le_one) (fun i => den_pos (hK i) h0.le h1.le) h0
    have c := C55_decreasing hz hne (fun i => den_pos (hK i) h0.le h1.le) (fun i => den_pos (hK i) zero_le_one le_rfl) h1
    constructor <;> linarith
  · rintro ⟨h0, h1⟩
    have hc : ContinuousOn (fun b => rr b K z) (Set.Icc 0 1) := fun b hb =>
      (C55_derivative K z b fun i => (den_pos (hK i) hb.1 hb.2).ne').continuousAt.continuousWithinAt
    have hmem : (0 : ℝ) ∈ Set.Ioo (rr 1 K z) (rr 0 K z) := ⟨by linarith, by linarith⟩
    obtain ⟨b, hb, hr⟩ := intermediate_value_Ioo' zero_le_one hc hmem
    exact ⟨b, hb.1, hb.2, hr⟩

example : ∃ b : ℝ, 0 < b ∧ b < 1 ∧ rr b ![3, 1 / 2] ![1 / 2, 1 / 2] = 0 :=
  (C55_two_phase_iff (by intro i; fin_cases i <;> norm_num) (by intro i; fin_cases i <;> norm_num) (by norm_num [Fin.sum_univ_two])
    ⟨0, by norm_num, by norm_num⟩).2 ⟨by norm_num [Fin.sum_univ_two], by norm_num [Fin.sum_univ_two]⟩

/-! ### C58 -/

/-- **C58.** The objective of the R-loop has opposite signs at 0 and 1: `-β` and `1 - β`. -/
theorem C58_signs (u : Vec N) (Kb0 beta : ℝ) (z : Vec N) (hz1 : ∑ i, z i = 1) : rloop u Kb0 beta z 0 = -beta ∧ rloop u Kb0 beta z 1 = 1 - beta := by
  constructor
  · simp [rloop, hz1]
  · simp [rloop]

/-- **C58.** Consequently the inner loop never raises for `0 ≤ β ≤ 1` and `maxiter ≥ 1`, and the value it returns lies in [0, 1]. -/
theorem C58_bracketed (u : Vec N) (Kb0 beta : ℝ) (z : Vec N) (hz1 : ∑ i, z i = 1) (hb : 0 ≤ beta) (hb1 : beta ≤ 1) (maxiter : ℕ) (hm : maxiter ≠ 0) (atol : ℝ)
    (hat : 0 ≤ atol) : ∃ R, innerR u Kb0 beta z maxiter atol = .ok R ∧ ∀ x ∈ R, 0 ≤ x ∧ x ≤ 1 := by
  unfold innerR
  split_ifs with h0 h1
  · exact ⟨_, rfl, by simp⟩
  · exact ⟨_, rfl, by simp⟩
  · obtain ⟨s0, s1⟩ := C58_signs u Kb0 beta z hz1
    obtain ⟨r1, r2⟩ := C04_brent_refusal (rloop u Kb0 beta z) 0 1 atol atol maxiter
    rcases r2 hm with ⟨p, hp⟩ | he
    · rw [hp]
      refine ⟨_, rfl, ?_⟩
      intro x hx
      have := (C03_brent_stays_in_bracket _ _ _ _ _ _ hat hat p.1 p.2 hp).2.1
      rw [Set.uIcc_of_le zero_le_one] at this
      split_ifs at hx
      · simp only [Option.mem_def, Option.some.injEq] at hx
        rw [← hx]; exact this
      · simp at hx
    · have := (r1.1 he).2.2
      rw [s0, s1] at this
      have := mul_nonneg hb (sub_nonneg.2 hb1)
      linarith

/-- **C58.** The equation has exactly one root in (0, 1), for `0 < β < 1`. -/
theorem C58_unique (u : Vec N) (Kb0 beta : ℝ) (z : Vec N) (hz : ∀ i, 0 ≤ z i) (hz1 : ∑ i, z i = 1) (hK : 0 < Kb0) (hb : 0 < beta) (hb1 : beta < 1) :
    ∃! R, 0 ≤ R ∧ R ≤ 1 ∧ rloop u Kb0 beta z R = 0 := by
  obtain ⟨s0, s1⟩ := C58_signs u Kb0 beta z hz1
  have hden : ∀ i R, 0 ≤ R → R ≤ 1 → 0 < 1 - R + Kb0 * R * Real.exp (u i) := by
    intro i R h0 h1
    have := Real.exp_pos (u i)
    rcases h0.eq_or_lt with rfl | h0
    · simp
    · have : 0 < Kb0 * R * Real.exp (u i) := by positivity
      linarith
  have hmono : ∀ a b, 0 ≤ a → a < b → b ≤ 1 → rloop u Kb0 beta z a < rloop u Kb0 beta z b := by
    intro a b h0 hab h1
    simp only [rloop, mul_sum]
    have : ∑ i, (1 - b) * (z i / (1 - b + Kb0 * b * Real.exp (u i))) < ∑ i, (1 - a) * (z i / (1 - a + Kb0 * a * Real.exp (u i))) := by
      have hle : ∀ i, (1 - b) * (z i / (1 - b + Kb0 * b * Real.exp (u i))) = (1 - a) * (z i / (1 - a + Kb0 * a * Real.exp (u i))) -
          z i * (Kb0 * Real.exp (u i) * (b - a)) / ((1 - b + Kb0 * b * Real.exp (u i)) * (1 - a + Kb0 * a * Real.exp (u i))) := by
        intro i
        have d1 := (hden i b (h0.trans hab.le) h1).ne'
        have d2 := (hden i a h0 (hab.le.trans h1)).ne'
        rw [eq_sub_iff_add_eq, ← mul_div_assoc, ← mul_div_assoc, div_add_div _ _ d1 (mul_ne_zero d1 d2), div_eq_div_iff (mul_ne_zero d1 (mul_ne_zero d1 d2)) d2]
        ring
      have hpos : ∀ i, 0 < Kb0 * Real.exp (u i) * (b - a) / ((1 - b + Kb0 * b * Real.exp (u i)) * (1 - a + Kb0 * a * Real.exp (u i))) := by
        intro i
        have d1 := hden i b (h0.trans hab.le) h1
        have d2 := hden i a h0 (hab.le.trans h1)
        have := Real.exp_pos (u i)
        have := sub_pos.2 hab
        positivity
      refine sum_lt_sum (fun i _ => ?_) ?_
      · rw [hle i, mul_div_assoc]
        have := mul_nonneg (hz i) (hpos i).le
        linarith
      · obtain ⟨i, -, hi⟩ := exists_ne_zero_of_sum_ne_zero (s := univ) (f := z) (by rw [hz1]; exact one_ne_zero)
        refine ⟨i, mem_univ _, ?_⟩
        rw [hle i, mul_div_assoc]
        have := mul_pos (lt_of_le_of_ne (hz i) hi.symm) (hpos i)
        linarith
    linarith
  have hc : ContinuousOn (rloop u Kb0 beta z) (Set.Icc 0 1) := by
    unfold rloop
    refine continuousOn_const.sub ((continuousOn_const.sub continuousOn_id).mul (continuousOn_finsetSum _ fun i _ => ?_))
    refine continuousOn_const.div (by fun_prop) fun R hR => (hden i R hR.1 hR.2).ne'
  have hmem : (0 : ℝ) ∈ Set.Icc (rloop u Kb0 beta z 0) (rloop u Kb0 beta z 1) := by rw [s0, s1]; constructor <;> linarith
  obtain ⟨R, hR, hr⟩ := intermediate_value_Icc zero_le_one hc hmem
  refine ⟨R, ⟨hR.1, hR.2, hr⟩, ?_⟩
  rintro S ⟨h0, h1, hs⟩
  rcases lt_trichotomy S R with h | h | h
  · have := hmono S R h0 h hR.2; linarith
  · exact h
  · have := hmono R S hR.1 h h1; linarith

example : ∃! R, 0 ≤ R ∧ R ≤ 1 ∧ rloop ![1, -1] 2 (1 / 3) ![1 / 4, 3 / 4] R = 0 :=
  C58_unique _ _ _ _ (by intro i; fin_cases i <;> norm_num) (by norm_num [Fin.sum_univ_two]) (by norm_num) (by norm_num) (by norm_num)

end Verif.Flash
