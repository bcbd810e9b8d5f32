import Verif.Lemmas.Dist
import Verif.Lemmas.DistCont

/-!
# C17-C20: chain-length distributions

Sums over all chain lengths are `HasSum` (`k + 1` runs over `1, 2, 3, …`), integrals are Lebesgue integrals over sizes.
-/

namespace Verif.Dist

open Real MeasureTheory Set

/-! ### C17 -/

/-- **C17.** For `DPn ≥ 1` the Flory number pdf is non-negative, and whatever order is requested the returned moment is the sum of
`k^order * pdf(k)` over all chain lengths `k ≥ 1` (order 0: the pdf is normalised). Orders up to 4 always succeed and do not depend
on the polylogarithm; higher orders succeed for `DPn > 1`, given that `mpmath.polylog(-n, a)` is the series `∑ k^n a^k`. -/
theorem C17_flory_moments (polylog : ℕ → ℝ → ℝ) (DPn : ℝ) (h : 1 ≤ DPn)
    (hpl : ∀ n, 5 ≤ n → ∀ a, 0 < a → a < 1 → HasSum (fun k : ℕ => ((k : ℝ) + 1) ^ n * a ^ (k + 1)) (polylog n a)) :
    (∀ k, 0 ≤ floryPdf (floryA DPn) k) ∧
    (∀ order v, floryMoment polylog (floryA DPn) order = .ok v →
      HasSum (fun k : ℕ => ((k + 1 : ℕ) : ℝ) ^ order * floryPdf (floryA DPn) (k + 1)) v) ∧
    HasSum (fun k : ℕ => floryPdf (floryA DPn) (k + 1)) 1 ∧
    (∀ order, order ≤ 4 ∨ 1 < DPn → ∃ v, floryMoment polylog (floryA DPn) order = .ok v) := by
  have h0 : 0 ≤ floryA DPn := by
    unfold floryA
    have : 1 / DPn ≤ 1 := by rw [div_le_one (by linarith)]; exact h
    linarith
  have h1 : floryA DPn < 1 := by
    unfold floryA
    have : 0 < 1 / DPn := by positivity
    linarith
  have key : ∀ order v, floryMoment polylog (floryA DPn) order = .ok v →
      HasSum (fun k : ℕ => ((k + 1 : ℕ) : ℝ) ^ order * floryPdf (floryA DPn) (k + 1)) v := by
    intro order v hv
    refine hasSum_of_eq (flory_moment_hasSum polylog _ h0 h1 (fun ha n hn => hpl n hn _ ha h1) order v hv) (fun k => ?_) rfl
    unfold floryPdf; push_cast; simp
  refine ⟨fun k => mul_nonneg (by linarith) (pow_nonneg h0 _), key, ?_, ?_⟩
  · have := key 0 1 (by simp [floryMoment])
    simpa using this
  · intro order ho
    unfold floryMoment
    dsimp only
    split_ifs with e0 e1 e2 e3 e4 e5
    all_goals first | exact ⟨_, rfl⟩ | skip
    exfalso
    rcases ho with ho | ho
    · omega
    · unfold floryA at e5
      have : 1 / DPn < 1 := by rw [div_lt_one (by linarith)]; exact ho
      linarith

example : ∃ polylog : ℕ → ℝ → ℝ, ∀ n, 5 ≤ n → ∀ a, 0 < a → a < 1 →
    HasSum (fun k : ℕ => ((k : ℝ) + 1) ^ n * a ^ (k + 1)) (polylog n a) := by
  refine ⟨fun n a => ∑' k : ℕ, ((k : ℝ) + 1) ^ n * a ^ (k + 1), fun n _ a h0 h1 => Summable.hasSum ?_⟩
  have := summable_pow_mul_geometric_of_norm_lt_one n (r := a) (by rw [Real.norm_eq_abs, abs_of_pos h0]; exact h1)
  have := (summable_nat_add_iff 1).mpr this
  simpa using this

/-- **C17.** Up to order 4 the moments never need the polylogarithm. -/
theorem C17_flory_low_orders (polylog : ℕ → ℝ → ℝ) (DPn : ℝ) (h : 1 ≤ DPn) (order : ℕ) (ho : order ≤ 4) :
    ∃ v, floryMoment polylog (floryA DPn) order = .ok v ∧
      HasSum (fun k : ℕ => ((k + 1 : ℕ) : ℝ) ^ order * floryPdf (floryA DPn) (k + 1)) v := by
  obtain ⟨pl, hpl⟩ : ∃ pl : ℕ → ℝ → ℝ, ∀ n, 5 ≤ n → ∀ a, 0 < a → a < 1 →
      HasSum (fun k : ℕ => ((k : ℝ) + 1) ^ n * a ^ (k + 1)) (pl n a) := by
    refine ⟨fun n a => ∑' k : ℕ, ((k : ℝ) + 1) ^ n * a ^ (k + 1), fun n _ a h0 h1 => Summable.hasSum ?_⟩
    have := summable_pow_mul_geometric_of_norm_lt_one n (r := a) (by rw [Real.norm_eq_abs, abs_of_pos h0]; exact h1)
    have := (summable_nat_add_iff 1).mpr this
    simpa using this
  obtain ⟨_, h2, _, h4⟩ := C17_flory_moments pl DPn h hpl
  obtain ⟨v, hv⟩ := h4 order (Or.inl ho)
  refine ⟨v, ?_, h2 order v hv⟩
  rw [← hv]
  interval_cases order <;> rfl

example : (1 : ℝ) ≤ 100 ∧ 4 ≤ 4 := by norm_num

/-- **C17.** The cumulative number and mass fractions are the partial sums divided by the corresponding moment; any other order
raises `ValueError`. -/
theorem C17_flory_cdf (polylog : ℕ → ℝ → ℝ) (DPn : ℝ) (h : 1 ≤ DPn) (k : ℕ) :
    (∀ order m, order ≤ 1 → floryMoment polylog (floryA DPn) order = .ok m →
      floryCdf (floryA DPn) k order =
        .ok ((∑ i ∈ Finset.range k, ((i + 1 : ℕ) : ℝ) ^ order * floryPdf (floryA DPn) (i + 1)) / m)) ∧
    (∀ order, 2 ≤ order → floryCdf (floryA DPn) k order = .error .ValueError) := by
  have h1 : floryA DPn ≠ 1 := by
    unfold floryA
    have : 0 < 1 / DPn := by positivity
    intro h; linarith
  constructor
  · intro order m ho hm
    interval_cases order
    · simp only [floryMoment, if_true, Except.ok.injEq] at hm
      subst hm
      simp only [floryCdf, if_true, floryPdf, pow_zero, one_mul, Nat.add_sub_cancel]
      rw [flory_cdf0]
    · simp only [floryMoment, if_true, Except.ok.injEq, one_ne_zero, if_false] at hm
      subst hm
      simp only [floryCdf, if_true, one_ne_zero, if_false, floryPdf, pow_one, Nat.add_sub_cancel]
      rw [← flory_cdf1 _ h1]
      push_cast
      rfl
  · intro order ho
    unfold floryCdf
    rw [if_neg (by omega), if_neg (by omega)]

example : (1 : ℝ) ≤ 2 ∧ floryMoment (fun _ _ => 0) (floryA 2) 1 = .ok 2 := by
  simp [floryMoment, floryA]

/-- **C17.** Computed from the moments, the averages of a Flory distribution are the requested `DPn`, `DPw = 2 DPn - 1` and
`PDI = 2 - 1/DPn`, for any monomer molar mass. -/
theorem C17_flory_averages (polylog : ℕ → ℝ → ℝ) (DPn M0 : ℝ) (h : 1 ≤ DPn) (hM : 0 < M0) (m : ℕ → ℝ)
    (hm : ∀ n, n ≤ 3 → floryMoment polylog (floryA DPn) n = .ok (m n)) :
    avgDPn (momentMass m M0) = DPn ∧ avgDPw (momentMass m M0) = 2 * DPn - 1 ∧ avgPDI (momentMass m M0) = 2 - 1 / DPn := by
  have hD : DPn ≠ 0 := by positivity
  have e : 1 - floryA DPn = 1 / DPn := by unfold floryA; ring
  have m0 : m 0 = 1 := by
    have := hm 0 (by norm_num); simp only [floryMoment, if_true, Except.ok.injEq] at this; exact this.symm
  have m1 : m 1 = DPn := by
    have := hm 1 (by norm_num)
    simp only [floryMoment, if_true, Except.ok.injEq, one_ne_zero, if_false, e] at this
    rw [← this]; field_simp
  have m2 : m 2 = 2 * DPn ^ 2 - DPn := by
    have := hm 2 (by norm_num)
    simp only [floryMoment, if_true, Except.ok.injEq, OfNat.ofNat_ne_zero, OfNat.ofNat_ne_one, if_false, e] at this
    rw [← this]; field_simp
  have hM' := hM.ne'
  simp only [avgDPn, avgDPw, avgPDI, avgMw, avgMn, momentMass, m0, m1, m2]
  norm_num
  refine ⟨?_, ?_⟩ <;> field_simp

example : ∃ m : ℕ → ℝ, ∀ n, n ≤ 3 → floryMoment (fun _ _ => 0) (floryA 50) n = .ok (m n) := by
  refine ⟨fun n => match floryMoment (fun _ _ => 0) (floryA 50) n with | .ok v => v | .error _ => 0, fun n hn => ?_⟩
  interval_cases n <;> simp [floryMoment]

/-- **C17 (finding).** For `DPn = 1` (accepted by the constructor) moments of order 5 and above raise `ZeroDivisionError`. -/
theorem C17_flory_high_order_monodisperse_false (polylog : ℕ → ℝ → ℝ) :
    floryMoment polylog (floryA 1) 5 = .error .ZeroDivisionError := by
  simp [floryMoment, floryA]

/-! ### C18 -/

/-- **C18.** For `DPn > 1` and every order, the moment returned for a Poisson distribution is the sum of `k^order pdf(k)` over all
chain lengths (order 0: the pdf is normalised), and the pdf is a number, positive for every chain length. -/
theorem C18_poisson_moments (DPn : ℝ) (h : 1 < DPn) :
    ∃ p : ℕ → ℝ, (∀ k, poissonPdf (poissonA DPn) (k + 1) = some (p k)) ∧ (∀ k, 0 < p k) ∧ HasSum p 1 ∧
      ∀ order, HasSum (fun k : ℕ => ((k + 1 : ℕ) : ℝ) ^ order * p k) (poissonMoment (poissonA DPn) order) := by
  have ha : 0 < poissonA DPn := by unfold poissonA; linarith
  have hm := fun order => poisson_moment_hasSum (poissonA DPn) order
  refine ⟨_, poisson_pdf_eq (poissonA DPn) ha, fun k => by positivity, ?_, fun order => ?_⟩
  · have := hm 0
    simpa [poissonMoment] using this
  · refine hasSum_of_eq (hm order) (fun k => ?_) rfl
    push_cast; rfl

example : (1 : ℝ) < 20 := by norm_num

/-- **C18.** The cumulative number and mass fractions of the Poisson distribution are the partial sums divided by the moment; any
other order raises `ValueError`. -/
theorem C18_poisson_cdf (DPn : ℝ) (h : 1 < DPn) (p : ℕ → ℝ) (hp : ∀ k, poissonPdf (poissonA DPn) (k + 1) = some (p k)) (k : ℕ)
    (hk : 1 ≤ k) :
    (∀ order, order ≤ 1 → poissonCdf (poissonA DPn) k order =
      .ok ((∑ i ∈ Finset.range k, ((i + 1 : ℕ) : ℝ) ^ order * p i) / poissonMoment (poissonA DPn) order)) ∧
    (∀ order, 2 ≤ order → poissonCdf (poissonA DPn) k order = .error .ValueError) := by
  have ha : 0 < poissonA DPn := by unfold poissonA; linarith
  obtain ⟨j, rfl⟩ : ∃ j, k = j + 1 := ⟨k - 1, by omega⟩
  have hp' : ∀ i, p i = exp (-(poissonA DPn)) * (poissonA DPn) ^ i / i.factorial := by
    intro i
    have := hp i
    rw [poisson_pdf_eq _ ha] at this
    exact (Option.some.inj this).symm
  generalize poissonA DPn = a at *
  constructor
  · intro order ho
    interval_cases order
    · simp only [poissonCdf, if_true, gammaincc_nat j a ha, poisQ, poissonMoment, pow_zero, one_mul, hp']
    · simp only [poissonCdf, if_true, one_ne_zero, if_false, gammaincc_nat j a ha, poissonMoment, pow_one, hp']
      push_cast
      rw [poisQ_first_moment]
      congr 3
      have hg : gammaln ((j : ℝ) + 1) = log (j.factorial : ℝ) := by
        unfold gammaln
        rw [Real.Gamma_nat_eq_factorial, abs_of_pos (by positivity)]
      rw [hg, exp_sub, exp_sub, exp_log (by positivity), mul_comm ((j : ℝ) + 1), exp_mul, exp_log ha, exp_neg]
      rw [show ((j : ℝ) + 1) = ((j + 1 : ℕ) : ℝ) by push_cast; rfl, rpow_natCast]
      field_simp
  · intro order ho
    unfold poissonCdf
    rw [if_neg (by omega), if_neg (by omega)]

example : ∃ p : ℕ → ℝ, ∀ k, poissonPdf (poissonA 20) (k + 1) = some (p k) :=
  (C18_poisson_moments 20 (by norm_num)).imp fun _ h => h.1

/-- **C18.** Computed from the moments, the averages are the requested `DPn` and `PDI = 1 + 1/DPn - 1/DPn²`. -/
theorem C18_poisson_averages (DPn M0 : ℝ) (h : 1 ≤ DPn) (hM : 0 < M0) :
    avgDPn (momentMass (poissonMoment (poissonA DPn)) M0) = DPn ∧
    avgPDI (momentMass (poissonMoment (poissonA DPn)) M0) = 1 + 1 / DPn - 1 / DPn ^ 2 := by
  have hD : DPn ≠ 0 := by positivity
  have hM' := hM.ne'
  simp only [avgDPn, avgPDI, avgMw, avgMn, momentMass, poissonMoment, poissonA]
  norm_num
  field_simp
  ring

example : (1 : ℝ) ≤ 20 ∧ (0 : ℝ) < 0.1 := by norm_num

/-- **C18 (finding).** For `DPn = 1` (accepted by the constructor) the pdf at chain length 1, where all the mass sits, is NaN. -/
theorem C18_poisson_monodisperse_nan_false : poissonPdf (poissonA 1) 1 = none := by
  simp [poissonPdf, poisson, poissonA]

/-! ### C19 -/

/-- **C19.** For `DPn > 0` and `PDI > 1` the log-normal pdf integrates to the closed-form moment of every order, its averages
computed from these moments are exactly the requested `DPn` and `PDI`, and the cumulative fractions are the partial integrals. -/
theorem C19_lognormal (DPn PDI M0 : ℝ) (hD : 0 < DPn) (hP : 1 < PDI) (hM : 0 < M0) :
    (∀ n : ℕ, ∫ x in Ioi (0 : ℝ), x ^ n * lnPdf (lnMu DPn PDI) (lnSigma PDI) x = lnMoment (lnMu DPn PDI) (lnSigma PDI) n) ∧
    lnMoment (lnMu DPn PDI) (lnSigma PDI) 0 = 1 ∧
    avgDPn (momentMass (lnMoment (lnMu DPn PDI) (lnSigma PDI)) M0) = DPn ∧
    avgPDI (momentMass (lnMoment (lnMu DPn PDI) (lnSigma PDI)) M0) = PDI ∧
    (∀ x, 0 < x → ∀ order, order ≤ 1 → lnCdf (lnMu DPn PDI) (lnSigma PDI) x order =
      .ok ((∫ t in Ioc 0 x, t ^ order * lnPdf (lnMu DPn PDI) (lnSigma PDI) t) /
        lnMoment (lnMu DPn PDI) (lnSigma PDI) order)) := by
  have hlog : 0 < log PDI := log_pos hP
  have hs : 0 < lnSigma PDI := sqrt_pos.mpr hlog
  have hs2 : lnSigma PDI ^ 2 = log PDI := Real.sq_sqrt hlog.le
  have hmu : lnMu DPn PDI = log DPn - log PDI / 2 := by
    unfold lnMu
    rw [log_div hD.ne' (by positivity), log_sqrt (by linarith)]
  have hm : ∀ n : ℕ, lnMoment (lnMu DPn PDI) (lnSigma PDI) n =
      exp (n * (log DPn - log PDI / 2) + 1 / 2 * (n : ℝ) ^ 2 * log PDI) := by
    intro n; unfold lnMoment; rw [hs2, hmu]
  have h0 : lnMoment (lnMu DPn PDI) (lnSigma PDI) 0 = 1 := by rw [hm]; simp
  have h1 : lnMoment (lnMu DPn PDI) (lnSigma PDI) 1 = DPn := by
    rw [hm, ← exp_log hD]; congr 1; rw [log_exp]; push_cast; ring
  have h2 : lnMoment (lnMu DPn PDI) (lnSigma PDI) 2 = DPn ^ 2 * PDI := by
    rw [hm]
    have : DPn ^ 2 * PDI = exp (2 * log DPn + log PDI) := by
      rw [exp_add, exp_log (by linarith), two_mul, exp_add, exp_log hD, pow_two]
    rw [this]; congr 1; push_cast; ring
  refine ⟨fun n => ?_, h0, ?_, ?_, ?_⟩
  · rw [← exp_image_univ, ln_subst _ _ hs n univ MeasurableSet.univ, setIntegral_univ, gauss_univ _ _ hs, mul_one]
  · simp only [avgDPn, momentMass, h0, h1]; simp
  · simp only [avgPDI, avgMw, avgMn, momentMass, h0, h1, h2]
    norm_num
    have := hM.ne'
    have := hD.ne'
    field_simp
  · intro x hx order ho
    have hne : lnMoment (lnMu DPn PDI) (lnSigma PDI) order ≠ 0 := (exp_pos _).ne'
    rw [← exp_image_Iic x hx, ln_subst _ _ hs order _ measurableSet_Iic, gauss_Iic _ _ _ hs, mul_div_cancel_left₀ _ hne]
    interval_cases order
    · simp [lnCdf]
    · simp only [lnCdf, one_ne_zero, if_false, if_true, erfc, Nat.cast_one, one_mul]
      congr 2
      rw [show (lnMu DPn PDI + lnSigma PDI ^ 2 - log x) / (lnSigma PDI * √2) =
        -((log x - (lnMu DPn PDI + lnSigma PDI ^ 2)) / (lnSigma PDI * √2)) by ring, erf_neg]
      ring

example : (0 : ℝ) < 100 ∧ (1 : ℝ) < 3 / 2 ∧ (0 : ℝ) < 0.1 := by norm_num

/-- **C19.** The same for the Schulz-Zimm distribution. -/
theorem C19_schulzzimm (DPn PDI M0 : ℝ) (hD : 0 < DPn) (hP : 1 < PDI) (hM : 0 < M0) :
    (∀ n : ℕ, ∫ x in Ioi (0 : ℝ), x ^ n * szPdf (szK PDI) (szTheta DPn PDI) x = szMoment (szK PDI) (szTheta DPn PDI) n) ∧
    szMoment (szK PDI) (szTheta DPn PDI) 0 = 1 ∧
    avgDPn (momentMass (szMoment (szK PDI) (szTheta DPn PDI)) M0) = DPn ∧
    avgPDI (momentMass (szMoment (szK PDI) (szTheta DPn PDI)) M0) = PDI ∧
    (∀ x, 0 ≤ x → ∀ order, order ≤ 1 → szCdf (szK PDI) (szTheta DPn PDI) x order =
      .ok ((∫ t in Ioc 0 x, t ^ order * szPdf (szK PDI) (szTheta DPn PDI) t) / szMoment (szK PDI) (szTheta DPn PDI) order)) := by
  have hP' : 0 < PDI - 1 := by linarith
  have hk : 0 < szK PDI := by unfold szK; positivity
  have ht : 0 < szTheta DPn PDI := by unfold szTheta; positivity
  have hkt : szK PDI * szTheta DPn PDI = DPn := by unfold szK szTheta; field_simp
  have hG : Gamma (szK PDI) ≠ 0 := (Gamma_pos_of_pos hk).ne'
  have hG1 : Gamma (szK PDI + 1) = szK PDI * Gamma (szK PDI) := Gamma_add_one hk.ne'
  have hG2 : Gamma (szK PDI + 2) = (szK PDI + 1) * szK PDI * Gamma (szK PDI) := by
    rw [show szK PDI + 2 = szK PDI + 1 + 1 by ring, Gamma_add_one (by positivity), hG1]; ring
  have h0 : szMoment (szK PDI) (szTheta DPn PDI) 0 = 1 := by simp [szMoment, poch, hG]
  have h1 : szMoment (szK PDI) (szTheta DPn PDI) 1 = DPn := by
    simp only [szMoment, poch, Nat.cast_one, hG1, pow_one]
    rw [mul_div_assoc, div_self hG, mul_one, hkt]
  have h2 : szMoment (szK PDI) (szTheta DPn PDI) 2 = DPn ^ 2 * PDI := by
    simp only [szMoment, poch, Nat.cast_ofNat, hG2]
    rw [mul_div_assoc, div_self hG, mul_one]
    unfold szK szTheta
    field_simp
    ring
  refine ⟨fun n => ?_, h0, ?_, ?_, ?_⟩
  · rw [← scale_image_Ioi _ ht, sz_subst _ _ ht hk n _ measurableSet_Ioi subset_rfl]
    have hGn : Gamma (szK PDI + n) = ∫ t in Ioi (0 : ℝ), t ^ (szK PDI + n - 1) * exp (-t) := by
      rw [Real.Gamma_eq_integral (by positivity)]
      exact setIntegral_congr_fun measurableSet_Ioi fun t _ => by ring
    rw [← hGn]
    unfold szMoment poch
    ring
  · simp only [avgDPn, momentMass, h0, h1]; simp
  · simp only [avgPDI, avgMw, avgMn, momentMass, h0, h1, h2]
    norm_num
    have := hM.ne'
    have := hD.ne'
    field_simp
  · intro x hx order ho
    have hGn : Gamma (szK PDI + order) ≠ 0 := (Gamma_pos_of_pos (by positivity)).ne'
    rw [← scale_image_Ioc _ _ ht, sz_subst _ _ ht hk order _ measurableSet_Ioc Ioc_subset_Ioi_self]
    have e : szTheta DPn PDI ^ order / Gamma (szK PDI) *
        (∫ u in Ioc 0 (x / szTheta DPn PDI), u ^ (szK PDI + order - 1) * exp (-u)) / szMoment (szK PDI) (szTheta DPn PDI) order =
        gammainc (szK PDI + order) (x / szTheta DPn PDI) := by
      unfold szMoment poch gammainc
      have := ht.ne'
      field_simp
    rw [e]
    interval_cases order
    · simp [szCdf]
    · simp only [szCdf, one_ne_zero, if_false, if_true, Nat.cast_one]
      have := gammainc_add_gammaincc (szK PDI + 1) (x / szTheta DPn PDI) (by positivity) (by positivity)
      rw [add_comm 1]
      congr 1; linarith

example : (0 : ℝ) < 100 ∧ (1 : ℝ) < 3 / 2 ∧ (0 : ℝ) < 0.1 := by norm_num

/-- **C19.** The number, mass and GPC pdfs of any continuous distribution are normalised to one, both as functions of the chain
length and of the molar mass (`sizeasmass`). -/
theorem C19_pdf_normalised (pdf0 : ℝ → ℝ) (m : ℕ → ℝ) (M0 : ℝ) (hM : 0 < M0) (order : ℕ)
    (hm : ∫ x in Ioi (0 : ℝ), x ^ order * pdf0 x = m order) (h0 : m order ≠ 0) (b : Bool) :
    ∫ x in Ioi (0 : ℝ), pdf pdf0 m M0 x order b = 1 := by
  cases b
  · simp only [pdf, Bool.false_eq_true, if_false, mul_one]
    rw [integral_div, show ∫ x in Ioi (0 : ℝ), pdf0 x * x ^ order = m order by rw [← hm]; congr 1; funext x; ring, div_self h0]
  · simp only [pdf, if_true]
    rw [integral_div]
    have := integral_comp_mul_left_Ioi (fun x => x ^ order * pdf0 x) 0 (b := M0⁻¹) (by positivity)
    rw [mul_zero, inv_inv, hm, smul_eq_mul] at this
    have e : ∫ x in Ioi (0 : ℝ), pdf0 (x / M0) * (x / M0) ^ order = M0 * m order := by
      rw [← this]; congr 1; funext x; rw [div_eq_inv_mul]; ring
    rw [e]
    have := hM.ne'
    field_simp

example : ∃ (pdf0 : ℝ → ℝ) (m : ℕ → ℝ), (∫ x in Ioi (0 : ℝ), x ^ 1 * pdf0 x = m 1) ∧ m 1 ≠ 0 := by
  refine ⟨_, _, (C19_schulzzimm 100 2 1 (by norm_num) (by norm_num) (by norm_num)).1 1, ?_⟩
  have h : (0 : ℝ) < szK 2 := by norm_num [szK]
  have : 0 < szMoment (szK 2) (szTheta 100 2) 1 := by
    unfold szMoment poch
    have h2 : (0 : ℝ) < szTheta 100 2 := by norm_num [szTheta]
    have := Gamma_pos_of_pos h
    have := Gamma_pos_of_pos (s := szK 2 + ((1 : ℕ) : ℝ)) (by positivity)
    positivity
  exact this.ne'

/-- **C19.** The number and mass cdfs of a continuous distribution are the integrals of the pdfs of the same kind, both as functions of the chain length and
of the molar mass. -/
theorem C19_cdf_of_pdf (pdf0 : ℝ → ℝ) (m : ℕ → ℝ) (cdf0 : ℝ → ℕ → Except Err ℝ) (M0 : ℝ) (hM : 0 < M0) (order : ℕ)
    (hc : ∀ x, 0 < x → cdf0 x order = .ok ((∫ t in Ioc 0 x, t ^ order * pdf0 t) / m order)) (b : Bool) (x : ℝ) (hx : 0 < x) :
    cdf cdf0 M0 x order b = .ok (∫ t in Ioc 0 x, pdf pdf0 m M0 t order b) := by
  cases b
  · simp only [cdf, pdf, Bool.false_eq_true, if_false, mul_one]
    rw [hc x hx, integral_div]
    simp only [mul_comm]
  · simp only [cdf, pdf, if_true]
    rw [hc _ (by positivity), integral_div, ← intervalIntegral.integral_of_le hx.le, ← intervalIntegral.integral_of_le (by positivity)]
    have := intervalIntegral.integral_comp_div (a := 0) (b := x) (fun t => pdf0 t * t ^ order) hM.ne'
    rw [this, zero_div, smul_eq_mul, mul_comm (m order), mul_div_mul_left _ _ hM.ne']
    simp only [mul_comm]

example (x : ℝ) (hx : 0 < x) : cdf (fun x o => szCdf (szK 2) (szTheta 100 2) x o) 10 x 1 true =
    .ok (∫ t in Ioc 0 x, pdf (szPdf (szK 2) (szTheta 100 2)) (szMoment (szK 2) (szTheta 100 2)) 10 t 1 true) :=
  C19_cdf_of_pdf _ _ _ 10 (by norm_num) 1
    (fun x hx => (C19_schulzzimm 100 2 1 (by norm_num) (by norm_num) (by norm_num)).2.2.2.2 x hx.le 1 le_rfl) true x hx

/-! ### C20 -/

/-- **C20.** For any distribution of sizes (a measure on the positive reals, neither zero nor with infinite third moment: this covers
discrete and continuous distributions) the averages are ordered, `PDI ≥ 1`, molar-mass averages are `M0` times the
degree-of-polymerisation averages, and the `M0` recovered from the averages is the one given. -/
theorem C20_averages_ordered (μ : Measure ℝ) (M0 : ℝ) (hM : 0 < M0) (hsupp : ∀ᵐ x ∂μ, 0 < x) (hμ : μ ≠ 0)
    (hint : ∀ n : ℕ, n ≤ 3 → Integrable (fun x : ℝ => x ^ n) μ) (m : ℕ → ℝ) (hm : ∀ n, m n = ∫ x, x ^ n ∂μ) :
    avgDPn (momentMass m M0) ≤ avgDPw (momentMass m M0) ∧ avgDPw (momentMass m M0) ≤ avgDPz (momentMass m M0) ∧
    avgMn (momentMass m M0) ≤ avgMw (momentMass m M0) ∧ avgMw (momentMass m M0) ≤ avgMz (momentMass m M0) ∧
    1 ≤ avgPDI (momentMass m M0) ∧ avgMn (momentMass m M0) = M0 * avgDPn (momentMass m M0) ∧
    avgMw (momentMass m M0) = M0 * avgDPw (momentMass m M0) ∧ avgMz (momentMass m M0) = M0 * avgDPz (momentMass m M0) ∧
    avgM0 (momentMass m M0) = M0 := by
  have hpos : ∀ n : ℕ, n ≤ 3 → 0 < m n := by
    intro n hn
    rw [hm, integral_pos_iff_support_of_nonneg_ae (hsupp.mono fun x hx => pow_nonneg hx.le n) (hint n hn)]
    have : Function.support (fun x : ℝ => x ^ n) =ᵐ[μ] univ := by
      filter_upwards [hsupp] with x hx
      have : x ^ n ≠ 0 := (pow_pos hx n).ne'
      exact eq_true this |>.trans (eq_true (mem_univ x)).symm
    rw [measure_congr this]
    exact pos_iff_ne_zero.mpr (Measure.measure_univ_ne_zero.mpr hμ)
  have hq : ∀ j : ℕ, j ≤ 1 → ∀ t, 0 ≤ m (j + 2) - 2 * t * m (j + 1) + t ^ 2 * m j := by
    intro j hj t
    have i2 := hint (j + 2) (by omega)
    have i1 := (hint (j + 1) (by omega)).const_mul (2 * t)
    have i0 := (hint j (by omega)).const_mul (t ^ 2)
    have e := integral_add (i2.sub i1) i0
    have e' := integral_sub i2 i1
    simp only [Pi.sub_apply] at e
    rw [hm, hm, hm, ← integral_const_mul, ← integral_const_mul, ← e', ← e]
    refine integral_nonneg_of_ae (hsupp.mono fun x hx => ?_)
    have : x ^ (j + 2) - 2 * t * x ^ (j + 1) + t ^ 2 * x ^ j = x ^ j * (x - t) ^ 2 := by ring
    show 0 ≤ x ^ (j + 2) - 2 * t * x ^ (j + 1) + t ^ 2 * x ^ j
    rw [this]
    have := pow_nonneg hx.le j
    positivity
  exact averages_ordered m M0 hM (hpos 0 (by norm_num)) (hpos 1 (by norm_num)) (hpos 2 (by norm_num)) (hq 0 (by norm_num))
    (hq 1 (by norm_num))

example : ∃ μ : Measure ℝ, (∀ᵐ x ∂μ, 0 < x) ∧ μ ≠ 0 ∧ ∀ n : ℕ, n ≤ 3 → Integrable (fun x : ℝ => x ^ n) μ := by
  refine ⟨Measure.dirac 5, ?_, ?_, fun n _ => integrable_dirac (by simp)⟩
  · rw [ae_dirac_eq]; simp
  · exact NeZero.ne _

end Verif.Dist
