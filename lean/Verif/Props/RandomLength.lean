import Verif.Lemmas.RandomLength
import Mathlib.Probability.Distributions.Geometric
import Mathlib.Probability.Distributions.Poisson.Basic

/-!
# C119: the chain lengths returned by `random()`

`P.real A` is the probability of the event `A`. The laws of the numpy samplers are hypotheses, stated in
`Verif/Spec/RandomLength.lean`.
-/

namespace Verif.Dist

open MeasureTheory Set Real

variable {Ω : Type*} [MeasurableSpace Ω]

/-- **C119.** A Flory chain length drawn by `random()` equals `k` with probability `pdf(k)` for every `k ≥ 1`, and is never below
1. -/
theorem C119_flory (P : Measure Ω) (g : Rng Ω) (DPn : ℝ)
    (hg : Spec.GeometricLaw P (g.geometric (1 / DPn)) (1 / DPn)) :
    (∀ k : ℕ, 1 ≤ k → P.real {ω | floryRandom g DPn ω = k} = floryPdf (floryA DPn) k) ∧
    ∀ j : ℤ, j ≤ 0 → P.real {ω | floryRandom g DPn ω = j} = 0 := by
  have h1 : 1 - floryA DPn = 1 / DPn := by unfold floryA; ring
  have h2 : floryA DPn = 1 - 1 / DPn := rfl
  refine ⟨fun k hk => ?_, fun j hj => ?_⟩
  · obtain ⟨i, rfl⟩ : ∃ i, k = i + 1 := ⟨k - 1, by omega⟩
    simp only [floryRandom, h1, floryPdf, Nat.add_sub_cancel]
    have := hg.2 i
    rw [h2, mul_comm, ← this]
    norm_cast
  · simp only [floryRandom, h1]
    rcases hj.lt_or_eq with h | h
    · have : {ω | (g.geometric (1 / DPn) ω : ℤ) = j} = ∅ := by
        ext ω
        simp only [mem_ofPred_eq, mem_empty_iff_false, iff_false]
        omega
      rw [this]; simp
    · rw [h, ← hg.1]
      norm_cast

/-- A geometric variable for `DPn = 20`. -/
example : ∃ (P : Measure ℕ) (g : Rng ℕ), IsProbabilityMeasure P ∧ Spec.GeometricLaw P (g.geometric (1 / 20)) (1 / 20) := by
  have hp : (1 / 20 : ℝ) ∈ unitInterval := by constructor <;> norm_num
  have hne : (⟨1 / 20, hp⟩ : unitInterval) ≠ 0 := by
    intro h; have := congrArg Subtype.val h; norm_num at this
  refine ⟨ProbabilityTheory.geometricMeasure ⟨1 / 20, hp⟩, ⟨fun _ n => n + 1, fun _ _ => 0, fun _ _ _ => 0, fun _ _ _ => 0⟩,
    inferInstance, ?_, fun k => ?_⟩
  · simp
  · have : {ω : ℕ | ω + 1 = k + 1} = {k} := by ext ω; simp
    simp only [this]
    rw [ProbabilityTheory.geometricMeasure_real_singleton hne]

/-- **C119.** A Poisson chain length drawn by `random()` equals `k` with probability `pdf(k)` for every `k ≥ 1`, and is never below
1. -/
theorem C119_poisson (P : Measure Ω) (g : Rng Ω) (DPn : ℝ) (h : 1 < DPn)
    (hg : Spec.PoissonLaw P (g.poisson (DPn - 1)) (DPn - 1)) :
    (∀ k : ℕ, 1 ≤ k → poissonPdf (poissonA DPn) k = some (P.real {ω | poissonRandom g DPn ω = k})) ∧
    ∀ j : ℤ, j ≤ 0 → P.real {ω | poissonRandom g DPn ω = j} = 0 := by
  have h1 : poissonA DPn = DPn - 1 := rfl
  refine ⟨fun k hk => ?_, fun j hj => ?_⟩
  · obtain ⟨i, rfl⟩ : ∃ i, k = i + 1 := ⟨k - 1, by omega⟩
    rw [poisson_pdf_eq _ (by rw [h1]; linarith)]
    simp only [poissonRandom, h1]
    have := hg i
    rw [mul_comm, ← this]
    norm_cast
    simp
  · simp only [poissonRandom, h1]
    have : {ω | (g.poisson (DPn - 1) ω : ℤ) + 1 = j} = ∅ := by
      ext ω
      simp only [mem_ofPred_eq, mem_empty_iff_false, iff_false]
      omega
    rw [this]; simp

/-- A Poisson variable for `DPn = 20`. -/
example : ∃ (P : Measure ℕ) (g : Rng ℕ), IsProbabilityMeasure P ∧ Spec.PoissonLaw P (g.poisson (20 - 1)) (20 - 1) := by
  refine ⟨ProbabilityTheory.poissonMeasure 19, ⟨fun _ _ => 0, fun _ n => n, fun _ _ _ => 0, fun _ _ _ => 0⟩, inferInstance,
    fun k => ?_⟩
  have : {ω : ℕ | ω = k} = {k} := by ext ω; simp
  simp only [this]
  rw [ProbabilityTheory.poissonMeasure_real_singleton]
  norm_num
  ring

/-- **C119.** A log-normal chain length drawn by `random()` equals `k ≥ 1` with probability `cdf(k + 1/2) - cdf(k - 1/2)`, equals 0
with probability `cdf(1/2)`, and is never negative. -/
theorem C119_lognormal (P : Measure Ω) [IsProbabilityMeasure P] (g : Rng Ω) (DPn PDI : ℝ) (hD : 0 < DPn) (hP : 1 < PDI)
    (hg : Spec.LogNormalLaw P (g.lognormal (lnMu DPn PDI) (lnSigma PDI)) (lnMu DPn PDI) (lnSigma PDI)) :
    (∀ k : ℤ, 1 ≤ k → ∃ a b, lnCdf (lnMu DPn PDI) (lnSigma PDI) (k + 1 / 2) 0 = .ok b ∧
      lnCdf (lnMu DPn PDI) (lnSigma PDI) (k - 1 / 2) 0 = .ok a ∧ P.real {ω | lnRandom g DPn PDI ω = k} = b - a) ∧
    lnCdf (lnMu DPn PDI) (lnSigma PDI) (1 / 2) 0 = .ok (P.real {ω | lnRandom g DPn PDI ω = 0}) ∧
    ∀ k : ℤ, k < 0 → P.real {ω | lnRandom g DPn PDI ω = k} = 0 := by
  have hX := (ln_density P _ _ _).mp hg
  obtain ⟨-, h0, -, -, hc⟩ := C19_lognormal DPn PDI 1 hD hP one_pos
  have hc' : ∀ x, 0 < x → lnCdf (lnMu DPn PDI) (lnSigma PDI) x 0 =
      .ok (∫ t in Ioc 0 x, lnPdf (lnMu DPn PDI) (lnSigma PDI) t) := by
    intro x hx; rw [hc x hx 0 (by norm_num), h0]; simp
  refine ⟨fun k hk => ?_, ?_, fun k hk => rint_prob_neg P hX k hk⟩
  · have hk' : (1 : ℝ) ≤ k := by exact_mod_cast hk
    exact ⟨_, _, hc' _ (by linarith), hc' _ (by linarith), rint_prob_pos P hX (ln_norm DPn PDI hD hP) k hk⟩
  · rw [hc' _ (by norm_num)]
    exact congrArg _ (rint_prob_zero P hX).symm

/-- **C119.** The same for the Schulz-Zimm distribution. -/
theorem C119_schulzzimm (P : Measure Ω) [IsProbabilityMeasure P] (g : Rng Ω) (DPn PDI : ℝ) (hD : 0 < DPn) (hP : 1 < PDI)
    (hg : Spec.GammaLaw P (g.gamma (szK PDI) (szTheta DPn PDI)) (szK PDI) (szTheta DPn PDI)) :
    (∀ k : ℤ, 1 ≤ k → ∃ a b, szCdf (szK PDI) (szTheta DPn PDI) (k + 1 / 2) 0 = .ok b ∧
      szCdf (szK PDI) (szTheta DPn PDI) (k - 1 / 2) 0 = .ok a ∧ P.real {ω | szRandom g DPn PDI ω = k} = b - a) ∧
    szCdf (szK PDI) (szTheta DPn PDI) (1 / 2) 0 = .ok (P.real {ω | szRandom g DPn PDI ω = 0}) ∧
    ∀ k : ℤ, k < 0 → P.real {ω | szRandom g DPn PDI ω = k} = 0 := by
  have hX := (sz_density P _ _ _).mp hg
  obtain ⟨-, h0, -, -, hc⟩ := C19_schulzzimm DPn PDI 1 hD hP one_pos
  have hc' : ∀ x, 0 ≤ x → szCdf (szK PDI) (szTheta DPn PDI) x 0 =
      .ok (∫ t in Ioc 0 x, szPdf (szK PDI) (szTheta DPn PDI) t) := by
    intro x hx; rw [hc x hx 0 (by norm_num), h0]; simp
  refine ⟨fun k hk => ?_, ?_, fun k hk => rint_prob_neg P hX k hk⟩
  · have hk' : (1 : ℝ) ≤ k := by exact_mod_cast hk
    exact ⟨_, _, hc' _ (by linarith), hc' _ (by linarith), rint_prob_pos P hX (sz_norm DPn PDI hD hP) k hk⟩
  · rw [hc' _ (by norm_num)]
    exact congrArg _ (rint_prob_zero P hX).symm

/-- A log-normal variable for `DPn = 100`, `PDI = 3/2`. -/
example : ∃ (P : Measure ℝ) (g : Rng ℝ), IsProbabilityMeasure P ∧
    Spec.LogNormalLaw P (g.lognormal (lnMu 100 (3 / 2)) (lnSigma (3 / 2))) (lnMu 100 (3 / 2)) (lnSigma (3 / 2)) := by
  obtain ⟨P, hP, h⟩ := exists_density (ln_norm 100 (3 / 2) (by norm_num) (by norm_num)) (ln_pos 100 (3 / 2) (by norm_num))
  exact ⟨P, ⟨fun _ _ => 0, fun _ _ => 0, fun _ _ => id, fun _ _ => id⟩, hP, (ln_density _ _ _ _).mpr h⟩

/-- A gamma variable for `DPn = 100`, `PDI = 3/2`. -/
example : ∃ (P : Measure ℝ) (g : Rng ℝ), IsProbabilityMeasure P ∧
    Spec.GammaLaw P (g.gamma (szK (3 / 2)) (szTheta 100 (3 / 2))) (szK (3 / 2)) (szTheta 100 (3 / 2)) := by
  obtain ⟨P, hP, h⟩ := exists_density (sz_norm 100 (3 / 2) (by norm_num) (by norm_num))
    (sz_pos 100 (3 / 2) (by norm_num) (by norm_num))
  exact ⟨P, ⟨fun _ _ => 0, fun _ _ => 0, fun _ _ => id, fun _ _ => id⟩, hP, (sz_density _ _ _ _).mpr h⟩

/-- The log-normal and Schulz-Zimm lengths are whole numbers within one half of the number drawn, the even one of the two at a tie. -/
theorem C119_rounding (g : Rng Ω) (DPn PDI : ℝ) (ω : Ω) :
    (|g.lognormal (lnMu DPn PDI) (lnSigma PDI) ω - lnRandom g DPn PDI ω| ≤ 1 / 2 ∧
      (|g.lognormal (lnMu DPn PDI) (lnSigma PDI) ω - lnRandom g DPn PDI ω| = 1 / 2 → Even (lnRandom g DPn PDI ω))) ∧
    (|g.gamma (szK PDI) (szTheta DPn PDI) ω - szRandom g DPn PDI ω| ≤ 1 / 2 ∧
      (|g.gamma (szK PDI) (szTheta DPn PDI) ω - szRandom g DPn PDI ω| = 1 / 2 → Even (szRandom g DPn PDI ω))) := by
  have key : ∀ x : ℝ, |x - rint x| ≤ 1 / 2 ∧ (|x - rint x| = 1 / 2 → Even (rint x)) := fun x => by
    have f1 := Int.floor_le x
    have f2 := Int.lt_floor_add_one x
    refine ⟨abs_le.2 ⟨by linarith [(rint_mem x).1], by linarith [(rint_mem x).2]⟩, ?_⟩
    unfold rint
    split_ifs with h1 h2 h3
    · rw [abs_of_nonneg (by linarith)]
      intro h
      linarith
    · push_cast
      rw [abs_of_nonpos (by linarith)]
      intro h
      linarith
    · exact fun _ => h3
    · exact fun _ => (Int.not_even_iff_odd.1 h3).add_one
  exact ⟨key _, key _⟩

example : rint (5 / 2) = 2 := by
  have : ⌊(5 / 2 : ℝ)⌋ = 2 := by norm_num [Int.floor_eq_iff]
  unfold rint
  rw [this, if_neg (by norm_num), if_neg (by norm_num), if_pos (by decide)]

/-- **C119 (finding).** `random()` of a log-normal or Schulz-Zimm distribution returns chains of length 0 with positive probability,
whatever `DPn` and `PDI > 1`. -/
theorem C119_zero_length_false (P : Measure Ω) [IsProbabilityMeasure P] (g : Rng Ω) (DPn PDI : ℝ) (hD : 0 < DPn) (hP : 1 < PDI) :
    (Spec.LogNormalLaw P (g.lognormal (lnMu DPn PDI) (lnSigma PDI)) (lnMu DPn PDI) (lnSigma PDI) →
      0 < P.real {ω | lnRandom g DPn PDI ω = 0}) ∧
    (Spec.GammaLaw P (g.gamma (szK PDI) (szTheta DPn PDI)) (szK PDI) (szTheta DPn PDI) →
      0 < P.real {ω | szRandom g DPn PDI ω = 0}) := by
  refine ⟨fun hg => ?_, fun hg => ?_⟩
  · rw [show P.real {ω | lnRandom g DPn PDI ω = 0} = _ from rint_prob_zero P ((ln_density P _ _ _).mp hg)]
    exact integral_Ioc_pos (ln_norm DPn PDI hD hP) (ln_pos DPn PDI hP) _ (by norm_num)
  · rw [show P.real {ω | szRandom g DPn PDI ω = 0} = _ from rint_prob_zero P ((sz_density P _ _ _).mp hg)]
    exact integral_Ioc_pos (sz_norm DPn PDI hD hP) (sz_pos DPn PDI hD hP) _ (by norm_num)

/-- **C119 (finding).** For the Schulz-Zimm distribution with `PDI = 2` the fraction of chains of length 0 is `1 - exp(-1/(2 DPn))`. -/
theorem C119_zero_length_fraction (P : Measure Ω) [IsProbabilityMeasure P] (g : Rng Ω) (DPn : ℝ) (hD : 0 < DPn)
    (hg : Spec.GammaLaw P (g.gamma (szK 2) (szTheta DPn 2)) (szK 2) (szTheta DPn 2)) :
    P.real {ω | szRandom g DPn 2 ω = 0} = 1 - exp (-1 / (2 * DPn)) := by
  rw [show P.real {ω | szRandom g DPn 2 ω = 0} = _ from rint_prob_zero P ((sz_density P _ _ _).mp hg)]
  rw [← intervalIntegral.integral_of_le (by norm_num)]
  have hd : ∀ x : ℝ, HasDerivAt (fun x => -exp (-x / DPn)) (szPdf (szK 2) (szTheta DPn 2) x) x := by
    intro x
    have h1 : HasDerivAt (fun x : ℝ => -x / DPn) (-1 / DPn) x := ((hasDerivAt_id x).neg).div_const DPn
    refine h1.exp.neg.congr_deriv ?_
    have hk : szK 2 = 1 := by unfold szK; norm_num
    have ht : szTheta DPn 2 = DPn := by unfold szTheta; ring
    rw [hk, ht]
    simp only [szPdf, sub_self, rpow_zero, rpow_one, Gamma_one]
    ring
  rw [intervalIntegral.integral_eq_sub_of_hasDerivAt (fun x _ => hd x)]
  · rw [show -(1 / 2 : ℝ) / DPn = -1 / (2 * DPn) by field_simp]
    simp
    ring
  · rw [intervalIntegrable_iff, uIoc_of_le (by norm_num)]
    have := integrableOn_of_one (sz_norm DPn 2 hD (by norm_num))
    exact this.mono_set fun x hx => hx.1

/-- With `DPn = 10`: 4.9 % of the chains returned have length 0. -/
example : (0 : ℝ) < 10 ∧ (0.048 : ℝ) < 1 - exp (-1 / (2 * 10)) := by
  refine ⟨by norm_num, ?_⟩
  have h : exp (-1 / (2 * 10) : ℝ) = (exp (1 / 20))⁻¹ := by rw [← exp_neg]; norm_num
  have h2 : 1 + (1 / 20 : ℝ) + (1 / 20) ^ 2 / 2 ≤ exp (1 / 20) := quadratic_le_exp_of_nonneg (by norm_num)
  have h3 : (exp (1 / 20 : ℝ))⁻¹ ≤ (1 + (1 / 20 : ℝ) + (1 / 20) ^ 2 / 2)⁻¹ := inv_anti₀ (by norm_num) h2
  rw [h]
  have h4 : (1 + (1 / 20 : ℝ) + (1 / 20) ^ 2 / 2)⁻¹ < 0.952 := by norm_num
  linarith

end Verif.Dist
