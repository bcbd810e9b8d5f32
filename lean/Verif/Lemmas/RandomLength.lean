import Verif.Model.RandomLength
import Verif.Spec.RandomLength
import Verif.Props.Dist
import Mathlib.MeasureTheory.Measure.WithDensity
import Mathlib.MeasureTheory.Function.L1Space.Integrable

/-! # Lemmas for C119 -/

namespace Verif.Dist

open MeasureTheory Set Real

theorem rint_of_mem (k : ℤ) (x : ℝ) (h1 : (k : ℝ) - 1 / 2 < x) (h2 : x < k + 1 / 2) : rint x = k := by
  unfold rint
  rcases lt_or_ge x k with h | h
  · have hf : ⌊x⌋ = k - 1 := by rw [Int.floor_eq_iff]; push_cast; constructor <;> linarith
    rw [hf]; push_cast
    rw [if_neg (by linarith), if_pos (by linarith)]; ring
  · have hf : ⌊x⌋ = k := by rw [Int.floor_eq_iff]; constructor <;> linarith
    rw [hf, if_pos (by linarith)]

theorem rint_mem (x : ℝ) : (rint x : ℝ) - 1 / 2 ≤ x ∧ x ≤ rint x + 1 / 2 := by
  have h1 := Int.floor_le x
  have h2 := Int.lt_floor_add_one x
  unfold rint
  split_ifs <;> push_cast <;> constructor <;> linarith

theorem integrableOn_of_one {f : ℝ → ℝ} (hf : ∫ x in Ioi 0, f x = 1) : IntegrableOn f (Ioi 0) := by
  by_contra h
  rw [integral_undef h] at hf
  exact zero_ne_one hf

variable {Ω : Type*} [MeasurableSpace Ω] (P : Measure Ω) [IsProbabilityMeasure P]

/-- The probability that a rounded variable with density equals `k`. -/
theorem rint_prob {X : Ω → ℝ} {f : ℝ → ℝ} (hX : Spec.HasDensity P X f) (k : ℤ) :
    P.real {ω | rint (X ω) = k} = ∫ x in Ioc ((k : ℝ) - 1 / 2) (k + 1 / 2) ∩ Ioi 0, f x := by
  have hc : ∀ s : Set ℝ, s =ᵐ[volume] Ioc ((k : ℝ) - 1 / 2) (k + 1 / 2) → MeasurableSet s →
      P.real {ω | X ω ∈ s} = ∫ x in Ioc ((k : ℝ) - 1 / 2) (k + 1 / 2) ∩ Ioi 0, f x := by
    intro s hs hm
    rw [hX s hm]
    exact setIntegral_congr_set (hs.inter (ae_eq_refl _))
  apply le_antisymm
  · rw [← hc (Icc _ _) Ioc_ae_eq_Icc.symm measurableSet_Icc]
    apply measureReal_mono _ (measure_ne_top _ _)
    intro ω hω
    have := rint_mem (X ω)
    change rint (X ω) = k at hω
    rw [hω] at this
    exact this
  · rw [← hc (Ioo _ _) Ioo_ae_eq_Ioc measurableSet_Ioo]
    apply measureReal_mono _ (measure_ne_top _ _)
    intro ω hω
    exact rint_of_mem k _ hω.1 hω.2

theorem rint_prob_pos {X : Ω → ℝ} {f : ℝ → ℝ} (hX : Spec.HasDensity P X f) (hf : ∫ x in Ioi 0, f x = 1) (k : ℤ) (hk : 1 ≤ k) :
    P.real {ω | rint (X ω) = k} =
      (∫ x in Ioc 0 ((k : ℝ) + 1 / 2), f x) - ∫ x in Ioc 0 ((k : ℝ) - 1 / 2), f x := by
  have hk' : (1 : ℝ) ≤ k := by exact_mod_cast hk
  have hint := integrableOn_of_one hf
  rw [rint_prob P hX k, inter_eq_left.mpr fun x hx => mem_Ioi.mpr (by linarith [hx.1])]
  rw [eq_sub_iff_add_eq, add_comm, ← setIntegral_union (by
    rw [Set.disjoint_left]; intro x hx hx'; exact absurd hx.2 (not_le.mpr hx'.1)) measurableSet_Ioc
    (hint.mono_set fun x hx => hx.1) (hint.mono_set fun x hx => mem_Ioi.mpr (by linarith [hx.1]))]
  rw [Ioc_union_Ioc_eq_Ioc (by linarith) (by linarith)]

theorem rint_prob_zero {X : Ω → ℝ} {f : ℝ → ℝ} (hX : Spec.HasDensity P X f) :
    P.real {ω | rint (X ω) = 0} = ∫ x in Ioc 0 (1 / 2 : ℝ), f x := by
  rw [rint_prob P hX 0]
  congr 2
  ext x
  simp only [mem_inter_iff, mem_Ioc, mem_Ioi, Int.cast_zero]
  constructor
  · rintro ⟨⟨_, h⟩, h'⟩; exact ⟨h', by linarith⟩
  · rintro ⟨h, h'⟩; exact ⟨⟨by linarith, by linarith⟩, h⟩

theorem rint_prob_neg {X : Ω → ℝ} {f : ℝ → ℝ} (hX : Spec.HasDensity P X f) (k : ℤ) (hk : k < 0) :
    P.real {ω | rint (X ω) = k} = 0 := by
  have hk' : (k : ℝ) ≤ -1 := by exact_mod_cast Int.le_sub_one_of_lt hk
  rw [rint_prob P hX k, (_ : Ioc ((k : ℝ) - 1 / 2) (k + 1 / 2) ∩ Ioi 0 = ∅)]
  · simp
  · ext x
    simp only [mem_inter_iff, mem_Ioc, mem_Ioi, mem_empty_iff_false, iff_false, not_and, not_lt]
    intro h; linarith [h.2]

theorem integral_Ioc_pos {f : ℝ → ℝ} (hf : ∫ x in Ioi 0, f x = 1) (hpos : ∀ x, 0 < x → 0 < f x) (b : ℝ) (hb : 0 < b) :
    0 < ∫ x in Ioc 0 b, f x := by
  have hint := integrableOn_of_one hf
  rw [setIntegral_pos_iff_support_of_nonneg_ae]
  · have : Function.support f ∩ Ioc 0 b = Ioc 0 b := inter_eq_right.mpr fun x hx => (hpos x hx.1).ne'
    rw [this, Real.volume_Ioc]; simpa using hb
  · exact (ae_restrict_mem measurableSet_Ioc).mono fun x hx => (hpos x hx.1).le
  · exact hint.mono_set fun x hx => hx.1

/-- Any normalised positive density is the density of some positive random variable. -/
theorem exists_density {f : ℝ → ℝ} (hf : ∫ x in Ioi 0, f x = 1) (hpos : ∀ x, 0 < x → 0 < f x) :
    ∃ P : Measure ℝ, IsProbabilityMeasure P ∧ Spec.HasDensity P id f := by
  have hint := integrableOn_of_one hf
  have key : ∀ s, MeasurableSet s → ((volume.restrict (Ioi 0)).withDensity fun x => ENNReal.ofReal (f x)) s =
      ENNReal.ofReal (∫ x in s ∩ Ioi 0, f x) := by
    intro s hs
    rw [withDensity_apply _ hs, Measure.restrict_restrict hs, ofReal_integral_eq_lintegral_ofReal]
    · exact hint.mono_set inter_subset_right
    · exact (ae_restrict_mem (hs.inter measurableSet_Ioi)).mono fun x hx => (hpos x hx.2).le
  refine ⟨(volume.restrict (Ioi 0)).withDensity fun x => ENNReal.ofReal (f x), ⟨?_⟩, fun s hs => ?_⟩
  · rw [key univ MeasurableSet.univ, univ_inter, hf]; simp
  · rw [measureReal_def]
    change ENNReal.toReal (((volume.restrict (Ioi 0)).withDensity fun x => ENNReal.ofReal (f x)) s) = _
    rw [key s hs, ENNReal.toReal_ofReal]
    exact setIntegral_nonneg (hs.inter measurableSet_Ioi) fun x hx => (hpos x hx.2).le

omit [IsProbabilityMeasure P] in
theorem ln_density (X : Ω → ℝ) (mu sigma : ℝ) :
    Spec.LogNormalLaw P X mu sigma ↔ Spec.HasDensity P X (lnPdf mu sigma) := by
  unfold Spec.LogNormalLaw
  apply iff_of_eq
  congr 1
  funext x
  unfold lnPdf
  rw [neg_div, one_div_mul_eq_div, mul_comm sigma x]

omit [IsProbabilityMeasure P] in
theorem sz_density (X : Ω → ℝ) (k theta : ℝ) :
    Spec.GammaLaw P X k theta ↔ Spec.HasDensity P X (szPdf k theta) := by
  unfold Spec.GammaLaw
  apply iff_of_eq
  congr 1
  funext x
  unfold szPdf
  rw [mul_div_assoc]

theorem ln_norm (DPn PDI : ℝ) (hD : 0 < DPn) (hP : 1 < PDI) :
    ∫ x in Ioi (0 : ℝ), lnPdf (lnMu DPn PDI) (lnSigma PDI) x = 1 := by
  obtain ⟨h, h0, -⟩ := C19_lognormal DPn PDI 1 hD hP one_pos
  rw [← h0, ← h 0]; simp

theorem sz_norm (DPn PDI : ℝ) (hD : 0 < DPn) (hP : 1 < PDI) :
    ∫ x in Ioi (0 : ℝ), szPdf (szK PDI) (szTheta DPn PDI) x = 1 := by
  obtain ⟨h, h0, -⟩ := C19_schulzzimm DPn PDI 1 hD hP one_pos
  rw [← h0, ← h 0]; simp

theorem ln_pos (DPn PDI : ℝ) (hP : 1 < PDI) (x : ℝ) (hx : 0 < x) : 0 < lnPdf (lnMu DPn PDI) (lnSigma PDI) x := by
  have hs : 0 < lnSigma PDI := sqrt_pos.mpr (log_pos hP)
  unfold lnPdf
  positivity

theorem sz_pos (DPn PDI : ℝ) (hD : 0 < DPn) (hP : 1 < PDI) (x : ℝ) (hx : 0 < x) :
    0 < szPdf (szK PDI) (szTheta DPn PDI) x := by
  have hP' : 0 < PDI - 1 := by linarith
  have hk : 0 < szK PDI := by unfold szK; positivity
  have ht : 0 < szTheta DPn PDI := by unfold szTheta; positivity
  have := Gamma_pos_of_pos hk
  unfold szPdf
  positivity

end Verif.Dist
