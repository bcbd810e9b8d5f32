import Verif.Lemmas.VrentasDuda

/-! # C69: free-volume diffusion coefficients -/

namespace Verif.VrentasDuda

open Real

/-- Toluene in polystyrene-like parameters. -/
noncomputable def sample : VD := ⟨4.82e-8, 0, 0.917, 0.85, 0.58, 1.45e-3, 5.82e-4, -86.32, -327, 0, 0, 1, 0.35⟩

example : init sample = .ok sample := by norm_num [init, sample]

/-- C69. The documented formulas, with `w2 = 1 - w1`, hold wherever their denominators do not vanish. -/
theorem C69_formula {R w1 w2 T : ℝ} {s : VD} (hs : init s = .ok s) (hw : w2 = 1 - w1) (hT : R * T ≠ 0)
    (hV : w1 * s.K11 * (s.K21 - s.Tg1 + T) + w2 * s.K12 * (s.K22 - s.Tg2 + T) ≠ 0) :
    let D1 := s.D0 * exp (-(s.E / (R * T))) * exp (-(s.y * (w1 * s.v1 + w2 * s.z * s.v2) / (w1 * s.K11 * (s.K21 - s.Tg1 + T) + w2 * s.K12 * (s.K22 - s.Tg2 + T))))
    selfd R s w1 T = some D1 ∧ mutuald R s w1 T = some (D1 * (1 - w1) ^ 2 * (1 - 2 * s.X * w1)) := by
  obtain ⟨-, -, -, -, -, -, -, -, -, -, hy, -⟩ := init_ok hs
  have hy0 : s.y ≠ 0 := by have := hy.1; norm_num at this; linarith
  have e : freeVolume s w1 T = (w1 * s.K11 * (s.K21 - s.Tg1 + T) + w2 * s.K12 * (s.K22 - s.Tg2 + T)) / s.y := by
    rw [hw]
    unfold freeVolume
    field_simp
  have h1 : selfd R s w1 T = some (s.D0 * exp (-(s.E / (R * T))) * exp (-(s.y * (w1 * s.v1 + w2 * s.z * s.v2) / (w1 * s.K11 * (s.K21 - s.Tg1 + T) + w2 * s.K12 * (s.K22 - s.Tg2 + T))))) := by
    unfold selfd
    rw [e, if_neg (by rintro (h | h); exacts [hT h, div_ne_zero hV hy0 h]), hw, neg_div, neg_div, div_div_eq_mul_div, mul_comm (w1 * s.v1 + _) s.y]
  refine ⟨h1, ?_⟩
  unfold mutuald
  rw [h1]
  rfl

example : init sample = .ok sample ∧ (8.314 * 400 : ℝ) ≠ 0 ∧
    0.2 * sample.K11 * (sample.K21 - sample.Tg1 + 400) + 0.8 * sample.K12 * (sample.K22 - sample.Tg2 + 400) ≠ 0 := by
  norm_num [init, sample]

/-- C69. Self-diffusion is positive and at most `D0` for any accepted object above the temperature of vanishing free volume. -/
theorem C69_selfd_range {R w1 T : ℝ} {s : VD} (hs : init s = .ok s) (hD : 0 < s.D0) (hR : 0 < R) (hT : 0 < T) (h0 : 0 ≤ w1) (h1 : w1 ≤ 1)
    (hV : 0 < freeVolume s w1 T) : ∃ D, selfd R s w1 T = some D ∧ 0 < D ∧ D ≤ s.D0 := by
  obtain ⟨-, -, hE, hv1, hv2, hz, -⟩ := init_ok hs
  have hRT : 0 < R * T := mul_pos hR hT
  refine ⟨_, if_neg (by rintro (h | h) <;> linarith), by positivity, ?_⟩
  have a1 : exp (-s.E / (R * T)) ≤ 1 := exp_le_one_iff.2 (div_nonpos_of_nonpos_of_nonneg (by linarith) hRT.le)
  have hn : 0 ≤ w1 * s.v1 + (1 - w1) * s.z * s.v2 := by
    have : 0 ≤ 1 - w1 := by linarith
    positivity
  have a2 : exp (-(w1 * s.v1 + (1 - w1) * s.z * s.v2) / freeVolume s w1 T) ≤ 1 := exp_le_one_iff.2 (div_nonpos_of_nonpos_of_nonneg (by linarith) hV.le)
  rw [mul_assoc]
  exact mul_le_of_le_one_right hD.le (mul_le_one₀ a1 (exp_pos _).le a2)

example : ∃ D, selfd 8.314 sample 0.2 400 = some D ∧ 0 < D ∧ D ≤ sample.D0 :=
  C69_selfd_range (by norm_num [init, sample]) (by norm_num [sample]) (by norm_num) (by norm_num) (by norm_num) (by norm_num) (by norm_num [freeVolume, sample])

/-- C69. Self-diffusion never decreases with temperature. -/
theorem C69_selfd_monotone {R w1 T T' : ℝ} {s : VD} (hs : init s = .ok s) (hR : 0 < R) (hT : 0 < T) (hTT : T ≤ T') (h0 : 0 ≤ w1) (h1 : w1 ≤ 1)
    (hV : 0 < freeVolume s w1 T) : ∃ D D', selfd R s w1 T = some D ∧ selfd R s w1 T' = some D' ∧ D ≤ D' := by
  obtain ⟨-, hD, hE, hv1, hv2, hz, hK1, hK2, -, -, hy, -⟩ := init_ok hs
  have hy0 : 0 < s.y := by have := hy.1; norm_num at this; linarith
  have hw : 0 ≤ 1 - w1 := by linarith
  have hRT : 0 < R * T := mul_pos hR hT
  have hT' : 0 < T' := hT.trans_le hTT
  have hRT' : 0 < R * T' := mul_pos hR hT'
  have hle : freeVolume s w1 T ≤ freeVolume s w1 T' := by
    have a := mul_le_mul_of_nonneg_left hTT (show 0 ≤ w1 * (s.K11 / s.y) by positivity)
    have b := mul_le_mul_of_nonneg_left hTT (show 0 ≤ (1 - w1) * (s.K12 / s.y) by positivity)
    unfold freeVolume
    linarith
  have hV' := hV.trans_le hle
  have hn : 0 ≤ w1 * s.v1 + (1 - w1) * s.z * s.v2 := by positivity
  refine ⟨_, _, if_neg (by rintro (h | h) <;> linarith), if_neg (by rintro (h | h) <;> linarith), ?_⟩
  refine mul_le_mul (mul_le_mul_of_nonneg_left (exp_le_exp.2 ?_) hD) (exp_le_exp.2 ?_) (exp_pos _).le (by positivity)
  · rw [neg_div, neg_div, neg_le_neg_iff]
    exact div_le_div_of_nonneg_left hE hRT (mul_le_mul_of_nonneg_left hTT hR.le)
  · rw [neg_div, neg_div, neg_le_neg_iff]
    exact div_le_div_of_nonneg_left hn hV hle

example : ∃ D D', selfd 8.314 sample 0.2 400 = some D ∧ selfd 8.314 sample 0.2 420 = some D' ∧ D ≤ D' :=
  C69_selfd_monotone (by norm_num [init, sample]) (by norm_num) (by norm_num) (by norm_num) (by norm_num) (by norm_num) (by norm_num [freeVolume, sample])

/-- C69. Mutual diffusion equals self-diffusion at infinite dilution of the solvent, and vanishes in pure solvent. -/
theorem C69_mutual_ends (R T : ℝ) (s : VD) :
    mutuald R s 0 T = selfd R s 0 T ∧ ∀ D, mutuald R s 1 T = some D → D = 0 := by
  refine ⟨?_, fun D h => ?_⟩
  · unfold mutuald
    cases selfd R s 0 T with
    | none => rfl
    | some D => show some _ = some _; norm_num
  · unfold mutuald at h
    cases hs : selfd R s 1 T with
    | none => rw [hs] at h; cases h
    | some D1 =>
      rw [hs] at h
      injection h with h
      rw [← h]; norm_num

/-- C69. Mutual diffusion is between 0 and the self-diffusion coefficient whenever the interaction parameter is in `[0, 1/2]`, and is negative
exactly inside the region of instability `2 X w1 > 1`. -/
theorem C69_mutual_range {R w1 T : ℝ} {s : VD} (hs : init s = .ok s) (hD : 0 < s.D0) (hR : 0 < R) (hT : 0 < T) (h0 : 0 ≤ w1) (h1 : w1 < 1)
    (hV : 0 < freeVolume s w1 T) : ∃ D1 D, selfd R s w1 T = some D1 ∧ mutuald R s w1 T = some D ∧ (0 ≤ s.X → D ≤ D1) ∧ (0 ≤ D ↔ 2 * s.X * w1 ≤ 1) := by
  obtain ⟨D1, e, hp, -⟩ := C69_selfd_range hs hD hR hT h0 h1.le hV
  have hw : 0 < 1 - w1 := by linarith
  refine ⟨D1, _, e, by unfold mutuald; rw [e]; rfl, fun hX => ?_, ?_⟩
  · have a : (1 - w1) ^ 2 ≤ 1 := by nlinarith
    have b : 1 - 2 * s.X * w1 ≤ 1 := by
      have : 0 ≤ s.X * w1 := mul_nonneg hX h0
      linarith
    rcases le_total 0 (1 - 2 * s.X * w1) with hb | hb
    · rw [mul_assoc]
      exact mul_le_of_le_one_right hp.le (mul_le_one₀ a hb b)
    · exact (mul_nonpos_of_nonneg_of_nonpos (by positivity) hb).trans hp.le
  · rw [mul_nonneg_iff_of_pos_left (by positivity)]
    constructor <;> intro h <;> linarith

example : ∃ D1 D, selfd 8.314 sample 0.2 400 = some D1 ∧ mutuald 8.314 sample 0.2 400 = some D ∧ (0 ≤ sample.X → D ≤ D1) ∧ (0 ≤ D ↔ 2 * sample.X * 0.2 ≤ 1) :=
  C69_mutual_range (by norm_num [init, sample]) (by norm_num [sample]) (by norm_num) (by norm_num) (by norm_num) (by norm_num) (by norm_num [freeVolume, sample])

/-- C69. Compositions outside `[0, 1]` and negative absolute temperatures are rejected. -/
theorem C69_call {R w1 T : ℝ} (s : VD) (self : Bool) : (∃ D, call R s w1 T self = .ok D) ↔ (0 ≤ w1 ∧ w1 ≤ 1) ∧ 0 ≤ T := by
  unfold call
  split_ifs with h1 h2
  · exact ⟨fun ⟨_, h⟩ => (nomatch h), fun h => absurd h2 (not_lt.2 h.2)⟩
  · exact ⟨fun _ => ⟨h1, not_lt.1 h2⟩, fun _ => ⟨_, rfl⟩⟩
  · exact ⟨fun _ => ⟨h1, not_lt.1 h2⟩, fun _ => ⟨_, rfl⟩⟩
  · exact ⟨fun ⟨_, h⟩ => (nomatch h), fun h => absurd h.1 h1⟩

/-- C69 fails below the temperature of vanishing free volume: an accepted object returns a self-diffusion coefficient larger than `D0`. -/
theorem C69_below_glass_false : ∃ s : VD, init s = .ok s ∧ ∃ D, selfd 8 s 0 300 = some D ∧ s.D0 < D := by
  refine ⟨⟨1, 0, 1, 1, 1, 1, 1e-3, 0, -350, 0, 0, 1, 0⟩, by norm_num [init], _, if_neg (by norm_num [freeVolume]), ?_⟩
  norm_num [freeVolume]

end Verif.VrentasDuda
