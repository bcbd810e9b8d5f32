import Verif.Lemmas.CorrForced

/-! # C87: forced-convection Nusselt correlations -/

namespace Verif.Correlations

open Real Flow

/-! ## Range warnings -/

/-- A warning is printed exactly when the argument lies outside the closed range. -/
theorem C87_warn_iff (x lo hi : ℝ) (n : String) : warn x lo (some hi) n = [] ↔ lo ≤ x ∧ x ≤ hi := by
  unfold warn
  split_ifs with h
  · constructor
    · intro h'; cases h'
    · rintro ⟨h1, h2⟩
      rcases h with h | ⟨k, hk, h⟩
      · linarith
      · cases hk; linarith
  · refine ⟨fun _ => ⟨?_, ?_⟩, fun _ => rfl⟩
    · by_contra hc; exact h (Or.inl (not_le.1 hc))
    · by_contra hc; exact h (Or.inr ⟨hi, rfl, not_le.1 hc⟩)

/-- Without an upper limit only the lower one is checked. -/
theorem C87_warn_open_iff (x lo : ℝ) (n : String) : warn x lo none n = [] ↔ lo ≤ x := by
  unfold warn
  split_ifs with h
  · constructor
    · intro h'; cases h'
    · intro h1
      rcases h with h | ⟨k, hk, h⟩
      · linarith
      · cases hk
  · refine ⟨fun _ => ?_, fun _ => rfl⟩
    by_contra hc; exact h (Or.inl (not_le.1 hc))

/-! ## Tube, laminar branch -/

/-- Below the transition the Nusselt number is 3.66 for an infinitely long tube, larger otherwise, and depends on diameter ratio, Reynolds and
Prandtl numbers only through their product, strictly increasing with it. -/
theorem C87_tube_laminar (Re Pr D_L er : ℝ) (hR : 0 < Re) (hR' : Re < 2300) (hP : 0 < Pr) (hD : 0 ≤ D_L) :
    3.66 ≤ nuTube Re Pr D_L er ∧ (nuTube Re Pr D_L er = 3.66 ↔ D_L = 0)
      ∧ ∀ Re' Pr' D_L' er', 0 < Re' → Re' < 2300 → D_L * Re * Pr < D_L' * Re' * Pr' → nuTube Re Pr D_L er < nuTube Re' Pr' D_L' er' := by
  have key : ∀ r p d e : ℝ, r < 2300 → nuTube r p d e = 3.66 + 0.0668 * (d * r * p) / (1 + 0.04 * (d * r * p) ^ (2 / 3 : ℝ)) := by
    intro r p d e hr
    unfold nuTube
    rw [if_pos (by norm_num; linarith)]
    ring_nf
  have hx : 0 ≤ D_L * Re * Pr := by positivity
  have hpos : 0 < 1 + 0.04 * (D_L * Re * Pr) ^ (2 / 3 : ℝ) := by have := rpow_nonneg hx (2 / 3 : ℝ); positivity
  refine ⟨?_, ?_, ?_⟩
  · rw [key _ _ _ _ hR']
    have : 0 ≤ 0.0668 * (D_L * Re * Pr) / (1 + 0.04 * (D_L * Re * Pr) ^ (2 / 3 : ℝ)) := div_nonneg (by positivity) hpos.le
    linarith
  · rw [key _ _ _ _ hR', add_eq_left, div_eq_zero_iff, or_iff_left hpos.ne']
    constructor
    · intro h
      rcases mul_eq_zero.1 h with h | h
      · norm_num at h
      · rcases mul_eq_zero.1 h with h | h
        · rcases mul_eq_zero.1 h with h | h
          · exact h
          · exact absurd h hR.ne'
        · exact absurd h hP.ne'
    · rintro rfl; ring
  · intro Re' Pr' D_L' er' _ hr' hlt
    rw [key _ _ _ _ hR', key _ _ _ _ hr']
    linarith [graetz_lt hx hlt]

example : (0 : ℝ) < 1000 ∧ (1000 : ℝ) < 2300 ∧ (0 : ℝ) < 5 ∧ (0 : ℝ) ≤ 0.01 := by norm_num

/-! ## Tube, turbulent branch -/

/-- For Prandtl numbers of at least one half and the relative roughnesses of the Moody chart, the turbulent branch is positive. -/
theorem C87_tube_turbulent_pos (Re Pr D_L er : ℝ) (hR : 2300 ≤ Re) (h0 : 0 ≤ er) (h1 : er ≤ 0.05) (hP : 0.5 ≤ Pr) : 0 < nuTube Re Pr D_L er := by
  unfold nuTube
  rw [if_neg (by norm_num; linarith)]
  have hP0 : (0 : ℝ) < Pr := lt_of_lt_of_le (by norm_num) hP
  have hl := log_harg2 hR h0 h1
  have hf : 0 < fDHaaland Re er := by
    rw [fDHaaland_eq, logb]
    have := log10_pos
    have : log (harg Re er) ≠ 0 := by linarith
    positivity
  have : 0 < Re - 1e3 := by norm_num; linarith
  exact div_pos (by positivity) (tube_den_pos hR h0 h1 hP)

example : (2300 : ℝ) ≤ 1e5 ∧ (0 : ℝ) ≤ 0.001 ∧ (0.001 : ℝ) ≤ 0.05 ∧ (0.5 : ℝ) ≤ 7 := by norm_num

/-- There, for Prandtl numbers of at least one, the Nusselt number increases strictly with the Reynolds number, although the friction factor falls. -/
theorem C87_tube_turbulent_mono (Re Re' Pr D_L er : ℝ) (hR : 2300 ≤ Re) (hRR : Re < Re') (h0 : 0 ≤ er) (h1 : er ≤ 0.05) (hP : 1 ≤ Pr) :
    nuTube Re Pr D_L er < nuTube Re' Pr D_L er := by
  have hR' : 2300 ≤ Re' := hR.trans hRR.le
  have hP0 : (0 : ℝ) < Pr := by linarith
  have hd := tube_den_pos hR h0 h1 (by linarith : (0.5 : ℝ) ≤ Pr)
  have hd' := tube_den_pos hR' h0 h1 (by linarith : (0.5 : ℝ) ≤ Pr)
  have hl := log_harg2 hR h0 h1
  have hl' := log_harg2 hR' h0 h1
  have ha0 : 0 < Re := by linarith
  have hb0 : 0 < Re' := by linarith
  have hle : harg Re' er ≤ harg Re er := by unfold harg; gcongr
  have hll : log (harg Re' er) ≤ log (harg Re er) := log_le_log (harg_pos hb0 h0) hle
  have hs : √(fDHaaland Re' er / 8) ≤ √(fDHaaland Re er / 8) := by
    rw [sqrt_f (by linarith), sqrt_f (by linarith)]
    have := log10_pos
    exact div_le_div_of_nonneg_left (by positivity) (by linarith) (by linarith)
  have hp : 1 ≤ Pr ^ (2 / 3 : ℝ) := one_le_rpow hP (by norm_num)
  have hden : 1 + 12.7 * √(fDHaaland Re' er / 8) * (Pr ^ (2 / 3 : ℝ) - 1) ≤ 1 + 12.7 * √(fDHaaland Re er / 8) * (Pr ^ (2 / 3 : ℝ) - 1) := by
    have : 0 ≤ Pr ^ (2 / 3 : ℝ) - 1 := by linarith
    gcongr
  -- numerator
  have hr : harg Re er / harg Re' er ≤ Re' / Re := by
    rw [div_le_div_iff₀ (harg_pos hb0 h0) ha0, harg, harg]
    have e1 : 6.9 / Re * Re = 6.9 := by field_simp
    have e2 : Re' * (6.9 / Re') = 6.9 := by field_simp
    nlinarith [rough_nonneg h0]
  have hlog : log (harg Re er) - log (harg Re' er) ≤ 2 * (√(Re' / Re) - 1) := by
    rw [← log_div (harg_pos ha0 h0).ne' (harg_pos hb0 h0).ne']
    refine (log_le_log (div_pos (harg_pos ha0 h0) (harg_pos hb0 h0)) hr).trans ?_
    have e : log (Re' / Re) = 2 * log √(Re' / Re) := by rw [log_sqrt (by positivity)]; ring
    rw [e]
    have := log_le_sub_one_of_pos (show 0 < √(Re' / Re) by positivity)
    linarith
  set q := √(Re' / Re) with hq
  have hq2 : q ^ 2 = Re' / Re := sq_sqrt (by positivity)
  have hq1 : 1 ≤ q := by rw [hq]; exact one_le_sqrt.2 ((one_le_div ha0).2 hRR.le)
  have hLL : -log (harg Re' er) ≤ q * -log (harg Re er) := by nlinarith
  have hnum : fDHaaland Re er / 8 * (Re - 1e3) * Pr < fDHaaland Re' er / 8 * (Re' - 1e3) * Pr := by
    have key : fDHaaland Re er * (Re - 1e3) < fDHaaland Re' er * (Re' - 1e3) := by
      have ef : ∀ r, fDHaaland r er = (log 10 / 1.8) ^ 2 / (-log (harg r er)) ^ 2 := by
        intro r
        rw [fDHaaland_eq, logb]
        by_cases h : log (harg r er) = 0
        · simp [h]
        · have := log10_pos
          field_simp
      rw [ef, ef]
      set L := -log (harg Re er)
      set L' := -log (harg Re' er)
      have hL : 0 < L := by simp only [L]; linarith
      have hL' : 0 < L' := by simp only [L']; linarith
      have h10 := log10_pos
      have hc : 0 < (log 10 / 1.8) ^ 2 := by positivity
      have e3 : Re' = q ^ 2 * Re := by rw [hq2]; field_simp
      have hq1' : 1 < q := by
        by_contra hc'
        have : q = 1 := le_antisymm (not_lt.1 hc') hq1
        rw [this] at e3
        linarith
      have h4 : L' ^ 2 ≤ q ^ 2 * L ^ 2 := by rw [← mul_pow]; exact pow_le_pow_left₀ hL'.le hLL 2
      have h5 : (Re - 1e3) * L' ^ 2 < (Re' - 1e3) * L ^ 2 := by
        have h6 : (0 : ℝ) < Re - 1e3 := by norm_num; linarith
        have h7 : (Re - 1e3) * L' ^ 2 ≤ (Re - 1e3) * (q ^ 2 * L ^ 2) := by gcongr
        have h8 : (Re - 1e3) * q ^ 2 < Re' - 1e3 := by rw [e3]; nlinarith
        nlinarith [pow_pos hL 2]
      rw [div_mul_eq_mul_div, div_mul_eq_mul_div, div_lt_div_iff₀ (by positivity) (by positivity)]
      nlinarith
    nlinarith
  have hn0 : 0 < fDHaaland Re er / 8 * (Re - 1e3) * Pr := by
    have := C87_tube_turbulent_pos Re Pr D_L er hR h0 h1 (by linarith)
    unfold nuTube at this
    rw [if_neg (by norm_num; linarith)] at this
    exact (div_pos_iff_of_pos_right hd).1 this
  unfold nuTube
  rw [if_neg (by norm_num; linarith), if_neg (by norm_num; linarith)]
  dsimp only
  calc _ < fDHaaland Re' er / 8 * (Re' - 1e3) * Pr / (1 + 12.7 * √(fDHaaland Re er / 8) * (Pr ^ (2 / 3 : ℝ) - 1)) := by gcongr
    _ ≤ _ := div_le_div_of_nonneg_left (hn0.trans hnum).le hd' hden

example : (2300 : ℝ) ≤ 1e4 ∧ (1e4 : ℝ) < 1e5 ∧ (0 : ℝ) ≤ 0 ∧ (0 : ℝ) ≤ 0.05 ∧ (1 : ℝ) ≤ 7 := by norm_num

/-- A positive Nusselt number for every positive Prandtl number: false. A liquid metal (`Pr = 0.01`) in a rough tube gets a negative one. -/
theorem C87_tube_positive_false : nuTube 1e4 0.01 0 0.05 < 0 := by
  have hh : (1 / 120 : ℝ) ≤ harg 1e4 0.05 := by
    have : (1 / 120 : ℝ) ≤ (0.05 / 3.7) ^ (1.11 : ℝ) := by
      refine le_of_pow_le_pow_left₀ (n := 100) (by norm_num) (by positivity) ?_
      rw [← rpow_natCast ((0.05 / 3.7) ^ (1.11 : ℝ)), ← rpow_mul (by norm_num), show (1.11 : ℝ) * ((100 : ℕ) : ℝ) = ((111 : ℕ) : ℝ) by norm_num, rpow_natCast]
      norm_num
    unfold harg
    have h2 : (0 : ℝ) ≤ 6.9 / 1e4 := by norm_num
    linarith
  have hl0 := log_harg2 (Re := 1e4) (er := 0.05) (by norm_num) (by norm_num) le_rfl
  have hl : -log (harg 1e4 0.05) ≤ 2.1 * log 10 := by
    have h1 : log (1 / 120) ≤ log (harg 1e4 0.05) := log_le_log (by norm_num) hh
    rw [one_div, log_inv] at h1
    have h2 : 10 * log 120 ≤ 21 * log (10 : ℝ) := by
      have := log_le_log (show (0 : ℝ) < 120 ^ 10 by norm_num) (show (120 : ℝ) ^ 10 ≤ 10 ^ 21 by norm_num)
      rw [log_pow, log_pow] at this
      norm_num at this ⊢
      linarith
    linarith
  have hs : (0.0932 : ℝ) < √(fDHaaland 1e4 0.05 / 8) := by
    rw [sqrt_f (by linarith), lt_div_iff₀ (by linarith), lt_div_iff₀ (by have := sqrt8_bounds.1; positivity)]
    have h8 := sqrt8_bounds.2
    have h10 := log10_pos
    have h88 : 0 < √(8 : ℝ) := by positivity
    calc 0.0932 * -log (harg 1e4 0.05) * (1.8 * √8) ≤ 0.0932 * (2.1 * log 10) * (1.8 * 2.83) := by gcongr
      _ < log 10 := by nlinarith
  have hp : (0.01 : ℝ) ^ (2 / 3 : ℝ) < 0.047 := by
    refine lt_of_pow_lt_pow_left₀ 3 (by norm_num) ?_
    rw [← rpow_natCast, ← rpow_mul (by norm_num)]
    norm_num
  have hf : 0 < fDHaaland 1e4 0.05 := by
    by_contra hc
    rw [sqrt_eq_zero_of_nonpos (by linarith)] at hs
    norm_num at hs
  unfold nuTube
  rw [if_neg (by norm_num)]
  refine div_neg_of_pos_of_neg (by norm_num; linarith) ?_
  nlinarith

/-! ## Flat plate -/

/-- The two branches for a flat plate agree at the critical Reynolds number, and the Nusselt number is positive and increases strictly with the Reynolds
number throughout; it warns exactly outside `0.6 ≤ Pr ≤ 60`. -/
theorem C87_plate (Re Pr : ℝ) (hR : 0 < Re) (hP : 0 < Pr) :
    0 < (nuPlate Re Pr).1 ∧ (∀ Re', Re < Re' → (nuPlate Re Pr).1 < (nuPlate Re' Pr).1)
      ∧ (nuPlate 5e5 Pr).1 = 0.664 * 5e5 ^ (1 / 2 : ℝ) * Pr ^ (1 / 3 : ℝ)
      ∧ ((nuPlate Re Pr).2 = [] ↔ 0.6 ≤ Pr ∧ Pr ≤ 60) := by
  have hp : 0 < Pr ^ (1 / 3 : ℝ) := rpow_pos_of_pos hP _
  have h5 : (0 : ℝ) < 5e5 := by norm_num
  have hc : (nuPlate 5e5 Pr).1 = 0.664 * 5e5 ^ (1 / 2 : ℝ) * Pr ^ (1 / 3 : ℝ) := by rw [plate_turb Pr le_rfl]; ring
  have m1 : ∀ a b : ℝ, 0 < a → a < b → b ≤ 5e5 → (nuPlate a Pr).1 < (nuPlate b Pr).1 := by
    intro a b ha hab hb
    rw [plate_lam Pr (hab.trans_le hb)]
    have : (nuPlate b Pr).1 = 0.664 * b ^ (1 / 2 : ℝ) * Pr ^ (1 / 3 : ℝ) := by
      rcases hb.eq_or_lt with e | e
      · rw [e, hc]
      · exact plate_lam Pr e
    rw [this]
    have := rpow_lt_rpow ha.le hab (show (0 : ℝ) < 1 / 2 by norm_num)
    gcongr
  have m2 : ∀ a b : ℝ, 5e5 ≤ a → a < b → (nuPlate a Pr).1 < (nuPlate b Pr).1 := by
    intro a b ha hab
    rw [plate_turb Pr ha, plate_turb Pr (ha.trans hab.le)]
    have := rpow_lt_rpow (h5.le.trans ha) hab (show (0 : ℝ) < 4 / 5 by norm_num)
    gcongr
  have mono : ∀ a b : ℝ, 0 < a → a < b → (nuPlate a Pr).1 < (nuPlate b Pr).1 := by
    intro a b ha hab
    rcases le_or_gt b 5e5 with hb | hb
    · exact m1 a b ha hab hb
    · rcases le_or_gt 5e5 a with ha' | ha'
      · exact m2 a b ha' hab
      · exact (m1 a 5e5 ha ha' le_rfl).trans (m2 _ b le_rfl hb)
  refine ⟨?_, fun Re' h => mono Re Re' hR h, hc, C87_warn_iff ..⟩
  have hm : min (Re / 2) 1 < Re := (min_le_left _ _).trans_lt (by linarith)
  have hm0 : 0 < min (Re / 2) 1 := lt_min (by linarith) one_pos
  refine lt_trans ?_ (mono _ _ hm0 hm)
  rw [plate_lam Pr ((min_le_right _ _).trans_lt (by norm_num))]
  positivity

example : (0 : ℝ) < 4e5 ∧ (0 : ℝ) < 0.7 ∧ (4e5 : ℝ) < 6e5 := by norm_num

/-! ## Cylinder, sphere, drop -/

/-- Cross flow over a cylinder: above the conduction value 0.3, strictly increasing with the Reynolds and the Prandtl number. -/
theorem C87_cylinder (Re Pr : ℝ) (hR : 0 < Re) (hP : 0 < Pr) :
    0.3 < (nuCylinder Re Pr).1 ∧ (nuCylinder 0 Pr).1 = 0.3
      ∧ (∀ Re', Re < Re' → (nuCylinder Re Pr).1 < (nuCylinder Re' Pr).1) ∧ (∀ Pr', Pr < Pr' → (nuCylinder Re Pr).1 < (nuCylinder Re Pr').1)
      ∧ ((nuCylinder Re Pr).2 = [] ↔ 0.2 ≤ Re * Pr) := by
  refine ⟨?_, ?_, ?_, ?_, C87_warn_open_iff ..⟩
  · simp only [nuCylinder]
    have : 0 < 0.62 * Re ^ (1 / 2 : ℝ) * Pr ^ (1 / 3 : ℝ) / (1 + (0.4 / Pr) ^ (2 / 3 : ℝ)) ^ (1 / 4 : ℝ) * (1 + (Re / 282e3) ^ (5 / 8 : ℝ)) ^ (4 / 5 : ℝ) := by positivity
    linarith
  · simp only [nuCylinder]
    rw [zero_rpow (by norm_num : (1 / 2 : ℝ) ≠ 0)]; ring
  · intro Re' h
    simp only [nuCylinder]
    gcongr 0.3 + ?_
    have h1 := rpow_lt_rpow hR.le h (show (0 : ℝ) < 1 / 2 by norm_num)
    have h2 : (Re / 282e3) ^ (5 / 8 : ℝ) < (Re' / 282e3) ^ (5 / 8 : ℝ) := rpow_lt_rpow (by positivity) (by gcongr) (by norm_num)
    have h3 : (1 + (Re / 282e3) ^ (5 / 8 : ℝ)) ^ (4 / 5 : ℝ) < (1 + (Re' / 282e3) ^ (5 / 8 : ℝ)) ^ (4 / 5 : ℝ) :=
      rpow_lt_rpow (by positivity) (by linarith) (by norm_num)
    have h4 : 0 < (1 + (Re / 282e3) ^ (5 / 8 : ℝ)) ^ (4 / 5 : ℝ) := by positivity
    refine mul_lt_mul ?_ h3.le h4 (by have := hR.trans h; positivity)
    gcongr
  · intro Pr' h
    have hP' := hP.trans h
    simp only [nuCylinder]
    gcongr 0.3 + ?_
    have h1 := rpow_lt_rpow hP.le h (show (0 : ℝ) < 1 / 3 by norm_num)
    have h2 : (0.4 / Pr') ^ (2 / 3 : ℝ) ≤ (0.4 / Pr) ^ (2 / 3 : ℝ) := rpow_le_rpow (by positivity) (by gcongr) (by norm_num)
    have h3 : (1 + (0.4 / Pr') ^ (2 / 3 : ℝ)) ^ (1 / 4 : ℝ) ≤ (1 + (0.4 / Pr) ^ (2 / 3 : ℝ)) ^ (1 / 4 : ℝ) :=
      rpow_le_rpow (by positivity) (by linarith) (by norm_num)
    refine mul_lt_mul_of_pos_right ?_ (by positivity)
    refine div_lt_div₀ ?_ h3 (by positivity) (by positivity)
    gcongr

example : (0 : ℝ) < 1e4 ∧ (0 : ℝ) < 0.7 := by norm_num

/-- Sphere (Whitaker) and drop (Ranz-Marshall): exactly the conduction limit 2 at rest, above it otherwise, strictly increasing with the Reynolds and
Prandtl numbers (and the viscosity ratio), warning exactly outside the stated ranges. -/
theorem C87_sphere (Re Pr mur : ℝ) (hR : 0 < Re) (hP : 0 < Pr) (hm : 0 < mur) :
    2 < (nuSphere Re Pr mur).1 ∧ (nuSphere 0 Pr mur).1 = 2
      ∧ (∀ Re', Re < Re' → (nuSphere Re Pr mur).1 < (nuSphere Re' Pr mur).1) ∧ (∀ Pr', Pr < Pr' → (nuSphere Re Pr mur).1 < (nuSphere Re Pr' mur).1)
      ∧ (∀ m', mur < m' → (nuSphere Re Pr mur).1 < (nuSphere Re Pr m').1)
      ∧ ((nuSphere Re Pr mur).2 = [] ↔ (3.5 ≤ Re ∧ Re ≤ 7.6e4) ∧ (0.71 ≤ Pr ∧ Pr ≤ 380) ∧ (1 ≤ mur ∧ mur ≤ 3.2)) := by
  refine ⟨?_, ?_, ?_, ?_, ?_, ?_⟩
  · simp only [nuSphere]
    have : 0 < (0.4 * Re ^ (1 / 2 : ℝ) + 0.06 * Re ^ (2 / 3 : ℝ)) * Pr ^ (0.4 : ℝ) * mur ^ (1 / 4 : ℝ) := by positivity
    linarith
  · simp only [nuSphere]
    rw [zero_rpow (by norm_num : (1 / 2 : ℝ) ≠ 0), zero_rpow (by norm_num : (2 / 3 : ℝ) ≠ 0)]; ring
  · intro r h
    have h1 := rpow_lt_rpow hR.le h (show (0 : ℝ) < 1 / 2 by norm_num)
    have h2 := rpow_lt_rpow hR.le h (show (0 : ℝ) < 2 / 3 by norm_num)
    simp only [nuSphere]
    gcongr
  · intro r h
    have h1 := rpow_lt_rpow hP.le h (show (0 : ℝ) < 0.4 by norm_num)
    simp only [nuSphere]
    gcongr
  · intro r h
    have h1 := rpow_lt_rpow hm.le h (show (0 : ℝ) < 1 / 4 by norm_num)
    simp only [nuSphere]
    gcongr
  · simp only [nuSphere, List.append_eq_nil_iff, C87_warn_iff, and_assoc]

/-- C87. Drop: 2 without flow, larger otherwise, strictly increasing in `Re` and `Pr`; silent exactly in the documented range. -/
theorem C87_drop (Re Pr : ℝ) (hR : 0 < Re) (hP : 0 < Pr) :
    2 < (nuDrop Re Pr).1 ∧ (nuDrop 0 Pr).1 = 2
      ∧ (∀ Re', Re < Re' → (nuDrop Re Pr).1 < (nuDrop Re' Pr).1) ∧ (∀ Pr', Pr < Pr' → (nuDrop Re Pr).1 < (nuDrop Re Pr').1)
      ∧ ((nuDrop Re Pr).2 = [] ↔ Re ≤ 1000 ∧ (0.7 ≤ Pr ∧ Pr ≤ 100)) := by
  refine ⟨?_, ?_, ?_, ?_, ?_⟩
  · simp only [nuDrop]
    have : 0 < 0.6 * Re ^ (1 / 2 : ℝ) * Pr ^ (1 / 3 : ℝ) := by positivity
    linarith
  · simp only [nuDrop]
    rw [zero_rpow (by norm_num : (1 / 2 : ℝ) ≠ 0)]; ring
  · intro r h
    have h1 := rpow_lt_rpow hR.le h (show (0 : ℝ) < 1 / 2 by norm_num)
    simp only [nuDrop]
    gcongr
  · intro r h
    have h1 := rpow_lt_rpow hP.le h (show (0 : ℝ) < 1 / 3 by norm_num)
    simp only [nuDrop]
    gcongr
  · simp only [nuDrop, List.append_eq_nil_iff, C87_warn_iff]
    exact and_congr_left' (and_iff_right hR.le)

example : (0 : ℝ) < 100 ∧ (0 : ℝ) < 0.7 ∧ (0 : ℝ) < 1 := by norm_num

end Verif.Correlations
