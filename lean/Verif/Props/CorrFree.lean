import Verif.Lemmas.CorrFree

/-! # C95: free-convection and combined Nusselt numbers -/

namespace Verif.Correlations

open Real

/-- Horizontal cylinder: 0.36 without buoyancy, above it otherwise, strictly increasing with the Rayleigh and Prandtl numbers. -/
theorem C95_cylinder (Ra Pr : ℝ) (hR : 0 < Ra) (hP : 0 < Pr) :
    0.36 < (nuCylinderFree Ra Pr).1 ∧ (nuCylinderFree 0 Pr).1 = 0.36
      ∧ (∀ Ra', Ra < Ra' → (nuCylinderFree Ra Pr).1 < (nuCylinderFree Ra' Pr).1) ∧ (∀ Pr', Pr < Pr' → (nuCylinderFree Ra Pr).1 < (nuCylinderFree Ra Pr').1)
      ∧ ((nuCylinderFree Ra Pr).2 = [] ↔ Ra ≤ 1e12) := by
  have hd := churchill_pos (by norm_num : (0 : ℝ) < 0.559) hP (9 / 16) (8 / 27)
  refine ⟨?_, ?_, ?_, ?_, ?_⟩
  · simp only [nuCylinderFree]
    have : 0 < 0.387 * Ra ^ (1 / 6 : ℝ) / (1 + (0.559 / Pr) ^ (9 / 16 : ℝ)) ^ (8 / 27 : ℝ) := by positivity
    nlinarith
  · simp only [nuCylinderFree]
    rw [zero_rpow (by norm_num : (1 / 6 : ℝ) ≠ 0)]; norm_num
  · intro r h
    have h1 := rpow_lt_rpow hR.le h (show (0 : ℝ) < 1 / 6 by norm_num)
    simp only [nuCylinderFree]
    gcongr
  · intro p h
    have hd' := churchill_pos (by norm_num : (0 : ℝ) < 0.559) (hP.trans h) (9 / 16) (8 / 27)
    have h1 := churchill_anti (by norm_num : (0 : ℝ) < 0.559) hP h (by norm_num : (0 : ℝ) < 9 / 16) (by norm_num : (0 : ℝ) < 8 / 27)
    simp only [nuCylinderFree]
    gcongr
  · simp only [nuCylinderFree, C87_warn_iff]
    exact and_iff_right hR.le

/-- Sphere: 2 without buoyancy, above it otherwise, strictly increasing with the Rayleigh and Prandtl numbers. -/
theorem C95_sphere (Ra Pr : ℝ) (hR : 0 < Ra) (hP : 0 < Pr) :
    2 < (nuSphereFree Ra Pr).1 ∧ (nuSphereFree 0 Pr).1 = 2
      ∧ (∀ Ra', Ra < Ra' → (nuSphereFree Ra Pr).1 < (nuSphereFree Ra' Pr).1) ∧ (∀ Pr', Pr < Pr' → (nuSphereFree Ra Pr).1 < (nuSphereFree Ra Pr').1)
      ∧ ((nuSphereFree Ra Pr).2 = [] ↔ Ra ≤ 1e11 ∧ 0.7 ≤ Pr) := by
  have hd := churchill_pos (by norm_num : (0 : ℝ) < 0.469) hP (9 / 16) (4 / 9)
  refine ⟨?_, ?_, ?_, ?_, ?_⟩
  · simp only [nuSphereFree]
    have : 0 < 0.589 * Ra ^ (1 / 4 : ℝ) / (1 + (0.469 / Pr) ^ (9 / 16 : ℝ)) ^ (4 / 9 : ℝ) := by positivity
    linarith
  · simp only [nuSphereFree]
    rw [zero_rpow (by norm_num : (1 / 4 : ℝ) ≠ 0)]; ring
  · intro r h
    have h1 := rpow_lt_rpow hR.le h (show (0 : ℝ) < 1 / 4 by norm_num)
    simp only [nuSphereFree]
    gcongr
  · intro p h
    have hd' := churchill_pos (by norm_num : (0 : ℝ) < 0.469) (hP.trans h) (9 / 16) (4 / 9)
    have h1 := churchill_anti (by norm_num : (0 : ℝ) < 0.469) hP h (by norm_num : (0 : ℝ) < 9 / 16) (by norm_num : (0 : ℝ) < 4 / 9)
    simp only [nuSphereFree]
    gcongr
  · simp only [nuSphereFree, List.append_eq_nil_iff, C87_warn_iff, C87_warn_open_iff]
    exact and_congr_left' (and_iff_right hR.le)

example : (0 : ℝ) < 1e6 ∧ (0 : ℝ) < 0.7 := by norm_num

/-- Plates: `ValueError` exactly for an unknown orientation, or a vertical plate with a missing or zero Prandtl number. -/
theorem C95_plate_error (o : Orientation) (Ra : ℝ) (Pr : Option ℝ) :
    (nuPlateFree o Ra Pr = .error .ValueError ↔ o = .other ∨ (o = .vertical ∧ (Pr = none ∨ Pr = some 0)))
      ∧ ((∃ e, nuPlateFree o Ra Pr = .error e) → nuPlateFree o Ra Pr = .error .ValueError) := by
  cases o <;> cases Pr <;> simp [nuPlateFree] <;> split_ifs with h <;> simp [h]

/-- Vertical plate: the square of 0.825 without buoyancy; above it otherwise; strictly increasing with the Rayleigh and Prandtl numbers; no range check. -/
theorem C95_plate_vertical (Ra Pr : ℝ) (hR : 0 < Ra) (hP : 0 < Pr) : ∃ N : ℝ → ℝ → ℝ,
    (∀ r p, 0 < p → nuPlateFree .vertical r (some p) = .ok (N r p, [])) ∧ N 0 Pr = 0.825 ^ 2 ∧ 0.825 ^ 2 < N Ra Pr
      ∧ (∀ Ra', Ra < Ra' → N Ra Pr < N Ra' Pr) ∧ (∀ Pr', Pr < Pr' → N Ra Pr < N Ra Pr') := by
  have hd := churchill_pos (by norm_num : (0 : ℝ) < 0.492) hP (9 / 16) (8 / 27)
  refine ⟨fun r p => (0.825 + 0.387 * r ^ (1 / 6 : ℝ) / (1 + (0.492 / p) ^ (9 / 16 : ℝ)) ^ (8 / 27 : ℝ)) ^ 2, fun r p hp => if_neg hp.ne', ?_, ?_, ?_, ?_⟩
  · show (0.825 + 0.387 * (0 : ℝ) ^ (1 / 6 : ℝ) / _) ^ 2 = _
    rw [zero_rpow (by norm_num : (1 / 6 : ℝ) ≠ 0)]; norm_num
  · have : 0 < 0.387 * Ra ^ (1 / 6 : ℝ) / (1 + (0.492 / Pr) ^ (9 / 16 : ℝ)) ^ (8 / 27 : ℝ) := by positivity
    show _ < (0.825 + _) ^ 2
    gcongr
    linarith
  · intro r h
    have h1 := rpow_lt_rpow hR.le h (show (0 : ℝ) < 1 / 6 by norm_num)
    dsimp only
    gcongr
  · intro p h
    have hd' := churchill_pos (by norm_num : (0 : ℝ) < 0.492) (hP.trans h) (9 / 16) (8 / 27)
    have h1 := churchill_anti (by norm_num : (0 : ℝ) < 0.492) hP h (by norm_num : (0 : ℝ) < 9 / 16) (by norm_num : (0 : ℝ) < 8 / 27)
    dsimp only
    gcongr

/-- Horizontal plates: no Prandtl number needed; strictly increasing with the Rayleigh number, also across the change of branch at `1e7`, where the value
jumps up; the upper-heated plate exchanges more than the lower-heated one; warnings exactly outside the stated ranges. -/
theorem C95_plate_horizontal (Ra : ℝ) (hR : 0 < Ra) (Pr : Option ℝ) : ∃ U L : ℝ → ℝ,
    (∀ r, ∃ w, nuPlateFree .upper r Pr = .ok (U r, w) ∧ (w = [] ↔ 1e4 ≤ r ∧ r ≤ 1e11)) ∧ (∀ r, ∃ w, nuPlateFree .lower r Pr = .ok (L r, w) ∧ (w = [] ↔ 1e5 ≤ r ∧ r ≤ 1e10))
      ∧ 0 < L Ra ∧ L Ra < U Ra ∧ (∀ Ra', Ra < Ra' → U Ra < U Ra' ∧ L Ra < L Ra') := by
  have j : ∀ r : ℝ, 1e7 ≤ r → 0.54 * r ^ (1 / 4 : ℝ) < 0.15 * r ^ (1 / 3 : ℝ) := by
    intro r hr
    have hr0 : (0 : ℝ) < r := lt_of_lt_of_le (by norm_num) hr
    have e : r ^ (1 / 3 : ℝ) = r ^ (1 / 4 : ℝ) * r ^ (1 / 12 : ℝ) := by rw [← rpow_add hr0]; norm_num
    have h12 : (3.7 : ℝ) < r ^ (1 / 12 : ℝ) := by
      refine lt_of_pow_lt_pow_left₀ 12 (by positivity) ?_
      rw [← rpow_natCast (r ^ _), ← rpow_mul hr0.le]
      norm_num at hr ⊢
      linarith
    have h4 : 0 < r ^ (1 / 4 : ℝ) := by positivity
    rw [e]; nlinarith
  refine ⟨fun r => if r < 1e7 then 0.54 * r ^ (1 / 4 : ℝ) else 0.15 * r ^ (1 / 3 : ℝ), fun r => 0.27 * r ^ (1 / 4 : ℝ),
    fun r => ⟨_, rfl, C87_warn_iff ..⟩, fun r => ⟨_, rfl, C87_warn_iff ..⟩, by positivity, ?_, ?_⟩
  · have h4 : 0 < Ra ^ (1 / 4 : ℝ) := by positivity
    dsimp only
    split_ifs with h
    · nlinarith
    · nlinarith [j Ra (not_lt.1 h)]
  · intro r h
    have h1 := rpow_lt_rpow hR.le h (show (0 : ℝ) < 1 / 4 by norm_num)
    have h2 := rpow_lt_rpow hR.le h (show (0 : ℝ) < 1 / 3 by norm_num)
    refine ⟨?_, by dsimp only; gcongr⟩
    dsimp only
    split_ifs with h3 h4 h4
    · gcongr
    · exact (by gcongr : 0.54 * Ra ^ (1 / 4 : ℝ) < 0.54 * r ^ (1 / 4 : ℝ)).trans (j r (not_lt.1 h4))
    · linarith
    · gcongr

/-- The upward jump of the upper-heated plate at `Ra = 1e7`: at least 5 % between the two formulas. -/
theorem C95_plate_continuous_false :
    ∃ r w, nuPlateFree .upper 1e7 none = .ok (r, w) ∧ 1.05 * (0.54 * 1e7 ^ (1 / 4 : ℝ)) < r
      ∧ ∀ x : ℝ, x < 1e7 → 0 < x → ∃ y w, nuPlateFree .upper x none = .ok (y, w) ∧ 1.05 * y < r := by
  have h : 1.05 * (0.54 * 1e7 ^ (1 / 4 : ℝ)) < 0.15 * (1e7 : ℝ) ^ (1 / 3 : ℝ) := by
    have e : (1e7 : ℝ) ^ (1 / 3 : ℝ) = 1e7 ^ (1 / 4 : ℝ) * 1e7 ^ (1 / 12 : ℝ) := by rw [← rpow_add (by norm_num)]; norm_num
    have h12 : (3.8 : ℝ) < 1e7 ^ (1 / 12 : ℝ) := by
      refine lt_of_pow_lt_pow_left₀ 12 (by positivity) ?_
      rw [← rpow_natCast ((1e7 : ℝ) ^ _), ← rpow_mul (by norm_num)]
      norm_num
    have h4 : (0 : ℝ) < 1e7 ^ (1 / 4 : ℝ) := by positivity
    rw [e]; nlinarith
  refine ⟨_, _, rfl, ?_, fun x hx hx0 => ⟨_, _, rfl, ?_⟩⟩
  · rw [if_neg (lt_irrefl _)]; exact h
  · rw [if_neg (lt_irrefl _), if_pos hx]
    refine lt_trans ?_ h
    have := rpow_lt_rpow hx0.le hx (show (0 : ℝ) < 1 / 4 by norm_num)
    linarith

/-- Assisting flows: at least each of the two, at most their sum, and it does not matter which one is called forced. -/
theorem C95_combined_assisted (a b : ℝ) (ha : 0 ≤ a) (hb : 0 ≤ b) :
    nuCombined a b true ^ 3 = a ^ 3 + b ^ 3 ∧ nuCombined a b true = nuCombined b a true ∧ a ≤ nuCombined a b true ∧ b ≤ nuCombined a b true
      ∧ nuCombined a b true ≤ a + b ∧ nuCombined a 0 true = a := by
  have e : ∀ x y : ℝ, nuCombined x y true ^ 3 = x ^ 3 + y ^ 3 := fun x y => cbrt_pow _
  refine ⟨e _ _, cube_inj (by rw [e, e]; ring), cube_le (by rw [e]; have := pow_nonneg hb 3; linarith), cube_le (by rw [e]; have := pow_nonneg ha 3; linarith),
    cube_le (by rw [e]; nlinarith [mul_nonneg ha hb, mul_nonneg (mul_nonneg ha hb) (add_nonneg ha hb)]), cube_inj (by rw [e]; ring)⟩

/-- Opposing flows: never above the forced value; zero exactly when both are equal; and negative when free convection dominates. -/
theorem C95_combined_opposed (a b : ℝ) (hb : 0 ≤ b) :
    nuCombined a b false ^ 3 = a ^ 3 - b ^ 3 ∧ nuCombined a b false ≤ a ∧ (nuCombined a b false = 0 ↔ a = b) ∧ nuCombined b a false = -nuCombined a b false
      ∧ (nuCombined a b false < 0 ↔ a < b) ∧ nuCombined a 0 false = a := by
  have e : ∀ x y : ℝ, nuCombined x y false ^ 3 = x ^ 3 - y ^ 3 := fun x y => cbrt_pow _
  have sm : StrictMono fun x : ℝ => x ^ 3 := Odd.strictMono_pow (by decide : Odd 3)
  refine ⟨e _ _, cube_le (by rw [e]; have := pow_nonneg hb 3; linarith), ⟨fun h => ?_, fun h => ?_⟩, cube_inj (by rw [e, Odd.neg_pow (by decide), e]; ring),
    ⟨fun h => ?_, fun h => ?_⟩, cube_inj (by rw [e]; ring)⟩
  · have := e a b
    rw [h] at this
    exact cube_inj (by linarith)
  · exact cube_inj (by rw [e, h]; ring)
  · have h1 := sm h
    have h2 := e a b
    refine cube_lt ?_
    simp only at h1
    linarith
  · refine cube_lt ?_
    rw [e]
    have := sm h
    simp only at this
    linarith

example : (0 : ℝ) ≤ 20 ∧ (0 : ℝ) ≤ 10 := by norm_num

/-- A Nusselt number is never negative: false for opposing flows with dominant free convection. -/
theorem C95_combined_nonneg_false : nuCombined 1 2 false < 0 := (C95_combined_opposed 1 2 (by norm_num)).2.2.2.2.1.2 (by norm_num)

end Verif.Correlations
