import Verif.Lemmas.DiffusionRoots

/-! # C91: uptake with a surface resistance -/

namespace Verif.Diffusion

open Real Finset Filter intervalIntegral SpecialRoots

/-! ## Theorems -/

/-- Specification: `x` holds distinct positive solutions of `x tan x = a` (written without the singularities of the tangent). -/
def RootsTan (a : ℝ) (x : Fin 4 → ℝ) : Prop := Function.Injective x ∧ ∀ i, 0 < x i ∧ x i * sin (x i) = a * cos (x i)

/-- Specification: `x` holds distinct positive solutions of `x cot x + a = 1`. -/
def RootsCot (a : ℝ) (x : Fin 4 → ℝ) : Prop := Function.Injective x ∧ ∀ i, 0 < x i ∧ x i * cos (x i) = (1 - a) * sin (x i)

/-- C91. If the roots were exact, the sheet uptake would be a nondecreasing fraction for every positive Biot number. -/
theorem C91_sheet_exact_roots {Bi Fo Fo' : ℝ} {x : Fin 4 → ℝ} (hB : 0 < Bi) (hx : RootsTan Bi x) (hF : 0 ≤ Fo) (hFF : Fo ≤ Fo') :
    0 ≤ uptakeConvSheet x Fo Bi ∧ uptakeConvSheet x Fo' Bi ≤ 1 ∧ uptakeConvSheet x Fo Bi ≤ uptakeConvSheet x Fo' Bi := by
  have hc : ∀ i, 0 ≤ 2 * Bi ^ 2 / (x i ^ 2 * (x i ^ 2 + Bi * (Bi + 1))) := fun i => by
    have := (hx.2 i).1
    positivity
  have hsum := sheet_coeff x hB (fun i => (hx.2 i).1) hx.1 (fun i => (hx.2 i).2)
  have z : uptakeConvSheet x 0 Bi = 0 := by simp [uptakeConvSheet]
  rcases hF.eq_or_lt with rfl | hF
  · rw [z]
    rcases hFF.eq_or_lt with rfl | hF'
    · rw [z]; norm_num
    · rw [uptakeConvSheet_eq hF'.ne' hB.ne']
      have := series_range _ x hc hsum hF'.le le_rfl
      exact ⟨le_rfl, this.2.1, this.1⟩
  · rw [uptakeConvSheet_eq hF.ne' hB.ne', uptakeConvSheet_eq (hF.trans_le hFF).ne' hB.ne']
    exact series_range _ x hc hsum hF.le hFF

/-- C91. If the roots were exact, the sphere uptake would be a nondecreasing fraction for every positive Biot number. -/
theorem C91_sphere_exact_roots {Bi Fo Fo' : ℝ} {x : Fin 4 → ℝ} (hB : 0 < Bi) (hx : RootsCot Bi x) (hF : 0 ≤ Fo) (hFF : Fo ≤ Fo') :
    0 ≤ uptakeConvSphere x Fo Bi ∧ uptakeConvSphere x Fo' Bi ≤ 1 ∧ uptakeConvSphere x Fo Bi ≤ uptakeConvSphere x Fo' Bi := by
  have hsum := sphere_coeff x hB (fun i => (hx.2 i).1) hx.1 (fun i => (hx.2 i).2)
  have hc : ∀ i, 0 ≤ 6 * Bi ^ 2 / (x i ^ 2 * (x i ^ 2 + Bi * (Bi - 1))) := fun i => by
    have := (hx.2 i).1
    have := hsum.1 i
    positivity
  have z : uptakeConvSphere x 0 Bi = 0 := by simp [uptakeConvSphere]
  rcases hF.eq_or_lt with rfl | hF
  · rw [z]
    rcases hFF.eq_or_lt with rfl | hF'
    · rw [z]; norm_num
    · rw [uptakeConvSphere_eq hF'.ne' hB.ne']
      have := series_range _ x hc hsum.2 hF'.le le_rfl
      exact ⟨le_rfl, this.2.1, this.1⟩
  · rw [uptakeConvSphere_eq hF.ne' hB.ne', uptakeConvSphere_eq (hF.trans_le hFF).ne' hB.ne']
    exact series_range _ x hc hsum.2 hF.le hFF

theorem rootsTan_exists {a : ℝ} (ha : 0 < a) : ∃ x, RootsTan a x := by
  have hpi := pi_pos
  choose f h1 h2 h3 using fun n : ℕ => exists_root_tan ha n
  have hmono : StrictMono f := strictMono_nat_of_lt_succ fun n => by
    have := h1 (n + 1)
    have := h2 n
    push_cast at *
    linarith
  refine ⟨fun i => f i, fun i j h => Fin.ext (hmono.injective h), fun i => ⟨?_, h3 i⟩⟩
  have := h1 i
  have : 0 ≤ (i : ℕ) * π := by positivity
  linarith

example : ∃ x, RootsTan 2 x ∧ 0 ≤ uptakeConvSheet x 0.1 2 ∧ uptakeConvSheet x 0.3 2 ≤ 1 ∧ uptakeConvSheet x 0.1 2 ≤ uptakeConvSheet x 0.3 2 := by
  obtain ⟨x, hx⟩ := rootsTan_exists (show (0 : ℝ) < 2 by norm_num)
  exact ⟨x, hx, C91_sheet_exact_roots (by norm_num) hx (by norm_num) (by norm_num)⟩

theorem rootsCot_one : RootsCot 1 fun i => (i + 1 / 2) * π := by
  have hpi := pi_pos
  refine ⟨fun i j h => ?_, fun i => ⟨by positivity, ?_⟩⟩
  · have := mul_right_cancel₀ hpi.ne' h
    exact Fin.ext (by exact_mod_cast (by linarith : ((i : ℕ) : ℝ) = (j : ℕ)))
  · beta_reduce
    rw [show ((i : ℕ) + 1 / 2 : ℝ) * π = π / 2 + (i : ℕ) * π by ring, cos_add_nat_mul_pi, cos_pi_div_two]
    ring

example : 0 ≤ uptakeConvSphere (fun i => (i + 1 / 2) * π) 0.1 1 := (C91_sphere_exact_roots one_pos rootsCot_one (by norm_num) (le_refl 0.1)).1

theorem sheet_call {Bi : ℝ} (hB : Bi ≠ 0) {x : ℕ → ℝ} (hx : rootsXtanx (Bi : WithTop ℝ) 4 1e-6 = .ok ((List.range 4).map x)) (Fo : ℝ) :
    uptakeConvectionSheet Fo Bi = .ok (uptakeConvSheet (fun i => x i) Fo Bi) := by
  unfold uptakeConvectionSheet
  by_cases hF : Fo = 0
  · rw [if_neg (by simp [hF]), hF]
    simp [uptakeConvSheet]
  · rw [if_pos ⟨hF, hB⟩, hx]
    show Except.ok _ = _
    congr 2
    funext i
    fin_cases i <;> rfl

theorem sphere_call {Bi : ℝ} (hB : Bi ≠ 0) {x : ℕ → ℝ} (hx : rootsXcotx (Bi : WithTop ℝ) 4 1e-6 = .ok ((List.range 4).map x)) (Fo : ℝ) :
    uptakeConvectionSphere Fo Bi = .ok (uptakeConvSphere (fun i => x i) Fo Bi) := by
  unfold uptakeConvectionSphere
  by_cases hF : Fo = 0
  · rw [if_neg (by simp [hF]), hF]
    simp [uptakeConvSphere]
  · rw [if_pos ⟨hF, hB⟩, hx]
    show Except.ok _ = _
    congr 2
    funext i
    fin_cases i <;> rfl

/-- C91. With the roots as computed, the sheet uptake with surface resistance is a fraction that never decreases, for every Biot number of at least `2e-10`. -/
theorem C91_sheet {Bi Fo Fo' : ℝ} (hB : 2e-10 ≤ Bi) (hF : 0 ≤ Fo) (hFF : Fo ≤ Fo') :
    ∃ u u', uptakeConvectionSheet Fo Bi = .ok u ∧ uptakeConvectionSheet Fo' Bi = .ok u' ∧ 0 ≤ u ∧ u ≤ u' ∧ u' ≤ 1 := by
  have hB0 : 0 < Bi := lt_of_lt_of_le (by norm_num) hB
  obtain ⟨x, h1, h2, h3⟩ := sheet_roots hB
  refine ⟨_, _, sheet_call hB0.ne' h1 Fo, sheet_call hB0.ne' h1 Fo', ?_⟩
  have hc : ∀ i : Fin 4, 0 ≤ 2 * Bi ^ 2 / (x i ^ 2 * (x i ^ 2 + Bi * (Bi + 1))) := fun i => by positivity
  have z : uptakeConvSheet (fun i => x i) 0 Bi = 0 := by simp [uptakeConvSheet]
  rcases hF.eq_or_lt with rfl | hF
  · rw [z]
    rcases hFF.eq_or_lt with rfl | hF'
    · rw [z]; norm_num
    · rw [uptakeConvSheet_eq hF'.ne' hB0.ne']
      have := series_range _ (fun i : Fin 4 => x i) hc h3 hF'.le le_rfl
      exact ⟨le_rfl, this.1, this.2.1⟩
  · rw [uptakeConvSheet_eq hF.ne' hB0.ne', uptakeConvSheet_eq (hF.trans_le hFF).ne' hB0.ne']
    have := series_range _ (fun i : Fin 4 => x i) hc h3 hF.le hFF
    exact ⟨this.1, this.2.2, this.2.1⟩

/-- C91. With the roots as computed, the sphere uptake with surface resistance is a fraction that never decreases, for every positive Biot number. -/
theorem C91_sphere {Bi Fo Fo' : ℝ} (hB : 0 < Bi) (hF : 0 ≤ Fo) (hFF : Fo ≤ Fo') :
    ∃ u u', uptakeConvectionSphere Fo Bi = .ok u ∧ uptakeConvectionSphere Fo' Bi = .ok u' ∧ 0 ≤ u ∧ u ≤ u' ∧ u' ≤ 1 := by
  obtain ⟨x, h1, h2, hp, h3⟩ := sphere_roots hB
  refine ⟨_, _, sphere_call hB.ne' h1 Fo, sphere_call hB.ne' h1 Fo', ?_⟩
  have hc : ∀ i : Fin 4, 0 ≤ 6 * Bi ^ 2 / (x i ^ 2 * (x i ^ 2 + Bi * (Bi - 1))) := fun i => by
    have := hp i
    positivity
  have z : uptakeConvSphere (fun i => x i) 0 Bi = 0 := by simp [uptakeConvSphere]
  rcases hF.eq_or_lt with rfl | hF
  · rw [z]
    rcases hFF.eq_or_lt with rfl | hF'
    · rw [z]; norm_num
    · rw [uptakeConvSphere_eq hF'.ne' hB.ne']
      have := series_range _ (fun i : Fin 4 => x i) hc h3 hF'.le le_rfl
      exact ⟨le_rfl, this.1, this.2.1⟩
  · rw [uptakeConvSphere_eq hF.ne' hB.ne', uptakeConvSphere_eq (hF.trans_le hFF).ne' hB.ne']
    have := series_range _ (fun i : Fin 4 => x i) hc h3 hF.le hFF
    exact ⟨this.1, this.2.2, this.2.1⟩

example : ∃ u u', uptakeConvectionSheet 0.1 250 = .ok u ∧ uptakeConvectionSheet 0.3 250 = .ok u' ∧ 0 ≤ u ∧ u ≤ u' ∧ u' ≤ 1 :=
  C91_sheet (by norm_num) (by norm_num) (by norm_num)

example : ∃ u u', uptakeConvectionSphere 0.1 0.01 = .ok u ∧ uptakeConvectionSphere 0.3 0.01 = .ok u' ∧ 0 ≤ u ∧ u ≤ u' ∧ u' ≤ 1 :=
  C91_sphere (by norm_num) (by norm_num) (by norm_num)

/-- C91. No uptake at time zero or without transfer at the surface; complete uptake at long times. -/
theorem C91_limits {Bi Fo : ℝ} :
    uptakeConvectionSheet 0 Bi = .ok 0 ∧ uptakeConvectionSphere 0 Bi = .ok 0 ∧ uptakeConvectionSheet Fo 0 = .ok 0 ∧ uptakeConvectionSphere Fo 0 = .ok 0 ∧
    (0 < Bi → ∃ u v : ℝ → ℝ, (∀ F, uptakeConvectionSheet F Bi = .ok (u F) ∧ uptakeConvectionSphere F Bi = .ok (v F)) ∧
      Tendsto u atTop (nhds 1) ∧ Tendsto v atTop (nhds 1)) := by
  refine ⟨by simp [uptakeConvectionSheet], by simp [uptakeConvectionSphere], by simp [uptakeConvectionSheet], by simp [uptakeConvectionSphere], fun hB => ?_⟩
  obtain ⟨x, h1, h2, -⟩ := C88_xtanx_list Bi 1e-6 hB (by norm_num) 4
  obtain ⟨y, h3, h4, -⟩ := C88_xcotx_list Bi 1e-6 hB (by norm_num) 4
  have hpi := pi_pos
  refine ⟨fun F => uptakeConvSheet (fun i => x i) F Bi, fun F => uptakeConvSphere (fun i => y i) F Bi, fun F => ⟨sheet_call hB.ne' h1 F, sphere_call hB.ne' h3 F⟩, ?_, ?_⟩
  · refine (series_tendsto (fun i : Fin 4 => 2 * Bi ^ 2 / (x i ^ 2 * (x i ^ 2 + Bi * (Bi + 1)))) (fun i => x i) (fun i => lt_of_le_of_lt (by positivity) (h2 i).1)).congr' ?_
    filter_upwards [eventually_gt_atTop (0 : ℝ)] with Fo hF
    rw [uptakeConvSheet_eq hF.ne' hB.ne']
  · refine (series_tendsto (fun i : Fin 4 => 6 * Bi ^ 2 / (y i ^ 2 * (y i ^ 2 + Bi * (Bi - 1)))) (fun i => y i) (fun i => lt_of_le_of_lt (by positivity) (h4 i).1)).congr' ?_
    filter_upwards [eventually_gt_atTop (0 : ℝ)] with Fo hF
    rw [uptakeConvSphere_eq hF.ne' hB.ne']

/-- The uptake is a fraction for every positive Biot number; false: for `Bi ≤ 1e-10` the residual tolerance of the root finder accepts the starting point as the first
root, and the sheet uptake comes out as minus billions (up to `Fo = 10¹⁸`). -/
theorem C91_small_biot_false {Bi Fo : ℝ} (hB : 0 < Bi) (hB' : Bi ≤ 1e-10) (hF : 0 < Fo) (hF' : Fo ≤ 1e18) :
    ∃ u, uptakeConvectionSheet Fo Bi = .ok u ∧ u < -7e9 := by
  have hpi := pi_gt_three
  have hpi' : π < 3.15 := pi_lt_d2
  obtain ⟨x, h1, h2, -⟩ := C88_xtanx_list Bi 1e-6 hB (by norm_num) 4
  refine ⟨_, sheet_call hB.ne' h1 Fo, ?_⟩
  rw [uptakeConvSheet_eq hF.ne' hB.ne']
  set y := π * (0.5 * Bi / (Bi + 1)) with hy
  have ey : y = π / 2 * (Bi / (Bi + 1)) := by rw [hy]; ring
  have y0 : 0 < y := by positivity
  have yle : y ≤ 1.575 * Bi := by
    rw [ey]
    exact mul_le_mul (by linarith) (div_le_self hB.le (by linarith)) (by positivity) (by norm_num)
  have hx0 : x 0 = y := by
    have e0 : xtanxEntry (Bi : WithTop ℝ) 1e-6 0 = .ok (x 0) := by
      unfold rootsXtanx at h1
      rw [show List.range 4 = [0, 1, 2, 3] from rfl, List.mapM_cons] at h1
      cases h : xtanxEntry (Bi : WithTop ℝ) 1e-6 0 with
      | error e => rw [h] at h1; cases h1
      | ok v =>
        rw [h] at h1
        cases hm : List.mapM (xtanxEntry (Bi : WithTop ℝ) 1e-6) [1, 2, 3] with
        | error e => simp only [Bind.bind, Except.bind, hm] at h1; cases h1
        | ok l =>
          simp only [Bind.bind, Except.bind, hm, Pure.pure, Except.pure, List.map_cons] at h1
          rw [(List.cons.inj (Except.ok.inj h1)).1]
    have hr : rootNewton (tanF Bi) y 1e-6 1e-10 50 = .ok (⟨true, .tolf, 1, 1, y, y * tan y - Bi⟩, [(y, eps)]) := by
      have ht : |y * tan y - Bi| ≤ 1e-10 := by
        have ht1 := tan_le_lin y0.le (by linarith : y ≤ π / 4)
        have ht0 : 0 ≤ tan y := tan_nonneg_of_nonneg_of_le_pi_div_two y0.le (by linarith)
        have ht2 : tan y ≤ 1 / 2 := ht1.trans (by rw [div_mul_eq_mul_div, div_le_iff₀ (by linarith)]; linarith)
        rw [abs_le]
        constructor <;> nlinarith
      unfold rootNewton newtonLoop
      show (if |y * tan y - Bi| ≤ 1e-10 then _ else _) = _
      rw [if_pos ht]
      rfl
    have e1 : xtanxEntry (Bi : WithTop ℝ) 1e-6 0 = .ok y := by
      show (if Bi = 0 then _ else _) = _
      rw [if_neg hB.ne', if_pos (by linarith), pdiv, if_neg (by positivity : Bi + 1 ≠ 0)]
      simp only [Bind.bind, Except.bind, Nat.cast_zero, zero_add, ← hy, hr]
      rfl
    rw [e1] at e0
    exact (Except.ok.inj e0).symm
  have hcoef : (8.05e9 : ℝ) / 1.005 ≤ 2 * Bi ^ 2 / (y ^ 2 * (y ^ 2 + Bi * (Bi + 1))) := by
    rw [le_div_iff₀ (by positivity)]
    have hy2 : y ^ 2 ≤ (1.575 * Bi) ^ 2 := pow_le_pow_left₀ y0.le yle 2
    have h3 : y ^ 2 + Bi * (Bi + 1) ≤ 1.0000001 * Bi := by nlinarith
    calc (8.05e9 : ℝ) / 1.005 * (y ^ 2 * (y ^ 2 + Bi * (Bi + 1))) ≤ 8.05e9 / 1.005 * ((1.575 * Bi) ^ 2 * (1.0000001 * Bi)) := by gcongr
      _ = (8.05e9 / 1.005 * (1.575 ^ 2 * 1.0000001) * Bi) * Bi ^ 2 := by ring
      _ ≤ 2 * Bi ^ 2 := by
        refine mul_le_mul_of_nonneg_right ?_ (by positivity)
        nlinarith
  have hexp : (0.97 : ℝ) ≤ exp (-y ^ 2 * Fo) := by
    have h3 := add_one_le_exp (-y ^ 2 * Fo)
    have h4 : y ^ 2 ≤ 2.5e-20 := by
      have : y ≤ 1.575e-10 := by linarith
      nlinarith
    have h5 : y ^ 2 * Fo ≤ 2.5e-20 * 1e18 := mul_le_mul h4 hF' hF.le (by norm_num)
    have h6 : (2.5e-20 : ℝ) * 1e18 = 0.025 := by norm_num
    linarith
  have hnn : ∀ i : Fin 4, 0 ≤ 2 * Bi ^ 2 / (x i ^ 2 * (x i ^ 2 + Bi * (Bi + 1))) * exp (-x i ^ 2 * Fo) := fun i => by positivity
  have hsum := Finset.single_le_sum (fun i _ => hnn i) (Finset.mem_univ (0 : Fin 4))
  have e : x ((0 : Fin 4) : ℕ) = y := hx0
  rw [e] at hsum
  have : (8.05e9 : ℝ) / 1.005 * 0.97 ≤ 2 * Bi ^ 2 / (y ^ 2 * (y ^ 2 + Bi * (Bi + 1))) * exp (-y ^ 2 * Fo) := mul_le_mul hcoef hexp (by norm_num) (by positivity)
  have e7 : (7.7e9 : ℝ) ≤ 8.05e9 / 1.005 * 0.97 := by norm_num
  linarith

example : ∃ u, uptakeConvectionSheet 100 1e-11 = .ok u ∧ u < -7e9 := C91_small_biot_false (by norm_num) (by norm_num) (by norm_num) (by norm_num)

end Verif.Diffusion
