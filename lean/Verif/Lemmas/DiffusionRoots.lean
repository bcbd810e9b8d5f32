import Verif.Model.DiffusionRoots
import Verif.Lemmas.DiffusionConv
import Verif.Props.SpecialRoots

/-! # Helper lemmas: uptake with a surface resistance, numerical roots -/

namespace Verif.Diffusion

open Real Finset Filter SpecialRoots

theorem coef_scale {K A x q e : ℝ} (hK : 0 ≤ K) (hA : 0 ≤ A) (hx : 0 < x) (hq : 0 < q) (he : 0 ≤ e) (h : q ≤ (1 + e) * x) :
    K / (x ^ 2 * (x ^ 2 + A)) ≤ (1 + e) ^ 4 * (K / (q ^ 2 * (q ^ 2 + A))) := by
  have h1 : q ^ 2 ≤ (1 + e) ^ 2 * x ^ 2 := by rw [← mul_pow]; exact pow_le_pow_left₀ hq.le h 2
  have h2 : q ^ 2 + A ≤ (1 + e) ^ 2 * (x ^ 2 + A) := by nlinarith [mul_nonneg he hA, mul_nonneg (mul_nonneg he he) hA]
  have h3 : q ^ 2 * (q ^ 2 + A) ≤ (1 + e) ^ 4 * (x ^ 2 * (x ^ 2 + A)) := by
    calc q ^ 2 * (q ^ 2 + A) ≤ ((1 + e) ^ 2 * x ^ 2) * ((1 + e) ^ 2 * (x ^ 2 + A)) := mul_le_mul h1 h2 (by positivity) (by positivity)
      _ = _ := by ring
  rw [← mul_div_assoc, div_le_div_iff₀ (by positivity) (by positivity)]
  calc K * (q ^ 2 * (q ^ 2 + A)) ≤ K * ((1 + e) ^ 4 * (x ^ 2 * (x ^ 2 + A))) := mul_le_mul_of_nonneg_left h3 hK
    _ = _ := by ring

theorem coef_anti {K A x q : ℝ} (hK : 0 ≤ K) (hq : 0 < q) (hA : 0 < q ^ 2 + A) (h : q ≤ x) : K / (x ^ 2 * (x ^ 2 + A)) ≤ K / (q ^ 2 * (q ^ 2 + A)) := by
  have h1 : q ^ 2 ≤ x ^ 2 := pow_le_pow_left₀ hq.le h 2
  refine div_le_div_of_nonneg_left hK (by positivity) (mul_le_mul h1 (by linarith) hA.le (by positivity))

/-- Four coefficients taken at points slightly below the roots still sum to at most 1, because the fifth coefficient leaves room. -/
theorem sum_close {K A e B : ℝ} (x q : ℕ → ℝ) (hK : 0 ≤ K) (hA : 0 ≤ A) (hx : ∀ i, 0 < x i) (hq : ∀ i, 0 < q i) (he : 0 ≤ e) (h : ∀ i, q i ≤ (1 + e) * x i)
    (h5 : ∑ i : Fin 5, K / (q i ^ 2 * (q i ^ 2 + A)) ≤ 1) (hB : q 4 ^ 2 ≤ B) (hm : (1 + e) ^ 4 * (1 - K / (B * (B + A))) ≤ 1) :
    ∑ i : Fin 4, K / (x i ^ 2 * (x i ^ 2 + A)) ≤ 1 := by
  rw [Fin.sum_univ_castSucc] at h5
  have h4 : K / (B * (B + A)) ≤ K / (q 4 ^ 2 * (q 4 ^ 2 + A)) := by
    have := hq 4
    exact div_le_div_of_nonneg_left hK (by positivity) (mul_le_mul hB (by linarith) (by positivity) (le_trans (by positivity) hB))
  have h6 : ∑ i : Fin 4, K / (x i ^ 2 * (x i ^ 2 + A)) ≤ (1 + e) ^ 4 * ∑ i : Fin 4, K / (q i ^ 2 * (q i ^ 2 + A)) := by
    rw [Finset.mul_sum]
    exact Finset.sum_le_sum fun i _ => coef_scale hK hA (hx i) (hq i) he (h i)
  have h7 : ∑ i : Fin 4, K / (q i ^ 2 * (q i ^ 2 + A)) ≤ 1 - K / (B * (B + A)) := by
    have e5 : ((Fin.last 4 : Fin 5) : ℕ) = 4 := rfl
    simp only [Fin.val_castSucc, e5] at h5
    linarith
  exact h6.trans ((mul_le_mul_of_nonneg_left h7 (by positivity)).trans hm)

theorem sum_above {K A : ℝ} (x q : ℕ → ℝ) (hK : 0 ≤ K) (hq : ∀ i, 0 < q i) (hA : ∀ i : Fin 4, 0 < q i ^ 2 + A) (h : ∀ i, q i ≤ x i)
    (h4 : ∑ i : Fin 4, K / (q i ^ 2 * (q i ^ 2 + A)) ≤ 1) : ∑ i : Fin 4, K / (x i ^ 2 * (x i ^ 2 + A)) ≤ 1 :=
  (Finset.sum_le_sum fun (i : Fin 4) _ => coef_anti hK (hq i) (hA i) (h i)).trans h4

/-! ## Sheet -/

theorem tan_form {a q : ℝ} (hc : cos q ≠ 0) (hq : q * tan q = a) : q * sin q = a * cos q := by
  rw [← hq, tan_eq_sin_div_cos]
  field_simp

/-- Small Biot numbers: the computed roots are never below the exact ones. -/
theorem tan_small {a : ℝ} (ha : 2e-10 ≤ a) (ha1 : a < 1) (i : ℕ) (q : ℝ) (hq0 : i * π < q) (hq1 : q < i * π + π / 2) (hq : q * tan q = a) :
    ∃ x, xtanxEntry a 1e-6 i = .ok x ∧ 0 < x ∧ q ≤ x := by
  have ha0 : 0 < a := lt_of_lt_of_le (by norm_num) ha
  have hpi := pi_gt_three
  have hpi' : π < 3.15 := pi_lt_d2
  obtain ⟨x, h1, h2, h3, h4, -⟩ := C88_xtanx_newton a 1e-6 ha0 (by linarith) i q hq0 hq1 hq
  have hx0 : 0 < x := lt_of_le_of_lt (by positivity) h2
  refine ⟨x, h1, hx0, ?_⟩
  rcases h4 with h4 | ⟨hi, hx, hs⟩
  · exact h4
  exfalso
  have ex : x = π / 2 * (a / (a + 1)) := by rw [hx]; ring
  have hs0 : a / (a + 1) ≤ 1 / 2 := by rw [div_le_iff₀ (by linarith)]; linarith
  have hs1 : a / 2 ≤ a / (a + 1) := div_le_div_of_nonneg_left ha0.le (by linarith) (by linarith)
  have hs2 : a / (a + 1) ≤ a := div_le_self ha0.le (by linarith)
  have hx4 : x ≤ π / 4 := by rw [ex]; nlinarith
  have ht := tan_le_lin hx0.le hx4
  have ht0 : 0 ≤ tan x := tan_nonneg_of_nonneg_of_le_pi_div_two hx0.le (by linarith)
  have hxt : x * tan x ≤ π * (a / (a + 1)) ^ 2 := by
    calc x * tan x ≤ x * (4 / π * x) := mul_le_mul_of_nonneg_left ht hx0.le
      _ = π * (a / (a + 1)) ^ 2 := by rw [ex]; field_simp; ring
  have hq2 : (a / (a + 1)) ^ 2 ≤ a / 4 := by
    rw [div_pow, div_le_iff₀ (by positivity)]
    nlinarith [mul_nonneg ha0.le (sq_nonneg (a - 1))]
  have hq3 : (a / (a + 1)) ^ 2 ≤ a ^ 2 := pow_le_pow_left₀ (by positivity) hs2 2
  have hxa : x ≤ 1.6 * a := by rw [ex]; exact mul_le_mul (by linarith) hs2 (by positivity) (by norm_num)
  have hxb : 0.7 * a ≤ x := by
    rw [ex]
    calc 0.7 * a ≤ 1.4 * (a / 2) := by linarith
      _ ≤ π / 2 * (a / (a + 1)) := mul_le_mul (by linarith) hs1 (by linarith) (by linarith)
  have hp4 : π * (a / (a + 1)) ^ 2 ≤ 3.15 * (a / 4) := mul_le_mul hpi'.le hq2 (by positivity) (by norm_num)
  have hp5 : π * (a / (a + 1)) ^ 2 ≤ 3.15 * a ^ 2 := mul_le_mul hpi'.le hq3 (by positivity) (by norm_num)
  have g1 : 0.2 * a ≤ a - x * tan x := by linarith
  have g2 : a * (1 - 3.15 * a) ≤ a - x * tan x := by
    have : a * (1 - 3.15 * a) = a - 3.15 * a ^ 2 := by ring
    linarith
  have habs : |x * tan x - a| = a - x * tan x := by rw [abs_of_nonpos (by linarith)]; ring
  clear hp4 hp5 hq2 hq3 hxt hs0 hs1 hs2 ex hx
  have htx : tan x ≤ 1 := ht.trans (by rw [div_mul_eq_mul_div, div_le_one (by positivity)]; linarith)
  have htx2 : tan x ≤ 4 / 3 * x := ht.trans (by gcongr)
  have hcx : cos x ≠ 0 := cos_ne' (i := i) h2.le h3
  have hD : tanD x = tan x + x * (1 + tan x ^ 2) := tanD_eq hcx
  have hD1 : tanD x ≤ 8 * a := by
    rw [hD]
    have : tan x ^ 2 ≤ 1 := by nlinarith
    nlinarith
  have hD2 : x ≤ tanD x := by
    rw [hD]
    nlinarith [mul_nonneg hx0.le (sq_nonneg (tan x))]
  rcases hs with hs | hs | hs
  · rw [habs] at hs
    rcases le_or_gt a 0.1 with h | h
    · nlinarith
    · linarith
  · have : (eps : ℝ) ≤ 1e-15 := by norm_num [eps]
    linarith
  · rw [habs] at hs
    linarith

/-- Larger Biot numbers: the computed roots are at most `1.02e-6` below the exact ones. -/
theorem tan_close {a : ℝ} (ha1 : 1 ≤ a) (i : ℕ) (q : ℝ) (hq0 : i * π < q) (hq1 : q < i * π + π / 2) (hq : q * tan q = a) :
    ∃ x, xtanxEntry a 1e-6 i = .ok x ∧ 1 / 2 ≤ x ∧ q ≤ x + 1.02e-6 := by
  have hpi := pi_gt_three
  have hpi' : π < 3.15 := pi_lt_d2
  have hq00 : 0 < q := lt_of_le_of_lt (by positivity) hq0
  have hqh : 3 / 4 ≤ q := by
    by_contra hc
    push Not at hc
    have hi : i = 0 := by
      rcases Nat.eq_zero_or_pos i with h | h
      · exact h
      · exfalso
        have : (1 : ℝ) ≤ i := by exact_mod_cast h
        nlinarith
    have ht := tan_le_lin hq00.le (by linarith : q ≤ π / 4)
    have : 4 / π * q ≤ 1 := by rw [div_mul_eq_mul_div, div_le_one (by positivity)]; linarith
    nlinarith
  rcases lt_or_ge a 100 with ha | ha
  · obtain ⟨x, h1, h2, h3, h4, -⟩ := C88_xtanx_newton a 1e-6 (by linarith) ha i q hq0 hq1 hq
    have hx0 : 0 < x := lt_of_le_of_lt (by positivity) h2
    rcases h4 with h4 | ⟨hi, hx, hs⟩
    · exact ⟨x, h1, by linarith, by linarith⟩
    have hxh : 3 / 4 ≤ x := by
      have : 1 / 4 ≤ 0.5 * a / (a + 1) := by rw [le_div_iff₀ (by linarith)]; linarith
      rw [hx]; nlinarith
    refine ⟨x, h1, by linarith, ?_⟩
    by_contra hc
    push Not at hc
    have hxq : x ≤ q := by linarith
    have hsl := (slope_bounds (f := fun x => x * tan x - a) hxq (fun t ht => tan_deriv a (cos_ne' (i := i) (h2.le.trans ht.1) (ht.2.trans_lt hq1)))
      ((tanD_mono i).mono fun t ht => ⟨h2.le.trans ht.1, ht.2.trans_lt hq1⟩)).1
    have hD2 : x ≤ tanD x := by
      rw [tanD_eq (cos_ne' (i := i) h2.le h3)]
      nlinarith [mul_nonneg hx0.le (sq_nonneg (tan x)), tan_nonneg' (i := i) h2.le h3]
    have h5 : tanD x * (q - x) ≤ |x * tan x - a| := by
      have := neg_abs_le (x * tan x - a)
      linarith
    have h6 : tanD x * 1.02e-6 < tanD x * (q - x) := mul_lt_mul_of_pos_left (by linarith) (by linarith)
    rcases hs with hs | hs | hs
    · nlinarith
    · have : (eps : ℝ) ≤ 1e-15 := by norm_num [eps]
      linarith
    · linarith
  · obtain ⟨x, h1, h2, h3, h4⟩ := C88_xtanx_large a 1e-6 ha i q hq0 hq1 hq (by norm_num)
    have : |x - q| ≤ 1.02e-6 := by
      rcases h4 with h | h
      · exact h.trans (by norm_num)
      · exact h.trans (by norm_num)
    rw [abs_le] at this
    exact ⟨x, h1, by linarith, by linarith⟩

theorem sheet_roots {a : ℝ} (ha : 2e-10 ≤ a) :
    ∃ x : ℕ → ℝ, rootsXtanx (a : WithTop ℝ) 4 1e-6 = .ok ((List.range 4).map x) ∧ (∀ i, 0 < x i) ∧
      ∑ i : Fin 4, 2 * a ^ 2 / (x i ^ 2 * (x i ^ 2 + a * (a + 1))) ≤ 1 := by
  have ha0 : 0 < a := lt_of_lt_of_le (by norm_num) ha
  have hpi := pi_gt_three
  have hpi' : π < 3.15 := pi_lt_d2
  choose q hq using fun i => tan_root a ha0 i
  have hq0 : ∀ i, 0 < q i := fun i => lt_of_le_of_lt (by positivity) (hq i).1
  have hmono : StrictMono q := strictMono_nat_of_lt_succ fun n => by
    have h1 := (hq (n + 1)).1
    have h2 := (hq n).2.1
    push_cast at h1
    linarith
  have hroot : ∀ i, q i * sin (q i) = a * cos (q i) := fun i => tan_form (cos_ne' (hq i).1.le (hq i).2.1) (hq i).2.2
  have hB : ∀ n : ℕ, ∑ i : Fin n, 2 * a ^ 2 / (q i ^ 2 * (q i ^ 2 + a * (a + 1))) ≤ 1 := fun n =>
    sheet_coeff (fun i : Fin n => q i) ha0 (fun i => hq0 i) (fun i j h => Fin.ext (hmono.injective h)) (fun i => hroot i)
  rcases lt_or_ge a 1 with h | h
  · choose x hx using fun i => tan_small ha h i (q i) (hq i).1 (hq i).2.1 (hq i).2.2
    refine ⟨x, mapM_ok _ x (fun i => (hx i).1) _, fun i => (hx i).2.1, ?_⟩
    exact sum_above x q (by positivity) hq0 (fun i => by have := hq0 i; positivity) (fun i => (hx i).2.2) (hB 4)
  · choose x hx using fun i => tan_close h i (q i) (hq i).1 (hq i).2.1 (hq i).2.2
    have hx0 : ∀ i, 0 < x i := fun i => lt_of_lt_of_le (by norm_num) (hx i).2.1
    refine ⟨x, mapM_ok _ x (fun i => (hx i).1) _, hx0, ?_⟩
    refine sum_close (e := 2.04e-6) (B := 203) x q (by positivity) (by positivity) hx0 hq0 (by norm_num) (fun i => ?_) (hB 5) ?_ ?_
    · have := (hx i).2.1
      have := (hx i).2.2
      nlinarith
    · have h1 := (hq 4).2.1
      have h2 := hq0 4
      push_cast at h1
      nlinarith
    · have : (4.8e-5 : ℝ) ≤ 2 * a ^ 2 / (203 * (203 + a * (a + 1))) := by
        rw [le_div_iff₀ (by positivity)]
        nlinarith
      have e : (1 + 2.04e-6 : ℝ) ^ 4 ≤ 1.00001 := by norm_num
      calc (1 + 2.04e-6 : ℝ) ^ 4 * (1 - 2 * a ^ 2 / (203 * (203 + a * (a + 1)))) ≤ (1 + 2.04e-6 : ℝ) ^ 4 * (1 - 4.8e-5) := by gcongr
        _ ≤ 1 := by norm_num

/-! ## Sphere -/

theorem cot_form {a q : ℝ} (hs : sin q ≠ 0) (hq : 1 - q * (cos q / sin q) = a) : q * cos q = (1 - a) * sin q := by
  rw [← hq]
  field_simp
  ring

theorem cot_close {a : ℝ} (ha1 : 1 ≤ a) (i : ℕ) (q : ℝ) (hq0 : i * π < q) (hq1 : q < (i + 1) * π) (hq : 1 - q * (cos q / sin q) = a) :
    ∃ x, xcotxEntry a 1e-6 i = .ok x ∧ 1 ≤ x ∧ q ≤ x + 1.5e-6 := by
  have hpi := pi_gt_three
  have hi0 : (0 : ℝ) ≤ i * π := by positivity
  have hqe := hq
  rw [← mul_div_assoc] at hqe
  obtain ⟨q2, b0, b1, b2, b3, b4⟩ := cot_root a (by linarith) i
  have hqq : q2 = q := by
    rcases lt_trichotomy q2 q with h | h | h
    · have := cot_anti b0 h hq1; linarith
    · exact h
    · have := cot_anti hq0 h b1; linarith
  subst hqq
  rcases ha1.eq_or_lt with h | h
  · refine ⟨(i + 1 / 2) * π, ?_, by linarith, ?_⟩
    · show (if a = 1 then _ else _) = _
      rw [if_pos h.symm]
    · have hs0 : ((i : ℝ) + 1 / 2) * π = π / 2 + i * π := by ring
      have hs1 : cos (((i : ℝ) + 1 / 2) * π) = 0 := by rw [hs0, cos_add_nat_mul_pi, cos_pi_div_two, mul_zero]
      by_contra hc
      push Not at hc
      have := cot_anti (i := i) (x := ((i : ℝ) + 1 / 2) * π) (y := q2) (by linarith) (by linarith) hq1
      rw [hs1, mul_zero, zero_div] at this
      linarith
  have hq2 := b3 h
  rcases lt_or_ge a 2 with h2 | h2
  · obtain ⟨x, h1, hx1, hx2, h4, -⟩ := C88_xcotx_newton a 1e-6 (by linarith) h2 h.ne' i q2 hq0 hq1 hq
    rcases h4 with h4 | ⟨-, hx, hs⟩
    · exact ⟨x, h1, by linarith, by linarith⟩
    have hx0 : π / 2 ≤ x := by rw [hx]; linarith
    refine ⟨x, h1, by linarith, ?_⟩
    have hc0 : cos x = 0 := by rw [hx, show ((i : ℝ) + 1 / 2) * π = π / 2 + i * π by ring, cos_add_nat_mul_pi, cos_pi_div_two, mul_zero]
    have hs2 : sin x ^ 2 = 1 := by have := sin_sq_add_cos_sq x; rw [hc0] at this; linarith
    have hD : cotD x = x := by unfold cotD; rw [hc0, hs2]; simp
    have hxq : x ≤ q2 := by linarith
    have hsl := (slope_bounds (f := fun x => -(x * cos x / sin x + a - 1)) hxq (fun t ht => cot_deriv a (sin_ne' (i := i) (hx1.trans_le ht.1) (ht.2.trans_lt hq1)))
      ((cotD_mono hx1 (by rw [hc0, mul_zero, zero_div]; norm_num)).mono fun t ht => ⟨ht.1, ht.2.trans_lt hq1⟩)).1
    rw [hD, hc0, mul_zero, zero_div] at hsl
    have h5 : x * (q2 - x) ≤ a - 1 := by linarith
    rcases hs with hs | hs
    · by_contra hc
      push Not at hc
      nlinarith
    · have : q2 - x ≤ 1e-6 := by
        by_contra hc
        push Not at hc
        nlinarith
      linarith
  · obtain ⟨x, h1, hx1, hx2, h4⟩ := C88_xcotx_large a 1e-6 h2 i q2 hq0 hq1 hq (by norm_num)
    have : |x - q2| ≤ 1.5e-6 := by
      rcases h4 with h | h
      · exact h.trans (by norm_num)
      · exact h.trans (by norm_num)
    rw [abs_le] at this
    exact ⟨x, h1, by linarith, by linarith⟩

theorem sphere_roots {a : ℝ} (ha0 : 0 < a) :
    ∃ x : ℕ → ℝ, rootsXcotx (a : WithTop ℝ) 4 1e-6 = .ok ((List.range 4).map x) ∧ (∀ i, 0 < x i) ∧ (∀ i : Fin 4, 0 < x i ^ 2 + a * (a - 1)) ∧
      ∑ i : Fin 4, 6 * a ^ 2 / (x i ^ 2 * (x i ^ 2 + a * (a - 1))) ≤ 1 := by
  have hpi := pi_gt_three
  have hpi' : π < 3.15 := pi_lt_d2
  choose q hq using fun i => C88_xcotx_root a ha0 i
  replace hq := fun i => (hq i).1
  have hq0 : ∀ i, 0 < q i := fun i => lt_of_le_of_lt (by positivity) (hq i).1
  have hmono : StrictMono q := strictMono_nat_of_lt_succ fun n => by
    have h1 := (hq (n + 1)).1
    have h2 := (hq n).2.1
    push_cast at h1
    linarith
  have hroot : ∀ i, q i * cos (q i) = (1 - a) * sin (q i) := fun i => cot_form (sin_ne' (hq i).1 (hq i).2.1) (hq i).2.2
  have hB := fun n : ℕ =>
    sphere_coeff (fun i : Fin n => q i) ha0 (fun i => hq0 i) (fun i j h => Fin.ext (hmono.injective h)) (fun i => hroot i)
  rcases lt_or_ge a 1 with h | h
  · have key : ∀ i, ∃ x, xcotxEntry a 1e-6 i = .ok x ∧ 0 < x ∧ q i ≤ x := by
      intro i
      obtain ⟨x, h1, hx1, hx2, h4, -⟩ := C88_xcotx_newton a 1e-6 ha0 (by linarith) h.ne i (q i) (hq i).1 (hq i).2.1 (hq i).2.2
      rcases h4 with h4 | ⟨h4, -⟩
      · exact ⟨x, h1, lt_of_le_of_lt (by positivity) hx1, h4⟩
      · linarith
    choose x hx using key
    refine ⟨x, mapM_ok _ x (fun i => (hx i).1) _, fun i => (hx i).2.1, fun i => ?_, ?_⟩
    · have h1 := (hB 4).1 i
      have h2 : q i ^ 2 ≤ x i ^ 2 := pow_le_pow_left₀ (hq0 i).le (hx i).2.2 2
      linarith
    · exact sum_above x q (by positivity) hq0 (hB 4).1 (fun i => (hx i).2.2) (hB 4).2
  · choose x hx using fun i => cot_close h i (q i) (hq i).1 (hq i).2.1 (hq i).2.2
    have hx0 : ∀ i, 0 < x i := fun i => lt_of_lt_of_le (by norm_num) (hx i).2.1
    have hA : 0 ≤ a * (a - 1) := mul_nonneg ha0.le (by linarith)
    refine ⟨x, mapM_ok _ x (fun i => (hx i).1) _, hx0, fun i => by have := hx0 i; positivity, ?_⟩
    refine sum_close (e := 1.5e-6) (B := 250) x q (by positivity) hA hx0 hq0 (by norm_num) (fun i => ?_) (hB 5).2 ?_ ?_
    · have := (hx i).2.1
      have := (hx i).2.2
      nlinarith
    · have h1 := (hq 4).2.1
      have h2 := hq0 4
      push_cast at h1
      nlinarith
    · have : (9e-5 : ℝ) ≤ 6 * a ^ 2 / (250 * (250 + a * (a - 1))) := by
        rw [le_div_iff₀ (by positivity)]
        nlinarith
      calc (1 + 1.5e-6 : ℝ) ^ 4 * (1 - 6 * a ^ 2 / (250 * (250 + a * (a - 1)))) ≤ (1 + 1.5e-6 : ℝ) ^ 4 * (1 - 9e-5) := by gcongr
        _ ≤ 1 := by norm_num

end Verif.Diffusion
