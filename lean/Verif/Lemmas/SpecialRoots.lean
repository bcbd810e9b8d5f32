import Verif.Model.SpecialRoots
import Verif.Spec.RootsScalar
import Verif.Spec.SpecialRoots
import Mathlib.Analysis.SpecialFunctions.Trigonometric.ArctanDeriv
import Mathlib.Analysis.SpecialFunctions.Trigonometric.Bounds
import Mathlib.Analysis.Calculus.Deriv.MeanValue
import Mathlib.Analysis.Real.Pi.Bounds

/-! # Helper lemmas: Newton iterations from a good side, contraction loops, and the equations x tan x = a, x cot x = 1 - a -/

namespace Verif.SpecialRoots

open Real

/-! ## Newton's method for increasing convex functions -/

theorem mvt {f f' : ℝ → ℝ} {q x : ℝ} (hqx : q < x) (hd : ∀ t ∈ Set.Icc q x, HasDerivAt f (f' t) t) : ∃ c ∈ Set.Ioo q x, f x - f q = f' c * (x - q) := by
  obtain ⟨c, hc, he⟩ := exists_hasDerivAt_eq_slope f f' hqx (fun t ht => (hd t ht).continuousAt.continuousWithinAt) (fun t ht => hd t ⟨ht.1.le, ht.2.le⟩)
  exact ⟨c, hc, by rw [he]; have : x - q ≠ 0 := by linarith
                   field_simp⟩

theorem slope_bounds {f f' : ℝ → ℝ} {q x : ℝ} (hqx : q ≤ x) (hd : ∀ t ∈ Set.Icc q x, HasDerivAt f (f' t) t) (hm : MonotoneOn f' (Set.Icc q x)) :
    f' q * (x - q) ≤ f x - f q ∧ f x - f q ≤ f' x * (x - q) := by
  rcases hqx.eq_or_lt with rfl | h
  · simp
  · obtain ⟨c, hc, e⟩ := mvt h hd
    have h1 := hm ⟨le_rfl, hqx⟩ ⟨hc.1.le, hc.2.le⟩ hc.1.le
    have h2 := hm ⟨hc.1.le, hc.2.le⟩ ⟨hqx, le_rfl⟩ hc.2.le
    rw [e]
    constructor <;> apply mul_le_mul_of_nonneg_right _ (by linarith) <;> assumption

theorem newton_right {f f' : ℝ → ℝ} {q x : ℝ} (hqx : q ≤ x) (hq : f q = 0) (hd : ∀ t ∈ Set.Icc q x, HasDerivAt f (f' t) t) (hm : MonotoneOn f' (Set.Icc q x))
    (hp : 0 < f' q) : q ≤ x - f x / f' x ∧ x - f x / f' x ≤ x := by
  obtain ⟨h1, h2⟩ := slope_bounds hqx hd hm
  rw [hq, sub_zero] at h1 h2
  have hx : 0 < f' x := hp.trans_le (hm ⟨le_rfl, hqx⟩ ⟨hqx, le_rfl⟩ hqx)
  constructor
  · have : f x / f' x ≤ x - q := by rw [div_le_iff₀ hx]; linarith
    linarith
  · have : 0 ≤ f x / f' x := div_nonneg (le_trans (mul_nonneg hp.le (by linarith)) h1) hx.le
    linarith

theorem newton_left {f f' : ℝ → ℝ} {q y : ℝ} (hyq : y ≤ q) (hq : f q = 0) (hd : ∀ t ∈ Set.Icc y q, HasDerivAt f (f' t) t) (hm : MonotoneOn f' (Set.Icc y q))
    (hp : 0 < f' y) : q ≤ y - f y / f' y := by
  obtain ⟨h1, _⟩ := slope_bounds hyq hd hm
  rw [hq, zero_sub] at h1
  have : q - y ≤ -f y / f' y := by rw [le_div_iff₀ hp]; linarith
  rw [neg_div] at this
  linarith

theorem iterate_right {f f' : ℝ → ℝ} {q b : ℝ} (hq : f q = 0) (hd : ∀ t ∈ Set.Ico q b, HasDerivAt f (f' t) t) (hm : MonotoneOn f' (Set.Ico q b)) (hp : 0 < f' q) (N : ℝ → ℝ)
    (hN : ∀ x, N x = x - f x / f' x) {x0 : ℝ} (h0 : q ≤ x0) (h1 : x0 < b) (n : ℕ) : q ≤ N^[n] x0 ∧ N^[n] x0 ≤ x0 := by
  induction n with
  | zero => exact ⟨h0, le_rfl⟩
  | succ n ih =>
    rw [Function.iterate_succ_apply', hN]
    have sub : Set.Icc q (N^[n] x0) ⊆ Set.Ico q b := fun t ht => ⟨ht.1, lt_of_le_of_lt (ht.2.trans ih.2) h1⟩
    obtain ⟨a1, a2⟩ := newton_right ih.1 hq (fun t ht => hd t (sub ht)) (hm.mono sub) hp
    exact ⟨a1, a2.trans ih.2⟩

/-! ## Contraction loops -/

theorem fpLoop_error (g : ℝ → ℝ) (S : Set ℝ) (L p tolx : ℝ) (hL0 : 0 ≤ L) (hL1 : L < 1) (hS : ∀ e ∈ S, g e ∈ S) (hg : ∀ e ∈ S, |g e - p| ≤ L * |e - p|) (n : ℕ) :
    ∀ e ∈ S, fpLoop g tolx n e ∈ S ∧ (|fpLoop g tolx n e - p| ≤ tolx / (1 - L) ∨ |fpLoop g tolx n e - p| ≤ L ^ n * |e - p|) := by
  induction n with
  | zero => intro e he; exact ⟨he, Or.inr (by simp [fpLoop])⟩
  | succ n ih =>
    intro e he
    unfold fpLoop
    dsimp only
    split_ifs with h
    · refine ⟨he, Or.inl ?_⟩
      rw [le_div_iff₀ (by linarith)]
      have h1 := hg e he
      have h2 : |e - p| ≤ |g e - e| + |g e - p| := by
        have : e - p = -(g e - e) + (g e - p) := by ring
        rw [this]
        exact (abs_add_le _ _).trans (by rw [abs_neg])
      nlinarith
    · obtain ⟨h1, h2⟩ := ih (g e) (hS e he)
      refine ⟨h1, h2.imp_right fun h => h.trans ?_⟩
      rw [pow_succ, mul_assoc]
      exact mul_le_mul_of_nonneg_left (hg e he) (pow_nonneg hL0 n)

/-! ## x tan x -/

theorem shift_mem {i : ℕ} {x : ℝ} (h0 : i * π ≤ x) (h1 : x < i * π + π / 2) : tan x = tan (x - i * π) ∧ 0 ≤ x - i * π ∧ x - i * π < π / 2 :=
  ⟨(tan_sub_nat_mul_pi x i).symm, by linarith, by linarith⟩

theorem tan_nonneg' {i : ℕ} {x : ℝ} (h0 : i * π ≤ x) (h1 : x < i * π + π / 2) : 0 ≤ tan x := by
  obtain ⟨e, a, b⟩ := shift_mem h0 h1
  rw [e]; exact tan_nonneg_of_nonneg_of_le_pi_div_two a b.le

theorem tan_mono' {i : ℕ} {x y : ℝ} (h0 : i * π ≤ x) (hxy : x < y) (h1 : y < i * π + π / 2) : tan x < tan y := by
  obtain ⟨e, a, _⟩ := shift_mem h0 (hxy.trans h1)
  obtain ⟨e', _, b⟩ := shift_mem (h0.trans hxy.le) h1
  rw [e, e']; exact tan_lt_tan_of_nonneg_of_lt_pi_div_two a b (by linarith)

theorem cos_ne' {i : ℕ} {x : ℝ} (h0 : i * π ≤ x) (h1 : x < i * π + π / 2) : cos x ≠ 0 := by
  have h : 0 < cos (x - i * π) := cos_pos_of_mem_Ioo ⟨by linarith [pi_pos], by linarith⟩
  rw [cos_sub_nat_mul_pi] at h
  intro h'
  rw [h', mul_zero] at h
  exact lt_irrefl _ h

theorem tanD_eq {x : ℝ} (h : cos x ≠ 0) : tanD x = tan x + x * (1 + tan x ^ 2) := by
  rw [tanD, tan_eq_sin_div_cos]
  have := sin_sq_add_cos_sq x
  field_simp
  linear_combination (-x) * this

theorem tan_deriv (a : ℝ) {x : ℝ} (h : cos x ≠ 0) : HasDerivAt (fun x => x * tan x - a) (tanD x) x := by
  have := ((hasDerivAt_id x).mul (hasDerivAt_tan h)).sub_const a
  refine this.congr_deriv ?_
  simp only [id, tanD]
  ring

theorem tanD_mono (i : ℕ) : MonotoneOn tanD (Set.Ico (i * π) (i * π + π / 2)) := by
  intro x hx y hy hxy
  rw [tanD_eq (cos_ne' hx.1 hx.2), tanD_eq (cos_ne' hy.1 hy.2)]
  have h0 := tan_nonneg' hx.1 hx.2
  have h1 : tan x ≤ tan y := by
    rcases hxy.eq_or_lt with rfl | h
    · exact le_rfl
    · exact (tan_mono' hx.1 h hy.2).le
  have : 0 ≤ x := le_trans (by positivity) hx.1
  have : 0 ≤ y := this.trans hxy
  gcongr

theorem tanD_pos {i : ℕ} {x : ℝ} (h0 : i * π ≤ x) (h1 : x < i * π + π / 2) (hx : 0 < x) : 0 < tanD x := by
  rw [tanD_eq (cos_ne' h0 h1)]
  have := tan_nonneg' h0 h1
  positivity

theorem tan_root (a : ℝ) (ha : 0 < a) (i : ℕ) : ∃ q, i * π < q ∧ q < i * π + π / 2 ∧ q * tan q = a := by
  have hpi := pi_pos
  have cont : ContinuousOn (fun e => (i * π + e) * sin e - a * cos e) (Set.Icc 0 (π / 2)) := by fun_prop
  obtain ⟨e, he, hz⟩ := intermediate_value_Ioo (by positivity) cont
    (show (0 : ℝ) ∈ Set.Ioo ((i * π + 0) * sin 0 - a * cos 0) ((i * π + π / 2) * sin (π / 2) - a * cos (π / 2)) by
      simp only [sin_zero, cos_zero, sin_pi_div_two, cos_pi_div_two]
      exact ⟨by linarith, by simp only [mul_one, mul_zero, sub_zero]; positivity⟩)
  refine ⟨i * π + e, by linarith [he.1], by linarith [he.2], ?_⟩
  have hc : 0 < cos e := cos_pos_of_mem_Ioo ⟨by linarith [he.1], he.2⟩
  rw [add_comm (i * π) e, tan_add_nat_mul_pi, tan_eq_sin_div_cos]
  field_simp
  simp only at hz
  linarith

theorem tan_root_unique {a : ℝ} (ha : 0 < a) {i : ℕ} {q q' : ℝ} (h0 : i * π < q) (h1 : q < i * π + π / 2) (hq : q * tan q = a)
    (h0' : i * π ≤ q') (h1' : q' < i * π + π / 2) (hq' : q' * tan q' = a) : q' = q := by
  have pos : ∀ x : ℝ, i * π ≤ x → 0 ≤ x := fun x hx => le_trans (by positivity) hx
  have key : ∀ x y : ℝ, i * π ≤ x → x < y → y < i * π + π / 2 → x * tan x < y * tan y := by
    intro x y hx hxy hy
    have h1 := tan_mono' hx hxy hy
    have h2 := tan_nonneg' hx (hxy.trans hy)
    have := pos x hx
    nlinarith
  rcases lt_trichotomy q' q with h | h | h
  · have := key _ _ h0' h h1; linarith
  · exact h
  · have := key _ _ h0.le h h1'; linarith

theorem tan_le_lin {z : ℝ} (h0 : 0 ≤ z) (h1 : z ≤ π / 4) : tan z ≤ 4 / π * z := by
  rcases h0.eq_or_lt with rfl | hz
  · simp
  have hd : ∀ t ∈ Set.Icc (0 : ℝ) (π / 4), HasDerivAt tan (1 + tan t ^ 2) t := by
    intro t ht
    have hc : cos t ≠ 0 := (cos_pos_of_mem_Ioo ⟨by linarith [ht.1, pi_pos], by linarith [ht.2, pi_pos]⟩).ne'
    refine (hasDerivAt_tan hc).congr_deriv ?_
    rw [tan_eq_sin_div_cos]
    have := sin_sq_add_cos_sq t
    field_simp
    linarith
  have hm : MonotoneOn (fun t => 1 + tan t ^ 2) (Set.Icc (0 : ℝ) (π / 4)) := by
    intro x hx y hy hxy
    have a0 := tan_nonneg_of_nonneg_of_le_pi_div_two hx.1 (by linarith [hx.2, pi_pos])
    have a1 : tan x ≤ tan y := by
      rcases hxy.eq_or_lt with rfl | h
      · exact le_rfl
      · exact (tan_lt_tan_of_nonneg_of_lt_pi_div_two hx.1 (by linarith [hy.2, pi_pos]) h).le
    dsimp only
    gcongr
  obtain ⟨_, u⟩ := slope_bounds h0 (fun t ht => hd t ⟨ht.1, ht.2.trans h1⟩) (hm.mono (Set.Icc_subset_Icc_right h1))
  obtain ⟨l, _⟩ := slope_bounds h1 (fun t ht => hd t ⟨h0.trans ht.1, ht.2⟩) (hm.mono (Set.Icc_subset_Icc_left h0))
  rw [tan_zero, sub_zero, sub_zero] at u
  rw [tan_pi_div_four] at l
  have hpi := pi_pos
  have : tan z * (π / 4) ≤ z := by nlinarith
  rw [div_mul_eq_mul_div, le_div_iff₀ hpi]
  linarith

/-- From the second root on the starting point is to the right of the root. -/
theorem start_right {a : ℝ} (ha : 0 < a) (i : ℕ) : a ≤ (π * ((i + 1 : ℕ) + 0.5 * a / (a + 1))) * tan (π * ((i + 1 : ℕ) + 0.5 * a / (a + 1))) := by
  have hpi := pi_pos
  have h3 := pi_gt_three
  set s := a / (a + 1) with hs
  have hs0 : 0 < s := by positivity
  have hs1 : s < 1 := by rw [hs, div_lt_one (by positivity)]; linarith
  have has : a = s / (1 - s) := by rw [hs]; field_simp; ring
  have e : π * ((i + 1 : ℕ) + 0.5 * a / (a + 1)) = π / 2 * s + (i + 1 : ℕ) * π := by rw [hs]; field_simp; ring
  rw [e, tan_add_nat_mul_pi]
  have ht : a / π ≤ tan (π / 2 * s) := by
    have h1s : 0 < 1 - s := by linarith
    rcases le_total s (1 / 2) with h | h
    · have h1 : π / 2 * s ≤ tan (π / 2 * s) := le_tan (by positivity) (by nlinarith)
      refine le_trans ?_ h1
      rw [has, div_div, div_le_iff₀ (by positivity)]
      have h5 : 9 ≤ π * π := by nlinarith
      have : 1 ≤ π / 2 * ((1 - s) * π) := by
        have : π / 2 * ((1 - s) * π) = (1 - s) / 2 * (π * π) := by ring
        rw [this]; nlinarith
      nlinarith
    · have e2 : tan (π / 2 * s) = (tan (π / 2 * (1 - s)))⁻¹ := by
        rw [← tan_pi_div_two_sub]; congr 1; ring
      have hz0 : 0 < π / 2 * (1 - s) := by positivity
      have h1 := tan_le_lin hz0.le (by nlinarith)
      have hp : 0 < tan (π / 2 * (1 - s)) := tan_pos_of_pos_of_lt_pi_div_two hz0 (by nlinarith)
      rw [e2, le_inv_comm₀ (by positivity) hp]
      refine h1.trans ?_
      rw [has]
      have : 4 / π * (π / 2 * (1 - s)) = 2 * (1 - s) := by field_simp; ring
      rw [this, inv_div, div_div_eq_mul_div, le_div_iff₀ hs0]
      nlinarith
  have h2 : π ≤ π / 2 * s + (i + 1 : ℕ) * π := by
    push_cast
    have : 0 ≤ (i : ℝ) * π := by positivity
    nlinarith
  have h4 : 0 ≤ tan (π / 2 * s) := le_trans (by positivity) ht
  calc a = π * (a / π) := by field_simp
    _ ≤ π * tan (π / 2 * s) := by gcongr
    _ ≤ _ := by gcongr

/-- The first Newton step from the starting point of the first root stays left of the pole. -/
theorem start_zero {a : ℝ} (ha : 0 < a) :
    let y := π * (0.5 * a / (a + 1)); 0 < y ∧ y < π / 2 ∧ y - (y * tan y - a) / tanD y < π / 2 := by
  intro y
  have hpi := pi_pos
  have ey : y = π / 2 - π / 2 / (a + 1) := by simp only [y]; field_simp; ring
  have hδ : 0 < π / 2 / (a + 1) := by positivity
  have y0 : 0 < y := by simp only [y]; positivity
  have y1 : y < π / 2 := by rw [ey]; linarith
  refine ⟨y0, y1, ?_⟩
  have hD : 0 < tanD y := tanD_pos (i := 0) (by simpa using y0.le) (by simpa using y1) y0
  have ht : 0 < tan y := tan_pos_of_pos_of_lt_pi_div_two y0 y1
  have hc : 0 < cos y := cos_pos_of_mem_Ioo ⟨by linarith, y1⟩
  have hcδ : cos y ≤ π / 2 - y := by
    rw [← sin_pi_div_two_sub]
    exact (sin_lt (by linarith)).le
  have hδ' : 0 < π / 2 - y := by linarith
  have haδ : a * (π / 2 - y) = y := by
    have : π / 2 - y = π / 2 / (a + 1) := by rw [ey]; ring
    rw [this, ey]; field_simp; ring
  have h1 : a ≤ (π / 2 - y) * (y / cos y ^ 2) := by
    have h2 : cos y ^ 2 ≤ (π / 2 - y) ^ 2 := pow_le_pow_left₀ hc.le hcδ 2
    rw [← mul_div_assoc, le_div_iff₀ (by positivity)]
    calc a * cos y ^ 2 ≤ a * (π / 2 - y) ^ 2 := by gcongr
      _ = (a * (π / 2 - y)) * (π / 2 - y) := by ring
      _ = (π / 2 - y) * y := by rw [haδ]; ring
  have : -(y * tan y - a) < (π / 2 - y) * tanD y := by
    unfold tanD
    have h3 : 0 < (π / 2 - y) * tan y := mul_pos hδ' ht
    have h4 : 0 < y * tan y := mul_pos y0 ht
    rw [mul_add]
    linarith
  have h5 : -(y * tan y - a) / tanD y < π / 2 - y := by rw [div_lt_iff₀ hD]; exact this
  rw [neg_div] at h5
  linarith

/-! ## x cot x -/

theorem sin_ne' {i : ℕ} {x : ℝ} (h0 : i * π < x) (h1 : x < (i + 1) * π) : sin x ≠ 0 := by
  have h : 0 < sin (x - i * π) := sin_pos_of_pos_of_lt_pi (by linarith) (by linarith)
  rw [sin_sub_nat_mul_pi] at h
  intro h'
  rw [h', mul_zero] at h
  exact lt_irrefl _ h

theorem cotD_pos {x : ℝ} (hx : 0 < x) (h : sin x ≠ 0) : 0 < cotD x := by
  have h1 : cotD x = (x - sin x * cos x) / sin x ^ 2 := by unfold cotD; field_simp
  have h2 : sin (2 * x) < 2 * x := sin_lt (by linarith)
  rw [sin_two_mul] at h2
  rw [h1]
  exact div_pos (by linarith) (by positivity)

theorem cot_deriv (a : ℝ) {x : ℝ} (h : sin x ≠ 0) : HasDerivAt (fun x => -(x * cos x / sin x + a - 1)) (cotD x) x := by
  have h1 := ((((hasDerivAt_id x).mul (hasDerivAt_cos x)).div (hasDerivAt_sin x) h).add_const a).sub_const 1
  have h2 := h1.neg
  refine (h2.congr_deriv ?_).congr_of_eventuallyEq (Filter.Eventually.of_forall fun t => ?_)
  · simp only [id, cotD, Pi.mul_apply]
    have := sin_sq_add_cos_sq x
    field_simp
    linear_combination x * this
  · simp

theorem cotD_deriv {x : ℝ} (h : sin x ≠ 0) : HasDerivAt cotD (2 * (1 - x * cos x / sin x) / sin x ^ 2) x := by
  have h1 := (hasDerivAt_id x).div ((hasDerivAt_sin x).pow 2) (pow_ne_zero 2 h)
  have h2 := (hasDerivAt_cos x).div (hasDerivAt_sin x) h
  refine ((h1.sub h2).congr_deriv ?_).congr_of_eventuallyEq (Filter.Eventually.of_forall fun t => ?_)
  · simp only [id, Pi.pow_apply]
    have := sin_sq_add_cos_sq x
    field_simp
    push_cast
    linear_combination (sin x) ^ 2 * this
  · simp [cotD]

theorem cot_anti {i : ℕ} {x y : ℝ} (h0 : i * π < x) (hxy : x < y) (h1 : y < (i + 1) * π) : y * cos y / sin y < x * cos x / sin x := by
  have hp : (0 : ℝ) ≤ i * π := by positivity
  have hd : ∀ t ∈ Set.Icc x y, HasDerivAt (fun x => -(x * cos x / sin x + 0 - 1)) (cotD t) t := fun t ht =>
    cot_deriv 0 (sin_ne' (h0.trans_le ht.1) (ht.2.trans_lt h1))
  obtain ⟨c, hc, e⟩ := mvt hxy hd
  have := mul_pos (cotD_pos (by linarith [hc.1]) (sin_ne' (h0.trans hc.1) (hc.2.trans h1))) (sub_pos.2 hxy)
  rw [← e] at this
  linarith

theorem cotD_mono {i : ℕ} {q : ℝ} (h0 : i * π < q) (hq : q * cos q / sin q ≤ 1) : MonotoneOn cotD (Set.Ico q ((i + 1) * π)) := by
  have hs : ∀ t ∈ Set.Ico q ((i + 1) * π), sin t ≠ 0 := fun t ht => sin_ne' (h0.trans_le ht.1) ht.2
  refine monotoneOn_of_deriv_nonneg (convex_Ico _ _) (fun t ht => (cotD_deriv (hs t ht)).continuousAt.continuousWithinAt)
    (fun t ht => (cotD_deriv (hs t (interior_subset ht))).differentiableAt.differentiableWithinAt) fun t ht => ?_
  rw [(cotD_deriv (hs t (interior_subset ht))).deriv]
  rw [interior_Ico] at ht
  have := cot_anti h0 ht.1 ht.2
  have h2 : 0 ≤ 1 - t * cos t / sin t := by linarith
  positivity

theorem cot_root (a : ℝ) (ha : 0 < a) (i : ℕ) : ∃ q, i * π < q ∧ q < (i + 1) * π ∧ q * cos q / sin q = 1 - a
    ∧ (1 < a → (i + 1 / 2) * π < q) ∧ (a < 1 → q < (i + 1 / 2) * π) := by
  have hpi := pi_pos
  have hip : (0 : ℝ) ≤ i * π := by positivity
  have cont : ∀ u v : ℝ, ContinuousOn (fun e => (i * π + e) * cos e - (1 - a) * sin e) (Set.Icc u v) := fun u v => by fun_prop
  have conv : ∀ e : ℝ, 0 < e → e < π → (i * π + e) * cos e - (1 - a) * sin e = 0 → (i * π + e) * cos (i * π + e) / sin (i * π + e) = 1 - a := by
    intro e h0 h1 h
    have hs := sin_pos_of_pos_of_lt_pi h0 h1
    rw [add_comm (i * π) e, cos_add_nat_mul_pi, sin_add_nat_mul_pi]
    have : ((-1 : ℝ) ^ i) ≠ 0 := pow_ne_zero _ (by norm_num)
    field_simp
    linarith
  rcases lt_trichotomy a 1 with h | h | h
  · set e0 := arccos (1 - a) with he0
    have e0c : cos e0 = 1 - a := cos_arccos (by linarith) (by linarith)
    have e0p : 0 < e0 := arccos_pos.2 (by linarith)
    have e0l : e0 < π / 2 := arccos_lt_pi_div_two.2 (by linarith)
    obtain ⟨e, he, hz⟩ := intermediate_value_Ioo' e0l.le (cont e0 (π / 2))
      (show (0 : ℝ) ∈ Set.Ioo ((i * π + π / 2) * cos (π / 2) - (1 - a) * sin (π / 2)) ((i * π + e0) * cos e0 - (1 - a) * sin e0) by
        rw [cos_pi_div_two, sin_pi_div_two, e0c]
        refine ⟨by linarith, ?_⟩
        have := sin_lt e0p
        nlinarith)
    exact ⟨i * π + e, by linarith [he.1], by linarith [he.2], conv e (by linarith [he.1]) (by linarith [he.2]) hz, fun h' => by linarith, fun _ => by linarith [he.2]⟩
  · subst h
    have hz := conv (π / 2) (by linarith) (by linarith) (by rw [cos_pi_div_two]; ring)
    exact ⟨i * π + π / 2, by linarith, by linarith, hz, fun h' => absurd h' (lt_irrefl _), fun h' => absurd h' (lt_irrefl _)⟩
  · obtain ⟨e, he, hz⟩ := intermediate_value_Ioo' (by linarith : π / 2 ≤ π) (cont (π / 2) π)
      (show (0 : ℝ) ∈ Set.Ioo ((i * π + π) * cos π - (1 - a) * sin π) ((i * π + π / 2) * cos (π / 2) - (1 - a) * sin (π / 2)) by
        rw [cos_pi_div_two, sin_pi_div_two, cos_pi, sin_pi]
        exact ⟨by linarith, by linarith⟩)
    exact ⟨i * π + e, by linarith [he.1], by linarith [he.2], conv e (by linarith [he.1]) (by linarith [he.2]) hz, fun _ => by linarith [he.1], fun h' => by linarith⟩

end Verif.SpecialRoots
