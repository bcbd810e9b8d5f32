import Verif.Model.Psat
import Verif.Spec.Psat
import Verif.Lemmas.Eos
import Mathlib.Analysis.Calculus.Deriv.MeanValue
import Mathlib.Analysis.Complex.ExponentialBounds
import Mathlib.MeasureTheory.Integral.IntervalIntegral.FundThmCalculus

/-! Helper lemmas on the isotherms of the cubic equations of state and their equal-area construction. -/

namespace Verif.Psat

open Verif.Eos Spec MeasureTheory

/-- An isotherm. -/
noncomputable def iso (k : Kind) (RT a b v : ℝ) : ℝ := RT / (v - b) - a / (v ^ 2 + k.u * v * b + k.w * b ^ 2)

/-- `(2 v + u b) (v - b)² / D²`. -/
noncomputable def qq (k : Kind) (b v : ℝ) : ℝ := (2 * v + k.u * b) * (v - b) ^ 2 / (v ^ 2 + k.u * v * b + k.w * b ^ 2) ^ 2

/-- The numerator of the derivative of `qq`. -/
noncomputable def hh (k : Kind) (b v : ℝ) : ℝ := -v ^ 3 + 3 * b * v ^ 2 + 3 * b ^ 2 * v + (1 - 2 * k.w) * b ^ 3

theorem den_deriv (k : Kind) (b v : ℝ) : HasDerivAt (fun v => v ^ 2 + k.u * v * b + k.w * b ^ 2) (2 * v + k.u * b) v := by
  have h1 : HasDerivAt (fun v : ℝ => v ^ 2) (2 * v) v := by simpa using hasDerivAt_pow 2 v
  have h2 : HasDerivAt (fun v : ℝ => k.u * v * b) (k.u * b) v := by
    simpa using ((hasDerivAt_id v).const_mul k.u).mul_const b
  exact (h1.add h2).add_const _

theorem iso_deriv (k : Kind) (RT a : ℝ) {b v : ℝ} (hb : 0 < b) (hv : b < v) :
    HasDerivAt (iso k RT a b) ((a * qq k b v - RT) / (v - b) ^ 2) v := by
  have hD := k.den_pos hb hv
  have hvb : v - b ≠ 0 := (sub_pos.2 hv).ne'
  have h1 : HasDerivAt (fun v : ℝ => RT / (v - b)) (-RT / (v - b) ^ 2) v := by
    refine (((hasDerivAt_const v RT).div ((hasDerivAt_id v).sub_const b) hvb)).congr_deriv ?_
    simp
  have h2 := ((hasDerivAt_const v a).div (den_deriv k b v) hD.ne')
  refine (h1.sub h2).congr_deriv ?_
  unfold qq
  field_simp
  ring

theorem qq_deriv (k : Kind) {b v : ℝ} (hb : 0 < b) (hv : b < v) :
    HasDerivAt (qq k b) (2 * (v - b) * hh k b v / (v ^ 2 + k.u * v * b + k.w * b ^ 2) ^ 3) v := by
  have hD := k.den_pos hb hv
  have h1 : HasDerivAt (fun v : ℝ => (2 * v + k.u * b) * (v - b) ^ 2) (2 * (v - b) ^ 2 + (2 * v + k.u * b) * (2 * (v - b))) v := by
    have a1 : HasDerivAt (fun v : ℝ => 2 * v + k.u * b) 2 v := by simpa using ((hasDerivAt_id v).const_mul 2).add_const (k.u * b)
    have a2 : HasDerivAt (fun v : ℝ => (v - b) ^ 2) (2 * (v - b)) v := (((hasDerivAt_id v).sub_const b).fun_pow 2).congr_deriv (by simp)
    exact a1.mul a2
  have h2 : HasDerivAt (fun v : ℝ => (v ^ 2 + k.u * v * b + k.w * b ^ 2) ^ 2) (2 * (v ^ 2 + k.u * v * b + k.w * b ^ 2) * (2 * v + k.u * b)) v := by
    exact ((den_deriv k b v).fun_pow 2).congr_deriv (by simp)
  refine (h1.div h2 (pow_ne_zero 2 hD.ne')).congr_deriv ?_
  rw [div_eq_div_iff (by positivity) (by positivity)]
  unfold hh
  cases k <;> simp only [Kind.u, Kind.w] <;> ring

/-- Once nonnegative at a point, `hh` is positive before it. -/
theorem hh_pos (k : Kind) {b v v' : ℝ} (hb : 0 < b) (h0 : 0 < v') (h1 : v' < v) (h : 0 ≤ hh k b v) : 0 < hh k b v' := by
  have hw : 0 < 1 - 2 * k.w := by cases k <;> norm_num [Kind.w]
  have hv : 0 < v := h0.trans h1
  have key : hh k b v' * v ^ 3 - hh k b v * v' ^ 3 = (v - v') * (3 * b * v ^ 2 * v' ^ 2 + 3 * b ^ 2 * v * v' * (v + v') +
      (1 - 2 * k.w) * b ^ 3 * (v ^ 2 + v * v' + v' ^ 2)) := by
    unfold hh; ring
  have h2 : 0 < (v - v') * (3 * b * v ^ 2 * v' ^ 2 + 3 * b ^ 2 * v * v' * (v + v') + (1 - 2 * k.w) * b ^ 3 * (v ^ 2 + v * v' + v' ^ 2)) := by
    have := sub_pos.2 h1
    positivity
  have h3 : 0 ≤ hh k b v * v' ^ 3 := by positivity
  have h4 : 0 < hh k b v' * v ^ 3 := by linarith
  exact pos_of_mul_pos_left h4 (by positivity)

/-- `qq` is strictly quasi-concave beyond the co-volume. -/
theorem qq_concave (k : Kind) {b x c y : ℝ} (hb : 0 < b) (hx : b < x) (hxc : x < c) (hcy : c < y) : min (qq k b x) (qq k b y) < qq k b c := by
  have hcont : ContinuousOn (qq k b) (Set.Ioi b) := fun v hv => (qq_deriv k hb hv).continuousAt.continuousWithinAt
  rcases le_or_gt 0 (hh k b c) with h | h
  · refine min_lt_of_left_lt ?_
    have : StrictMonoOn (qq k b) (Set.Icc x c) := by
      refine strictMonoOn_of_deriv_pos (convex_Icc x c) (hcont.mono fun v hv => hx.trans_le hv.1) ?_
      intro v hv
      rw [interior_Icc] at hv
      have hbv : b < v := hx.trans hv.1
      rw [(qq_deriv k hb hbv).deriv]
      have := hh_pos k hb (hb.trans hbv) hv.2 h
      have := k.den_pos hb hbv
      have := sub_pos.2 hbv
      positivity
    exact this ⟨le_rfl, hxc.le⟩ ⟨hxc.le, le_rfl⟩ hxc
  · refine min_lt_of_right_lt ?_
    have : StrictAntiOn (qq k b) (Set.Icc c y) := by
      refine strictAntiOn_of_deriv_neg (convex_Icc c y) (hcont.mono fun v hv => (hx.trans hxc).trans_le hv.1) ?_
      intro v hv
      rw [interior_Icc] at hv
      have hbv : b < v := (hx.trans hxc).trans hv.1
      rw [(qq_deriv k hb hbv).deriv]
      have h1 : hh k b v < 0 := by
        by_contra hc
        exact absurd (hh_pos k hb (hb.trans (hx.trans hxc)) hv.1 (not_lt.1 hc)) (not_lt.2 h.le)
      have := k.den_pos hb hbv
      have := sub_pos.2 hbv
      have h2 : 2 * (v - b) * hh k b v < 0 := mul_neg_of_pos_of_neg (by positivity) h1
      exact div_neg_of_neg_of_pos h2 (by positivity)
    exact this ⟨le_rfl, hcy.le⟩ ⟨hcy.le, le_rfl⟩ hcy

section
variable (k : Kind) {RT a b : ℝ} (hb : 0 < b) (ha : 0 < a)
include hb ha

theorem iso_cont : ContinuousOn (iso k RT a b) (Set.Ioi b) := fun _ hv => (iso_deriv k RT a hb hv).continuousAt.continuousWithinAt

/-- Between two points where the isotherm does not fall it rises strictly. -/
theorem iso_rise {x y : ℝ} (hx : b < x) (h1 : RT ≤ a * qq k b x) (h2 : RT ≤ a * qq k b y) : StrictMonoOn (iso k RT a b) (Set.Icc x y) := by
  refine strictMonoOn_of_deriv_pos (convex_Icc x y) ((iso_cont k hb ha).mono fun v hv => hx.trans_le hv.1) ?_
  intro v hv
  rw [interior_Icc] at hv
  have hbv := hx.trans hv.1
  rw [(iso_deriv k RT a hb hbv).deriv]
  have h3 := qq_concave k hb hx hv.1 hv.2
  have h4 : RT / a ≤ min (qq k b x) (qq k b y) := le_min (by rw [div_le_iff₀ ha]; linarith) (by rw [div_le_iff₀ ha]; linarith)
  have h5 : RT < a * qq k b v := by
    have := h4.trans_lt h3
    rw [div_lt_iff₀ ha] at this; linarith
  have := sub_pos.2 hbv
  exact div_pos (by linarith) (by positivity)

/-- Mean value theorem, in the form used here. -/
theorem iso_mvt {x y : ℝ} (hx : b < x) (hxy : x < y) (h : iso k RT a b x ≤ iso k RT a b y) : ∃ c, x < c ∧ c < y ∧ RT ≤ a * qq k b c := by
  obtain ⟨c, hc, h1⟩ := exists_hasDerivAt_eq_slope (iso k RT a b) (fun v => (a * qq k b v - RT) / (v - b) ^ 2) hxy
    ((iso_cont k hb ha).mono fun v hv => hx.trans_le hv.1) fun v hv => iso_deriv k RT a hb (hx.trans hv.1)
  refine ⟨c, hc.1, hc.2, ?_⟩
  have h2 : 0 ≤ (a * qq k b c - RT) / (c - b) ^ 2 := by
    rw [h1]; exact div_nonneg (by linarith) (by linarith)
  have h3 : 0 < (c - b) ^ 2 := by
    have := sub_pos.2 (hx.trans hc.1); positivity
  have h4 : 0 ≤ (a * qq k b c - RT) / (c - b) ^ 2 * (c - b) ^ 2 := mul_nonneg h2 h3.le
  rw [div_mul_cancel₀ _ h3.ne'] at h4
  linarith

/-- Where the derivative is negative up to `x` (from `x` on) the isotherm falls strictly. -/
theorem iso_fall {s : Set ℝ} (hs : Convex ℝ s) (hsb : ∀ v ∈ s, b < v) (h : ∀ v ∈ interior s, a * qq k b v < RT) : StrictAntiOn (iso k RT a b) s := by
  refine strictAntiOn_of_deriv_neg hs ((iso_cont k hb ha).mono fun v hv => hsb v hv) ?_
  intro v hv
  have hbv := hsb v (interior_subset hv)
  rw [(iso_deriv k RT a hb hbv).deriv]
  have := h v hv
  have := sub_pos.2 hbv
  exact div_neg_of_neg_of_pos (by linarith) (by positivity)

/-- If the two volumes are not the ends of a sub-critical loop, the isotherm stays strictly on one side between them. -/
theorem above_of_left {P x vL vV : ℝ} (hx : b < x) (hxL : x < vL) (hL : iso k RT a b vL = P) (hV : iso k RT a b vV = P)
    (hq : RT ≤ a * qq k b x) : ∀ y, vL < y → y < vV → P < iso k RT a b y := by
  intro y h1 h2
  by_contra hc
  obtain ⟨c, hc1, hc2, hc3⟩ := iso_mvt k hb ha (hx.trans (hxL.trans h1)) h2 (by rw [hV]; exact not_lt.1 hc)
  have := iso_rise k hb ha hx hq hc3 ⟨hxL.le, (h1.trans hc1).le⟩ ⟨(hxL.trans h1).le, hc1.le⟩ h1
  rw [hL] at this; linarith

theorem below_of_right {P x vL vV : ℝ} (hbL : b < vL) (hxV : vV < x) (hL : iso k RT a b vL = P) (hV : iso k RT a b vV = P)
    (hq : RT ≤ a * qq k b x) : ∀ y, vL < y → y < vV → iso k RT a b y < P := by
  intro y h1 h2
  by_contra hc
  obtain ⟨c, hc1, hc2, hc3⟩ := iso_mvt k hb ha hbL h1 (by rw [hL]; exact not_lt.1 hc)
  have := iso_rise k hb ha (hbL.trans hc1) hc3 hq ⟨hc2.le, (h2.trans hxV).le⟩ ⟨(hc2.trans h2).le, hxV.le⟩ h2
  rw [hV] at this; linarith

/-- The isotherm is unbounded near the co-volume. -/
theorem iso_near (hRT : 0 < RT) (P : ℝ) {x : ℝ} (hx : b < x) : ∃ v, b < v ∧ v < x ∧ P < iso k RT a b v := by
  have hm : 0 < (1 + k.u + k.w) * b ^ 2 := mul_pos k.sum_pos (by positivity)
  set m := (1 + k.u + k.w) * b ^ 2 with hmd
  set δ := min ((x - b) / 2) (RT / (|P| + a / m + 1)) with hδ
  have hden : 0 < |P| + a / m + 1 := by positivity
  have hδ0 : 0 < δ := lt_min (by linarith) (by positivity)
  refine ⟨b + δ, by linarith, ?_, ?_⟩
  · have : δ ≤ (x - b) / 2 := min_le_left _ _
    linarith
  · unfold iso
    have h1 : |P| + a / m + 1 ≤ RT / (b + δ - b) := by
      rw [add_sub_cancel_left, le_div_iff₀ hδ0, ← le_div_iff₀' hden]
      exact min_le_right _ _
    have h2 : m ≤ (b + δ) ^ 2 + k.u * (b + δ) * b + k.w * b ^ 2 := by
      have := k.u_pos
      have h3 : (b + δ) ^ 2 + k.u * (b + δ) * b + k.w * b ^ 2 - m = 2 * b * δ + δ ^ 2 + k.u * δ * b := by rw [hmd]; ring
      have : 0 ≤ 2 * b * δ + δ ^ 2 + k.u * δ * b := by positivity
      linarith
    have h3 : a / ((b + δ) ^ 2 + k.u * (b + δ) * b + k.w * b ^ 2) ≤ a / m := div_le_div_of_nonneg_left ha.le hm h2
    have := le_abs_self P
    linarith

/-- The isotherm vanishes at large volumes. -/
theorem iso_far (hRT : 0 < RT) {P : ℝ} (hP : 0 < P) (x : ℝ) : ∃ v, b < v ∧ x < v ∧ iso k RT a b v < P := by
  refine ⟨max (x + 1) (b + RT / P), lt_max_of_lt_right (by linarith [div_pos hRT hP]), lt_max_of_lt_left (by linarith), ?_⟩
  set v := max (x + 1) (b + RT / P) with hv
  have hvb : RT / P ≤ v - b := by have := le_max_right (x + 1) (b + RT / P); rw [← hv] at this; linarith
  have h0 : 0 < RT / P := div_pos hRT hP
  have hbv : b < v := by linarith
  have hD := k.den_pos hb hbv
  unfold iso
  have h1 : RT / (v - b) ≤ P := by
    rw [div_le_iff₀ (by linarith)]
    rw [div_le_iff₀ hP] at hvb
    linarith
  have := div_pos ha hD
  linarith

/-- The isotherm falls strictly up to `vL` and from `vV` on. -/
structure Falls (p : ℝ → ℝ) (b P vL vV : ℝ) : Prop where
  gt : b < vL
  lt : vL < vV
  atL : p vL = P
  atV : p vV = P
  left : StrictAntiOn p (Set.Ioc b vL)
  right : StrictAntiOn p (Set.Ici vV)

theorem falls_of_extreme (hRT : 0 < RT) {P vL vV : ℝ} (hP : 0 < P) (h : Extreme (iso k RT a b) b P vL vV) : Falls (iso k RT a b) b P vL vV := by
  obtain ⟨h1, h2, h3, h4, h5⟩ := h
  obtain ⟨c, hc1, hc2, hc3⟩ := iso_mvt k hb ha h1 h2 (by rw [h3, h4])
  refine ⟨h1, h2, h3, h4, iso_fall k hb ha (convex_Ioc _ _) (fun v hv => hv.1) ?_, iso_fall k hb ha (convex_Ici _) (fun v hv => h1.trans (h2.trans_le hv)) ?_⟩
  · intro x hx
    rw [interior_Ioc] at hx
    by_contra hq
    rw [not_lt] at hq
    have hr := iso_rise k hb ha hx.1 hq hc3 ⟨le_rfl, (hx.2.trans hc1).le⟩ ⟨hx.2.le, hc1.le⟩ hx.2
    rw [h3] at hr
    obtain ⟨v, hv1, hv2, hv3⟩ := iso_near k hb ha hRT P hx.1
    obtain ⟨y, hy, hy0⟩ := intermediate_value_Icc' hv2.le ((iso_cont k hb ha).mono fun w hw => hv1.trans_le hw.1) ⟨hr.le, hv3.le⟩
    have := (h5 y (hv1.trans_le hy.1) hy0).1
    linarith [hy.2, hx.2]
  · intro x hx
    rw [interior_Ici] at hx
    by_contra hq
    rw [not_lt] at hq
    have hr := iso_rise k hb ha (h1.trans hc1) hc3 hq ⟨hc2.le, (le_of_lt hx)⟩ ⟨(hc2.trans hx).le, le_rfl⟩ hx
    rw [h4] at hr
    obtain ⟨v, hv1, hv2, hv3⟩ := iso_far k hb ha hRT hP x
    obtain ⟨y, hy, hy0⟩ := intermediate_value_Icc' hv2.le
      ((iso_cont k hb ha).mono fun w hw => (h1.trans h2).trans (hx.trans_le hw.1)) ⟨hv3.le, hr.le⟩
    have := (h5 y ((h1.trans h2).trans (hx.trans_le hy.1)) hy0).2
    have hx' : vV < x := hx
    linarith [hy.1]

theorem falls_of_coexist {P vL vV : ℝ} (h : Coexist (iso k RT a b) b P vL vV) : Falls (iso k RT a b) b P vL vV := by
  obtain ⟨h1, h2, h3, h4, h5⟩ := h
  have hint : IntervalIntegrable (fun v => iso k RT a b v - P) volume vL vV := by
    refine ContinuousOn.intervalIntegrable ?_
    rw [Set.uIcc_of_le h2.le]
    exact ((iso_cont k hb ha).mono fun v hv => h1.trans_le hv.1).sub continuousOn_const
  refine ⟨h1, h2, h3, h4, iso_fall k hb ha (convex_Ioc _ _) (fun v hv => hv.1) ?_, iso_fall k hb ha (convex_Ici _) (fun v hv => h1.trans (h2.trans_le hv)) ?_⟩
  · intro x hx
    rw [interior_Ioc] at hx
    by_contra hq
    have := above_of_left k hb ha hx.1 hx.2 h3 h4 (not_lt.1 hq)
    have := intervalIntegral.intervalIntegral_pos_of_pos_on hint (fun v hv => sub_pos.2 (this v hv.1 hv.2)) h2
    rw [area] at h5; linarith
  · intro x hx
    rw [interior_Ici] at hx
    by_contra hq
    have := below_of_right k hb ha h1 hx h3 h4 (not_lt.1 hq)
    have := intervalIntegral.intervalIntegral_pos_of_pos_on hint.neg (fun v hv => neg_pos.2 (sub_neg.2 (this v hv.1 hv.2))) h2
    rw [area] at h5
    simp only [Pi.neg_apply, intervalIntegral.integral_neg] at this
    linarith

/-- The area between the isotherm and the line falls with the pressure, at a rate of at least the distance between the volumes. -/
theorem area_mono {P1 P2 vL1 vV1 vL2 vV2 : ℝ} (hP : P1 < P2) (h1 : Falls (iso k RT a b) b P1 vL1 vV1) (h2 : Falls (iso k RT a b) b P2 vL2 vV2) :
    vL2 < vL1 ∧ vL1 < vV2 ∧ vV2 < vV1 ∧
      area (iso k RT a b) P2 vL2 vV2 + (P2 - P1) * (vV2 - vL1) ≤ area (iso k RT a b) P1 vL1 vV1 := by
  have hL : vL2 < vL1 := by
    by_contra hc
    rw [not_lt] at hc
    have := h2.left.antitoneOn ⟨h1.gt, hc⟩ ⟨h2.gt, le_rfl⟩ hc
    rw [h1.atL, h2.atL] at this; linarith
  have hV : vV2 < vV1 := by
    by_contra hc
    rw [not_lt] at hc
    have := h1.right.antitoneOn (Set.mem_Ici.2 le_rfl) (Set.mem_Ici.2 hc) hc
    rw [h1.atV, h2.atV] at this; linarith
  have hM : vL1 < vV2 := by
    by_contra hc
    rw [not_lt] at hc
    have := h1.left ⟨h2.gt, hL.le⟩ ⟨h2.gt.trans h2.lt, hc⟩ h2.lt
    rw [h2.atL, h2.atV] at this; exact lt_irrefl _ this
  refine ⟨hL, hM, hV, ?_⟩
  have hint : ∀ c x y, b < x → b < y → IntervalIntegrable (fun v => iso k RT a b v - c) volume x y := by
    intro c x y hx hy
    refine ContinuousOn.intervalIntegrable ?_
    refine ((iso_cont k hb ha).mono fun v hv => ?_).sub continuousOn_const
    exact (lt_min hx hy).trans_le hv.1
  have e1 : area (iso k RT a b) P1 vL1 vV1 = (∫ v in vL1..vV2, (iso k RT a b v - P1)) + ∫ v in vV2..vV1, (iso k RT a b v - P1) :=
    (intervalIntegral.integral_add_adjacent_intervals (hint _ _ _ h1.gt (h1.gt.trans hM)) (hint _ _ _ (h1.gt.trans hM) (h1.gt.trans h1.lt))).symm
  have e2 : area (iso k RT a b) P2 vL2 vV2 = (∫ v in vL2..vL1, (iso k RT a b v - P2)) + ∫ v in vL1..vV2, (iso k RT a b v - P2) :=
    (intervalIntegral.integral_add_adjacent_intervals (hint _ _ _ h2.gt h1.gt) (hint _ _ _ h1.gt (h1.gt.trans hM))).symm
  have e3 : ∫ v in vL1..vV2, (iso k RT a b v - P1) = (∫ v in vL1..vV2, (iso k RT a b v - P2)) + (P2 - P1) * (vV2 - vL1) := by
    have : ∫ v in vL1..vV2, (P2 - P1) = (vV2 - vL1) * (P2 - P1) := by rw [intervalIntegral.integral_const, smul_eq_mul]
    rw [mul_comm (P2 - P1), ← this, ← intervalIntegral.integral_add (hint _ _ _ h1.gt (h1.gt.trans hM)) intervalIntegrable_const]
    congr 1; ext v; ring
  have i1 : 0 ≤ ∫ v in vV2..vV1, (iso k RT a b v - P1) := by
    refine intervalIntegral.integral_nonneg hV.le fun v hv => ?_
    have := h2.right.antitoneOn (Set.mem_Ici.2 hv.1) (Set.mem_Ici.2 hV.le) hv.2
    rw [h1.atV] at this; linarith
  have i2 : ∫ v in vL2..vL1, (iso k RT a b v - P2) ≤ 0 := by
    have : 0 ≤ ∫ v in vL2..vL1, -(iso k RT a b v - P2) := by
      refine intervalIntegral.integral_nonneg hL.le fun v hv => ?_
      have := h1.left.antitoneOn ⟨h2.gt, hL.le⟩ ⟨h2.gt.trans_le hv.1, hv.2⟩ hv.1
      rw [h2.atL] at this; linarith
    rw [intervalIntegral.integral_neg] at this; linarith
  rw [e1, e2, e3]; linarith

end

end Verif.Psat

namespace Verif.Psat

open Verif.Eos Spec MeasureTheory

/-! ### One root only -/

/-- A monic cubic, negative at `B`, whose roots sum to at most `3 B`, has no complex root with real part above `B`, and only one real root above `B`. -/
theorem single_root {c2 c1 c0 B : ℝ} (hneg : cub c2 c1 c0 B < 0) (hsum : -c2 ≤ 3 * B) {x y x' y' : ℝ} (hx : B < x) (hx' : B < x')
    (h : ((x : ℂ) + y * Complex.I) ^ 3 + c2 * ((x : ℂ) + y * Complex.I) ^ 2 + c1 * ((x : ℂ) + y * Complex.I) + c0 = 0)
    (h' : ((x' : ℂ) + y' * Complex.I) ^ 3 + c2 * ((x' : ℂ) + y' * Complex.I) ^ 2 + c1 * ((x' : ℂ) + y' * Complex.I) + c0 = 0) : x = x' := by
  have key : ∀ x y : ℝ, B < x → ((x : ℂ) + y * Complex.I) ^ 3 + c2 * ((x : ℂ) + y * Complex.I) ^ 2 + c1 * ((x : ℂ) + y * Complex.I) + c0 = 0 →
      y = 0 ∧ cub c2 c1 c0 x = 0 := by
    intro x y hx h
    have hre := congrArg Complex.re h
    have him := congrArg Complex.im h
    simp [pow_succ] at hre him
    have hy : y = 0 := by
      by_contra hy
      have e1 : 3 * x ^ 2 - y ^ 2 + 2 * c2 * x + c1 = 0 := by
        have : y * (3 * x ^ 2 - y ^ 2 + 2 * c2 * x + c1) = 0 := by linarith
        exact (mul_eq_zero.1 this).resolve_left hy
      have e2 : cub c2 c1 c0 B = (B - (-c2 - 2 * x)) * ((B - x) ^ 2 + y ^ 2) := by
        have hc1 : c1 = y ^ 2 - 3 * x ^ 2 - 2 * c2 * x := by linarith
        have hc0 : c0 = -(x ^ 3 - 3 * x * y ^ 2 + c2 * (x ^ 2 - y ^ 2) + c1 * x) := by linarith
        rw [cub, hc0, hc1]; ring
      have h1 : 0 < (B - x) ^ 2 + y ^ 2 := by positivity
      rw [e2] at hneg
      have := neg_of_mul_neg_left hneg h1.le
      linarith
    refine ⟨hy, ?_⟩
    rw [hy] at hre
    unfold cub
    linarith
  obtain ⟨-, h1⟩ := key x y hx h
  obtain ⟨-, h2⟩ := key x' y' hx' h'
  by_contra hne
  have e1 : x ^ 2 + x * x' + x' ^ 2 + c2 * (x + x') + c1 = 0 := by
    have : (x - x') * (x ^ 2 + x * x' + x' ^ 2 + c2 * (x + x') + c1) = 0 := by unfold cub at h1 h2; linarith
    exact (mul_eq_zero.1 this).resolve_left (sub_ne_zero.2 hne)
  have e2 : cub c2 c1 c0 B = (B - x) * (B - x') * (B - (-c2 - x - x')) := by
    have hc1 : c1 = -(x ^ 2 + x * x' + x' ^ 2 + c2 * (x + x')) := by linarith
    have hc0 : c0 = -(x ^ 3 + c2 * x ^ 2 + c1 * x) := by unfold cub at h1; linarith
    rw [cub, hc0, hc1]; ring
  rw [e2] at hneg
  have h3 : 0 < (B - x) * (B - x') := mul_pos_of_neg_of_neg (by linarith) (by linarith)
  have := neg_of_mul_neg_right hneg h3.le
  linarith

/-- A real cubic with two different real roots has only real roots. -/
theorem real_of_two_roots {c2 c1 c0 r s x y : ℝ} (hr : cub c2 c1 c0 r = 0) (hs : cub c2 c1 c0 s = 0) (hrs : r ≠ s)
    (h : ((x : ℂ) + y * Complex.I) ^ 3 + c2 * ((x : ℂ) + y * Complex.I) ^ 2 + c1 * ((x : ℂ) + y * Complex.I) + c0 = 0) : y = 0 := by
  have hre := congrArg Complex.re h
  have him := congrArg Complex.im h
  simp [pow_succ] at hre him
  by_contra hy
  have e1 : 3 * x ^ 2 - y ^ 2 + 2 * c2 * x + c1 = 0 := by
    have : y * (3 * x ^ 2 - y ^ 2 + 2 * c2 * x + c1) = 0 := by linarith
    exact (mul_eq_zero.1 this).resolve_left hy
  have key : ∀ t, cub c2 c1 c0 t = 0 → t = -c2 - 2 * x := by
    intro t ht
    have e2 : cub c2 c1 c0 t = (t - (-c2 - 2 * x)) * ((t - x) ^ 2 + y ^ 2) := by
      have hc1 : c1 = y ^ 2 - 3 * x ^ 2 - 2 * c2 * x := by linarith
      have hc0 : c0 = -(x ^ 3 - 3 * x * y ^ 2 + c2 * (x ^ 2 - y ^ 2) + c1 * x) := by linarith
      rw [cub, hc0, hc1]; ring
    rw [e2] at ht
    have h1 : 0 < (t - x) ^ 2 + y ^ 2 := by positivity
    have := (mul_eq_zero.1 ht).resolve_right h1.ne'
    linarith
  exact hrs ((key r hr).trans (key s hs).symm)

/-! ### A coexisting pair -/

/-- On the isotherm `1/(v - 1) - a/(v (v + 1))` through the volumes `2` and `v` at equal pressure. -/
noncomputable def exA (v : ℝ) : ℝ := 6 * v * (v + 1) / ((v - 1) * (v + 3))
noncomputable def exP (v : ℝ) : ℝ := (v - 3) / ((v - 1) * (v + 3))
noncomputable def exF (v : ℝ) : ℝ := Real.log (v - 1) - exA v * Real.log (3 * v / (2 * (v + 1))) - exP v * (v - 2)

theorem exF_seven : exF 7 < 0 := by
  have h : exF 7 = Real.log 6 - 28 / 5 * Real.log (21 / 16) - 1 / 3 := by norm_num [exF, exA, exP]
  rw [h]
  have h1 : Real.log (6 ^ 5) < Real.log ((21 / 16) ^ 28) + 5 / 3 := by
    have h2 : (1 : ℝ) + 5 / 3 + (5 / 3) ^ 2 / 2 ≤ Real.exp (5 / 3) := Real.quadratic_le_exp_of_nonneg (by norm_num)
    have h3 : (6 : ℝ) ^ 5 < (21 / 16) ^ 28 * Real.exp (5 / 3) :=
      lt_of_lt_of_le (by norm_num) (mul_le_mul_of_nonneg_left h2 (by positivity))
    have h4 := Real.log_lt_log (by positivity) h3
    rwa [Real.log_mul (by positivity) (Real.exp_pos _).ne', Real.log_exp] at h4
  rw [Real.log_pow, Real.log_pow] at h1
  push_cast at h1
  linarith

theorem exF_seventeen : 0 < exF 17 := by
  have h : exF 17 = Real.log 16 - 459 / 80 * Real.log (17 / 12) - 21 / 32 := by norm_num [exF, exA, exP]
  rw [h]
  have h1 : 2 * Real.log (17 / 12) = Real.log 2 + Real.log (289 / 288) := by
    rw [← Real.log_mul (by norm_num) (by norm_num)]
    have : (2 : ℝ) * (289 / 288) = (17 / 12) ^ 2 := by norm_num
    rw [this, Real.log_pow]; norm_num
  have h2 : Real.log (289 / 288) ≤ 289 / 288 - 1 := Real.log_le_sub_one_of_pos (by norm_num)
  have h3 : Real.log 16 = 4 * Real.log 2 := by
    rw [show (16 : ℝ) = 2 ^ 4 by norm_num, Real.log_pow]; norm_num
  have := Real.log_two_gt_d9
  rw [h3]
  linarith

theorem exists_coexist : ∃ a P v : ℝ, 5 < a ∧ a < 6 ∧ 0 < P ∧ Coexist (iso .RK 1 a 1) 1 P 2 v := by
  have hc : ContinuousOn exF (Set.Icc 7 17) := by
    unfold exF exA exP
    have h1 : ∀ v ∈ Set.Icc (7 : ℝ) 17, (v - 1) * (v + 3) ≠ 0 := fun v hv => by
      have : 0 < (v - 1) * (v + 3) := mul_pos (by linarith [hv.1]) (by linarith [hv.1])
      exact this.ne'
    have h2 : ∀ v ∈ Set.Icc (7 : ℝ) 17, v - 1 ≠ 0 := fun v hv => by linarith [hv.1]
    have h3 : ∀ v ∈ Set.Icc (7 : ℝ) 17, 2 * (v + 1) ≠ 0 := fun v hv => by linarith [hv.1]
    have h4 : ∀ v ∈ Set.Icc (7 : ℝ) 17, 3 * v / (2 * (v + 1)) ≠ 0 := fun v hv =>
      (div_pos (by linarith [hv.1]) (by linarith [hv.1])).ne'
    refine ContinuousOn.sub (ContinuousOn.sub (ContinuousOn.log (by fun_prop) h2) (ContinuousOn.mul (ContinuousOn.div (by fun_prop) (by fun_prop) h1)
      (ContinuousOn.log (ContinuousOn.div (by fun_prop) (by fun_prop) h3) h4))) (ContinuousOn.mul (ContinuousOn.div (by fun_prop) (by fun_prop) h1) (by fun_prop))
  obtain ⟨v, hv, hF⟩ := intermediate_value_Icc (by norm_num) hc ⟨exF_seven.le, exF_seventeen.le⟩
  have hv1 : 0 < v - 1 := by linarith [hv.1]
  have hv3 : 0 < v + 3 := by linarith [hv.1]
  have hv0 : 0 < v := by linarith [hv.1]
  refine ⟨exA v, exP v, v, ?_, ?_, ?_, by norm_num, by linarith [hv.1], ?_, ?_, ?_⟩
  · rw [exA, lt_div_iff₀ (by positivity)]; nlinarith [hv.1]
  · rw [exA, div_lt_iff₀ (by positivity)]; nlinarith [hv.1]
  · exact div_pos (by linarith [hv.1]) (by positivity)
  · simp only [iso, exA, exP, Kind.u, Kind.w]; field_simp; ring
  · simp only [iso, exA, exP, Kind.u, Kind.w]
    have : v ^ 2 + 1 * v * 1 + 0 * 1 ^ 2 = v * (v + 1) := by ring
    rw [this]; field_simp; ring
  · rw [area]
    have hd : ∀ x ∈ Set.uIcc 2 v, HasDerivAt (fun x => Real.log (x - 1) - exA v * (Real.log x - Real.log (x + 1)) - exP v * x) (iso .RK 1 (exA v) 1 x - exP v) x := by
      intro x hx
      rw [Set.uIcc_of_le (by linarith [hv.1])] at hx
      have x0 : x ≠ 0 := by linarith [hx.1]
      have x1 : x - 1 ≠ 0 := by linarith [hx.1]
      have x2 : x + 1 ≠ 0 := by linarith [hx.1]
      have a1 := ((hasDerivAt_id x).sub_const 1).log x1
      have a2 := (((hasDerivAt_id x).log x0).sub (((hasDerivAt_id x).add_const 1).log x2)).const_mul (exA v)
      have a3 := (hasDerivAt_id x).const_mul (exP v)
      refine ((a1.sub a2).sub a3).congr_deriv ?_
      simp only [iso, Kind.u, Kind.w, id]
      have : x ^ 2 + 1 * x * 1 + 0 * 1 ^ 2 = x * (x + 1) := by ring
      rw [this]; field_simp; ring
    rw [intervalIntegral.integral_eq_sub_of_hasDerivAt hd]
    · unfold exF at hF
      rw [Real.log_div (by positivity) (by positivity), Real.log_mul (by norm_num) hv0.ne', Real.log_mul (by norm_num) (by positivity)] at hF
      have : Real.log (2 - 1) = 0 := by norm_num
      rw [this, show (2 : ℝ) + 1 = 3 by norm_num]
      linarith
    · refine ContinuousOn.intervalIntegrable ?_
      refine ((iso_cont .RK one_pos ?_).mono fun w hw => ?_).sub continuousOn_const
      · exact div_pos (by positivity) (by positivity)
      · rw [Set.uIcc_of_le (by linarith [hv.1])] at hw
        exact lt_of_lt_of_le (by norm_num) hw.1

end Verif.Psat
