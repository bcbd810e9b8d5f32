import Verif.Model.DataDist
import Mathlib.Analysis.SpecialFunctions.Integrals.Basic
import Mathlib.MeasureTheory.Integral.IntervalIntegral.FundThmCalculus
import Mathlib.Data.List.Pairwise

/-! # Helper lemmas for `datadistribution.py` -/

namespace Verif.DataDist

open Verif.Dist MeasureTheory Set

/-- What the constructor guarantees, plus continuity of the spline. -/
structure Good (D : Obj) : Prop where
  one_le : 1 ≤ first D
  lt : first D < last D
  cont : ContinuousOn D.spl (Icc (first D) (last D))

/-- Weight of the moment of the given order. -/
noncomputable def w (D : Obj) (k : ℕ) (x : ℝ) : ℝ := x ^ ((k : ℤ) - D.order) * D.spl x

theorem Good.pos {D : Obj} (h : Good D) {x : ℝ} (hx : x ∈ Icc (first D) (last D)) : 0 < x := lt_of_lt_of_le one_pos (h.one_le.trans hx.1)

theorem w_cont {D : Obj} (h : Good D) (k : ℕ) : ContinuousOn (w D k) (Icc (first D) (last D)) := by
  unfold w
  refine ContinuousOn.mul ?_ h.cont
  exact fun x hx => (continuousAt_zpow₀ x _ (Or.inl (h.pos hx).ne')).continuousWithinAt

/-- The integrand used by the code. -/
noncomputable def wS (D : Obj) (k : ℕ) (x : ℝ) : ℝ := x ^ ((k : ℤ) - D.order) * S D x

theorem wS_in {D : Obj} {k : ℕ} {x : ℝ} (hx : x ∈ Icc (first D) (last D)) : wS D k x = w D k x := by
  unfold wS w S
  rw [if_pos ⟨hx.1, hx.2⟩]

theorem wS_out {D : Obj} {k : ℕ} {x : ℝ} (hx : x ∉ Icc (first D) (last D)) : wS D k x = 0 := by
  unfold wS S
  rw [if_neg (fun h => hx ⟨h.1, h.2⟩), mul_zero]

theorem momentQuadrature_eq (D : Obj) (xa : ℝ) (xb : Option ℝ) (k : ℕ) :
    momentQuadrature D xa xb k = ∫ x in (max xa (first D))..(match xb with | some xb => min xb (last D) | none => last D), wS D k x := by
  unfold momentQuadrature wS
  dsimp only
  split_ifs with h
  · subst h
    simp only [sub_self, zpow_zero, one_mul]
    cases xb <;> rfl
  · cases xb <;> rfl

theorem integral_wS {D : Obj} {a b : ℝ} (ha : a ∈ Icc (first D) (last D)) (hb : b ∈ Icc (first D) (last D)) (k : ℕ) :
    ∫ x in a..b, wS D k x = ∫ x in a..b, w D k x := by
  refine intervalIntegral.integral_congr fun x hx => wS_in ?_
  exact (uIcc_subset_Icc ha hb) hx

theorem integral_wS_zero {D : Obj} {a b : ℝ} (h : ∀ x ∈ uIoc a b, x ∉ Icc (first D) (last D)) (k : ℕ) : ∫ x in a..b, wS D k x = 0 := by
  rw [intervalIntegral.integral_congr_ae (g := fun _ => (0 : ℝ))]
  · simp
  · exact Filter.Eventually.of_forall fun x hx => wS_out (h x hx)

theorem moment_eq {D : Obj} (h : Good D) (k : ℕ) : momentLength D k = ∫ x in (first D)..(last D), w D k x := by
  unfold momentLength
  rw [momentQuadrature_eq]
  dsimp only
  rw [max_eq_right (zero_le_one.trans h.one_le)]
  exact integral_wS (left_mem_Icc.2 h.lt.le) (right_mem_Icc.2 h.lt.le) k

theorem integrable_wS {D : Obj} (h : Good D) (k : ℕ) : Integrable (wS D k) := by
  have : wS D k = (Icc (first D) (last D)).indicator (w D k) := by
    funext x
    by_cases hx : x ∈ Icc (first D) (last D)
    · rw [indicator_of_mem hx, wS_in hx]
    · rw [indicator_of_notMem hx, wS_out hx]
  rw [this, integrable_indicator_iff measurableSet_Icc]
  exact (w_cont h k).integrableOn_Icc

/-- The numerator of the cdf. -/
theorem partial_eq {D : Obj} (h : Good D) (x : ℝ) (k : ℕ) : momentQuadrature D 0 (some x) k = ∫ t in (first D)..x, wS D k t := by
  rw [momentQuadrature_eq]
  dsimp only
  rw [max_eq_right (zero_le_one.trans h.one_le)]
  rcases le_total x (last D) with hx | hx
  · rw [min_eq_left hx]
  · rw [min_eq_right hx]
    have i : ∀ a b, IntervalIntegrable (wS D k) volume a b := fun a b => (integrable_wS h k).intervalIntegrable
    rw [← intervalIntegral.integral_add_adjacent_intervals (i (first D) (last D)) (i (last D) x),
      integral_wS_zero (a := last D) (b := x) ?_ k, add_zero]
    intro t ht hm
    rw [uIoc_of_le hx] at ht
    exact absurd hm.2 (not_le.2 ht.1)

theorem integral_below {D : Obj} {x : ℝ} (hx : x ≤ first D) (k : ℕ) : ∫ t in (first D)..x, wS D k t = 0 := by
  rw [intervalIntegral.integral_congr_ae (g := fun _ => (0 : ℝ))]
  · simp
  · rw [uIoc_comm, uIoc_of_le hx]
    have : ∀ᵐ t : ℝ, t ≠ first D := by simp [ae_iff, measure_singleton]
    filter_upwards [this] with t ht hm
    exact wS_out fun hc => ht (le_antisymm hm.2 hc.1)

theorem integral_above {D : Obj} (h : Good D) {x : ℝ} (hx : last D ≤ x) (k : ℕ) : ∫ t in (first D)..x, wS D k t = momentLength D k := by
  rw [← partial_eq h, momentLength, momentQuadrature_eq, momentQuadrature_eq]
  dsimp only
  rw [min_eq_right hx]

theorem pdf_length {D : Obj} (h : Good D) (x : ℝ) (k : ℕ) : pdf D x k false = wS D k x / momentLength D k := by
  by_cases hx : x ∈ Icc (first D) (last D)
  · have hp := h.pos hx
    unfold pdf Dist.pdf pdf0 wS
    simp only [Bool.false_eq_true, if_false, mul_one]
    congr 1
    rw [sub_eq_add_neg, zpow_add₀ hp.ne', zpow_natCast]
    ring
  · unfold pdf Dist.pdf pdf0
    rw [wS_out hx]
    have : S D x = 0 := if_neg fun hc => hx ⟨hc.1, hc.2⟩
    simp [this]

theorem pdf_mass (D : Obj) (m : ℝ) (k : ℕ) : pdf D m k true = pdf D (m / D.M0) k false / D.M0 := by
  unfold pdf Dist.pdf
  simp only [if_true, Bool.false_eq_true, if_false, mul_one]
  rw [div_div]

theorem w_nonneg {D : Obj} (h : Good D) (hs : ∀ x ∈ Icc (first D) (last D), 0 ≤ D.spl x) (k : ℕ) {x : ℝ} (hx : x ∈ Icc (first D) (last D)) : 0 ≤ w D k x :=
  mul_nonneg (zpow_nonneg (h.pos hx).le _) (hs x hx)

theorem w_succ {D : Obj} (h : Good D) (k : ℕ) {x : ℝ} (hx : x ∈ Icc (first D) (last D)) : w D (k + 1) x = x * w D k x := by
  unfold w
  rw [show (((k + 1 : ℕ) : ℤ) - D.order) = ((k : ℤ) - D.order) + 1 by push_cast; ring, zpow_add_one₀ (h.pos hx).ne']
  ring

theorem moment_pos {D : Obj} (h : Good D) (hs : ∀ x ∈ Icc (first D) (last D), 0 ≤ D.spl x) (hp : 0 < D.spl (first D)) (k : ℕ) : 0 < momentLength D k := by
  rw [moment_eq h]
  refine intervalIntegral.integral_pos h.lt (w_cont h k) (fun x hx => w_nonneg h hs k (Ioc_subset_Icc_self hx)) ⟨first D, left_mem_Icc.2 h.lt.le, ?_⟩
  exact mul_pos (zpow_pos (h.pos (left_mem_Icc.2 h.lt.le)) _) hp

theorem moment_quad {D : Obj} (h : Good D) (k : ℕ) (a b c : ℝ) :
    a * momentLength D k + b * momentLength D (k + 1) + c * momentLength D (k + 2) = ∫ x in (first D)..(last D), (a + b * x + c * x ^ 2) * w D k x := by
  have i : ∀ j, IntervalIntegrable (w D j) volume (first D) (last D) := fun j => (w_cont h j).intervalIntegrable_of_Icc h.lt.le
  rw [moment_eq h, moment_eq h, moment_eq h, ← intervalIntegral.integral_const_mul, ← intervalIntegral.integral_const_mul,
    ← intervalIntegral.integral_const_mul, ← intervalIntegral.integral_add ((i _).const_mul _) ((i _).const_mul _),
    ← intervalIntegral.integral_add (((i _).const_mul _).add ((i _).const_mul _)) ((i _).const_mul _)]
  refine intervalIntegral.integral_congr fun x hx => ?_
  rw [uIcc_of_le h.lt.le] at hx
  rw [w_succ h (k + 1) hx, w_succ h k hx]
  ring

theorem moment_quad_nonneg {D : Obj} (h : Good D) (hs : ∀ x ∈ Icc (first D) (last D), 0 ≤ D.spl x) (k : ℕ) (a b c : ℝ)
    (hq : ∀ x ∈ Icc (first D) (last D), 0 ≤ a + b * x + c * x ^ 2) :
    0 ≤ a * momentLength D k + b * momentLength D (k + 1) + c * momentLength D (k + 2) := by
  rw [moment_quad h]
  exact intervalIntegral.integral_nonneg h.lt.le fun x hx => mul_nonneg (hq x hx) (w_nonneg h hs k hx)

theorem first_last {pts : List (ℝ × ℝ)} (h : splineOk pts) (hv : ∀ q ∈ pts, valid q) (order : ℕ) (M0 : ℝ) (f : ℝ → ℝ) :
    1 ≤ first ⟨pts, order, M0, f⟩ ∧ first ⟨pts, order, M0, f⟩ < last ⟨pts, order, M0, f⟩ ∧
    ∀ q ∈ pts, first ⟨pts, order, M0, f⟩ ≤ q.1 ∧ q.1 ≤ last ⟨pts, order, M0, f⟩ := by
  obtain ⟨h4, hp⟩ := h
  match pts, h4, hp, hv with
  | a :: b :: t, h4, hp, hv =>
    have hf : first ⟨a :: b :: t, order, M0, f⟩ = a.1 := by simp [first]
    have hl : last ⟨a :: b :: t, order, M0, f⟩ = ((b :: t).getLast (by simp)).1 := by
      unfold last
      rw [List.getLast?_eq_some_getLast (by simp : a :: b :: t ≠ []), List.getLast_cons (by simp : b :: t ≠ [])]
      simp
    have hp' : (a :: b :: t).Pairwise (fun p q => p.1 < q.1) := List.pairwise_map.1 hp
    rw [hf, hl]
    refine ⟨(hv a (by simp)).2, ?_, ?_⟩
    · exact (List.pairwise_cons.1 hp').1 _ (List.getLast_mem _)
    · intro q hq
      constructor
      · rcases List.mem_cons.1 hq with rfl | hq
        · exact le_rfl
        · exact ((List.pairwise_cons.1 hp').1 _ hq).le
      · have e : ((b :: t).getLast (by simp)) = (a :: b :: t).getLast (by simp) := by rw [List.getLast_cons (by simp : b :: t ≠ [])]
        rw [e]
        have := List.dropLast_append_getLast (by simp : a :: b :: t ≠ [])
        rw [← this] at hp' hq
        rw [List.pairwise_append] at hp'
        rcases List.mem_append.1 hq with hq | hq
        · exact (hp'.2.2 q hq _ (by simp)).le
        · rw [List.mem_singleton] at hq
          rw [← hq]

end Verif.DataDist
