import Verif.Props.PrvGas
import Mathlib.Topology.Order.IntermediateValue
import Mathlib.Analysis.Complex.ExponentialBounds

/-!
# C60 (liquid): the fixed-point iteration of `area_relief_liquid`
-/

namespace Verif.Prv

open Real

/-- Inverse viscosity correction at Reynolds number `Re` (API 520). -/
noncomputable def invKv (Re : ℝ) : ℝ := 0.9935 + 2.878 / Re ^ (0.5 : ℝ) + 342.75 / Re ^ (1.5 : ℝ)

/-- Reynolds number of the orifice of area `A`. -/
noncomputable def reA (Q Gl mu A : ℝ) : ℝ := 18800 * Q * Gl / (mu * √A)

/-- Inviscid area; pressures in bar. -/
noncomputable def area0 (Q P1 P2 Gl K : ℝ) : ℝ := 11.78 * Q / K * √(Gl / (100 * (P1 - P2)))

/-- The area solving the sizing equations: the inviscid area divided by the viscosity correction at its own Reynolds number. -/
def IsLiquidArea (Q P1 P2 mu Gl K A : ℝ) : Prop := 0 < A ∧ A = area0 Q P1 P2 Gl K * invKv (reA Q Gl mu A)

section
variable {Q Gl mu : ℝ} (hQ : 0 < Q) (hG : 0 < Gl) (hmu : 0 < mu)
include hQ hG hmu

theorem reA_pos {x : ℝ} (hx : 0 < x) : 0 < reA Q Gl mu x := by
  have := sqrt_pos.2 hx
  unfold reA; positivity

omit hQ hG hmu in
theorem invKv_pos {R : ℝ} (h : 0 < R) : 0.9935 < invKv R := by
  have h1 := rpow_pos_of_pos h (0.5 : ℝ)
  have h2 := rpow_pos_of_pos h (1.5 : ℝ)
  have h3 : 0 < 2.878 / R ^ (0.5 : ℝ) := by positivity
  have h4 : 0 < 342.75 / R ^ (1.5 : ℝ) := by positivity
  unfold invKv; linarith

theorem invKv_le {x y : ℝ} (hx : 0 < x) (hxy : x ≤ y) : invKv (reA Q Gl mu x) ≤ invKv (reA Q Gl mu y) := by
  have hy := hx.trans_le hxy
  have h1 := reA_pos hQ hG hmu hx
  have h2 := reA_pos hQ hG hmu hy
  have h3 : reA Q Gl mu y ≤ reA Q Gl mu x := by
    have := sqrt_le_sqrt hxy
    have := sqrt_pos.2 hx
    unfold reA
    gcongr
  have h4 := rpow_pos_of_pos h2 (0.5 : ℝ)
  have h5 := rpow_pos_of_pos h2 (1.5 : ℝ)
  have h6 : reA Q Gl mu y ^ (0.5 : ℝ) ≤ reA Q Gl mu x ^ (0.5 : ℝ) := rpow_le_rpow h2.le h3 (by norm_num)
  have h7 : reA Q Gl mu y ^ (1.5 : ℝ) ≤ reA Q Gl mu x ^ (1.5 : ℝ) := rpow_le_rpow h2.le h3 (by norm_num)
  unfold invKv
  gcongr

theorem reA_scale {x t : ℝ} (hx : 0 < x) (ht : 0 < t) : reA Q Gl mu (t * x) = reA Q Gl mu x / √t := by
  have := sqrt_pos.2 hx
  have := sqrt_pos.2 ht
  unfold reA
  rw [sqrt_mul ht.le]
  field_simp

/-- The correction grows at most as the 3/4 power of the area. -/
theorem invKv_contract {x t : ℝ} (hx : 0 < x) (ht : 1 ≤ t) : invKv (reA Q Gl mu (t * x)) ≤ t ^ (0.75 : ℝ) * invKv (reA Q Gl mu x) := by
  have ht0 : 0 < t := by linarith
  have h1 := reA_pos hQ hG hmu hx
  rw [reA_scale hQ hG hmu hx ht0]
  generalize reA Q Gl mu x = R at h1
  have hs : √t = t ^ (0.5 : ℝ) := by rw [sqrt_eq_rpow]; norm_num
  have e1 : (R / √t) ^ (0.5 : ℝ) = R ^ (0.5 : ℝ) / t ^ (0.25 : ℝ) := by
    rw [div_rpow h1.le (sqrt_nonneg _), hs, ← rpow_mul ht0.le]; norm_num
  have e2 : (R / √t) ^ (1.5 : ℝ) = R ^ (1.5 : ℝ) / t ^ (0.75 : ℝ) := by
    rw [div_rpow h1.le (sqrt_nonneg _), hs, ← rpow_mul ht0.le]; norm_num
  have h2 : 1 ≤ t ^ (0.75 : ℝ) := one_le_rpow ht (by norm_num)
  have h3 : t ^ (0.25 : ℝ) ≤ t ^ (0.75 : ℝ) := rpow_le_rpow_of_exponent_le ht (by norm_num)
  have h4 := rpow_pos_of_pos h1 (0.5 : ℝ)
  have h5 := rpow_pos_of_pos h1 (1.5 : ℝ)
  have h6 := rpow_pos_of_pos ht0 (0.25 : ℝ)
  have h7 := rpow_pos_of_pos ht0 (0.75 : ℝ)
  rw [invKv, invKv, e1, e2]
  generalize t ^ (0.75 : ℝ) = q at *
  generalize t ^ (0.25 : ℝ) = p at *
  generalize R ^ (0.5 : ℝ) = u at *
  generalize R ^ (1.5 : ℝ) = v at *
  have a1 : 2.878 / (u / p) = p * (2.878 / u) := by field_simp
  have a2 : 342.75 / (v / q) = q * (342.75 / v) := by field_simp
  have a3 : p * (2.878 / u) ≤ q * (2.878 / u) := mul_le_mul_of_nonneg_right h3 (by positivity)
  rw [a1, a2]
  linarith

variable {a : ℝ} (ha : 0 < a)
include ha

/-- One iteration. -/
noncomputable def lstep (Q Gl mu a x : ℝ) : ℝ := a * invKv (reA Q Gl mu x)

theorem lstep_pos {x : ℝ} (hx : 0 < x) : 0 < lstep Q Gl mu a x :=
  mul_pos ha (lt_trans (by norm_num) (invKv_pos (reA_pos hQ hG hmu hx)))

/-- The iteration is a contraction with factor 3/4 in the logarithm of the area. -/
theorem lstep_contract {x y : ℝ} (hx : 0 < x) (hy : 0 < y) :
    |log (lstep Q Gl mu a x) - log (lstep Q Gl mu a y)| ≤ 0.75 * |log x - log y| := by
  have key : ∀ {x y : ℝ}, 0 < x → x ≤ y → |log (lstep Q Gl mu a x) - log (lstep Q Gl mu a y)| ≤ 0.75 * |log x - log y| := by
    intro x y hx hxy
    have hy := hx.trans_le hxy
    have ht : 1 ≤ y / x := (one_le_div hx).2 hxy
    have h1 := invKv_contract hQ hG hmu hx ht
    rw [div_mul_cancel₀ _ hx.ne'] at h1
    have p1 := lstep_pos hQ hG hmu ha hx
    have p2 := lstep_pos hQ hG hmu ha hy
    have h2 : lstep Q Gl mu a y ≤ (y / x) ^ (0.75 : ℝ) * lstep Q Gl mu a x := by unfold lstep; nlinarith
    have h3 : lstep Q Gl mu a x ≤ lstep Q Gl mu a y := mul_le_mul_of_nonneg_left (invKv_le hQ hG hmu hx hxy) ha.le
    have h4 := log_le_log p2 h2
    have h5 : 0 < y / x := by positivity
    rw [log_mul (rpow_pos_of_pos h5 _).ne' p1.ne', log_rpow h5, log_div hy.ne' hx.ne'] at h4
    have h6 := log_le_log p1 h3
    have h7 := log_le_log hx hxy
    rw [abs_of_nonpos (by linarith), abs_of_nonpos (by linarith)]
    linarith
  rcases le_total x y with h | h
  · exact key hx h
  · rw [abs_sub_comm, abs_sub_comm (log x)]
    exact key hy h

/-- The sizing equations have exactly one solution. -/
theorem lstep_fixed : ∃! x, 0 < x ∧ x = lstep Q Gl mu a x := by
  set F := invKv (reA Q Gl mu a) with hF
  have hF0 : 0.9935 < F := invKv_pos (reA_pos hQ hG hmu ha)
  set m := max 1 F with hm
  have hm1 : 1 ≤ m := le_max_left _ _
  have hmF : F ≤ m := le_max_right _ _
  have hm0 : 0 < m := by linarith
  have hlo : (0.9935 * a) - lstep Q Gl mu a (0.9935 * a) ≤ 0 := by
    have := invKv_pos (reA_pos hQ hG hmu (show 0 < 0.9935 * a by positivity))
    unfold lstep; nlinarith
  have hhi : 0 ≤ m ^ 4 * a - lstep Q Gl mu a (m ^ 4 * a) := by
    have h1 := invKv_contract hQ hG hmu ha (one_le_pow₀ hm1 (n := 4))
    have h2 : (m ^ 4) ^ (0.75 : ℝ) = m ^ 3 := by
      rw [← rpow_natCast, ← rpow_mul hm0.le, ← rpow_natCast]; norm_num
    rw [h2] at h1
    have h3 : m ^ 3 * F ≤ m ^ 3 * m := mul_le_mul_of_nonneg_left hmF (by positivity)
    have h4 : lstep Q Gl mu a (m ^ 4 * a) ≤ a * (m ^ 3 * m) := mul_le_mul_of_nonneg_left (h1.trans h3) ha.le
    nlinarith
  have hle : 0.9935 * a ≤ m ^ 4 * a := by
    have := one_le_pow₀ hm1 (n := 4)
    nlinarith
  have hcont : ContinuousOn (fun x => x - lstep Q Gl mu a x) (Set.Icc (0.9935 * a) (m ^ 4 * a)) := by
    intro x hx
    have hx0 : 0 < x := lt_of_lt_of_le (by positivity) hx.1
    have hR := reA_pos hQ hG hmu hx0
    have hs := sqrt_pos.2 hx0
    refine ContinuousAt.continuousWithinAt ?_
    have c1 : ContinuousAt (fun x => reA Q Gl mu x) x := by
      unfold reA
      exact continuousAt_const.div (continuousAt_const.mul continuous_sqrt.continuousAt) (by positivity)
    have c2 : ContinuousAt (fun x => reA Q Gl mu x ^ (0.5 : ℝ)) x := c1.rpow_const (Or.inl hR.ne')
    have c3 : ContinuousAt (fun x => reA Q Gl mu x ^ (1.5 : ℝ)) x := c1.rpow_const (Or.inl hR.ne')
    exact continuousAt_id.sub (continuousAt_const.mul ((continuousAt_const.add (continuousAt_const.div c2 (rpow_pos_of_pos hR _).ne')).add
      (continuousAt_const.div c3 (rpow_pos_of_pos hR _).ne')))
  obtain ⟨x, hx, hx0⟩ := intermediate_value_Icc hle hcont ⟨hlo, hhi⟩
  have hxp : 0 < x := lt_of_lt_of_le (by positivity) hx.1
  simp only at hx0
  refine ⟨x, ⟨hxp, by linarith⟩, fun y hy => ?_⟩
  have h1 := lstep_contract hQ hG hmu ha hxp hy.1
  rw [← hy.2, ← (show x = lstep Q Gl mu a x by linarith)] at h1
  have h2 : |log x - log y| = 0 := by
    have := abs_nonneg (log x - log y)
    linarith
  have h3 : log x = log y := by rw [abs_eq_zero] at h2; linarith
  exact (log_injOn_pos hxp hy.1 h3).symm

variable {K c : ℝ} (hK : 0 < K) (hc : 0 < c) (hac : a = 11.78 * Q / K * c)
include hK hc hac

theorem liqLoop_succ {n : ℕ} {x : ℝ} (hx : 0 < x) :
    liqLoop Q Gl mu K c (n + 1) x = if |(lstep Q Gl mu a x - x) / lstep Q Gl mu a x| < 1e-5 then .ok (lstep Q Gl mu a x)
      else liqLoop Q Gl mu K c n (lstep Q Gl mu a x) := by
  have hs := sqrt_pos.2 hx
  have hR := reA_pos hQ hG hmu hx
  have hI : 0 < invKv (reA Q Gl mu x) := lt_trans (by norm_num) (invKv_pos hR)
  have hkv : liqKv Q Gl mu x = some (1 / invKv (reA Q Gl mu x)) := by
    rw [liqKv, nsqrt, if_neg (not_lt.2 hx.le)]
    simp only [Option.bind_eq_bind, Option.bind_some]
    rw [ndiv, if_neg (by positivity), Option.bind_some]
    rw [show 18800 * Q * Gl / (mu * √x) = reA Q Gl mu x from rfl, if_neg (not_le.2 hR), ndiv]
    exact if_neg hI.ne'
  have hq : ndiv (11.78 * Q) (K * (1 / invKv (reA Q Gl mu x))) = some (11.78 * Q / (K * (1 / invKv (reA Q Gl mu x)))) := if_neg (by positivity)
  have hA : 11.78 * Q / (K * (1 / invKv (reA Q Gl mu x))) * c = lstep Q Gl mu a x := by
    rw [lstep, hac]; generalize invKv (reA Q Gl mu x) = I at *; field_simp
  rw [liqLoop, hkv]
  simp only
  rw [hq]
  simp only
  rw [hA, ndiv, if_neg (lstep_pos hQ hG hmu ha hx).ne']

/-- What the loop returns is within `3.1e-5` (in the logarithm) of the solution. -/
theorem liqLoop_accurate {n : ℕ} {x A xs : ℝ} (hx : 0 < x) (hxs : 0 < xs) (hfix : xs = lstep Q Gl mu a xs) (h : liqLoop Q Gl mu K c n x = .ok A) :
    0 < A ∧ |log A - log xs| ≤ 3.1e-5 := by
  induction n generalizing x with
  | zero => cases h
  | succ n ih =>
    rw [liqLoop_succ hQ hG hmu ha hK hc hac hx] at h
    have hA := lstep_pos hQ hG hmu ha hx
    split_ifs at h with hc
    · injection h with h
      have h1 := lstep_contract hQ hG hmu ha hx hxs
      rw [← hfix] at h1
      rw [h] at h1 hc hA
      refine ⟨hA, ?_⟩
      have h2 : (A - x) / A = 1 - x / A := by field_simp
      rw [h2, abs_lt] at hc
      have h3 : 0 < x / A := by positivity
      have h4 : log (x / A) ≤ x / A - 1 := log_le_sub_one_of_pos h3
      have h5 : 1 - (x / A)⁻¹ ≤ log (x / A) := one_sub_inv_le_log_of_pos h3
      have h6 : (x / A)⁻¹ ≤ 1.0000101 := by
        rw [inv_le_comm₀ h3 (by norm_num)]
        have : (1.0000101 : ℝ)⁻¹ ≤ 0.99999 := by norm_num
        linarith
      rw [log_div hx.ne' hA.ne'] at h4 h5
      have h7 : |log x - log xs| ≤ |log x - log A| + |log A - log xs| := abs_sub_le _ _ _
      have h8 : |log x - log A| ≤ 1.02e-5 := by rw [abs_le]; constructor <;> linarith
      have h9 := abs_nonneg (log A - log xs)
      linarith
    · exact ih hA h

theorem liqLoop_converges {n : ℕ} {x d : ℝ} (hx : 0 < x) (hd : |log (lstep Q Gl mu a x) - log x| ≤ d) (hn : (0.75 : ℝ) ^ n * d ≤ 9.9e-6) :
    ∃ A, liqLoop Q Gl mu K c (n + 1) x = .ok A := by
  induction n generalizing x d with
  | zero =>
    rw [liqLoop_succ hQ hG hmu ha hK hc hac hx]
    have hA := lstep_pos hQ hG hmu ha hx
    refine ⟨_, if_pos ?_⟩
    rw [pow_zero, one_mul] at hn
    have h1 : x / lstep Q Gl mu a x = exp (log x - log (lstep Q Gl mu a x)) := by rw [exp_sub, exp_log hx, exp_log hA]
    have h2 : (lstep Q Gl mu a x - x) / lstep Q Gl mu a x = 1 - x / lstep Q Gl mu a x := by field_simp
    rw [abs_sub_comm] at hd
    rw [h2, h1, abs_sub_comm]
    generalize log x - log (lstep Q Gl mu a x) = z at hd
    have h3 : |z| ≤ 9.9e-6 := hd.trans hn
    have h4 := abs_exp_sub_one_sub_id_le (show |z| ≤ 1 by linarith)
    have h5 : z ^ 2 ≤ 1e-9 := by rw [← sq_abs]; nlinarith [abs_nonneg z]
    have h6 : exp z - 1 = (exp z - 1 - z) + z := by ring
    rw [h6]
    calc |exp z - 1 - z + z| ≤ |exp z - 1 - z| + |z| := abs_add_le _ _
      _ < 1e-5 := by linarith
  | succ n ih =>
    rw [liqLoop_succ hQ hG hmu ha hK hc hac hx]
    have hA := lstep_pos hQ hG hmu ha hx
    split_ifs with hc
    · exact ⟨_, rfl⟩
    · refine ih (d := 0.75 * d) hA ?_ ?_
      · exact (lstep_contract hQ hG hmu ha hA hx).trans (by linarith)
      · rw [pow_succ] at hn; linarith

end

theorem areaLiquid_eq {Q P1 P2 mu Gl Kd Kw Kc : ℝ} (hP : P2 < P1) (hG : 0 < Gl) (hKd : 0 < Kd) (hKw : 0 < Kw) (hKc : 0 < Kc) :
    areaLiquid Q P1 P2 mu Gl Kd Kw Kc = liqLoop Q Gl mu (Kd * Kw * Kc) √(Gl / (100 * (P1 - P2))) 49 (area0 Q P1 P2 Gl (Kd * Kw * Kc)) := by
  have hd : 0 < P1 - P2 := by linarith
  rw [areaLiquid, pdiv_ok (by positivity), ok_bind, pdiv_ok (by linarith), ok_bind, show P1 * 100 - P2 * 100 = 100 * (P1 - P2) by ring, nsqrt,
    if_neg (not_lt.2 (by positivity)), mul_one]
  rfl

theorem area0_pos {Q P1 P2 Gl K : ℝ} (hQ : 0 < Q) (hG : 0 < Gl) (hK : 0 < K) (hP : P2 < P1) : 0 < area0 Q P1 P2 Gl K := by
  have hd : 0 < P1 - P2 := by linarith
  have : 0 < √(Gl / (100 * (P1 - P2))) := sqrt_pos.2 (by positivity)
  unfold area0; positivity

/-- **C60.** The liquid sizing equations have exactly one solution. -/
theorem C60_liquid_unique {Q P1 P2 mu Gl K : ℝ} (hQ : 0 < Q) (hmu : 0 < mu) (hG : 0 < Gl) (hK : 0 < K) (hP : P2 < P1) :
    ∃! A, IsLiquidArea Q P1 P2 mu Gl K A := lstep_fixed hQ hG hmu (area0_pos hQ hG hK hP)

/-- **C60.** Any area returned by `area_relief_liquid` is positive and within 0.0031 % of the solution of the sizing equations. -/
theorem C60_liquid_accurate {Q P1 P2 mu Gl Kd Kw Kc A As : ℝ} (hQ : 0 < Q) (hmu : 0 < mu) (hG : 0 < Gl) (hP : P2 < P1)
    (hKd : 0 < Kd) (hKw : 0 < Kw) (hKc : 0 < Kc) (hAs : IsLiquidArea Q P1 P2 mu Gl (Kd * Kw * Kc) As) (h : areaLiquid Q P1 P2 mu Gl Kd Kw Kc = .ok A) :
    0 < A ∧ |log (A / As)| ≤ 3.1e-5 := by
  have hd : 0 < P1 - P2 := by linarith
  rw [areaLiquid_eq hP hG hKd hKw hKc] at h
  have h0 := area0_pos hQ hG (show 0 < Kd * Kw * Kc by positivity) hP
  obtain ⟨h1, h2⟩ := liqLoop_accurate hQ hG hmu h0 (show 0 < Kd * Kw * Kc by positivity) (sqrt_pos.2 (by positivity)) rfl h0 hAs.1 hAs.2 h
  exact ⟨h1, by rwa [log_div h1.ne' hAs.1.ne']⟩

/-- **C60.** The iteration converges within its 50 steps whenever the Reynolds number of the inviscid orifice is at least 0.1. -/
theorem C60_liquid_converges_partial {Q P1 P2 mu Gl Kd Kw Kc : ℝ} (hQ : 0 < Q) (hmu : 0 < mu) (hG : 0 < Gl) (hP : P2 < P1)
    (hKd : 0 < Kd) (hKw : 0 < Kw) (hKc : 0 < Kc) (hRe : 0.1 ≤ reA Q Gl mu (area0 Q P1 P2 Gl (Kd * Kw * Kc))) :
    ∃ A, areaLiquid Q P1 P2 mu Gl Kd Kw Kc = .ok A := by
  have hd : 0 < P1 - P2 := by linarith
  rw [areaLiquid_eq hP hG hKd hKw hKc]
  have h0 := area0_pos hQ hG (show 0 < Kd * Kw * Kc by positivity) hP
  have hI0 := invKv_pos (reA_pos hQ hG hmu h0)
  refine liqLoop_converges hQ hG hmu h0 (show 0 < Kd * Kw * Kc by positivity) (sqrt_pos.2 (by positivity)) rfl (n := 48) (d := 9.3) h0 ?_ (by norm_num)
  rw [lstep, log_mul h0.ne' (by linarith), add_sub_cancel_left]
  generalize area0 Q P1 P2 Gl (Kd * Kw * Kc) = x at *
  generalize reA Q Gl mu x = R at *
  have hR : 0 < R := by linarith
  have h1 : (0.316 : ℝ) ≤ R ^ (0.5 : ℝ) := by
    have : (0.316 : ℝ) = (0.316 ^ 2) ^ (0.5 : ℝ) := by rw [← rpow_natCast, ← rpow_mul (by norm_num)]; norm_num
    rw [this]
    exact rpow_le_rpow (by norm_num) (le_trans (by norm_num) hRe) (by norm_num)
  have h2 : (0.0316 : ℝ) ≤ R ^ (1.5 : ℝ) := by
    rw [show (1.5 : ℝ) = 1 + 0.5 by norm_num, rpow_add hR, rpow_one]
    nlinarith
  have h3 : 2.878 / R ^ (0.5 : ℝ) ≤ 2.878 / 0.316 := by gcongr
  have h4 : 342.75 / R ^ (1.5 : ℝ) ≤ 342.75 / 0.0316 := by gcongr
  have h5 : invKv R ≤ 10857 := by unfold invKv; norm_num at *; linarith
  rw [abs_le]
  constructor
  · have := one_sub_inv_le_log_of_pos (show 0 < invKv R by linarith)
    have h6 : (invKv R)⁻¹ ≤ 2 := by rw [inv_le_comm₀ (by linarith) (by norm_num)]; norm_num at *; linarith
    linarith
  · rw [log_le_iff_le_exp (by linarith)]
    refine h5.trans ?_
    have e1 : (2.718 : ℝ) ≤ exp 1 := by have := exp_one_gt_d9; linarith
    have e2 : exp 9.3 = exp 1 ^ 9 * exp 0.3 := by rw [← exp_nat_mul, ← exp_add]; norm_num
    have e3 : (2.718 : ℝ) ^ 9 ≤ exp 1 ^ 9 := pow_le_pow_left₀ (by norm_num) e1 9
    have e4 : (1.345 : ℝ) ≤ exp 0.3 := by have := quadratic_le_exp_of_nonneg (show (0 : ℝ) ≤ 0.3 by norm_num); linarith
    rw [e2]
    have := mul_le_mul e3 e4 (by norm_num) (by positivity)
    refine le_trans ?_ this
    norm_num

/-- A very viscous liquid (about 10 kPa s): inviscid area 1 mm², Reynolds number `1e-4`. -/
theorem viscous_step {Q mu x : ℝ} (hQ : Q = 0.65 / 11.78) (hmu : mu = 1.88e8 * Q) (hx : 1 ≤ x) :
    log (lstep Q 1 mu 1 x) ∈ Set.Icc (log 3.4275e8 + 0.75 * log x) (log 3.4275e8 + 8.5e-7 + 0.75 * log x) := by
  have hx0 : 0 < x := by linarith
  have hQ0 : 0 < Q := by rw [hQ]; norm_num
  have hR : reA Q 1 mu x = 1e-4 / √x := by
    have := sqrt_pos.2 hx0
    rw [reA, hmu]
    field_simp
    norm_num
  have hs : √x = x ^ (0.5 : ℝ) := by rw [sqrt_eq_rpow]; norm_num
  have e1 : (1e-4 / √x) ^ (0.5 : ℝ) = 0.01 / x ^ (0.25 : ℝ) := by
    rw [div_rpow (by norm_num) (sqrt_nonneg _), hs, ← rpow_mul hx0.le, show (1e-4 : ℝ) = 0.01 ^ (2 : ℝ) by norm_num, ← rpow_mul (by norm_num)]; norm_num
  have e2 : (1e-4 / √x) ^ (1.5 : ℝ) = 1e-6 / x ^ (0.75 : ℝ) := by
    rw [div_rpow (by norm_num) (sqrt_nonneg _), hs, ← rpow_mul hx0.le, show (1e-4 : ℝ) = 0.01 ^ (2 : ℝ) by norm_num, ← rpow_mul (by norm_num)]; norm_num
  have h1 : 1 ≤ x ^ (0.75 : ℝ) := one_le_rpow hx (by norm_num)
  have h2 : x ^ (0.25 : ℝ) ≤ x ^ (0.75 : ℝ) := rpow_le_rpow_of_exponent_le hx (by norm_num)
  have h3 := rpow_pos_of_pos hx0 (0.25 : ℝ)
  have h4 := rpow_pos_of_pos hx0 (0.75 : ℝ)
  have e3 : lstep Q 1 mu 1 x = 0.9935 + 287.8 * x ^ (0.25 : ℝ) + 3.4275e8 * x ^ (0.75 : ℝ) := by
    rw [lstep, one_mul, hR, invKv, e1, e2]
    field_simp
    ring
  have h5 : 3.4275e8 * x ^ (0.75 : ℝ) ≤ lstep Q 1 mu 1 x := by rw [e3]; linarith
  have h6 : lstep Q 1 mu 1 x ≤ 3.4275e8 * (1 + 8.5e-7) * x ^ (0.75 : ℝ) := by rw [e3]; linarith
  have h7 := log_le_log (by positivity) h5
  have h8 := log_le_log (lt_of_lt_of_le (by positivity) h5) h6
  rw [log_mul (by norm_num) h4.ne', log_rpow hx0] at h7
  rw [log_mul (by norm_num) h4.ne', log_rpow hx0, log_mul (by norm_num) (by norm_num)] at h8
  have h9 : log (1 + 8.5e-7 : ℝ) ≤ 8.5e-7 := by
    have := log_le_sub_one_of_pos (show (0 : ℝ) < 1 + 8.5e-7 by norm_num)
    linarith
  exact ⟨h7, by linarith⟩

theorem viscous_loop {Q mu : ℝ} (hQ : Q = 0.65 / 11.78) (hmu : mu = 1.88e8 * Q) :
    ∀ n m : ℕ, n + m = 49 → ∀ x, 1 ≤ x → log x ≤ 4 * (log 3.4275e8 + 8.5e-7) * (1 - 0.75 ^ m) → liqLoop Q 1 mu 0.65 1 n x = .error .ValueError := by
  have hQ0 : 0 < Q := by rw [hQ]; norm_num
  have hmu0 : 0 < mu := by rw [hmu]; positivity
  have hB : 19 ≤ log 3.4275e8 := by
    rw [le_log_iff_exp_le (by norm_num)]
    have e1 : exp 1 ≤ 2.7183 := by have := exp_one_lt_d9; linarith
    have e2 : exp 19 = exp 1 ^ 19 := by rw [← exp_nat_mul]; norm_num
    rw [e2]
    exact (pow_le_pow_left₀ (exp_pos _).le e1 19).trans (by norm_num)
  intro n
  induction n with
  | zero => intros; rfl
  | succ n ih =>
    intro m hm x hx hl
    have hx0 : 0 < x := by linarith
    rw [liqLoop_succ (a := 1) hQ0 one_pos hmu0 one_pos (by norm_num) one_pos (by rw [hQ]; norm_num) hx0]
    obtain ⟨h1, h2⟩ := viscous_step hQ hmu hx
    have hA := lstep_pos (a := 1) hQ0 one_pos hmu0 one_pos hx0
    generalize lstep Q 1 mu 1 x = y at *
    have hp : (0.75 : ℝ) ^ 48 ≤ 0.75 ^ m := pow_le_pow_of_le_one (by norm_num) (by norm_num) (by omega)
    have hp' : (1.006e-6 : ℝ) ≤ 0.75 ^ 48 := by norm_num
    have hd : 1.8e-5 ≤ log y - log x := by nlinarith
    have hxy : x / y ≤ 1 - 1.1e-5 := by
      have e : x / y = exp (-(log y - log x)) := by rw [neg_sub, exp_sub, exp_log hx0, exp_log hA]
      rw [e, exp_neg, inv_le_comm₀ (exp_pos _) (by norm_num)]
      have := add_one_le_exp (log y - log x)
      norm_num at *
      linarith
    have hy : 1 ≤ y := by
      rw [div_le_iff₀ hA] at hxy
      linarith
    rw [if_neg]
    · refine ih (m + 1) (by omega) y hy ?_
      rw [pow_succ]
      linarith
    · rw [not_lt, show (y - x) / y = 1 - x / y by field_simp]
      refine le_trans ?_ (le_abs_self _)
      linarith

/-- **C60 (false as stated).** For a very viscous liquid `area_relief_liquid` raises `ValueError` although the sizing equations have a solution: the
iteration approaches it too slowly for the 50 steps allowed. (0.055 L/min of a 10 kPa s liquid through a pressure drop of 1 kPa.) -/
theorem C60_liquid_viscous_false :
    areaLiquid (0.65 / 11.78) 1.01 1 (1.88e8 * (0.65 / 11.78)) 1 0.65 1 1 = .error .ValueError ∧
      ∃ A, IsLiquidArea (0.65 / 11.78) 1.01 1 (1.88e8 * (0.65 / 11.78)) 1 (0.65 * 1 * 1) A := by
  constructor
  · rw [areaLiquid_eq (by norm_num) one_pos (by norm_num) one_pos one_pos]
    have h1 : √(1 / (100 * (1.01 - 1)) : ℝ) = 1 := by norm_num
    have h2 : area0 (0.65 / 11.78) 1.01 1 1 (0.65 * 1 * 1) = 1 := by rw [area0, h1]; norm_num
    rw [h1, h2, show (0.65 * 1 * 1 : ℝ) = 0.65 by norm_num]
    exact viscous_loop rfl rfl 49 0 rfl 1 le_rfl (by norm_num)
  · exact (C60_liquid_unique (by norm_num) (by norm_num) one_pos (by norm_num) (by norm_num)).exists

/-- Water through a 6 bar drop. -/
example : ∃ A, areaLiquid 1000 7 1 1 1 0.65 1 1 = .ok A := by
  refine C60_liquid_converges_partial (by norm_num) one_pos one_pos (by norm_num) (by norm_num) one_pos one_pos ?_
  unfold reA area0
  have h1 : √(1 / (100 * (7 - 1)) : ℝ) ≤ 1 := by rw [sqrt_le_left zero_le_one]; norm_num
  have h2 : √(11.78 * 1000 / (0.65 * 1 * 1) * √(1 / (100 * (7 - 1))) : ℝ) ≤ 10000 := by
    rw [sqrt_le_left (by norm_num)]
    nlinarith
  have h3 : 0 < √(11.78 * 1000 / (0.65 * 1 * 1) * √(1 / (100 * (7 - 1))) : ℝ) := sqrt_pos.2 (mul_pos (by norm_num) (sqrt_pos.2 (by norm_num)))
  rw [le_div_iff₀ (by positivity)]
  nlinarith

end Verif.Prv
