import Verif.Lemmas.FlowCone
import Verif.Lemmas.Interval
import Verif.Props.FlowAccuracy

/-!
# Helper lemmas: Newton's method for the drag balance of `vt_sphere` contracts
-/

namespace Verif.Flow

open Real

theorem log2sub_pos {s : ℝ} (h : 0 ≤ s) : 0 ≤ log (2 - exp (-s)) ∧ log (2 - exp (-s)) ≤ s ∧ log (2 - exp (-s)) ≤ 0.175 + s / 3 := by
  have h1 : exp (-s) ≤ 1 := by rw [exp_le_one_iff]; linarith
  have h0 := exp_pos (-s)
  refine ⟨log_nonneg (by linarith), ?_, ?_⟩
  · rw [log_le_iff_le_exp (by linarith)]
    have h2 := add_one_le_exp (-s)
    have h3 := quadratic_le_exp_of_nonneg h
    have h4 : exp s * exp (-s) = 1 := by rw [← exp_add]; simp
    nlinarith [sq_nonneg (exp s - 1), exp_pos s]
  · have h2 : log ((2 - exp (-s)) / (3 / 2)) ≤ (2 - exp (-s)) / (3 / 2) - 1 := log_le_sub_one_of_pos (by apply div_pos <;> linarith)
    rw [log_div (by linarith) (by norm_num)] at h2
    have h3 : exp (-s) = 1 / 2 * exp (log 2 - s) := by
      rw [sub_eq_add_neg, exp_add, exp_log (by norm_num)]
      ring
    have h4 := add_one_le_exp (log 2 - s)
    have h5 : log (3 / 2) - log 2 / 3 ≤ (0.175 : ℝ) := by iv
    linarith

theorem log2sub_neg {r : ℝ} (h : 0 ≤ r) (h1 : r ≤ 0.16) : r ≤ -log (2 - exp r) ∧ -log (2 - exp r) ≤ r + 2 * r ^ 2 := by
  have h2 : exp r ≤ 1 + r + 0.54 * r ^ 2 := by
    have := abs_exp_sub_one_sub_id_le (x := r) (by rw [abs_of_nonneg h]; linarith)
    have h3 := exp_bound' h (by linarith : r ≤ 1) (n := 3) (by norm_num)
    simp [Finset.sum_range_succ, Nat.factorial] at h3
    nlinarith [mul_nonneg h (mul_nonneg h h), mul_le_mul_of_nonneg_left h1 (mul_nonneg h h)]
  have h3 := add_one_le_exp r
  have h4 : 0 < 2 - exp r := by nlinarith
  constructor
  · rw [le_neg, log_le_iff_le_exp h4]
    have h6 := add_one_le_exp (-r)
    have h5 : exp r * exp (-r) = 1 := by rw [← exp_add]; simp
    nlinarith [sq_nonneg (exp r - 1), exp_pos r]
  · have h5 := one_sub_inv_le_log_of_pos h4
    have h6 : (2 - exp r)⁻¹ ≤ 1 + r + 2 * r ^ 2 := by
      rw [inv_le_iff_one_le_mul₀ h4]
      have : (1 + r + 2 * r ^ 2) * (1 - r - 0.54 * r ^ 2) ≤ (1 + r + 2 * r ^ 2) * (2 - exp r) := mul_le_mul_of_nonneg_left (by linarith) (by positivity)
      have h7 : 0 ≤ r ^ 2 := by positivity
      nlinarith [mul_le_mul_of_nonneg_left h1 h7, mul_nonneg h7 h7, mul_le_mul_of_nonneg_left h1 (mul_nonneg h h7)]
    linarith

/-- The iterate on a logarithmic scale. -/
theorem contract {y c t e : ℝ} (he0 : 0 ≤ e) (he : e ≤ 1e-3) (hy : -0.2 ≤ y) (h1 : 0 ≤ y → 0.25 * y - e ≤ c ∧ c ≤ 0.5 * y + e) (h2 : y ≤ 0 → 0.5 * y - e ≤ c ∧ c ≤ 0.25 * y + e)
    (ht : (c ≤ y ∧ c - log (2 - exp (-(y - c))) ≤ t ∧ t ≤ c) ∨ (y ≤ c ∧ c ≤ t ∧ t ≤ c - log (2 - exp (-(y - c))))) :
    |t| ≤ 0.75 * |y| + 3 * e ∧ -0.2 ≤ t ∧ -0.16 ≤ y - c := by
  have hs : -0.16 ≤ y - c := by
    rcases le_total 0 y with h | h
    · linarith [(h1 h).2]
    · linarith [(h2 h).2]
  rcases ht with ⟨a1, a2, a3⟩ | ⟨a1, a2, a3⟩
  · obtain ⟨l1, l2, l3⟩ := log2sub_pos (show 0 ≤ y - c by linarith)
    rcases le_total 0 y with h | h
    · obtain ⟨b1, b2⟩ := h1 h
      rw [abs_of_nonneg h]
      exact ⟨abs_le.2 ⟨by linarith, by linarith⟩, by linarith, hs⟩
    · obtain ⟨b1, b2⟩ := h2 h
      rw [abs_of_nonpos h]
      exact ⟨abs_le.2 ⟨by linarith, by linarith⟩, by linarith, hs⟩
  · obtain ⟨l1, l2⟩ := log2sub_neg (show 0 ≤ -(y - c) by linarith) (by linarith)
    have l3 : (-(y - c)) ^ 2 ≤ 0.16 * -(y - c) := by rw [sq]; exact mul_le_mul_of_nonneg_right (by linarith) (by linarith)
    rcases le_total 0 y with h | h
    · obtain ⟨b1, b2⟩ := h1 h
      rw [abs_of_nonneg h]
      exact ⟨abs_le.2 ⟨by linarith, by linarith⟩, by linarith, hs⟩
    · obtain ⟨b1, b2⟩ := h2 h
      rw [abs_of_nonpos h]
      exact ⟨abs_le.2 ⟨by linarith, by linarith⟩, by linarith, hs⟩

/-- The Newton iterate lies between the two extreme slopes. -/
theorem newton_between {x a b v : ℝ} (hx : 0 < x) (ha : 0 < a) (hv : 0 < v) (hb : 0 ≤ b) (hb1 : b ≤ a / (2 * x)) (hax : a ≤ 1.2 * x) :
    0 < x - (x - a) / (1 - b) ∧
    ((log (a / v) ≤ log (x / v) ∧ log (a / v) - log (2 - exp (-(log (x / v) - log (a / v)))) ≤ log ((x - (x - a) / (1 - b)) / v) ∧ log ((x - (x - a) / (1 - b)) / v) ≤ log (a / v)) ∨
    (log (x / v) ≤ log (a / v) ∧ log (a / v) ≤ log ((x - (x - a) / (1 - b)) / v) ∧ log ((x - (x - a) / (1 - b)) / v) ≤ log (a / v) - log (2 - exp (-(log (x / v) - log (a / v)))))) := by
  have hp1 : a / x ≤ 1.2 := by rw [div_le_iff₀ hx]; exact hax
  have hp0 : 0 < a / x := by positivity
  have hb2 : b ≤ a / x / 2 := by rw [div_div, mul_comm x]; exact hb1
  have ee : exp (-(log (x / v) - log (a / v))) = a / x := by
    rw [neg_sub, exp_sub, exp_log (by positivity), exp_log (by positivity)]
    field_simp
  have e1 : x - (x - a) / (1 - b) = x * ((a / x - b) / (1 - b)) := by
    have : 1 - b ≠ 0 := by linarith
    field_simp
    ring
  have e2 : log (a / v) - log (2 - a / x) = log (x * (a / x / (2 - a / x)) / v) := by
    rw [← log_div (by positivity) (by linarith)]
    congr 1
    have : 2 - a / x ≠ 0 := by linarith
    field_simp
  have e3 : log (a / v) = log (x * (a / x) / v) := by
    congr 1
    field_simp
  have m : ∀ {p q : ℝ}, 0 < p → p ≤ q → log (x * p / v) ≤ log (x * q / v) := fun {p q} hp hpq => log_le_log (by positivity) (by gcongr)
  rw [ee, e2, e1]
  have hq0 : 0 < (a / x - b) / (1 - b) := div_pos (by linarith) (by linarith)
  have hq2 : 0 < a / x / (2 - a / x) := div_pos hp0 (by linarith)
  refine ⟨by positivity, ?_⟩
  rw [e3]
  rcases le_total a x with h | h
  · have hp : a / x ≤ 1 := by rw [div_le_one hx]; exact h
    left
    refine ⟨log_le_log (by positivity) (by gcongr; exact (mul_div_cancel₀ a hx.ne').le.trans h), m hq2 ?_, m hq0 ?_⟩
    · rw [div_le_div_iff₀ (by linarith) (by linarith)]
      nlinarith [mul_nonneg (show 0 ≤ 1 - a / x by linarith) (show 0 ≤ a / x - 2 * b by linarith)]
    · rw [div_le_iff₀ (by linarith)]
      nlinarith
  · have hp : 1 ≤ a / x := by rw [one_le_div hx]; exact h
    right
    refine ⟨log_le_log (by positivity) (by gcongr; exact h.trans (mul_div_cancel₀ a hx.ne').ge), m hp0 ?_, m hq0 ?_⟩
    · rw [le_div_iff₀ (by linarith)]
      nlinarith
    · rw [div_le_div_iff₀ (by linarith) (by linarith)]
      nlinarith [mul_nonneg (show 0 ≤ a / x - 1 by linarith) (show 0 ≤ a / x - 2 * b by linarith)]

/-- The drag coefficient falls faster than `1/√Re`, up to `Re = 50`. -/
theorem sqrt_cd_anti {a b : ℝ} (ha : 0 < a) (hab : a ≤ b) (hb50 : b ≤ 50) : √b * cdSphere b ≤ √a * cdSphere a := by
  have hb := ha.trans_le hab
  have e : ∀ R : ℝ, 0 < R → √R * cdSphere R = 24 / √R + 24 * 0.173 * R ^ (0.157 : ℝ) + 0.413 * (√R / (1 + 16300 * R ^ (-1.09 : ℝ))) := fun R hR => by
    have h1 : R ^ (0.157 : ℝ) = R ^ (0.657 : ℝ) / √R := by rw [sqrt_eq_rpow, ← rpow_sub hR]; norm_num
    have hs := sqrt_pos.2 hR
    have h2 : √R ^ 2 = R := sq_sqrt hR.le
    rw [h1]
    unfold cdSphere
    generalize R ^ (0.657 : ℝ) = p
    generalize 1 + 16300 * R ^ (-1.09 : ℝ) = q
    rw [← h2]
    have h3 : √(√R ^ 2) = √R := sqrt_sq hs.le
    rw [h3]
    generalize √R = r at hs
    field_simp
  rw [e a ha, e b hb]
  obtain ⟨T, hT⟩ : ∃ T, T = log (b / a) := ⟨_, rfl⟩
  have hT0 : 0 ≤ T := by rw [hT]; exact log_nonneg (by rw [one_le_div ha]; exact hab)
  have eb : b = a * exp T := by rw [hT, exp_log (by positivity)]; field_simp
  have ea : a = b * exp (-T) := by rw [eb, mul_assoc, ← exp_add]; simp
  have hsb := sqrt_pos.2 hb
  -- first term
  have t1 : 12 * T / √b ≤ 24 / √a - 24 / √b := by
    have : √a = √b * exp (-(T / 2)) := by
      rw [ea, sqrt_mul hb.le]
      congr 1
      rw [sqrt_eq_iff_mul_self_eq (exp_pos _).le (exp_pos _).le, ← exp_add]
      congr 1
      ring
    have h3 : 24 / √a = 24 / √b * exp (T / 2) := by
      rw [this, exp_neg]
      field_simp
    rw [h3]
    have h4 := add_one_le_exp (T / 2)
    have h5 : 24 / √b * (T / 2 + 1) ≤ 24 / √b * exp (T / 2) := mul_le_mul_of_nonneg_left h4 (by positivity)
    have h6 : 24 / √b * (T / 2 + 1) = 12 * T / √b + 24 / √b := by ring
    linarith
  have pw : ∀ p : ℝ, a ^ p = b ^ p * exp (-(p * T)) := fun p => by
    rw [ea, mul_rpow hb.le (exp_pos _).le, ← exp_mul]
    congr 2
    ring
  have t2 : b ^ (0.157 : ℝ) - a ^ (0.157 : ℝ) ≤ b ^ (0.157 : ℝ) * (0.157 * T) := by
    rw [pw]
    have h4 := add_one_le_exp (-(0.157 * T))
    have h5 := rpow_pos_of_pos hb (0.157 : ℝ)
    nlinarith
  have t3 : √b / (1 + 16300 * b ^ (-1.09 : ℝ)) - √a / (1 + 16300 * a ^ (-1.09 : ℝ)) ≤ √b / (1 + 16300 * b ^ (-1.09 : ℝ)) * (1.59 * T) := by
    have q1 := rpow_pos_of_pos hb (-1.09 : ℝ)
    have h1 : √b * exp (-(1 / 2 * T)) / ((1 + 16300 * b ^ (-1.09 : ℝ)) * exp (1.09 * T)) ≤ √a / (1 + 16300 * a ^ (-1.09 : ℝ)) := by
      rw [sqrt_eq_rpow, sqrt_eq_rpow, pw (1 / 2), pw (-1.09)]
      refine div_le_div_of_nonneg_left (by positivity) (by positivity) ?_
      rw [show -(-1.09 * T) = 1.09 * T by ring]
      have : 1 ≤ exp (1.09 * T) := by rw [one_le_exp_iff]; positivity
      nlinarith
    have h2 : √b * exp (-(1 / 2 * T)) / ((1 + 16300 * b ^ (-1.09 : ℝ)) * exp (1.09 * T)) = √b / (1 + 16300 * b ^ (-1.09 : ℝ)) * exp (-(1.59 * T)) := by
      rw [show -(1.59 * T) = -(1 / 2 * T) - 1.09 * T by ring, exp_sub]
      field_simp
    rw [h2] at h1
    have h4 := add_one_le_exp (-(1.59 * T))
    have h5 : 0 < √b / (1 + 16300 * b ^ (-1.09 : ℝ)) := by positivity
    nlinarith
  have b1 : b ^ (0.157 : ℝ) ≤ 14 / √b := by
    rw [le_div_iff₀ hsb, sqrt_eq_rpow, ← rpow_add hb]
    norm_num
    calc b ^ (657 / 1000 : ℝ) ≤ (50 : ℝ) ^ (657 / 1000 : ℝ) := rpow_le_rpow hb.le hb50 (by norm_num)
      _ ≤ 14 := by iv
  have b2 : √b / (1 + 16300 * b ^ (-1.09 : ℝ)) ≤ 0.4 / √b := by
    have q1 := rpow_pos_of_pos hb (-1.09 : ℝ)
    rw [div_le_div_iff₀ (by positivity) hsb, mul_self_sqrt hb.le]
    have h3 : b ≤ 0.4 * 16300 * b ^ (-1.09 : ℝ) := by
      have h4 : b = b ^ (2.09 : ℝ) * b ^ (-1.09 : ℝ) := by rw [← rpow_add hb]; norm_num
      have h5 : b ^ (2.09 : ℝ) ≤ 0.4 * 16300 := by
        calc b ^ (2.09 : ℝ) ≤ (50 : ℝ) ^ (2.09 : ℝ) := rpow_le_rpow hb.le hb50 (by norm_num)
          _ ≤ 0.4 * 16300 := by iv
      calc b = b ^ (2.09 : ℝ) * b ^ (-1.09 : ℝ) := h4
        _ ≤ _ := mul_le_mul_of_nonneg_right h5 q1.le
    linarith
  have f2 : b ^ (0.157 : ℝ) * (0.157 * T) ≤ 14 / √b * (0.157 * T) := mul_le_mul_of_nonneg_right b1 (by positivity)
  have f3 : √b / (1 + 16300 * b ^ (-1.09 : ℝ)) * (1.59 * T) ≤ 0.4 / √b * (1.59 * T) := mul_le_mul_of_nonneg_right b2 (by positivity)
  have g1 : 12 * T / √b = 12 * (T / √b) := by ring
  have g2 : 14 / √b * (0.157 * T) = 14 * 0.157 * (T / √b) := by ring
  have g3 : 0.4 / √b * (1.59 * T) = 0.4 * 1.59 * (T / √b) := by ring
  have g4 : 0 ≤ T / √b := by positivity
  rw [g1] at t1
  rw [g2] at f2
  rw [g3] at f3
  linarith

/-- The right-hand side of the drag balance on a logarithmic scale. -/
theorem rhs_log {g Dp rhop rho mu x v : ℝ} (hg : 0 < g) (hDp : 0 < Dp) (hr : rho < rhop) (hrho : 0 < rho) (hmu : 0 < mu) (hx : 0 < x)
    (h : Settles g Dp rhop rho mu v) {a : ℝ} (ha : a = √(4 * Dp * g * (rhop - rho) / (3 * cdSphere (rho * x * Dp / mu) * rho)))
    (hRx : rho * x * Dp / mu ≤ 50) (hRv : rho * v * Dp / mu ≤ 50) :
    (0 ≤ log (x / v) → 0.25 * log (x / v) ≤ log (a / v) ∧ log (a / v) ≤ 0.5 * log (x / v)) ∧
      (log (x / v) ≤ 0 → 0.5 * log (x / v) ≤ log (a / v) ∧ log (a / v) ≤ 0.25 * log (x / v)) := by
  obtain ⟨g1, g2⟩ := rhs_geom hg hDp hr hrho hmu hx h ha
  obtain ⟨hv, hv2⟩ := h
  have hd : 0 < rhop - rho := by linarith
  have hRx0 : 0 < rho * x * Dp / mu := by positivity
  have hRv0 : 0 < rho * v * Dp / mu := by positivity
  have hCx : 0 < cdSphere (rho * x * Dp / mu) := lt_trans (by positivity) (cdSphere_pos hRx0)
  have hCv : 0 < cdSphere (rho * v * Dp / mu) := lt_trans (by positivity) (cdSphere_pos hRv0)
  have ha0 : 0 < a := by rw [ha]; exact sqrt_pos.2 (by positivity)
  have e1 : v ^ 2 * cdSphere (rho * v * Dp / mu) = 4 * Dp * g * (rhop - rho) / (3 * rho) := by
    have : v ^ 2 = 4 * Dp * g * (rhop - rho) / (3 * cdSphere (rho * v * Dp / mu) * rho) := by
      conv_lhs => rw [hv2]
      exact sq_sqrt (by positivity)
    rw [this]
    generalize cdSphere (rho * v * Dp / mu) = c at hCv
    field_simp
  have e2 : a ^ 2 * cdSphere (rho * x * Dp / mu) = 4 * Dp * g * (rhop - rho) / (3 * rho) := by
    rw [ha, sq_sqrt (by positivity)]
    generalize cdSphere (rho * x * Dp / mu) = c at hCx
    field_simp
  have m : ∀ {p q : ℝ}, 0 < p → p ≤ q → rho * q * Dp / mu ≤ 50 → √q * cdSphere (rho * q * Dp / mu) ≤ √p * cdSphere (rho * p * Dp / mu) := fun {p q} hp hpq hq50 => by
    have h0 : rho * p * Dp / mu ≤ rho * q * Dp / mu := by gcongr
    have h1 := sqrt_cd_anti (show 0 < rho * p * Dp / mu by positivity) h0 hq50
    have e : ∀ r : ℝ, √(rho * r * Dp / mu) * cdSphere (rho * r * Dp / mu) = √(rho * Dp / mu) * (√r * cdSphere (rho * r * Dp / mu)) := fun r => by
      rw [show √(rho * r * Dp / mu) = √(rho * Dp / mu) * √r by rw [← sqrt_mul (by positivity)]; congr 1; ring]
      ring
    rw [e, e] at h1
    exact le_of_mul_le_mul_left h1 (sqrt_pos.2 (by positivity))
  have hsx := sqrt_pos.2 hx
  have hsv := sqrt_pos.2 hv
  have lx : log (√x) = log x / 2 := log_sqrt hx.le
  have lv : log (√v) = log v / 2 := log_sqrt hv.le
  have key : a ^ 2 * √v * (√x * cdSphere (rho * x * Dp / mu)) = v ^ 2 * √x * (√v * cdSphere (rho * v * Dp / mu)) := by
    linear_combination (√v * √x) * (e2 - e1)
  have la : log (a ^ 2 * √v) = 2 * log a + log v / 2 := by rw [log_mul (by positivity) hsv.ne', log_pow, lv]; norm_num
  have lb : log (v ^ 2 * √x) = 2 * log v + log x / 2 := by rw [log_mul (by positivity) hsx.ne', log_pow, lx]; norm_num
  have lc : log (x * v) = log x + log v := log_mul hx.ne' hv.ne'
  have ld : log (a ^ 2) = 2 * log a := by rw [log_pow]; norm_num
  rw [log_div hx.ne' hv.ne', log_div ha0.ne' hv.ne']
  constructor
  · intro h0
    have hle : v ≤ x := (log_le_log_iff hv hx).1 (by linarith)
    have h1 := log_le_log (by positivity) (g1 hle)
    have h2 := m hv hle hRx
    have h3 : v ^ 2 * √x ≤ a ^ 2 * √v := by
      refine le_of_mul_le_mul_right ?_ (show 0 < √v * cdSphere (rho * v * Dp / mu) by positivity)
      rw [← key]
      exact mul_le_mul_of_nonneg_left h2 (by positivity)
    have h4 := log_le_log (by positivity) h3
    exact ⟨by linarith, by linarith⟩
  · intro h0
    have hle : x ≤ v := (log_le_log_iff hx hv).1 (by linarith)
    have h1 := log_le_log (by positivity) (g2 hle)
    have h2 := m hx hle hRv
    have h3 : a ^ 2 * √v ≤ v ^ 2 * √x := by
      refine le_of_mul_le_mul_right ?_ (show 0 < √v * cdSphere (rho * v * Dp / mu) by positivity)
      rw [← key]
      exact mul_le_mul_of_nonneg_left h2 (by positivity)
    have h4 := log_le_log (by positivity) h3
    exact ⟨by linarith, by linarith⟩

end Verif.Flow
