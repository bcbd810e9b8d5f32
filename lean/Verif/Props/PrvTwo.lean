import Verif.Lemmas.PrvTwo

/-!
# C60 (two-phase): the omega method
-/

namespace Verif.Prv

open Real

/-- **C60.** Two-phase sizing of a flashing mixture (specific volume growing by at most a factor 1389 at 90 % of the inlet pressure): the critical
pressure is below the inlet pressure, flow is reported as critical exactly when the back pressure does not exceed it, and the area is positive and proportional to the mass flow. -/
theorem C60_two_phase {W P1 P2 v1 v9 Kd Kb Kc Kv : ℝ} (hW : 0 < W) (hP2 : 0 < P2) (hP : P2 < P1) (hv : 0 < v1) (hv9 : v1 < v9) (hv9' : v9 ≤ 1389 * v1)
    (hKd : 0 < Kd) (hKb : 0 < Kb) (hKc : 0 < Kc) (hKv : 0 < Kv) :
    ∃ r Pcf, area2phase W P1 P2 v1 v9 Kd Kb Kc Kv = .ok r ∧ r.Pcf = some Pcf ∧ 0 < Pcf ∧ Pcf < P1 ∧ (r.critical ↔ P2 ≤ Pcf) ∧ 0 < r.A ∧
      ∀ c, (area2phase (c * W) P1 P2 v1 v9 Kd Kb Kc Kv).map Result.A = .ok (c * r.A) := by
  have hP1 := hP2.trans hP
  have hx : 1 < v9 / v1 := (one_lt_div hv).2 hv9
  have hx' : v9 / v1 ≤ 1389 := (div_le_iff₀ hv).2 hv9'
  have hw : 0 < 9 * (v9 / v1 - 1) := by linarith
  obtain ⟨he, he1⟩ := omegaEta_mem hw (by linarith)
  have hG := omegaG_pos (P1 := P1 * 100000) (P2 := P2 * 100000) (by linarith) (by linarith) hv hw he
  have key : ∀ W, area2phase W P1 P2 v1 v9 Kd Kb Kc Kv = .ok ⟨some (P1 * 100000 * omegaEta (9 * (v9 / v1 - 1)) / 100000),
      P2 * 100000 ≤ P1 * 100000 * omegaEta (9 * (v9 / v1 - 1)),
      277.8 * W / (Kd * Kb * Kc * Kv * omegaG (P1 * 100000) (P2 * 100000) v1 (9 * (v9 / v1 - 1)) (omegaEta (9 * (v9 / v1 - 1))))⟩ := by
    intro W
    rw [area2phase, pdiv_ok hv.ne', ok_bind]
    simp only
    rw [if_neg (not_le.2 hw)]
    rfl
  generalize omegaEta (9 * (v9 / v1 - 1)) = e at *
  refine ⟨_, P1 * e, key W, congrArg some (by ring), by positivity, by nlinarith, ?_, ?_, fun c => ?_⟩
  · show P2 * 100000 ≤ P1 * 100000 * e ↔ _
    constructor <;> intro h <;> nlinarith
  · show 0 < 277.8 * W / _
    positivity
  · rw [key]
    refine congrArg Except.ok ?_
    show 277.8 * (c * W) / _ = c * (277.8 * W / _)
    ring

example : ∃ r Pcf, area2phase 1000 10 1 0.01 0.02 0.85 1 1 1 = .ok r ∧ r.Pcf = some Pcf ∧ 0 < Pcf ∧ Pcf < 10 ∧ (r.critical ↔ 1 ≤ Pcf) ∧ 0 < r.A ∧
      ∀ c, (area2phase (c * 1000) 10 1 0.01 0.02 0.85 1 1 1).map Result.A = .ok (c * r.A) :=
  C60_two_phase (by norm_num) one_pos (by norm_num) (by norm_num) (by norm_num) (by norm_num) (by norm_num) one_pos one_pos one_pos

/-- **C60 (false as stated).** A fluid that does not expand (`v9 = v1`) raises `ZeroDivisionError`. -/
theorem C60_two_phase_incompressible_false {W P1 P2 v Kd Kb Kc Kv : ℝ} (hv : 0 < v) : area2phase W P1 P2 v v Kd Kb Kc Kv = .error .ZeroDivisionError := by
  rw [area2phase, pdiv_ok hv.ne', ok_bind, div_self hv.ne']
  simp only
  rw [if_pos (by norm_num)]
  rfl

/-- Transition saturation pressure ratio. -/
noncomputable def etaSt (ws : ℝ) : ℝ := 2 * ws / (1 + 2 * ws)

/-- Critical pressure ratio in the low subcooling region. -/
noncomputable def etaC (ws es : ℝ) : ℝ := es * (2 * ws / (2 * ws - 1)) * (1 - √(1 - 1 / es * ((2 * ws - 1) / (2 * ws))))

theorem etaSt_mem {ws : ℝ} (hw : 0 < ws) : 0 < etaSt ws ∧ etaSt ws < 1 := by
  unfold etaSt
  exact ⟨by positivity, by rw [div_lt_one (by positivity)]; linarith⟩

/-- **C60.** The critical ratio of the low subcooling region continues that of the high subcooling region: at the transition it equals the saturation ratio. -/
theorem C60_subcooled_transition {ws : ℝ} (hw : 0 < ws) (hw2 : 2 * ws ≠ 1) : etaC ws (etaSt ws) = etaSt ws := by
  have h1 : 2 * ws - 1 ≠ 0 := sub_ne_zero.2 hw2
  have h2 : 1 - 1 / etaSt ws * ((2 * ws - 1) / (2 * ws)) = (1 / (2 * ws)) ^ 2 := by
    unfold etaSt; field_simp; ring
  rw [etaC, h2, sqrt_sq (by positivity)]
  field_simp

/-- **C60.** Above the transition it is positive and does not exceed the saturation ratio: the liquid flashes before the flow chokes. -/
theorem C60_subcooled_critical {ws es : ℝ} (hw : 0 < ws) (hw2 : 2 * ws ≠ 1) (h : etaSt ws ≤ es) : 0 < etaC ws es ∧ etaC ws es ≤ es := by
  have h0 := (etaSt_mem hw).1.trans_le h
  have h1 : 2 * ws - 1 ≠ 0 := sub_ne_zero.2 hw2
  set t := (2 * ws - 1) / (2 * ws) with ht
  have ht1 : t < 1 := by rw [ht, div_lt_one (by positivity)]; linarith
  have ht0 : t ≠ 0 := div_ne_zero h1 (by positivity)
  have hti : 2 * ws / (2 * ws - 1) = 1 / t := by rw [ht, one_div_div]
  have hst : 1 / es ≤ 2 - t := by
    have : 1 / etaSt ws = 2 - t := by rw [ht]; unfold etaSt; field_simp; ring
    rw [← this]
    exact one_div_le_one_div_of_le (etaSt_mem hw).1 h
  have hes : 0 < 1 / es := by positivity
  set s := √(1 - 1 / es * t) with hs
  have hs0 : 0 ≤ s := sqrt_nonneg _
  have e : etaC ws es = es * ((1 - s) / t) := by rw [etaC, hti]; ring
  rw [e]
  suffices h : 0 < (1 - s) / t ∧ (1 - s) / t ≤ 1 from ⟨mul_pos h0 h.1, by nlinarith [h.2]⟩
  rcases lt_or_gt_of_ne ht0 with hneg | hpos
  · have hrad : 0 ≤ 1 - 1 / es * t := by nlinarith
    have hss : s ^ 2 = 1 - 1 / es * t := sq_sqrt hrad
    have h2 : 1 < s := by nlinarith
    have h3 : s ≤ 1 - t := by
      by_contra hc
      push Not at hc
      nlinarith
    refine ⟨div_pos_of_neg_of_neg (by linarith) hneg, ?_⟩
    rw [div_le_one_of_neg hneg]; linarith
  · have hrad : 0 ≤ 1 - 1 / es * t := by nlinarith [sq_nonneg (1 - t)]
    have hss : s ^ 2 = 1 - 1 / es * t := sq_sqrt hrad
    have hp : 0 < 1 / es * t := by positivity
    have h2 : s < 1 := by nlinarith
    have h3 : 1 - t ≤ s := by
      by_contra hc
      push Not at hc
      nlinarith
    exact ⟨by apply div_pos <;> linarith, by rw [div_le_one hpos]; linarith⟩

theorem subG_pos {P1 rho1 ws es e : ℝ} (hP1 : 0 < P1) (hr : 0 < rho1) (hw : 0 < ws) (hes : etaSt ws ≤ es) (he : 0 < e) (he1 : e < 1) :
    0 < subG P1 rho1 ws es e := by
  have hes0 := (etaSt_mem hw).1.trans_le hes
  have h1 : es / e > 0 := by positivity
  have hl := one_sub_inv_le_log_of_pos h1
  rw [inv_div] at hl
  have h2 : es - e ≤ es * log (es / e) := by
    have := mul_le_mul_of_nonneg_left hl hes0.le
    rw [mul_sub, mul_div_cancel₀ _ hes0.ne'] at this
    linarith
  have h3 : 0 < 2 * (1 - es) + 2 * (ws * es * log (es / e) - (ws - 1) * (es - e)) := by nlinarith
  have h4 : 0 < ws * (es / e - 1) + 1 := by
    have : es < es / e := by rw [lt_div_iff₀ he]; nlinarith
    have h5 : -1 / (1 + 2 * ws) ≤ es - 1 := by
      have : etaSt ws - 1 = -1 / (1 + 2 * ws) := by unfold etaSt; field_simp; ring
      linarith
    have h6 : -1 < ws * (-1 / (1 + 2 * ws)) := by
      rw [mul_div_assoc', lt_div_iff₀ (by positivity)]; linarith
    nlinarith
  exact div_pos (mul_pos (sqrt_pos.2 h3) (sqrt_pos.2 (by positivity))) h4

/-- **C60.** Subcooled sizing: the flow is critical exactly when the back pressure does not exceed the saturation pressure (high subcooling) or the reported
critical pressure (low subcooling); the area is positive and proportional to the volume flow. -/
theorem C60_subcooled {Q P1 P2 Ps rho1 rho9 Kd Kb Kc Kv : ℝ} (hQ : 0 < Q) (hP2 : 0 < P2) (hP : P2 < P1) (hPs : 0 < Ps) (hPs1 : Ps < P1) (hr9 : 0 < rho9) (hr : rho9 < rho1)
    (hr2 : 18 * rho1 ≠ 19 * rho9) (hKd : 0 < Kd) (hKb : 0 < Kb) (hKc : 0 < Kc) (hKv : 0 < Kv) :
    ∃ r, areaSubcooled Q P1 P2 Ps rho1 rho9 Kd Kb Kc Kv = .ok r ∧ 0 < r.A ∧
      (Ps / P1 < etaSt (9 * (rho1 / rho9 - 1)) → r.Pcf = none ∧ (r.critical ↔ P2 ≤ Ps) ∧
        r.A = 16.67 * Q * rho1 / (Kd * Kb * Kc * Kv * (1.414 * √(rho1 * (100000 * (P1 - max Ps P2)))))) ∧
      (etaSt (9 * (rho1 / rho9 - 1)) ≤ Ps / P1 → ∃ Pcf, r.Pcf = some Pcf ∧ 0 < Pcf ∧ Pcf ≤ Ps ∧ (r.critical ↔ P2 ≤ Pcf)) ∧
      ∀ c, (areaSubcooled (c * Q) P1 P2 Ps rho1 rho9 Kd Kb Kc Kv).map Result.A = .ok (c * r.A) := by
  have hP1 := hP2.trans hP
  have hr1 := hr9.trans hr
  have hx : 1 < rho1 / rho9 := (one_lt_div hr9).2 hr
  set ws := 9 * (rho1 / rho9 - 1) with hws
  have hw : 0 < ws := by linarith
  have hw2 : 2 * ws ≠ 1 := by
    intro hc
    apply hr2
    rw [hws] at hc
    field_simp at hc
    linarith
  have e1 : Ps * 100000 / (P1 * 100000) = Ps / P1 := mul_div_mul_right _ _ (by norm_num)
  have e2 : P2 * 100000 / (P1 * 100000) = P2 / P1 := mul_div_mul_right _ _ (by norm_num)
  have hec_ : subEta_ ws (Ps / P1) = .ok (etaC ws (Ps / P1)) := by
    rw [subEta_, pdiv_ok (sub_ne_zero.2 hw2), ok_bind, pdiv_ok (by positivity), ok_bind, pdiv_ok (by positivity)]
    rfl
  have hmax : (if P2 * 100000 ≤ Ps * 100000 then Ps * 100000 else P2 * 100000) = 100000 * max Ps P2 := by
    split_ifs with h
    · rw [max_eq_left (by linarith)]; ring
    · rw [max_eq_right (by linarith)]; ring
  have unf : ∀ Q, areaSubcooled Q P1 P2 Ps rho1 rho9 Kd Kb Kc Kv = if Ps / P1 < etaSt ws then
        .ok ⟨none, P2 * 100000 ≤ Ps * 100000, 16.67 * Q * rho1 / (Kd * Kb * Kc * Kv * (1.414 * √(rho1 * (P1 * 100000 - 100000 * max Ps P2))))⟩
      else .ok ⟨some (P1 * 100000 * (if Ps / P1 > etaSt ws then etaC ws (Ps / P1) else Ps / P1) / 100000),
        P2 * 100000 ≤ P1 * 100000 * (if Ps / P1 > etaSt ws then etaC ws (Ps / P1) else Ps / P1),
        16.67 * Q * rho1 / (Kd * Kb * Kc * Kv * subG (P1 * 100000) rho1 ws (Ps / P1)
          (if P2 * 100000 ≤ P1 * 100000 * (if Ps / P1 > etaSt ws then etaC ws (Ps / P1) else Ps / P1)
            then (if Ps / P1 > etaSt ws then etaC ws (Ps / P1) else Ps / P1) else P2 / P1))⟩ := by
    intro Q
    rw [areaSubcooled, pdiv_ok hr9.ne', ok_bind]
    simp only
    rw [← hws, pdiv_ok (by positivity), ok_bind, pdiv_ok (by positivity), ok_bind, pdiv_ok (by positivity), ok_bind, e1, e2, hmax]
    rw [show 2 * ws / (1 + 2 * ws) = etaSt ws from rfl]
    by_cases h : Ps / P1 < etaSt ws
    · rw [if_pos h, if_pos h]; rfl
    · rw [if_neg h, if_neg h, hec_]; rfl
  by_cases h : Ps / P1 < etaSt ws
  · have hm : max Ps P2 < P1 := max_lt hPs1 hP
    have hG : 0 < √(rho1 * (100000 * (P1 - max Ps P2))) := sqrt_pos.2 (mul_pos hr1 (by linarith))
    have e3 : P1 * 100000 - 100000 * max Ps P2 = 100000 * (P1 - max Ps P2) := by ring
    simp only [if_pos h, e3] at unf
    refine ⟨_, unf Q, ?_, fun _ => ⟨rfl, ?_, rfl⟩, fun h' => absurd h (not_lt.2 h'), fun c => ?_⟩
    · show 0 < 16.67 * Q * rho1 / _
      positivity
    · show P2 * 100000 ≤ Ps * 100000 ↔ _
      constructor <;> intro h <;> linarith
    · rw [unf]
      refine congrArg Except.ok ?_
      show 16.67 * (c * Q) * rho1 / _ = c * (16.67 * Q * rho1 / _)
      ring
  · push Not at h
    have hec : ∀ ec, ec = (if Ps / P1 > etaSt ws then etaC ws (Ps / P1) else Ps / P1) → 0 < ec ∧ ec ≤ Ps / P1 := by
      intro ec hec
      rw [hec]
      split_ifs
      · exact C60_subcooled_critical hw hw2 h
      · exact ⟨by positivity, le_rfl⟩
    simp only [if_neg (not_lt.2 h)] at unf
    generalize (if Ps / P1 > etaSt ws then etaC ws (Ps / P1) else Ps / P1) = ec at *
    obtain ⟨hec0, hec1⟩ := hec ec rfl
    have hPs' : Ps / P1 < 1 := (div_lt_one hP1).2 hPs1
    have hG : ∀ e, e = (if P2 * 100000 ≤ P1 * 100000 * ec then ec else P2 / P1) → 0 < subG (P1 * 100000) rho1 ws (Ps / P1) e := by
      intro e he
      apply subG_pos (by positivity) hr1 hw h
      · rw [he]; split_ifs
        · exact hec0
        · positivity
      · rw [he]; split_ifs
        · linarith
        · exact (div_lt_one hP1).2 hP
    generalize (if P2 * 100000 ≤ P1 * 100000 * ec then ec else P2 / P1) = e at *
    have hG' := hG e rfl
    refine ⟨_, unf Q, ?_, fun h' => absurd h' (not_lt.2 h), fun _ => ⟨P1 * ec, congrArg some (by ring), by positivity, ?_, ?_⟩, fun c => ?_⟩
    · show 0 < 16.67 * Q * rho1 / _
      positivity
    · rw [le_div_iff₀ hP1] at hec1; linarith
    · show P2 * 100000 ≤ P1 * 100000 * ec ↔ _
      constructor <;> intro h <;> linarith
    · rw [unf]
      refine congrArg Except.ok ?_
      show 16.67 * (c * Q) * rho1 / _ = c * (16.67 * Q * rho1 / _)
      ring

/-- **C60.** The mass fluxes of the two regions agree at the transition up to the rounding of `√2` to 1.414. -/
theorem C60_subcooled_flux_transition {P1 rho1 ws : ℝ} (hP1 : 0 < P1) (hr : 0 < rho1) (hw : 0 < ws) :
    subG P1 rho1 ws (etaSt ws) (etaSt ws) = √2 * √(rho1 * (P1 - P1 * etaSt ws)) := by
  have h0 := (etaSt_mem hw).1
  have h1 := (etaSt_mem hw).2
  generalize etaSt ws = e at *
  rw [subG, div_self h0.ne', log_one, sub_self, sub_self, mul_zero, mul_zero, mul_zero, sub_self, mul_zero, add_zero, zero_add, div_one, sqrt_mul (show (0 : ℝ) ≤ 2 by norm_num),
    show rho1 * (P1 - P1 * e) = (1 - e) * (P1 * rho1) by ring, sqrt_mul (show 0 ≤ 1 - e by linarith), mul_assoc]

/-- Hot water at 10 bar with a saturation pressure of 8 bar. -/
example : ∃ r, areaSubcooled 100 10 1 8 900 600 0.65 1 1 1 = .ok r ∧ 0 < r.A := by
  obtain ⟨r, h1, h2, -⟩ := C60_subcooled (Q := 100) (P1 := 10) (P2 := 1) (Ps := 8) (rho1 := 900) (rho9 := 600) (Kd := 0.65) (Kb := 1) (Kc := 1) (Kv := 1)
    (by norm_num) (by norm_num) (by norm_num) (by norm_num) (by norm_num) (by norm_num) (by norm_num) (by norm_num) (by norm_num) one_pos one_pos one_pos
  exact ⟨r, h1, h2⟩

end Verif.Prv
