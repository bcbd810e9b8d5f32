import Verif.Lemmas.PrvGas

/-!
# C60 (gas and steam): relief valve sizing
-/

namespace Verif.Prv

open Real

/-- Critical pressure ratio of an isentropic nozzle. -/
noncomputable def critRatio (k : ℝ) : ℝ := (2 / (k + 1)) ^ (k / (k - 1))

/-- Isentropic nozzle flow function: the squared mass flux at pressure ratio `r`, up to the factor `2 P1 rho1`. -/
noncomputable def nozzle (k r : ℝ) : ℝ := k / (k - 1) * (r ^ (2 / k) - r ^ ((k + 1) / k))

theorem critRatio_mem {k : ℝ} (hk : 1 < k) : 0 < critRatio k ∧ critRatio k < 1 := by
  have hu : 0 < 2 / (k + 1) := by positivity
  have hu1 : 2 / (k + 1) < 1 := by rw [div_lt_one (by positivity)]; linarith
  exact ⟨rpow_pos_of_pos hu _, rpow_lt_one hu.le hu1 (div_pos (by linarith) (by linarith))⟩

theorem critRatio_rpow {k : ℝ} (hk : 1 < k) : critRatio k ^ ((k - 1) / k) = 2 / (k + 1) := by
  have hu : 0 < 2 / (k + 1) := by positivity
  have h1 : k - 1 ≠ 0 := by linarith
  have h2 : k ≠ 0 := by linarith
  rw [critRatio, ← rpow_mul hu.le, show k / (k - 1) * ((k - 1) / k) = 1 by field_simp, rpow_one]

theorem nozzle_crit {k : ℝ} (hk : 1 < k) : 2 * nozzle k (critRatio k) = k * (2 / (k + 1)) ^ ((k + 1) / (k - 1)) := by
  have hu : 0 < 2 / (k + 1) := by positivity
  have h1 : k - 1 ≠ 0 := by linarith
  have h2 : k ≠ 0 := by linarith
  have h3 : k + 1 ≠ 0 := by linarith
  rw [nozzle, critRatio, ← rpow_mul hu.le, ← rpow_mul hu.le, show k / (k - 1) * ((k + 1) / k) = (k + 1) / (k - 1) by field_simp,
    show k / (k - 1) * (2 / k) = (k + 1) / (k - 1) - 1 by field_simp; ring, rpow_sub_one hu.ne']
  field_simp
  ring

theorem nozzle_factor {k r : ℝ} (hk : 1 < k) (hr : 0 < r) : nozzle k r = k / (k - 1) * r ^ (2 / k) * (1 - r ^ ((k - 1) / k)) := by
  have h2 : k ≠ 0 := by linarith
  rw [nozzle, show (k + 1) / k = 2 / k + (k - 1) / k by field_simp; ring, rpow_add hr]
  ring

theorem nozzle_pos {k r : ℝ} (hk : 1 < k) (hr : 0 < r) (hr1 : r < 1) : 0 < nozzle k r := by
  rw [nozzle_factor hk hr]
  have h1 : 0 < k - 1 := by linarith
  have h2 : r ^ ((k - 1) / k) < 1 := rpow_lt_one hr.le hr1 (by positivity)
  have h3 : 0 < 1 - r ^ ((k - 1) / k) := by linarith
  have := rpow_pos_of_pos hr (2 / k)
  positivity

theorem nozzle_hasDeriv {k r : ℝ} (hk : 1 < k) (hr : 0 < r) :
    HasDerivAt (nozzle k) (k / (k - 1) * (2 / k * r ^ (2 / k - 1) - (k + 1) / k * r ^ ((k + 1) / k - 1))) r :=
  ((hasDerivAt_rpow_const (Or.inl hr.ne')).sub (hasDerivAt_rpow_const (Or.inl hr.ne'))).const_mul _

theorem nozzle_deriv {k r : ℝ} (hk : 1 < k) (hr : 0 < r) :
    deriv (nozzle k) r = (k + 1) / (k - 1) * r ^ (2 / k - 1) * (2 / (k + 1) - r ^ ((k - 1) / k)) := by
  have h1 : k - 1 ≠ 0 := by linarith
  have h2 : k ≠ 0 := by linarith
  have h3 : k + 1 ≠ 0 := by linarith
  rw [(nozzle_hasDeriv hk hr).deriv, show (k + 1) / k - 1 = (2 / k - 1) + (k - 1) / k by field_simp; ring, rpow_add hr]
  field_simp

theorem nozzle_anti {k : ℝ} (hk : 1 < k) : StrictAntiOn (nozzle k) (Set.Ici (critRatio k)) := by
  have hc := (critRatio_mem hk).1
  refine strictAntiOn_of_deriv_neg (convex_Ici _) (fun x hx => (nozzle_hasDeriv hk (hc.trans_le hx)).continuousAt.continuousWithinAt) fun x hx => ?_
  rw [interior_Ici] at hx
  have hx0 := hc.trans hx
  rw [nozzle_deriv hk hx0]
  have : 2 / (k + 1) < x ^ ((k - 1) / k) := by
    rw [← critRatio_rpow hk]
    exact rpow_lt_rpow hc.le hx (div_pos (by linarith) (by linarith))
  have h1 : 0 < k - 1 := by linarith
  exact mul_neg_of_pos_of_neg (mul_pos (by positivity) (rpow_pos_of_pos hx0 _)) (by linarith)

theorem nozzle_mono {k : ℝ} (hk : 1 < k) : StrictMonoOn (nozzle k) (Set.Ioc 0 (critRatio k)) := by
  refine strictMonoOn_of_deriv_pos (convex_Ioc _ _) (fun x hx => (nozzle_hasDeriv hk hx.1).continuousAt.continuousWithinAt) fun x hx => ?_
  rw [interior_Ioc] at hx
  rw [nozzle_deriv hk hx.1]
  have : x ^ ((k - 1) / k) < 2 / (k + 1) := by
    rw [← critRatio_rpow hk]
    exact rpow_lt_rpow hx.1.le hx.2 (div_pos (by linarith) (by linarith))
  have h1 : 0 < k - 1 := by linarith
  exact mul_pos (mul_pos (by positivity) (rpow_pos_of_pos hx.1 _)) (by linarith)

/-- **C60.** The pressure ratio `(2/(k+1))^(k/(k-1))` at which the code switches to choked flow is where the isentropic nozzle
flow is largest, and the only such point. -/
theorem C60_gas_choked_max {k r : ℝ} (hk : 1 < k) (hr : 0 < r) (hne : r ≠ critRatio k) : nozzle k r < nozzle k (critRatio k) := by
  rcases lt_or_gt_of_ne hne with h | h
  · exact nozzle_mono hk ⟨hr, h.le⟩ ⟨(critRatio_mem hk).1, le_rfl⟩ h
  · exact nozzle_anti hk (Set.self_mem_Ici) h.le h

theorem gasPcf_eq {P1 k : ℝ} (hk : 1 < k) : gasPcf P1 k = .ok (P1 * critRatio k) := by
  rw [gasPcf, pdiv_ok (by linarith), ok_bind, pdiv_ok (by linarith)]
  rfl

theorem gasCrit_eq {W P1 T k M Z Kd Kb Kc KSH : ℝ} (hk : 1 < k) (hM : 0 < M) :
    gasCrit W P1 T k M Z false Kd Kb Kc KSH =
      .ok (W * √(T * Z / M) / (0.03948 * √2 * √(nozzle k (critRatio k)) * (Kd * Kb * Kc) * P1)) := by
  rw [gasCrit, if_neg (by decide), pdiv_ok (by linarith), ok_bind, pdiv_ok (by linarith), ok_bind, pdiv_ok hM.ne', ok_bind, ← nozzle_crit hk,
    sqrt_mul (by norm_num)]
  refine congrArg Except.ok ?_
  rw [div_mul_eq_mul_div]
  congr 1
  ring

theorem gasSub_eq {W P1 P2 T k M Z Kd Kc : ℝ} (hk : 1 < k) (hM : 0 < M) (hT : 0 ≤ T * Z) (hP2 : 0 < P2) (hP : P2 < P1) :
    gasSub W P1 P2 T k M Z Kd Kc = .ok (17.9 * W * √(T * Z / M) / (√(nozzle k (P2 / P1)) * (Kd * Kc) * P1)) := by
  have hP1 : 0 < P1 := hP2.trans hP
  have hd : 0 < P1 - P2 := by linarith
  have hr : 0 < P2 / P1 := by positivity
  have hr1 : P2 / P1 < 1 := (div_lt_one hP1).2 hP
  have h1r : 0 < 1 - P2 / P1 := by linarith
  rw [gasSub, pdiv_ok hP1.ne', ok_bind, pdiv_ok (by linarith), ok_bind, pdiv_ok (by linarith), ok_bind, pdiv_ok (by linarith), ok_bind, pdiv_ok h1r.ne', ok_bind,
    pdiv_ok (by positivity), ok_bind]
  refine congrArg Except.ok ?_
  have e1 : k / (k - 1) * (P2 / P1) ^ (2 / k) * ((1 - (P2 / P1) ^ ((k - 1) / k)) / (1 - P2 / P1)) = nozzle k (P2 / P1) / (1 - P2 / P1) := by
    rw [nozzle_factor hk hr]; ring
  have e2 : T * Z / (M * P1 * (P1 - P2)) = T * Z / M / (P1 ^ 2 * (1 - P2 / P1)) := by field_simp
  rw [e1, e2, sqrt_div (nozzle_pos hk hr hr1).le, sqrt_div (by positivity), sqrt_mul (by positivity), sqrt_sq hP1.le]
  have h3 := sqrt_pos.2 h1r
  have h4 := sqrt_pos.2 (nozzle_pos hk hr hr1)
  generalize √(1 - P2 / P1) = x at *
  generalize √(nozzle k (P2 / P1)) = y at *
  by_cases hK : Kd * Kc = 0
  · rw [show y / x * Kd * Kc = y / x * (Kd * Kc) by ring, hK]; simp
  · have a1 : Kd ≠ 0 := left_ne_zero_of_mul hK
    have a2 : Kc ≠ 0 := right_ne_zero_of_mul hK
    field_simp

/-- Area the API equations prescribe for a gas; pressures in bar. -/
noncomputable def gasArea (W P1 P2 T k M Z Kd Kb Kc : ℝ) : ℝ :=
  if P2 ≤ P1 * critRatio k then W * √(T * Z / M) / (0.03948 * √2 * √(nozzle k (critRatio k)) * (Kd * Kb * Kc) * (100 * P1))
  else 17.9 * W * √(T * Z / M) / (√(nozzle k (P2 / P1)) * (Kd * Kc) * (100 * P1))

/-- **C60.** Gas sizing: the reported critical pressure is `P1 (2/(k+1))^(k/(k-1))`, the flow is reported as critical exactly when
the back pressure does not exceed it, and the area is the nozzle-flow area of that regime. -/
theorem C60_gas {W P1 P2 T k M Z Kd Kb Kc KSH : ℝ} (hk : 1 < k) (hM : 0 < M) (hT : 0 ≤ T * Z) (hP2 : 0 < P2) (hP : P2 < P1) :
    ∃ r, areaGas W P1 P2 T k M Z false Kd Kb Kc KSH = .ok r ∧ r.Pcf = some (P1 * critRatio k) ∧ (r.critical ↔ P2 ≤ P1 * critRatio k) ∧
      r.A = gasArea W P1 P2 T k M Z Kd Kb Kc := by
  have hiff : P2 * 100 ≤ P1 * 100 * critRatio k ↔ P2 ≤ P1 * critRatio k := by constructor <;> intro h <;> nlinarith
  rw [areaGas, gasPcf_eq hk, ok_bind]
  by_cases h : P2 ≤ P1 * critRatio k
  · rw [if_pos (hiff.2 h), gasCrit_eq hk hM, ok_bind]
    refine ⟨_, rfl, congrArg some (by ring), hiff, ?_⟩
    rw [gasArea, if_pos h, mul_comm P1 100]
  · rw [if_neg (fun c => h (hiff.1 c)), gasSub_eq hk hM hT (by linarith) (by linarith), ok_bind]
    refine ⟨_, rfl, congrArg some (by ring), hiff, ?_⟩
    rw [gasArea, if_neg h, mul_comm P1 100, show P2 * 100 / (100 * P1) = P2 / P1 by rw [mul_comm P2, mul_div_mul_left _ _ (by norm_num)]]

/-- The prescribed gas area is positive and proportional to the mass flow. -/
theorem gasArea_proportional {W P1 P2 T k M Z Kd Kb Kc : ℝ} (hk : 1 < k) (hM : 0 < M) (hT : 0 < T) (hZ : 0 < Z) (hP2 : 0 < P2) (hP : P2 < P1)
    (hKd : 0 < Kd) (hKb : 0 < Kb) (hKc : 0 < Kc) (hW : 0 < W) (c : ℝ) :
    0 < gasArea W P1 P2 T k M Z Kd Kb Kc ∧ gasArea (c * W) P1 P2 T k M Z Kd Kb Kc = c * gasArea W P1 P2 T k M Z Kd Kb Kc := by
  have hP1 : 0 < P1 := hP2.trans hP
  have h1 := sqrt_pos.2 (nozzle_pos hk (critRatio_mem hk).1 (critRatio_mem hk).2)
  have h2 := sqrt_pos.2 (nozzle_pos hk (div_pos hP2 hP1) ((div_lt_one hP1).2 hP))
  have h3 : 0 < √(T * Z / M) := sqrt_pos.2 (by positivity)
  have h4 : 0 < √(2 : ℝ) := sqrt_pos.2 two_pos
  unfold gasArea
  split_ifs
  · exact ⟨by positivity, by ring⟩
  · exact ⟨by positivity, by ring⟩

/-- The prescribed area in choked and subcritical flow as a function of the back pressure. -/
theorem gasArea_backpressure {W P1 P2 P2' T k M Z Kd Kb Kc : ℝ} (hk : 1 < k) (hM : 0 < M) (hT : 0 < T) (hZ : 0 < Z) (h2 : 0 < P2) (h22 : P2 < P2') (hP : P2' < P1)
    (hKd : 0 < Kd) (hKc : 0 < Kc) (hW : 0 < W) :
    (P2' ≤ P1 * critRatio k → gasArea W P1 P2 T k M Z Kd Kb Kc = gasArea W P1 P2' T k M Z Kd Kb Kc) ∧
    (P1 * critRatio k < P2 → gasArea W P1 P2 T k M Z Kd Kb Kc < gasArea W P1 P2' T k M Z Kd Kb Kc) := by
  have hP1 : 0 < P1 := by linarith
  constructor
  · intro h
    rw [gasArea, if_pos (h22.le.trans h), gasArea, if_pos h]
  · intro h
    rw [gasArea, if_neg (not_le.2 h), gasArea, if_neg (not_le.2 (h.trans h22))]
    have h3 : 0 < √(T * Z / M) := sqrt_pos.2 (by positivity)
    have hc : critRatio k < P2 / P1 := by rw [lt_div_iff₀ hP1]; linarith
    have hc' : P2 / P1 < P2' / P1 := by gcongr
    have h4 := nozzle_anti hk hc.le (hc.trans hc').le hc'
    have h5 := nozzle_pos hk (div_pos (h2.trans h22) hP1) ((div_lt_one hP1).2 hP)
    have h6 := sqrt_lt_sqrt h5.le h4
    have h7 := sqrt_pos.2 h5
    gcongr

/-- The prescribed area drops where the flow stops being choked. -/
theorem gasArea_drop {W P1 T k M Z Kd Kb Kc : ℝ} (hk : 1 < k) (hM : 0 < M) (hT : 0 < T) (hZ : 0 < Z) (hP1 : 0 < P1)
    (hKd : 0 < Kd) (hKb : 0 < Kb) (hKb1 : Kb ≤ 1) (hKc : 0 < Kc) (hW : 0 < W) :
    ∃ P2 P2', 0 < P2 ∧ P2 < P2' ∧ P2' < P1 ∧ gasArea W P1 P2' T k M Z Kd Kb Kc < gasArea W P1 P2 T k M Z Kd Kb Kc := by
  obtain ⟨hc0, hc1⟩ := critRatio_mem hk
  have hn := nozzle_pos hk hc0 hc1
  have h3 : 0 < √(T * Z / M) := sqrt_pos.2 (by positivity)
  -- a pressure ratio just above the critical one
  have hcont : ContinuousAt (nozzle k) (critRatio k) := (nozzle_hasDeriv hk hc0).continuousAt
  have hev : ∀ᶠ r in nhds (critRatio k), (0.03948 * 17.9) ^ 2 * 2 * nozzle k (critRatio k) < nozzle k r :=
    hcont.eventually (lt_mem_nhds (by nlinarith))
  have hev2 : ∀ᶠ r in nhdsWithin (critRatio k) (Set.Ioi (critRatio k)), (0.03948 * 17.9) ^ 2 * 2 * nozzle k (critRatio k) < nozzle k r := nhdsWithin_le_nhds hev
  have hev3 : ∀ᶠ r in nhdsWithin (critRatio k) (Set.Ioi (critRatio k)), r ∈ Set.Ioo (critRatio k) 1 := Ioo_mem_nhdsGT hc1
  obtain ⟨r, hr, hr1, hr2⟩ := (hev2.and hev3).exists
  refine ⟨P1 * critRatio k, P1 * r, by positivity, by gcongr, by nlinarith, ?_⟩
  rw [gasArea, if_neg (by rw [not_le]; gcongr), gasArea, if_pos le_rfl, mul_div_cancel_left₀ _ hP1.ne']
  have h6 := sqrt_lt_sqrt (by positivity) hr
  rw [mul_assoc, sqrt_mul (by positivity), sqrt_sq (by norm_num), sqrt_mul (by norm_num)] at h6
  have h7 := sqrt_pos.2 hn
  have h4 : 0 < √(2 : ℝ) := sqrt_pos.2 two_pos
  have hx : 0 < √(nozzle k r) := lt_trans (by positivity) h6
  rw [div_lt_div_iff₀ (by positivity) (by positivity)]
  generalize √(nozzle k (critRatio k)) = y at *
  generalize √(nozzle k r) = x at *
  have h8 : 17.9 * (0.03948 * √2 * y) * Kb < x := by
    have : 17.9 * (0.03948 * √2 * y) * Kb ≤ 17.9 * (0.03948 * √2 * y) * 1 := mul_le_mul_of_nonneg_left hKb1 (by positivity)
    nlinarith
  have h9 := mul_lt_mul_of_pos_left h8 (show 0 < W * √(T * Z / M) * (Kd * Kc * (100 * P1)) by positivity)
  calc _ = W * √(T * Z / M) * (Kd * Kc * (100 * P1)) * (17.9 * (0.03948 * √2 * y) * Kb) := by ring
    _ < _ := h9
    _ = _ := by ring

theorem areaGas_A {W P1 P2 T k M Z Kd Kb Kc KSH : ℝ} (hk : 1 < k) (hM : 0 < M) (hT : 0 ≤ T * Z) (hP2 : 0 < P2) (hP : P2 < P1) :
    (areaGas W P1 P2 T k M Z false Kd Kb Kc KSH).map Result.A = .ok (gasArea W P1 P2 T k M Z Kd Kb Kc) := by
  obtain ⟨r, h1, -, -, h4⟩ := C60_gas (W := W) (Kd := Kd) (Kb := Kb) (Kc := Kc) (KSH := KSH) hk hM hT hP2 hP
  rw [h1, ← h4]
  rfl

/-- **C60.** The gas area is positive and proportional to the mass flow. -/
theorem C60_gas_proportional {W P1 P2 T k M Z Kd Kb Kc KSH : ℝ} (hk : 1 < k) (hM : 0 < M) (hT : 0 < T) (hZ : 0 < Z) (hP2 : 0 < P2) (hP : P2 < P1)
    (hKd : 0 < Kd) (hKb : 0 < Kb) (hKc : 0 < Kc) (hW : 0 < W) (c : ℝ) :
    ∃ A, 0 < A ∧ (areaGas W P1 P2 T k M Z false Kd Kb Kc KSH).map Result.A = .ok A ∧
      (areaGas (c * W) P1 P2 T k M Z false Kd Kb Kc KSH).map Result.A = .ok (c * A) := by
  obtain ⟨h1, h2⟩ := gasArea_proportional hk hM hT hZ hP2 hP hKd hKb hKc hW c
  exact ⟨_, h1, areaGas_A hk hM (by positivity) hP2 hP, by rw [areaGas_A hk hM (by positivity) hP2 hP, h2]⟩

/-- **C60.** In choked flow the area does not depend on the back pressure; in subcritical flow it grows with it. -/
theorem C60_gas_backpressure_partial {W P1 P2 P2' T k M Z Kd Kb Kc KSH : ℝ} (hk : 1 < k) (hM : 0 < M) (hT : 0 < T) (hZ : 0 < Z) (h2 : 0 < P2) (h22 : P2 < P2') (hP : P2' < P1)
    (hKd : 0 < Kd) (hKc : 0 < Kc) (hW : 0 < W) :
    ∃ A A', (areaGas W P1 P2 T k M Z false Kd Kb Kc KSH).map Result.A = .ok A ∧ (areaGas W P1 P2' T k M Z false Kd Kb Kc KSH).map Result.A = .ok A' ∧
      (P2' ≤ P1 * critRatio k → A = A') ∧ (P1 * critRatio k < P2 → A < A') := by
  obtain ⟨h3, h4⟩ := gasArea_backpressure (Kb := Kb) hk hM hT hZ h2 h22 hP hKd hKc hW
  exact ⟨_, _, areaGas_A hk hM (by positivity) h2 (h22.trans hP), areaGas_A hk hM (by positivity) (h2.trans h22) hP, h3, h4⟩

/-- **C60 (false as stated).** The area is not monotone in the back pressure: for every gas and every inlet condition it falls
where the flow stops being choked, because the two formulas' constants do not match (0.03948 √2 17.9 < 1) and, for `Kb < 1`, because `Kb` is
dropped from the subcritical formula. -/
theorem C60_gas_backpressure_false {W P1 T k M Z Kd Kb Kc KSH : ℝ} (hk : 1 < k) (hM : 0 < M) (hT : 0 < T) (hZ : 0 < Z) (hP1 : 0 < P1)
    (hKd : 0 < Kd) (hKb : 0 < Kb) (hKb1 : Kb ≤ 1) (hKc : 0 < Kc) (hW : 0 < W) :
    ∃ P2 P2' A A', 0 < P2 ∧ P2 < P2' ∧ P2' < P1 ∧ (areaGas W P1 P2 T k M Z false Kd Kb Kc KSH).map Result.A = .ok A ∧
      (areaGas W P1 P2' T k M Z false Kd Kb Kc KSH).map Result.A = .ok A' ∧ A' < A := by
  obtain ⟨P2, P2', h1, h2, h3, h4⟩ := gasArea_drop hk hM hT hZ hP1 hKd hKb hKb1 hKc hW
  exact ⟨P2, P2', _, _, h1, h2, h3, areaGas_A hk hM (by positivity) h1 (h2.trans h3), areaGas_A hk hM (by positivity) (h1.trans h2) h3, h4⟩

/-- **C60 (false as stated).** A gas with `k = 1` (the isothermal limit, where the nozzle equations have a finite limit) raises `ZeroDivisionError`. -/
theorem C60_gas_isothermal_false (W P1 P2 T M Z Kd Kb Kc KSH : ℝ) (steam : Bool) :
    areaGas W P1 P2 T 1 M Z steam Kd Kb Kc KSH = .error .ZeroDivisionError := by
  rw [areaGas, gasPcf, pdiv_ok (by norm_num), ok_bind, pdiv, if_pos (by norm_num)]
  rfl

/-- **C60.** Steam sizing in choked flow: Napier's equation, with the correction for inlet pressures above 10339 kPa and a `ValueError` from 22057 kPa on. -/
theorem C60_steam {W P1 P2 T k M Z Kd Kb Kc KSH : ℝ} (hk : 1 < k) (hP1 : 0 < P1) (hc : P2 ≤ P1 * critRatio k) (hKd : 0 < Kd) (hKb : 0 < Kb) (hKc : 0 < Kc) (hKSH : 0 < KSH)
    (hW : 0 < W) :
    (P1 ≤ 103.39 → ∃ r, areaGas W P1 P2 T k M Z true Kd Kb Kc KSH = .ok r ∧ r.critical ∧ 0 < r.A ∧ r.A = 1.905 * W / (P1 * Kd * Kb * Kc * KSH)) ∧
    (103.39 < P1 → P1 < 220.57 → ∃ r KN, areaGas W P1 P2 T k M Z true Kd Kb Kc KSH = .ok r ∧ r.critical ∧ 0.99 < KN ∧ KN < 1.2 ∧
      KN = (2.764 * P1 - 1000) / (3.324 * P1 - 1061) ∧ r.A = 1.905 * W / (P1 * Kd * Kb * Kc * KN * KSH)) ∧
    (220.57 ≤ P1 → areaGas W P1 P2 T k M Z true Kd Kb Kc KSH = .error .ValueError) := by
  have hiff : P2 * 100 ≤ P1 * 100 * critRatio k := by nlinarith
  rw [areaGas, gasPcf_eq hk, ok_bind, if_pos hiff, gasCrit, if_pos rfl, steamKN]
  refine ⟨fun h => ?_, fun h h' => ?_, fun h => ?_⟩
  · rw [if_pos (by linarith), ok_bind, pdiv_ok (by positivity), ok_bind]
    refine ⟨_, rfl, hiff, ?_, ?_⟩
    · show 0 < 190.5 * W / _
      positivity
    · show 190.5 * W / _ = _
      field_simp
      norm_num
  · have hd : 3.324 * P1 - 1061 < 0 := by linarith
    have hKN : (0.02764 * (P1 * 100) - 1000) / (0.03324 * (P1 * 100) - 1061) = (2.764 * P1 - 1000) / (3.324 * P1 - 1061) := by congr 1 <;> ring
    have hlo : 0.99 < (2.764 * P1 - 1000) / (3.324 * P1 - 1061) := by rw [lt_div_iff_of_neg hd]; linarith
    have hhi : (2.764 * P1 - 1000) / (3.324 * P1 - 1061) < 1.2 := by rw [div_lt_iff_of_neg hd]; linarith
    have hp : 0 < (2.764 * P1 - 1000) / (3.324 * P1 - 1061) := by linarith
    rw [if_neg (by linarith), if_pos (by linarith), pdiv_ok (by linarith), hKN, ok_bind, pdiv_ok (by positivity), ok_bind]
    refine ⟨_, _, rfl, hiff, hlo, hhi, rfl, ?_⟩
    show 190.5 * W / _ = _
    generalize (2.764 * P1 - 1000) / (3.324 * P1 - 1061) = KN at *
    field_simp
    norm_num
  · rw [if_neg (by linarith), if_neg (by linarith)]
    rfl

/-- Air at 10 bar relieving to the atmosphere (`k = 2` for a rational critical ratio `4/9`): choked. -/
example : ∃ r, areaGas 1000 10 1 300 2 29 1 false 0.975 1 1 1 = .ok r ∧ r.critical := by
  obtain ⟨r, h1, -, h3, -⟩ := C60_gas (W := 1000) (P1 := 10) (P2 := 1) (T := 300) (k := 2) (M := 29) (Z := 1) (Kd := 0.975) (Kb := 1) (Kc := 1) (KSH := 1)
    (by norm_num) (by norm_num) (by norm_num) (by norm_num) (by norm_num)
  refine ⟨r, h1, h3.2 ?_⟩
  rw [critRatio]
  norm_num

/-- Saturated steam at 150 bar. -/
example : ∃ r KN, areaGas 1000 150 1 600 2 18 1 true 0.975 1 1 1 = .ok r ∧ r.critical ∧ 0.99 < KN ∧ KN < 1.2 ∧
      KN = (2.764 * 150 - 1000) / (3.324 * 150 - 1061) ∧ r.A = 1.905 * 1000 / (150 * 0.975 * 1 * 1 * KN * 1) :=
  (C60_steam (by norm_num) (by norm_num) (by rw [critRatio]; norm_num) (by norm_num) one_pos one_pos one_pos (by norm_num)).2.1 (by norm_num) (by norm_num)

end Verif.Prv
