import Verif.Lemmas.Rheology

/-!
# C61, C62, C64: viscosity models, wall heat transfer, composite diffusivity
-/

namespace Verif.Rheology

open Real

/-! ### Power law -/

/-- **C61.** The power law is Newtonian for `n = 1`; for `n < 1` the viscosity falls with the shear rate while, for `n > 0`, the shear stress rises. -/
theorem C61_power_law {K n : ℝ} (hK : 0 < K) :
    (∀ g, muPowerLaw g K 1 = .ok K) ∧
    (∀ g g', 0 < g → g < g' → ∃ m m', muPowerLaw g K n = .ok m ∧ muPowerLaw g' K n = .ok m' ∧ 0 < m' ∧ (n < 1 → m' < m) ∧ (0 < n → m * g < m' * g')) := by
  refine ⟨fun g => ?_, fun g g' hg hgg => ?_⟩
  · rw [muPowerLaw, sub_self, ppow_ok (Or.inr le_rfl), ok_bind, rpow_zero, mul_one]; rfl
  · have hg' := hg.trans hgg
    refine ⟨K * g ^ (n - 1), K * g' ^ (n - 1), ?_, ?_, mul_pos hK (rpow_pos_of_pos hg' _), fun hn => ?_, fun hn => ?_⟩
    · rw [muPowerLaw, ppow_ok (Or.inl hg.ne'), ok_bind]; rfl
    · rw [muPowerLaw, ppow_ok (Or.inl hg'.ne'), ok_bind]; rfl
    · exact mul_lt_mul_of_pos_left (rpow_lt_rpow_of_neg hg hgg (by linarith)) hK
    · have e : ∀ {x : ℝ}, 0 < x → K * x ^ (n - 1) * x = K * x ^ n := fun hx => by
        rw [mul_assoc, ← rpow_add_one hx.ne', sub_add_cancel]
      rw [e hg, e hg']
      exact mul_lt_mul_of_pos_left (rpow_lt_rpow hg.le hgg hn) hK

/-- **C61 (false as stated).** At rest a shear-thinning power-law fluid raises `ZeroDivisionError`. -/
theorem C61_power_law_rest_false {K n : ℝ} (hn : n < 1) : muPowerLaw 0 K n = .error .ZeroDivisionError := by
  rw [muPowerLaw, ppow, if_pos ⟨rfl, by linarith⟩]
  rfl

/-! ### Cross -/

/-- **C61.** Cross model, `n < 1`: the viscosity at rest is `mu0`, it falls strictly with the shear rate and stays positive; the shear stress rises for `0 ≤ n`. -/
theorem C61_cross {mu0 l n : ℝ} (hmu : 0 < mu0) (hl : 0 < l) (hn : n < 1) :
    muCross 0 mu0 l n = .ok mu0 ∧
    ∀ g g', 0 ≤ g → g < g' → ∃ m m', muCross g mu0 l n = .ok m ∧ muCross g' mu0 l n = .ok m' ∧ 0 < m' ∧ m' < m ∧ m ≤ mu0 ∧ (0 ≤ n → m * g < m' * g') := by
  refine ⟨?_, fun g g' hg hgg => ?_⟩
  · rw [muCross_eq le_rfl hl hn.le, mul_zero, zero_rpow (by linarith), add_zero, div_one]
  · have hg' := hg.trans_lt hgg
    have h1 := rpow_nonneg (mul_nonneg hl.le hg) (1 - n)
    have h2 : (l * g) ^ (1 - n) < (l * g') ^ (1 - n) := rpow_lt_rpow (by positivity) (by gcongr) (by linarith)
    refine ⟨_, _, muCross_eq hg hl hn.le, muCross_eq hg'.le hl hn.le, div_pos hmu (by linarith), ?_, ?_, fun hn0 => ?_⟩
    · exact div_lt_div_of_pos_left hmu (by linarith) (by linarith)
    · exact div_le_self hmu.le (by linarith)
    · rw [div_mul_eq_mul_div, div_mul_eq_mul_div, div_lt_div_iff₀ (by linarith) (by linarith), mul_assoc, mul_assoc]
      refine mul_lt_mul_of_pos_left ?_ hmu
      rcases hg.eq_or_lt with h0 | h0
      · rw [← h0, zero_mul]
        exact mul_pos hg' (by rw [← h0] at h1; linarith)
      · have h3 : g * (l * g') ^ (1 - n) ≤ g' * (l * g) ^ (1 - n) := by
          have e : l * g' = (g' / g) * (l * g) := by field_simp
          rw [e, mul_rpow (by positivity) (by positivity), ← mul_assoc]
          refine mul_le_mul_of_nonneg_right ?_ h1
          have h4 : 1 ≤ g' / g := (one_le_div h0).2 hgg.le
          have h5 : (g' / g) ^ (1 - n) ≤ (g' / g) ^ (1 : ℝ) := rpow_le_rpow_of_exponent_le h4 (by linarith)
          rw [rpow_one] at h5
          calc g * (g' / g) ^ (1 - n) ≤ g * (g' / g) := mul_le_mul_of_nonneg_left h5 hg
            _ = g' := by field_simp
        nlinarith

/-- **C61.** The modified Cross model is the Cross model with relaxation time `C mu0`. -/
theorem C61_cross_modified (g mu0 C n : ℝ) : muCrossModified g mu0 C n = muCross g mu0 (C * mu0) n := rfl

/-- **C61 (false as stated).** With `n = 1` (Newtonian) the Cross model returns half the zero-shear viscosity at every shear rate, zero included. -/
theorem C61_cross_newtonian_false (g mu0 l : ℝ) : muCross g mu0 l 1 = .ok (mu0 / 2) := by
  rw [muCross, sub_self, ppow_ok (Or.inr le_rfl), ok_bind, rpow_zero, pdiv_ok (by norm_num)]
  norm_num

/-! ### Carreau-Yasuda -/

/-- **C61.** Carreau-Yasuda model: the viscosity at rest is `mu0`; a Newtonian index gives `mu0` everywhere; for `n < 1` the viscosity falls strictly with the
shear rate and stays above `muinf`. -/
theorem C61_carreau_yasuda {mu0 muinf l n a : ℝ} (hl : 0 < l) (ha : 0 < a) (hmu : muinf < mu0) :
    muCarreauYasuda 0 mu0 muinf l n a = .ok mu0 ∧
    (∀ g, 0 ≤ g → muCarreauYasuda g mu0 muinf l 1 a = .ok mu0) ∧
    (n < 1 → ∀ g g', 0 ≤ g → g < g' → ∃ m m', muCarreauYasuda g mu0 muinf l n a = .ok m ∧ muCarreauYasuda g' mu0 muinf l n a = .ok m' ∧
      muinf < m' ∧ m' < m ∧ m ≤ mu0) := by
  refine ⟨?_, fun g hg => ?_, fun hn g g' hg hgg => ?_⟩
  · rw [muCY_eq le_rfl hl ha, mul_zero, zero_rpow ha.ne', add_zero, one_rpow]
    exact congrArg Except.ok (by ring)
  · rw [muCY_eq hg hl ha, sub_self, zero_div, rpow_zero]
    exact congrArg Except.ok (by ring)
  · have hg' := hg.trans_lt hgg
    have h1 := rpow_nonneg (mul_nonneg hl.le hg) a
    have h2 : (l * g) ^ a < (l * g') ^ a := rpow_lt_rpow (by positivity) (by gcongr) ha
    have he : (n - 1) / a < 0 := div_neg_of_neg_of_pos (by linarith) ha
    have h3 : (1 + (l * g') ^ a) ^ ((n - 1) / a) < (1 + (l * g) ^ a) ^ ((n - 1) / a) := rpow_lt_rpow_of_neg (by linarith) (by linarith) he
    have h4 : (1 + (l * g) ^ a) ^ ((n - 1) / a) ≤ 1 := rpow_le_one_of_one_le_of_nonpos (by linarith) he.le
    have h5 : 0 < (1 + (l * g') ^ a) ^ ((n - 1) / a) := rpow_pos_of_pos (by linarith) _
    refine ⟨_, _, muCY_eq hg hl ha, muCY_eq hg'.le hl ha, ?_, ?_, ?_⟩ <;> nlinarith

/-! ### WLF -/

/-- **C61.** WLF shift factor: one at the reference temperature, strictly decreasing in temperature above `T0 - C2`, universal constants when none
are given, and `ValueError` when only one is. -/
theorem C61_wlf {T0 c1 c2 : ℝ} (h1 : 0 < c1) (h2 : 0 < c2) :
    aTWLF T0 T0 (some c1) (some c2) = .ok 1 ∧
    (∀ T T', T0 - c2 < T → T < T' → ∃ a a', aTWLF T T0 (some c1) (some c2) = .ok a ∧ aTWLF T' T0 (some c1) (some c2) = .ok a' ∧ 0 < a' ∧ a' < a) ∧
    (∀ T, aTWLF T T0 none none = aTWLF T T0 (some 17.44) (some 51.60)) ∧
    (∀ T, aTWLF T T0 (some c1) none = .error .ValueError ∧ aTWLF T T0 none (some c2) = .error .ValueError) := by
  refine ⟨?_, fun T T' hT hTT => ?_, fun T => rfl, fun T => ⟨rfl, rfl⟩⟩
  · rw [wlf_eq (by linarith), sub_self, mul_zero, zero_div, rpow_zero]
  · have hd : 0 < c2 + T - T0 := by linarith
    have hd' : 0 < c2 + T' - T0 := by linarith
    refine ⟨_, _, wlf_eq hd.ne', wlf_eq hd'.ne', rpow_pos_of_pos (by norm_num) _, rpow_lt_rpow_of_exponent_lt (by norm_num) ?_⟩
    rw [div_lt_div_iff₀ hd' hd]
    nlinarith [mul_pos h1 h2]

/-- **C61.** Changing the reference temperature: the shift factors with respect to two references differ by a constant factor when
`C2' = C2 + T1 - T0` and `C1' = C1 C2 / C2'`. -/
theorem C61_wlf_reference {T T0 T1 c1 c2 a b : ℝ} (h2 : 0 < c2 + T1 - T0) (hT : 0 < c2 + T - T0)
    (ha : aTWLF T T0 (some c1) (some c2) = .ok a) (hb : aTWLF T1 T0 (some c1) (some c2) = .ok b) :
    aTWLF T T1 (some (c1 * c2 / (c2 + T1 - T0))) (some (c2 + T1 - T0)) = .ok (a / b) := by
  rw [wlf_eq hT.ne'] at ha
  rw [wlf_eq h2.ne'] at hb
  injection ha with ha
  injection hb with hb
  rw [wlf_eq (by linarith), ← ha, ← hb, ← rpow_sub (by norm_num)]
  refine congrArg (fun e => Except.ok ((10 : ℝ) ^ e)) ?_
  have e : c2 + T1 - T0 + T - T1 = c2 + T - T0 := by ring
  rw [e]
  field_simp
  ring

example : aTWLF 373 373 none none = .ok 1 := by
  rw [(C61_wlf (T0 := 373) (c1 := 17.44) (c2 := 51.60) (by norm_num) (by norm_num)).2.2.1]
  exact (C61_wlf (by norm_num) (by norm_num)).1

example : ∃ m m', muCross 1 2 1 0.2 = .ok m ∧ muCross 3 2 1 0.2 = .ok m' ∧ 0 < m' ∧ m' < m ∧ m ≤ 2 ∧ ((0 : ℝ) ≤ 0.2 → m * 1 < m' * 3) :=
  (C61_cross two_pos one_pos (by norm_num)).2 1 3 (by norm_num) (by norm_num)

/-! ### Heat transfer through walls -/

/-- **C62.** Plane wall: the resistances add up, the coefficient is symmetric in the two sides, positive and below each film coefficient and the wall conductance. -/
theorem C62_plane {h1 h2 L k R1 R2 : ℝ} (a1 : 0 < h1) (a2 : 0 < h2) (aL : 0 ≤ L) (ak : 0 < k) (r1 : 0 ≤ R1) (r2 : 0 ≤ R2) :
    ∃ U, uPlane h1 h2 L k R1 R2 = .ok U ∧ uPlane h2 h1 L k R2 R1 = .ok U ∧ 0 < U ∧ U < h1 ∧ U < h2 ∧ U * (L / k) < 1 ∧
      1 / U = 1 / h1 + 1 / h2 + L / k + R1 + R2 := by
  have b1 : 0 < 1 / h1 := by positivity
  have b2 : 0 < 1 / h2 := by positivity
  have b3 : 0 ≤ L / k := by positivity
  refine ⟨_, uPlane_eq a1 a2 aL ak r1 r2, ?_, by positivity, ?_, ?_, ?_, one_div_one_div _⟩
  · rw [uPlane_eq a2 a1 aL ak r2 r1]
    refine congrArg (fun s => Except.ok (1 / s)) ?_
    ring
  · rw [one_div_lt (by positivity) a1]; linarith
  · rw [one_div_lt (by positivity) a2]; linarith
  · rw [div_mul_eq_mul_div, one_mul, div_lt_one (by positivity)]; linarith

/-- **C62.** A better film, a thinner or more conductive wall, or less fouling never lowers the coefficient. -/
theorem C62_plane_monotone {h1 h2 L k R1 R2 h1' h2' L' k' R1' R2' : ℝ} (a1 : 0 < h1) (a2 : 0 < h2) (aL : 0 ≤ L') (ak : 0 < k) (r1 : 0 ≤ R1') (r2 : 0 ≤ R2')
    (c1 : h1 ≤ h1') (c2 : h2 ≤ h2') (cL : L' ≤ L) (ck : k ≤ k') (d1 : R1' ≤ R1) (d2 : R2' ≤ R2) :
    ∃ U U', uPlane h1 h2 L k R1 R2 = .ok U ∧ uPlane h1' h2' L' k' R1' R2' = .ok U' ∧ U ≤ U' := by
  have a1' := a1.trans_le c1
  have a2' := a2.trans_le c2
  have ak' := ak.trans_le ck
  refine ⟨_, _, uPlane_eq a1 a2 (aL.trans cL) ak (r1.trans d1) (r2.trans d2), uPlane_eq a1' a2' aL ak' r1 r2, ?_⟩
  have : L' / k' ≤ L / k := div_le_div₀ (aL.trans cL) cL ak ck
  have : 1 / h1' ≤ 1 / h1 := one_div_le_one_div_of_le a1 c1
  have : 1 / h2' ≤ 1 / h2 := one_div_le_one_div_of_le a2 c2
  refine one_div_le_one_div_of_le (by positivity) (by linarith)

/-- **C62.** Cylindrical wall: positive, below both film coefficients referred to the outer surface, and below the plane-wall value for
the same wall thickness; with no wall (`do = di`) it is the plane-wall value for zero thickness. -/
theorem C62_cylinder {hi ho di dO k Ri Ro : ℝ} (a1 : 0 < hi) (a2 : 0 < ho) (ai : 0 < di) (aio : di ≤ dO) (ak : 0 < k) (r1 : 0 ≤ Ri) (r2 : 0 ≤ Ro) :
    ∃ U V, uCyl hi ho di dO k Ri Ro = .ok U ∧ uPlane hi ho ((dO - di) / 2) k Ri Ro = .ok V ∧ 0 < U ∧ U < ho ∧ U < hi * di / dO ∧ U ≤ V ∧
      (dO = di → U = V) ∧ (di < dO → U < V) := by
  have ao := ai.trans_le aio
  have hx : 1 ≤ dO / di := (one_le_div ai).2 aio
  have hx0 : 0 < dO / di := by positivity
  have hl : 0 ≤ log (dO / di) := log_nonneg hx
  have b1 : 0 < dO / (hi * di) := by positivity
  have b2 : 0 < 1 / ho := by positivity
  have b3 : 0 ≤ Ri * dO / di := by positivity
  have b4 : 0 ≤ dO / (2 * k) * log (dO / di) := by positivity
  have hl2 := one_sub_inv_le_log_of_pos hx0
  rw [inv_div] at hl2
  have b5 : (dO - di) / 2 / k ≤ dO / (2 * k) * log (dO / di) := by
    have := mul_le_mul_of_nonneg_left hl2 (show 0 ≤ dO / (2 * k) by positivity)
    refine le_trans (le_of_eq ?_) this
    field_simp
  have b6 : 1 / hi ≤ dO / (hi * di) := by
    rw [div_le_div_iff₀ a1 (by positivity)]; nlinarith
  have b7 : Ri ≤ Ri * dO / di := by rw [le_div_iff₀ ai]; nlinarith
  have b8 : 0 ≤ (dO - di) / 2 := by linarith
  have p : 0 < 1 / hi := by positivity
  have p2 : 0 ≤ (dO - di) / 2 / k := by positivity
  refine ⟨_, _, uCyl_eq a1 a2 ai ak, uPlane_eq a1 a2 b8 ak r1 r2, by positivity, ?_, ?_, ?_, ?_, ?_⟩
  · rw [one_div_lt (by positivity) a2]; linarith
  · rw [one_div_lt (by positivity) (by positivity), one_div_div]; linarith
  · exact one_div_le_one_div_of_le (by positivity) (by linarith)
  · rintro rfl
    rw [div_self ai.ne', log_one, sub_self, zero_div, zero_div, mul_zero]
    congr 1
    field_simp
    ring
  · intro hlt
    refine one_div_lt_one_div_of_lt (by positivity) ?_
    have : 1 / hi < dO / (hi * di) := by
      rw [div_lt_div_iff₀ a1 (by positivity)]; nlinarith
    linarith

example : ∃ U, uPlane 1000 2000 0.01 600 0 0 = .ok U ∧ 0 < U ∧ U < 1000 := by
  obtain ⟨U, h1, -, h3, h4, -⟩ := C62_plane (h1 := 1000) (h2 := 2000) (L := 0.01) (k := 600) (R1 := 0) (R2 := 0) (by norm_num) (by norm_num) (by norm_num)
    (by norm_num) le_rfl le_rfl
  exact ⟨U, h1, h3, h4⟩

/-! ### Composite diffusivity -/

/-- **C64.** The composite diffusivity satisfies the generalised Maxwell relation and is its only solution among nonnegative values; it is the continuous-phase value
without particles and the dispersed-phase value without matrix. -/
theorem C64_maxwell {Dd Dc fd s : ℝ} (hd : 0 ≤ Dd) (hc : 0 < Dc) (hs : 0 < s) (hs1 : s ≤ 1) (hf : 0 ≤ fd) (hf1 : fd ≤ 1) :
    ∃ D, dComposite Dd Dc fd s = .ok D ∧ 0 ≤ D ∧ (D - Dc) / (D + (3 / s - 1) * Dc) = fd * ((Dd - Dc) / (Dd + (3 / s - 1) * Dc)) ∧
      (∀ D', 0 ≤ D' → (D' - Dc) / (D' + (3 / s - 1) * Dc) = fd * ((Dd - Dc) / (Dd + (3 / s - 1) * Dc)) → D' = D) ∧
      (fd = 0 → D = Dc) ∧ (fd = 1 → D = Dd) ∧ min Dd Dc ≤ D ∧ D ≤ max Dd Dc := by
  have hx : 2 ≤ 3 / s - 1 := by
    have : 3 ≤ 3 / s := by rw [le_div_iff₀ hs]; linarith
    linarith
  rw [dComposite, pdiv_ok hs.ne', ok_bind]
  simp only
  generalize 3 / s - 1 = x at hx
  have hq : 0 < Dd + x * Dc := by nlinarith
  have hY1 : (Dd - Dc) / (Dd + x * Dc) < 1 := by rw [div_lt_one hq]; nlinarith
  have hY0 : -1 ≤ x * ((Dd - Dc) / (Dd + x * Dc)) := by
    rw [mul_div_assoc', le_div_iff₀ hq]; nlinarith
  have hYe : (Dd - Dc) / (Dd + x * Dc) * (Dd + x * Dc) = Dd - Dc := div_mul_cancel₀ _ hq.ne'
  rw [pdiv_ok hq.ne', ok_bind]
  generalize (Dd - Dc) / (Dd + x * Dc) = Y at *
  have hden : 0 < 1 - fd * Y := by nlinarith
  have hnum : 0 ≤ 1 + fd * Y * x := by nlinarith
  have hD : 0 ≤ Dc * (1 + fd * Y * x) / (1 - fd * Y) := div_nonneg (by positivity) hden.le
  have hDe : Dc * (1 + fd * Y * x) / (1 - fd * Y) * (1 - fd * Y) = Dc * (1 + fd * Y * x) := div_mul_cancel₀ _ hden.ne'
  refine ⟨_, pdiv_ok hden.ne', hD, ?_, fun D' hD' h => ?_, ?_, ?_, ?_, ?_⟩
  · generalize Dc * (1 + fd * Y * x) / (1 - fd * Y) = D at *
    rw [div_eq_iff (by nlinarith)]
    linarith
  · rw [div_eq_iff (by nlinarith)] at h
    rw [eq_div_iff hden.ne']
    linarith
  · rintro rfl
    simp
  · rintro rfl
    rw [div_eq_iff hden.ne']
    linarith
  · generalize Dc * (1 + fd * Y * x) / (1 - fd * Y) = D at *
    rcases le_total Dd Dc with h | h
    · rw [min_eq_left h]
      have hY : Y ≤ 0 := by by_contra hcon; push Not at hcon; nlinarith
      have : (D - Dd) * (1 - fd * Y) = (1 - fd) * (-Y) * (Dd + x * Dc) := by nlinarith
      have h2 : 0 ≤ (D - Dd) * (1 - fd * Y) := by rw [this]; apply mul_nonneg (mul_nonneg (by linarith) (by linarith)) hq.le
      nlinarith [nonneg_of_mul_nonneg_left h2 hden]
    · rw [min_eq_right h]
      have hY : 0 ≤ Y := by by_contra hcon; push Not at hcon; nlinarith
      have : (D - Dc) * (1 - fd * Y) = Dc * (fd * Y) * (1 + x) := by nlinarith
      have h2 : 0 ≤ (D - Dc) * (1 - fd * Y) := by rw [this]; positivity
      nlinarith [nonneg_of_mul_nonneg_left h2 hden]
  · generalize Dc * (1 + fd * Y * x) / (1 - fd * Y) = D at *
    rcases le_total Dd Dc with h | h
    · rw [max_eq_right h]
      have hY : Y ≤ 0 := by by_contra hcon; push Not at hcon; nlinarith
      have : (Dc - D) * (1 - fd * Y) = Dc * (fd * (-Y)) * (1 + x) := by nlinarith
      have h2 : 0 ≤ (Dc - D) * (1 - fd * Y) := by
        rw [this]; exact mul_nonneg (mul_nonneg hc.le (mul_nonneg hf (by linarith))) (by linarith)
      nlinarith [nonneg_of_mul_nonneg_left h2 hden]
    · rw [max_eq_left h]
      have hY : 0 ≤ Y := by by_contra hcon; push Not at hcon; nlinarith
      have : (Dd - D) * (1 - fd * Y) = (1 - fd) * Y * (Dd + x * Dc) := by nlinarith
      have h2 : 0 ≤ (Dd - D) * (1 - fd * Y) := by rw [this]; exact mul_nonneg (mul_nonneg (by linarith) hY) hq.le
      nlinarith [nonneg_of_mul_nonneg_left h2 hden]

/-- **C64.** It moves strictly from the continuous to the dispersed value as the particle fraction grows. -/
theorem C64_monotone {Dd Dc f f' s D D' : ℝ} (hd : 0 ≤ Dd) (hc : 0 < Dc) (hs : 0 < s) (hs1 : s ≤ 1) (hf : 0 ≤ f) (hff : f < f') (hf1 : f' ≤ 1)
    (h : dComposite Dd Dc f s = .ok D) (h' : dComposite Dd Dc f' s = .ok D') : (Dc < Dd → D < D') ∧ (Dd < Dc → D' < D) := by
  obtain ⟨E, e1, e2, e3, -⟩ := C64_maxwell hd hc hs hs1 hf (hff.le.trans hf1)
  obtain ⟨E', e1', e2', e3', -⟩ := C64_maxwell hd hc hs hs1 (hf.trans hff.le) hf1
  rw [h] at e1
  rw [h'] at e1'
  injection e1 with e1
  injection e1' with e1'
  subst e1 e1'
  have hx : 2 ≤ 3 / s - 1 := by
    have : 3 ≤ 3 / s := by rw [le_div_iff₀ hs]; linarith
    linarith
  generalize 3 / s - 1 = x at *
  have hq : 0 < Dd + x * Dc := by nlinarith
  have key : ∀ {a b : ℝ}, 0 ≤ a → 0 ≤ b → (a - Dc) / (a + x * Dc) < (b - Dc) / (b + x * Dc) → a < b := by
    intro a b ha hb hab
    rw [div_lt_div_iff₀ (by nlinarith) (by nlinarith)] at hab
    by_contra hcon
    push Not at hcon
    nlinarith [mul_nonneg (sub_nonneg.2 hcon) (show 0 ≤ x * Dc + Dc by nlinarith)]
  constructor <;> intro hlt
  · have hY : 0 < (Dd - Dc) / (Dd + x * Dc) := div_pos (by linarith) hq
    exact key e2 e2' (by rw [e3, e3']; exact mul_lt_mul_of_pos_right hff hY)
  · have hY : (Dd - Dc) / (Dd + x * Dc) < 0 := div_neg_of_neg_of_pos (by linarith) hq
    exact key e2' e2 (by rw [e3, e3']; exact mul_lt_mul_of_neg_right hff hY)

/-- Impermeable spheres. -/
example : dComposite 0 1 (1 / 2) 1 = .ok (2 / 5) := by
  norm_num [dComposite, pdiv, ok_bind]

end Verif.Rheology
