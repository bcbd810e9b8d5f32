import Verif.Lemmas.TransportDiff

/-! # C94: estimates of diffusion coefficients -/

namespace Verif.Transport

open Real

/-- C94. `DV_Wilke_Lee` raises `ValueError` exactly when one of `rhoB`, `TB` is given without the other. -/
theorem C94_wilke_lee_error (T P MA MB rhoA TA : ℝ) (rhoB TB : Option ℝ) :
    dvWilkeLee T P MA MB rhoA rhoB TA TB = .error .ValueError ↔ (rhoB = none ∧ TB ≠ none) ∨ (rhoB ≠ none ∧ TB = none) := by
  unfold dvWilkeLee
  cases rhoB <;> cases TB <;> simp [wilkeLeeB, bind, Except.bind, pure, Except.pure]

/-- C94. `DV_Wilke_Lee` is symmetric in the two species and inversely proportional to pressure. -/
theorem C94_wilke_lee_symmetric {T P P' MA MB rhoA rhoB TA TB : ℝ} (hP : P ≠ 0) (hP' : P' ≠ 0) :
    dvWilkeLee T P MA MB rhoA (some rhoB) TA (some TB) = dvWilkeLee T P MB MA rhoB (some rhoA) TB (some TA) ∧
      ∃ D D', dvWilkeLee T P MA MB rhoA (some rhoB) TA (some TB) = .ok D ∧ dvWilkeLee T P' MA MB rhoA (some rhoB) TA (some TB) = .ok D' ∧ P * D = P' * D' := by
  constructor
  · show Except.ok _ = Except.ok _
    rw [add_comm (1 / MA) (1 / MB), mul_comm (1.15 * TA) (1.15 * TB), add_comm (1.18 * (1e6 * MA / rhoA) ^ (1 / 3 : ℝ))]
  · have key : ∀ Q, dvWilkeLee T Q MA MB rhoA (some rhoB) TA (some TB) = .ok (1e-2 * (3.03 - 0.98 / √(1e3 * 2 / (1 / MA + 1 / MB))) * T ^ (1.5 : ℝ) /
        (Q * √(1e3 * 2 / (1 / MA + 1 / MB)) * ((1.18 * (1e6 * MA / rhoA) ^ (1 / 3 : ℝ) + 1.18 * (1e6 * MB / rhoB) ^ (1 / 3 : ℝ)) / 2) ^ 2 *
          omegaD (T / √(1.15 * TA * (1.15 * TB))))) := fun Q => rfl
    refine ⟨_, _, key P, key P', ?_⟩
    generalize √(1e3 * 2 / (1 / MA + 1 / MB)) = x
    generalize ((1.18 * (1e6 * MA / rhoA) ^ (1 / 3 : ℝ) + 1.18 * (1e6 * MB / rhoB) ^ (1 / 3 : ℝ)) / 2) ^ 2 = q
    generalize omegaD (T / √(1.15 * TA * (1.15 * TB))) = o
    generalize 1e-2 * (3.03 - 0.98 / x) * T ^ (1.5 : ℝ) = n
    have e : ∀ Q : ℝ, Q ≠ 0 → Q * (n / (Q * x * q * o)) = n / (x * q * o) := fun Q hQ => by
      rw [show Q * x * q * o = Q * (x * q * o) by ring, ← div_div, mul_div_assoc', mul_div_cancel₀ _ hQ]
    rw [e P hP, e P' hP']

/-- C94. `DV_Wilke_Lee` is positive and strictly increases with temperature, in air (`rhoB = TB = None`) and in any other gas, when both molar masses
exceed 0.11 g/mol. -/
theorem C94_wilke_lee_monotone {T T' P MA MB rhoA TA : ℝ} {rhoB TB : Option ℝ} (hP : 0 < P) (hT : 0 < T) (hTT : T < T') (hMA : 1.1e-4 ≤ MA)
    (hMB : 1.1e-4 ≤ MB) (hrA : 0 < rhoA) (hTA : 0 < TA) (hB : (rhoB = none ∧ TB = none) ∨ ∃ r t, rhoB = some r ∧ TB = some t ∧ 0 < r ∧ 0 < t) :
    ∃ D D', dvWilkeLee T P MA MB rhoA rhoB TA TB = .ok D ∧ dvWilkeLee T' P MA MB rhoA rhoB TA TB = .ok D' ∧ 0 < D ∧ D < D' := by
  have pA : 0 < MA := lt_of_lt_of_le (by norm_num) hMA
  have pB : 0 < MB := lt_of_lt_of_le (by norm_num) hMB
  obtain ⟨sB, eB, hw, hs, he⟩ : ∃ sB eB, wilkeLeeB MB rhoB TB = .ok (sB, eB) ∧ 0 < sB ∧ 0 < eB := by
    rcases hB with ⟨rfl, rfl⟩ | ⟨r, t, rfl, rfl, hr, ht⟩
    · exact ⟨_, _, rfl, by norm_num, by norm_num⟩
    · exact ⟨_, _, rfl, by positivity, by positivity⟩
  have key : ∀ S, dvWilkeLee S P MA MB rhoA rhoB TA TB = .ok (1e-2 * (3.03 - 0.98 / √(1e3 * 2 / (1 / MA + 1 / MB))) * S ^ (1.5 : ℝ) /
      (P * √(1e3 * 2 / (1 / MA + 1 / MB)) * ((1.18 * (1e6 * MA / rhoA) ^ (1 / 3 : ℝ) + sB) / 2) ^ 2 * omegaD (S / √(1.15 * TA * eB)))) := fun S => by
    unfold dvWilkeLee
    rw [hw]; rfl
  refine ⟨_, _, key T, key T', ?_⟩
  have hm : 0.11 ≤ 1e3 * 2 / (1 / MA + 1 / MB) := by
    rw [le_div_iff₀ (by positivity)]
    have a : 1 / MA ≤ 1 / 1.1e-4 := one_div_le_one_div_of_le (by norm_num) hMA
    have b : 1 / MB ≤ 1 / 1.1e-4 := one_div_le_one_div_of_le (by norm_num) hMB
    norm_num at *
    linarith
  generalize 1e3 * 2 / (1 / MA + 1 / MB) = m at *
  have hsq : 0.33 ≤ √m := le_sqrt_of_sq_le (by norm_num at *; linarith)
  have hsp : 0 < √m := lt_of_lt_of_le (by norm_num) hsq
  have hc : 0 < 3.03 - 0.98 / √m := by
    have : 0.98 / √m ≤ 0.98 / 0.33 := div_le_div_of_nonneg_left (by norm_num) (by norm_num) hsq
    norm_num at *
    linarith
  have hsA : 0 < ((1.18 * (1e6 * MA / rhoA) ^ (1 / 3 : ℝ) + sB) / 2) ^ 2 := by positivity
  have heAB : 0 < √(1.15 * TA * eB) := sqrt_pos.2 (by positivity)
  generalize ((1.18 * (1e6 * MA / rhoA) ^ (1 / 3 : ℝ) + sB) / 2) ^ 2 = q at *
  generalize √(1.15 * TA * eB) = e at *
  generalize 3.03 - 0.98 / √m = c at *
  generalize √m = x at *
  have o1 := omegaD_pos (div_pos hT heAB)
  have o2 := omegaD_pos (div_pos (hT.trans hTT) heAB)
  have o3 := omegaD_anti (div_pos hT heAB) (div_lt_div_of_pos_right hTT heAB)
  have r : T ^ (1.5 : ℝ) < T' ^ (1.5 : ℝ) := rpow_lt_rpow hT.le hTT (by norm_num)
  have r0 : 0 < T ^ (1.5 : ℝ) := rpow_pos_of_pos hT _
  constructor
  · positivity
  · refine div_lt_div₀ (mul_lt_mul_of_pos_left r (by positivity)) (mul_le_mul_of_nonneg_left o3.le (by positivity)) (mul_nonneg (by positivity) (rpow_nonneg (hT.trans hTT).le _)) (by positivity)

/-- Ethylene glycol in air. -/
example : ∃ D D', dvWilkeLee 298.15 101325 0.062 0.029 1000 none 470 none = .ok D ∧ dvWilkeLee 320 101325 0.062 0.029 1000 none 470 none = .ok D' ∧ 0 < D ∧ D < D' :=
  C94_wilke_lee_monotone (by norm_num) (by norm_num) (by norm_num) (by norm_num) (by norm_num) (by norm_num) (by norm_num) (Or.inl ⟨rfl, rfl⟩)

/-- C94. `DL_Wilke_Chang` is positive, obeys `D mu / T = const`, and decreases with the molar volume of the solute. -/
theorem C94_wilke_chang {T T' MA MA' MB rhoA mu mu' phi : ℝ} (hT : 0 < T) (hT' : 0 < T') (hMA : 0 < MA) (hMA' : MA < MA') (hMB : 0 < MB) (hr : 0 < rhoA)
    (hm : 0 < mu) (hm' : 0 < mu') (hp : 0 < phi) :
    0 < dlWilkeChang T MA MB rhoA mu phi ∧ dlWilkeChang T MA MB rhoA mu phi * mu / T = dlWilkeChang T' MA MB rhoA mu' phi * mu' / T' ∧
      dlWilkeChang T MA' MB rhoA mu phi < dlWilkeChang T MA MB rhoA mu phi := by
  have hs : 0 < √(phi * MB * 1e3) := sqrt_pos.2 (by positivity)
  have hv : 0 < (1e6 * MA / rhoA) ^ (0.6 : ℝ) := by positivity
  unfold dlWilkeChang
  refine ⟨by positivity, ?_, ?_⟩
  · generalize √(phi * MB * 1e3) = s at *
    generalize (1e6 * MA / rhoA) ^ (0.6 : ℝ) = v at *
    field_simp
  · refine div_lt_div_of_pos_left (by positivity) (by positivity) (mul_lt_mul_of_pos_left (rpow_lt_rpow (by positivity) ?_ (by norm_num)) (by positivity))
    exact div_lt_div_of_pos_right (mul_lt_mul_of_pos_left hMA' (by norm_num)) hr

example : 0 < dlWilkeChang 298.15 0.104 0.092 906 5.6e-4 1 :=
  (C94_wilke_chang (T' := 300) (MA' := 0.2) (mu' := 1e-3) (by norm_num) (by norm_num) (by norm_num) (by norm_num) (by norm_num) (by norm_num) (by norm_num) (by norm_num)
    (by norm_num)).1

/-- C94. `DL_Stokes_Einstein` is positive and obeys `D mu R / T = kB / (6 pi)`. -/
theorem C94_stokes_einstein {kB T R mu : ℝ} (hk : 0 < kB) (hT : 0 < T) (hR : 0 < R) (hm : 0 < mu) :
    0 < dlStokesEinstein kB T R mu ∧ dlStokesEinstein kB T R mu * mu * R / T = kB / (6 * π) := by
  unfold dlStokesEinstein
  have := pi_pos
  refine ⟨by positivity, by field_simp⟩

/-- C94. `DL_Hayduk_Minhas` raises exactly for an unknown method; the paraffin correlation is positive, the aqueous one is positive exactly when the molar
volume (in cm³/mol) raised to -0.19 exceeds 0.292. -/
theorem C94_hayduk_minhas {T MA rhoA mu : ℝ} (hT : 0 < T) (hM : 0 < MA) (hr : 0 < rhoA) (hm : 0 < mu) :
    dlHaydukMinhas T .other MA rhoA mu = .error .ValueError ∧ (∃ D, dlHaydukMinhas T .paraffin MA rhoA mu = .ok D ∧ 0 < D) ∧
      ∃ D, dlHaydukMinhas T .aqueous MA rhoA mu = .ok D ∧ (0 < D ↔ 0.292 < (1e6 * MA / rhoA) ^ (-0.19 : ℝ)) := by
  refine ⟨rfl, ⟨_, rfl, by positivity⟩, _, rfl, ?_⟩
  have h1 : 0 < T ^ (1.52 : ℝ) := by positivity
  have h2 : 0 < (mu * 1e3) ^ (9.58 / (1e6 * MA / rhoA) - 1.12) := by positivity
  rw [mul_assoc, mul_comm (1.25e-12 : ℝ), mul_assoc, mul_pos_iff_of_pos_right (by positivity), sub_pos]

/-- C94. The aqueous correlation is positive for molar volumes up to 650 cm³/mol. -/
theorem C94_hayduk_minhas_aqueous {T MA rhoA mu : ℝ} (hT : 0 < T) (hM : 0 < MA) (hr : 0 < rhoA) (hm : 0 < mu) (hV : 1e6 * MA / rhoA ≤ 650) :
    ∃ D, dlHaydukMinhas T .aqueous MA rhoA mu = .ok D ∧ 0 < D := by
  obtain ⟨-, -, D, e, h⟩ := C94_hayduk_minhas hT hM hr hm
  refine ⟨D, e, h.2 ?_⟩
  have hp : 0 < 1e6 * MA / rhoA := by positivity
  have a : (650 : ℝ) ^ (-0.19 : ℝ) ≤ (1e6 * MA / rhoA) ^ (-0.19 : ℝ) := rpow_le_rpow_of_nonpos hp hV (by norm_num)
  refine lt_of_lt_of_le ?_ a
  refine lt_of_pow_lt_pow_left₀ 100 (by positivity) ?_
  rw [← rpow_natCast ((650 : ℝ) ^ (-0.19 : ℝ)), ← rpow_mul (by norm_num), show (-0.19 : ℝ) * ((100 : ℕ) : ℝ) = -((19 : ℕ) : ℝ) by norm_num, rpow_neg (by norm_num),
    rpow_natCast]
  norm_num

/-- C94 fails for larger molecules: an aqueous diffusion coefficient is negative at a molar volume of 700 cm³/mol. -/
theorem C94_hayduk_minhas_false : ∃ D, dlHaydukMinhas 298.15 .aqueous 0.7 1000 1e-3 = .ok D ∧ D < 0 := by
  refine ⟨_, rfl, ?_⟩
  have b : ((1e6 * 0.7 / 1000 : ℝ)) ^ (-0.19 : ℝ) < 0.292 := by
    rw [show (1e6 * 0.7 / 1000 : ℝ) = 700 by norm_num]
    refine lt_of_pow_lt_pow_left₀ 100 (by norm_num) ?_
    rw [← rpow_natCast ((700 : ℝ) ^ (-0.19 : ℝ)), ← rpow_mul (by norm_num), show (-0.19 : ℝ) * ((100 : ℕ) : ℝ) = -((19 : ℕ) : ℝ) by norm_num, rpow_neg (by norm_num),
      rpow_natCast]
    norm_num
  refine mul_neg_of_neg_of_pos (mul_neg_of_neg_of_pos (mul_neg_of_pos_of_neg (by norm_num) (sub_neg.2 b)) (by positivity)) (by positivity)

end Verif.Transport
