import Verif.Model.Rackett
import Verif.Lemmas.Vaporization

/-! # C103: Rackett liquid volume -/

namespace Verif.Rackett

open Real Verif.Vaporization

/-- C103. Exactly one of `ZRA` and `w` must be given; `w` stands for `ZRA = 0.29056 - 0.08775 w`. -/
theorem C103_arguments (T Tc Pc : ℝ) :
    (∀ ZRA w : Option ℝ, (∃ v, vlRackett T Tc Pc ZRA w = .ok v) ↔ ZRA.isSome ≠ w.isSome)
      ∧ (∀ ZRA w e, vlRackett T Tc Pc ZRA w = .error e → e = .ValueError)
      ∧ ∀ w, vlRackett T Tc Pc none (some w) = vlRackett T Tc Pc (some (0.29056 - 0.08775 * w)) none := by
  refine ⟨?_, ?_, fun w => rfl⟩
  · rintro (_ | z) (_ | w) <;> simp [vlRackett]
  · rintro (_ | z) (_ | w) e h <;> simp [vlRackett] at h <;> exact h.symm

/-- C103. Up to the critical temperature the value is `R Tc/Pc ZRA^(1 + (1 - T/Tc)^(2/7))`; at the critical temperature `R Tc ZRA / Pc`. -/
theorem C103_value (T Tc Pc z : ℝ) (hTc : 0 < Tc) (hT : T ≤ Tc) (hz : 0 ≤ z) :
    vlRackett T Tc Pc (some z) none = .ok (some (R * Tc / Pc * z ^ (1 + (1 - T / Tc) ^ (2 / 7 : ℝ))))
      ∧ vlRackett Tc Tc Pc (some z) none = .ok (some (R * Tc / Pc * z)) := by
  have key : ∀ T, T ≤ Tc → vlRackett T Tc Pc (some z) none = .ok (some (R * Tc / Pc * z ^ (1 + (1 - T / Tc) ^ (2 / 7 : ℝ)))) := by
    intro T hT
    have h1 : 0 ≤ 1 - T / Tc := by rw [sub_nonneg, div_le_one hTc]; exact hT
    show Except.ok (vlRackett.body T Tc Pc z) = _
    unfold vlRackett.body
    simp only [fpow_nonneg h1, fpow_nonneg hz, Option.bind_eq_bind, Option.bind_some]
    rfl
  refine ⟨key T hT, ?_⟩
  rw [key Tc le_rfl, div_self hTc.ne', sub_self, zero_rpow (by norm_num), add_zero, rpow_one]

/-- C103. The gas constant is that of the SI: Avogadro's number times Boltzmann's constant, joule per mole and kelvin. -/
theorem C103_si (T Tc Pc z : ℝ) (hTc : 0 < Tc) (hT : T ≤ Tc) (hz : 0 ≤ z) :
    vlRackett T Tc Pc (some z) none = .ok (some (6.02214076e23 * 1.380649e-23 * Tc / Pc * z ^ (1 + (1 - T / Tc) ^ (2 / 7 : ℝ)))) := by
  rw [(C103_value T Tc Pc z hTc hT hz).1, show R = 6.02214076e23 * 1.380649e-23 by norm_num [R]]

example : (0 : ℝ) < 425 ∧ (350 : ℝ) ≤ 425 ∧ (0 : ℝ) ≤ 0.29056 - 0.08775 * 0.195 := by norm_num

/-- C103. With `0 < ZRA < 1` the liquid expands on heating, from `R Tc/Pc ZRA^2` at 0 K to `R Tc/Pc ZRA` at the critical point. -/
theorem C103_monotone (T T' Tc Pc z : ℝ) (hTc : 0 < Tc) (hPc : 0 < Pc) (hz : 0 < z) (hz1 : z < 1) (h0 : 0 ≤ T) (hTT : T < T') (hT : T' ≤ Tc) :
    ∃ v v', vlRackett T Tc Pc (some z) none = .ok (some v) ∧ vlRackett T' Tc Pc (some z) none = .ok (some v') ∧ v < v'
      ∧ R * Tc / Pc * z ^ 2 ≤ v ∧ v' ≤ R * Tc / Pc * z ∧ 0 < v := by
  have hR : 0 < R := by norm_num [R]
  have hA : 0 < R * Tc / Pc := by positivity
  have e : ∀ T, 1 - T / Tc = (Tc - T) / Tc := fun T => by field_simp
  refine ⟨_, _, (C103_value T Tc Pc z hTc (hTT.le.trans hT) hz.le).1, (C103_value T' Tc Pc z hTc hT hz.le).1, ?_, ?_, ?_, by positivity⟩
  · refine mul_lt_mul_of_pos_left (rpow_lt_rpow_of_exponent_gt hz hz1 ?_) hA
    gcongr 1 + ?_
    refine rpow_lt_rpow ?_ ?_ (by norm_num)
    · rw [e]; exact div_nonneg (by linarith) hTc.le
    · gcongr
  · refine mul_le_mul_of_nonneg_left ?_ hA.le
    rw [← rpow_two]
    refine rpow_le_rpow_of_exponent_ge hz hz1.le ?_
    have : (1 - T / Tc) ^ (2 / 7 : ℝ) ≤ 1 := by
      refine rpow_le_one ?_ ?_ (by norm_num)
      · rw [e]; exact div_nonneg (by linarith) hTc.le
      · have : 0 ≤ T / Tc := by positivity
        linarith
    linarith
  · refine mul_le_mul_of_nonneg_left ?_ hA.le
    calc z ^ (1 + (1 - T' / Tc) ^ (2 / 7 : ℝ)) ≤ z ^ (1 : ℝ) := by
          refine rpow_le_rpow_of_exponent_ge hz hz1.le ?_
          have : 0 ≤ (1 - T' / Tc) ^ (2 / 7 : ℝ) := rpow_nonneg (by rw [e]; exact div_nonneg (by linarith) hTc.le) _
          linarith
      _ = z := rpow_one z

example : (0 : ℝ) < 425 ∧ (0 : ℝ) < 43.3e5 ∧ (0 : ℝ) < 0.29056 - 0.08775 * 0.195 ∧ (0.29056 - 0.08775 * 0.195 : ℝ) < 1 ∧ (350 : ℝ) ≤ 425 := by norm_num

/-- A float is returned for every positive temperature: false, above the critical temperature the result is complex. -/
theorem C103_real_false (T Tc Pc z : ℝ) (hTc : 0 < Tc) (hT : Tc < T) : vlRackett T Tc Pc (some z) none = .ok none := by
  have h1 : 1 - T / Tc < 0 := by rw [sub_neg, one_lt_div hTc]; exact hT
  show Except.ok (vlRackett.body T Tc Pc z) = _
  unfold vlRackett.body
  dsimp only
  rw [show fpow (1 - T / Tc) (2 / 7) = none from if_pos h1]
  rfl

example : (0 : ℝ) < 425 ∧ (425 : ℝ) < 430 := by norm_num

end Verif.Rackett
