import Verif.Model.Rheology

/-! # Helper lemmas: C62, C64: viscosity models, wall heat transfer, composite diffusivity -/

namespace Verif.Rheology

open Real

theorem pdiv_ok {a b : ℝ} (h : b ≠ 0) : pdiv a b = .ok (a / b) := if_neg h

theorem ok_bind {α β : Type} (x : α) (f : α → Except Err β) : (Except.ok x >>= f) = f x := rfl

theorem ppow_ok {x y : ℝ} (h : x ≠ 0 ∨ 0 ≤ y) : ppow x y = .ok (x ^ y) := by
  rw [ppow, if_neg]
  rintro ⟨h1, h2⟩
  rcases h with h | h
  · exact h h1
  · linarith

theorem muCross_eq {g mu0 l n : ℝ} (hg : 0 ≤ g) (hl : 0 < l) (hn : n ≤ 1) : muCross g mu0 l n = .ok (mu0 / (1 + (l * g) ^ (1 - n))) := by
  have := rpow_nonneg (mul_nonneg hl.le hg) (1 - n)
  rw [muCross, ppow_ok (Or.inr (by linarith)), ok_bind, pdiv_ok (by linarith)]

theorem muCY_eq {g mu0 muinf l n a : ℝ} (hg : 0 ≤ g) (hl : 0 < l) (ha : 0 < a) :
    muCarreauYasuda g mu0 muinf l n a = .ok (muinf + (mu0 - muinf) * (1 + (l * g) ^ a) ^ ((n - 1) / a)) := by
  have := rpow_nonneg (mul_nonneg hl.le hg) a
  rw [muCarreauYasuda, ppow_ok (Or.inr ha.le), ok_bind, pdiv_ok ha.ne', ok_bind, ppow_ok (Or.inl (by linarith)), ok_bind]
  rfl

theorem wlf_eq {T T0 c1 c2 : ℝ} (h : c2 + T - T0 ≠ 0) : aTWLF T T0 (some c1) (some c2) = .ok (10 ^ (-c1 * (T - T0) / (c2 + T - T0))) := by
  show (pdiv _ _ >>= _) = _
  rw [pdiv_ok h, ok_bind, ppow_ok (Or.inl (by norm_num))]

theorem uPlane_eq {h1 h2 L k R1 R2 : ℝ} (a1 : 0 < h1) (a2 : 0 < h2) (aL : 0 ≤ L) (ak : 0 < k) (r1 : 0 ≤ R1) (r2 : 0 ≤ R2) :
    uPlane h1 h2 L k R1 R2 = .ok (1 / (1 / h1 + 1 / h2 + L / k + R1 + R2)) := by
  rw [uPlane, pdiv_ok a1.ne', ok_bind, pdiv_ok a2.ne', ok_bind, pdiv_ok ak.ne', ok_bind, pdiv_ok (by positivity)]

theorem uCyl_eq {hi ho di dO k Ri Ro : ℝ} (a1 : 0 < hi) (a2 : 0 < ho) (ai : 0 < di) (ak : 0 < k) :
    uCyl hi ho di dO k Ri Ro = .ok (1 / (dO / (hi * di) + 1 / ho + Ri * dO / di + Ro + dO / (2 * k) * log (dO / di))) := by
  rw [uCyl, pdiv_ok (by positivity), ok_bind, pdiv_ok a2.ne', ok_bind, pdiv_ok ai.ne', ok_bind, pdiv_ok (by positivity), ok_bind, pdiv_ok ai.ne', ok_bind]
  rfl

end Verif.Rheology
