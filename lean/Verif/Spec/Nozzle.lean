import Mathlib.Analysis.SpecialFunctions.Pow.Real
import Mathlib.MeasureTheory.Integral.IntervalIntegral.Basic

/-!
# Ideal nozzle flow

Frictionless adiabatic flow from rest, from first principles: `u du = -v dP` and `G = u / v`. SI units.
-/

namespace Verif.Nozzle

open Real

noncomputable section

/-- Mass flux through a throat at pressure `p` of a fluid whose specific volume along the expansion is `v`, from rest at `P1`. -/
def flux (v : ℝ → ℝ) (P1 p : ℝ) : ℝ := √(2 * ∫ x in p..P1, v x) / v p

/-- The flow chokes at `p`: no other throat pressure gives a larger flux. -/
def ChokesAt (v : ℝ → ℝ) (P1 p : ℝ) : Prop := 0 < p ∧ p < P1 ∧ ∀ q, 0 < q → q ≤ P1 → flux v P1 q ≤ flux v P1 p

/-- Area [mm²] for a mass flow `m` [kg/s] and a discharge coefficient `K` at mass flux `G`. -/
def area (m K G : ℝ) : ℝ := 1e6 * (m / (K * G))

/-- Specific volume [m³/kg] of a gas of molar mass `M` [g/mol]. -/
def gasVolume (T M Z P : ℝ) : ℝ := Z * 8.314462618 * T / (P * (M / 1000))

/-- Isentropic expansion of that gas. -/
def isentrope (T M Z P1 k p : ℝ) : ℝ := gasVolume T M Z P1 * (P1 / p) ^ (1 / k)

/-- The fluid of the omega method: `v` is linear in `1/p` and takes the values `v1` at `P1` and `v9` at `0.9 P1`. -/
def Omega (v : ℝ → ℝ) (P1 v1 v9 : ℝ) : Prop := (∃ a b, ∀ p, 0 < p → v p = a + b / p) ∧ v P1 = v1 ∧ v (0.9 * P1) = v9

/-- A liquid that flashes at `Ps`: constant volume above; below, linear in `1/p` with the value `v9` at `0.9 Ps`. -/
def Flashing (v : ℝ → ℝ) (Ps v1 v9 : ℝ) : Prop := (∀ p, Ps ≤ p → v p = v1) ∧ (∃ a b, ∀ p, 0 < p → p ≤ Ps → v p = a + b / p) ∧ v (0.9 * Ps) = v9

end

end Verif.Nozzle
