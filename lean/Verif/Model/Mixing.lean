import Mathlib.Analysis.SpecialFunctions.Pow.Real
import Mathlib.Analysis.Real.Sqrt

/-!
# Mixing rules and second virial coefficients

Model of `/repo/src/polykin/properties/pvt/mixing_rules.py` and `/repo/src/polykin/properties/pvt/virial.py`. The gas constant `R` is a
parameter. Divisions by zero (zero critical pressures or temperatures) are not modelled: the theorems assume positive data.
-/

namespace Verif.Mixing

open Finset

variable {N : ℕ}

/-- `quadratic_mixing` (`mixing_rules.py` line 48): `dot(y, dot(y, Q))`. -/
def quadratic (y : Fin N → ℝ) (Q : Fin N → Fin N → ℝ) : ℝ := ∑ j, y j * ∑ i, y i * Q i j

/-- `geometric_interaction_mixing` (lines 86-95); the accumulation loops are written as sums. -/
noncomputable def geometric (y Q : Fin N → ℝ) : Option (Fin N → Fin N → ℝ) → ℝ
  | none => (∑ i, y i * √(Q i)) ^ 2
  | some k => ∑ i, (y i ^ 2 * Q i + ∑ j ∈ univ.filter (fun j => i < j), 2 * y i * y j * √(Q i * Q j) * (1 - k i j))

/-- `pseudocritical_properties` (lines 145-156): `(Tc, Pc, vc, Zc, w)` of the mixture. -/
noncomputable def pseudocritical (R : ℝ) (y Tc Pc Zc : Fin N → ℝ) (w : Option (Fin N → ℝ)) : ℝ × ℝ × ℝ × ℝ × ℝ :=
  let Tcm := ∑ i, y i * Tc i
  let Zcm := ∑ i, y i * Zc i
  let vc := fun i => Zc i * R * Tc i / Pc i
  let vcm := ∑ i, y i * vc i
  let Pcm := R * Zcm * Tcm / vcm
  let wm := match w with
    | some w => ∑ i, y i * w i
    | none => -10 ^ 99
  (Tcm, Pcm, vcm, Zcm, wm)

/-- `B_pure` (`virial.py` lines 55-58). -/
noncomputable def bPure (R T Tc Pc w : ℝ) : ℝ :=
  let Tr := T / Tc
  let B0 := 0.083 - 0.422 / Tr ^ (1.6 : ℝ)
  let B1 := 0.139 - 0.172 / Tr ^ (4.2 : ℝ)
  R * Tc / Pc * (B0 + w * B1)

/-- The off-diagonal value computed at line 121 for the pair `(i, j)` (lines 115-121). -/
noncomputable def bCross (R T : ℝ) (Tc Pc Zc w : Fin N → ℝ) (i j : Fin N) : ℝ :=
  let vc := fun i => Zc i * R * Tc i / Pc i
  let vcm := (vc i ^ (1 / 3 : ℝ) + vc j ^ (1 / 3 : ℝ)) ^ 3 / 8
  let km := 1 - √(vc i * vc j) / vcm
  let Tcm := √(Tc i * Tc j) * (1 - km)
  let Zcm := (Zc i + Zc j) / 2
  let wm := (w i + w j) / 2
  let Pcm := Zcm * R * Tcm / vcm
  bPure R T Tcm Pcm wm

/-- `B_mixture` (lines 107-123): the upper triangle is computed and mirrored. -/
noncomputable def bMixture (R T : ℝ) (Tc Pc Zc w : Fin N → ℝ) : Fin N → Fin N → ℝ := fun i j =>
  if i = j then bPure R T (Tc i) (Pc i) (w i)
  else if i < j then bCross R T Tc Pc Zc w i j
  else bCross R T Tc Pc Zc w j i

end Verif.Mixing
