import Verif.Model.PDiv
import Mathlib.Analysis.SpecialFunctions.Pow.Real

/-!
# Model of `flow/rheology.py`, `hmt/hex.py` and `diffusivity_composite` of `hmt/diffusion.py`

Scalar arguments. Python powers of floats with a nonnegative base: `0 ** y` with `y < 0` raises. Overflow is not modelled.
-/

namespace Verif.Rheology

open Real

noncomputable section

/-- Python `x ** y` for floats with `x ≥ 0`. -/
def ppow (x y : ℝ) : Except Err ℝ := if x = 0 ∧ y < 0 then .error .ZeroDivisionError else .ok (x ^ y)

/-- `mu_PowerLaw` (flow/rheology.py, line 56). -/
def muPowerLaw (gdot K n : ℝ) : Except Err ℝ := do
  let p ← ppow gdot (n - 1)
  return K * p

/-- `mu_Cross` (line 110). -/
def muCross (gdot mu0 lmbda n : ℝ) : Except Err ℝ := do
  let p ← ppow (lmbda * gdot) (1 - n)
  pdiv mu0 (1 + p)

/-- `mu_Cross_modified` (line 163). -/
def muCrossModified (gdot mu0 C n : ℝ) : Except Err ℝ := do
  let p ← ppow (C * mu0 * gdot) (1 - n)
  pdiv mu0 (1 + p)

/-- `mu_Carreau_Yasuda` (line 223). -/
def muCarreauYasuda (gdot mu0 muinf lmbda n a : ℝ) : Except Err ℝ := do
  let p ← ppow (lmbda * gdot) a
  let e ← pdiv (n - 1) a
  let q ← ppow (1 + p) e
  return muinf + (mu0 - muinf) * q

/-- `aT_WLF` (lines 283-291). -/
def aTWLF (T T0 : ℝ) (C1 C2 : Option ℝ) : Except Err ℝ := do
  let c : ℝ × ℝ ← match C1, C2 with
    | none, none => .ok (17.44, 51.60)
    | some c1, some c2 => .ok (c1, c2)
    | _, _ => .error .ValueError
  let e ← pdiv (-c.1 * (T - T0)) (c.2 + T - T0)
  ppow 10 e

/-- `U_plane_wall` (hmt/hex.py, line 72). -/
def uPlane (h1 h2 L k Rf1 Rf2 : ℝ) : Except Err ℝ := do
  let a ← pdiv 1 h1
  let b ← pdiv 1 h2
  let c ← pdiv L k
  pdiv 1 (a + b + c + Rf1 + Rf2)

/-- `U_cylindrical_wall` (hmt/hex.py, lines 145-147). -/
def uCyl (hi ho di dO k Rfi Rfo : ℝ) : Except Err ℝ := do
  let a ← pdiv dO (hi * di)
  let b ← pdiv 1 ho
  let c ← pdiv (Rfi * dO) di
  let d ← pdiv dO (2 * k)
  let r ← pdiv dO di
  return 1 / (a + b + c + Rfo + d * log r)

/-- `diffusivity_composite` (hmt/diffusion.py, lines 563-565). -/
def dComposite (Dd Dc fd s : ℝ) : Except Err ℝ := do
  let q ← pdiv 3 s
  let x := q - 1
  let Y ← pdiv (Dd - Dc) (Dd + x * Dc)
  pdiv (Dc * (1 + fd * Y * x)) (1 - fd * Y)

end

end Verif.Rheology
