import Verif.Model.PDiv
import Verif.Model.RootsScalar
import Mathlib.Analysis.SpecialFunctions.Pow.Real
import Mathlib.Analysis.SpecialFunctions.Log.Base
import Mathlib.Analysis.SpecialFunctions.Pow.Complex
import Mathlib.Analysis.Real.Pi.Bounds

/-!
# Pressure drop and terminal velocity

Model of `/repo/src/polykin/flow/friction.py`. Reals for floats; divisions of Python floats are `pdiv` (they raise on a zero divisor). `log10` and
`sqrt` are numpy functions on real arguments of the documented range. The range warnings (`check_range_warn`) only print and are not modelled.
-/

namespace Verif.Flow

noncomputable section

/-- `fD_Haaland` (line 398). Simplification: `1/log10(1) = inf` is `0` here; the theorems assume the argument of the logarithm below 1. -/
def fDHaaland (Re er : ℝ) : ℝ := (1 / (1.8 * Real.logb 10 ((er / 3.7) ^ (1.11 : ℝ) + 6.9 / Re))) ^ 2

/-- `DP_Hagen_Poiseuille` (line 79). -/
def dpHagenPoiseuille (Q D L mu : ℝ) : Except Err ℝ := pdiv (128 * mu * Q * L) (Real.pi * D ^ 4)

/-- `DP_Darcy_Weisbach` (line 150): `fD * rho / 2 * v**2 / D * L`. -/
def dpDarcyWeisbach (v D L rho fD : ℝ) : Except Err ℝ := do
  let q ← pdiv (fD * rho / 2 * v ^ 2) D
  return q * L

/-- The friction factor of `DP_tube` (lines 213-216) and `DP_GL_Lockhart_Martinelli` (lines 661, 670). -/
def fDtube (Re er : ℝ) : Except Err ℝ := if Re < 2300 then pdiv 64 Re else .ok (fDHaaland Re er)

/-- `DP_tube` (lines 211-218). -/
def dpTube (Q D L rho mu er : ℝ) : Except Err ℝ := do
  let v ← pdiv (4 * Q) (Real.pi * D ^ 2)
  let Re ← pdiv (rho * v * D) mu
  let fD ← fDtube Re er
  dpDarcyWeisbach v D L rho fD

/-- `DP_packed_bed` (lines 279-281). -/
def dpPackedBed (G L Dp eps rho mu : ℝ) : Except Err ℝ := do
  let Rep ← pdiv (Dp * G) (mu * (1 - eps))
  let a ← pdiv 150 Rep
  let b ← pdiv 4.2 (Rep ^ ((1 : ℝ) / 6))
  let fp := a + b
  pdiv (G ^ 2 * (1 - eps) * fp * L) (rho * Dp * eps ^ 3)

/-- One phase of `DP_GL_Lockhart_Martinelli` (lines 657-664 and 667-673): pressure gradient and Reynolds number (`none` = not assigned). -/
def lmPhase (mdot D rho mu er : ℝ) : Except Err (ℝ × Option ℝ) :=
  if mdot > 0 then do
    let v ← pdiv mdot (Real.pi / 4 * D ^ 2 * rho)
    let Re ← pdiv (rho * v * D) mu
    let f ← fDtube Re er
    let dP ← dpDarcyWeisbach v D 1 rho f
    return (dP, some Re)
  else return (0, none)

/-- Lines 682-685. `ReL`, `ReG` are unbound (`UnboundLocalError`, here `NameError`) if the phase had no flow. -/
def lmC (ReL ReG : Option ℝ) : Except Err ℝ :=
  match ReL, ReG with
  | some l, some g => .ok (if l > 1000 then (if g > 1000 then 20 else 10) else (if g > 1000 then 12 else 5))
  | _, _ => .error .NameError

/-- `DP_GL_Lockhart_Martinelli` (lines 656-690). -/
def dpLockhartMartinelli (mdotL mdotG D L rhoL rhoG muL muG er : ℝ) : Except Err ℝ := do
  let l ← lmPhase mdotL D rhoL muL er
  let g ← lmPhase mdotG D rhoG muG er
  let dP ← (if g.1 = 0 then .ok l.1
    else if l.1 = 0 then .ok g.1
    else do
      let q ← pdiv l.1 g.1
      let X := Real.sqrt q
      let C ← lmC l.2 g.2
      return (1 + C / X + 1 / X ^ 2) * l.1)
  return dP * L

/-- Lines 770-772 and 775-777: pressure gradient if all the flow had the properties of one phase. -/
def mbGrad (vm D rho mu : ℝ) : Except Err ℝ := do
  let Re ← pdiv (vm * D) mu
  let f ← (if Re ≤ 1187 then pdiv 64 Re else pdiv 0.3164 (Re ^ (0.25 : ℝ)))
  pdiv (f * vm ^ 2) (2 * rho * D)

/-- `DP_GL_Mueller_Bonn` (lines 764-783). -/
def dpMuellerBonn (mdotL mdotG D L rhoL rhoG muL muG : ℝ) : Except Err ℝ := do
  let mdot := mdotL + mdotG
  let x ← pdiv mdotG mdot
  let vm ← pdiv mdot (Real.pi / 4 * D ^ 2)
  let dPL0 ← mbGrad vm D rhoL muL
  let dPG0 ← mbGrad vm D rhoG muG
  let dP := (dPL0 + 2 * (dPG0 - dPL0) * x) * (1 - x) ^ ((1 : ℝ) / 3) + dPG0 * x ^ 3
  return dP * L

/-- `Cd_sphere` (line 445). -/
def cdSphere (Rep : ℝ) : ℝ := 24 / Rep * (1 + 0.173 * Rep ^ (0.657 : ℝ)) + 0.413 / (1 + 16300 * Rep ^ (-1.09 : ℝ))

/-- `vt_Stokes` (line 493); `g` is `scipy.constants.g`. -/
def vtStokes (g Dp rhop rho mu : ℝ) : ℝ := Dp ^ 2 * g * (rhop - rho) / (18 * mu)

/-- A complex number as the pair used by `rootNewton`. -/
def toC (p : ℝ × ℝ) : ℂ := ⟨p.1, p.2⟩

/-- `fnc` of `vt_sphere` (lines 559-562), evaluated on complex numbers by `root_newton`. -/
def vtEq (g Dp rhop rho mu : ℝ) (p : ℝ × ℝ) : ℝ × ℝ :=
  let vt := toC p
  let Rep := rho * vt * Dp / mu
  let Cd := 24 / Rep * (1 + 0.173 * Rep ^ (0.657 : ℂ)) + 0.413 / (1 + 16300 * Rep ^ (-1.09 : ℂ))
  let r := vt - ((4 * Dp * g * (rhop - rho) : ℝ) / (3 * Cd * rho)) ^ (1 / 2 : ℂ)
  (r.re, r.im)

/-- `vt_sphere` (lines 559-571). `RootSolverError` is a subclass of `ValueError`. -/
def vtSphere (g Dp rhop rho mu : ℝ) : Except Err ℝ := do
  let sol ← rootNewton (vtEq g Dp rhop rho mu) 1 1e-6 1e-6 50
  if sol.1.success then return sol.1.x
  throw .ValueError

/-- `fnc` of `fD_Colebrook` (lines 335-336), evaluated on complex numbers by `root_newton`. -/
def colebrookEq (Re er : ℝ) (p : ℝ × ℝ) : ℝ × ℝ :=
  let s := toC p ^ (1 / 2 : ℂ)
  let r := 2 * (Complex.log ((er / 3.7 : ℝ) + 2.51 / (Re * s)) / Real.log 10) + 1 / s
  (r.re, r.im)

/-- `fD_Colebrook` (lines 335-345). -/
def fDColebrook (Re er : ℝ) : Except Err ℝ := do
  let sol ← rootNewton (colebrookEq Re er) (fDHaaland Re er) 1e-6 1e-6 50
  if sol.1.success then return sol.1.x
  throw .ValueError

end

end Verif.Flow
