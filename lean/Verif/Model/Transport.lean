import Verif.Model.Mixing
import Verif.Model.Vaporization
import Mathlib.Analysis.SpecialFunctions.Trigonometric.Basic

/-!
# Model of the transport-property estimates

`properties/viscosity/{liquid,vapor}.py`, `properties/thermal_conductivity/{liquid,vapor}.py`, `properties/diffusion/{liquid,vapor}.py`, for real
inputs of matching lengths. Data (molar masses, critical constants, densities, …) are meant to be positive: divisions by them are total here, and
the theorems assume positivity. Divisions by a sum of the composition, and fractional powers of negative numbers, give `none` when they are not a
real number. `R`, `NA`, `kB` are the physical constants.
-/

namespace Verif.Transport

open Finset Real Verif.Vaporization

variable {N : ℕ}

noncomputable section

/-! ## Viscosity -/

/-- `MULMX2_Perry` (viscosity/liquid.py, lines 59-66) for nonnegative viscosities (`cbrt` is `x ^ (1/3)`). -/
def mulmx2Perry (x mu : Fin N → ℝ) (hydrocarbons : Bool) : ℝ :=
  if hydrocarbons then (∑ i, x i * mu i ^ (1 / 3 : ℝ)) ^ 3 else exp (∑ i, x i * log (mu i))

/-- The mean with weights `y sqrt(M)` of lines 74-76 of viscosity/vapor.py: `a = y*sqrt(M); a /= a.sum(); dot(a, q)`. -/
def sqrtMean (y q M : Fin N → ℝ) : Option ℝ :=
  let a := fun i => y i * √(M i)
  let s := ∑ i, a i
  if s = 0 then none else some (∑ i, a i / s * q i)

/-- `MUVMX2_Herning_Zipperer` (viscosity/vapor.py, lines 70-76). -/
def muvmx2HerningZipperer (y mu M : Fin N → ℝ) : Option ℝ := sqrtMean y mu M

/-- `MUVPC_Jossi` (viscosity/vapor.py, lines 128-137). -/
def muvpcJossi (rhor M Tc Pc : ℝ) : ℝ :=
  let a := 1.0230 + 0.23364 * rhor + 0.58533 * rhor ^ 2 - 0.40758 * rhor ^ 3 + 0.093324 * rhor ^ 4
  let xi := 6.872969367e8 * (Tc / (M ^ 3 * Pc ^ 4)) ^ (1 / 6 : ℝ)
  (a ^ 4 - 1) / xi

/-- `MUVMXPC_Dean_Stiel` (viscosity/vapor.py, lines 199-214). -/
def muvmxpcDeanStiel (R v : ℝ) (y M Tc Pc Zc : Fin N → ℝ) : ℝ :=
  let Mm := ∑ i, y i * M i
  let pc := Mixing.pseudocritical R y Tc Pc Zc none
  let rhor := pc.2.2.1 / v
  let xi := 6.87e4 * pc.1 ^ (1 / 6 : ℝ) / (√Mm * pc.2.1 ^ (2 / 3 : ℝ))
  let a := 10.8e-5 * (exp (1.439 * rhor) - exp (-1.111 * rhor ^ (1.858 : ℝ)))
  a / xi

/-- `_MUV_Lucas_FP0` (viscosity/vapor.py, lines 410-414), one component. The power of a negative number is computed but discarded when the reduced
dipole moment is small. -/
def lucasFP0 (Tr Tc Pc Zc dm : ℝ) : Option ℝ :=
  let dmr := 52.46 * dm ^ 2 * (Pc / 1e5) / Tc ^ 2
  if dmr ≤ 0.022 then some (0 + 1)
  else do
    let p ← fpow (0.292 - Zc) 1.72
    let FP0 := 30.55 * p
    let FP0 := if 0.075 ≤ dmr then FP0 * |0.96 + 0.1 * (Tr - 0.7)| else FP0
    return FP0 + 1

/-- `Z1` of `_MUV_Lucas_mu` without the factor `FP0` (lines 360-362). -/
def lucasZ (Tr : ℝ) : ℝ := 0.807 * Tr ^ (0.618 : ℝ) - 0.357 * exp (-0.449 * Tr) + 0.340 * exp (-4.058 * Tr) + 0.018

/-- The correction for pressure `1 + a Pr^e / (b Pr^f + 1/(1 + c Pr^d))` of lines 384-390. -/
def lucasHigh (Tr Pr : ℝ) : ℝ :=
  let a := 1.245e-3 / Tr * exp (5.1726 * Tr ^ (-0.3286 : ℝ))
  let b := a * (1.6553 * Tr - 1.2723)
  let c := 0.4489 / Tr * exp (3.0578 * Tr ^ (-37.7332 : ℝ))
  let d := 1.7368 / Tr * exp (2.2310 * Tr ^ (-7.6351 : ℝ))
  let e := 1.3088
  let f := 0.9425 * exp (-0.1853 * Tr ^ (0.4489 : ℝ))
  1 + a * Pr ^ (e : ℝ) / (b * Pr ^ f + 1 / (1 + c * Pr ^ d))

/-- `_MUV_Lucas_mu` (viscosity/vapor.py, lines 359-399). -/
def lucasMu (Tr Pr M Tc Pc FP0 : ℝ) : ℝ :=
  let Z1 := lucasZ Tr * FP0
  let Z2 :=
    if Tr ≤ 1 ∧ Pr < 1 then
      0.600 + 0.760 * Pr ^ (3.262 + 14.98 * Pr ^ (5.508 : ℝ)) + (6.990 * Pr ^ (1.390 + 5.746 * Pr) - 0.6) * (1 - Tr)
    else Z1 * lucasHigh Tr Pr
  let Y := Z2 / Z1
  let FP := (1 + (FP0 - 1) / Y ^ 3) / FP0
  let xi := 0.176e7 * (Tc / ((M * 1e3) ^ 3 * (Pc / 1e5) ^ 4)) ^ (1 / 6 : ℝ)
  Z2 * FP / xi

/-- `MUV_Lucas` (viscosity/vapor.py, lines 266-270). -/
def muvLucas (T P M Tc Pc Zc dm : ℝ) : Option ℝ := do
  let Tr := T / Tc
  let Pr := P / Pc
  let FP0 ← lucasFP0 Tr Tc Pc Zc dm
  return lucasMu Tr Pr M Tc Pc FP0

/-- `numpy.dot(y, q)` where some entries of `q` may not be real numbers. -/
def odot (y : Fin N → ℝ) (q : Fin N → Option ℝ) : Option ℝ :=
  if ∀ i, (q i).isSome then some (∑ i, y i * (q i).getD 0) else none

/-- `MUVMX_Lucas` (viscosity/vapor.py, lines 332-345). -/
def muvmxLucas (R T P : ℝ) (y M Tc Pc Zc dm : Fin N → ℝ) : Option ℝ := do
  let Tcm := ∑ i, y i * Tc i
  let Mm := ∑ i, y i * M i
  let Pcm := R * Tcm * (∑ i, y i * Zc i) / ∑ i, y i * (R * Tc i * Zc i / Pc i)
  let FP0 ← odot y fun i => lucasFP0 (T / Tc i) (Tc i) (Pc i) (Zc i) (dm i)
  return lucasMu (T / Tcm) (P / Pcm) Mm Tcm Pcm FP0

/-! ## Thermal conductivity -/

/-- `KLMX2_Li` (thermal_conductivity/liquid.py, lines 66-74). -/
def klmx2Li (w k rho : Fin N → ℝ) : Option ℝ :=
  let s := ∑ i, w i / rho i
  if s = 0 then none
  else some (Mixing.quadratic (fun i => w i / rho i / s) fun i j => 2 / (1 / k j + 1 / k i))

/-- `KVPC_Stiel_Thodos` (thermal_conductivity/vapor.py, lines 71-84). -/
def kvpc (R NA v M Tc Pc Zc : ℝ) : Except Err ℝ :=
  let gamma := ((Tc * M ^ 3 * NA ^ 2) / (R ^ 5 * Pc ^ 4)) ^ (1 / 6 : ℝ)
  let vc := Zc * R * Tc / Pc
  let rhor := vc / v
  if rhor < 0.5 then .ok (1.22e-2 * (exp (0.535 * rhor) - 1) / (gamma * Zc ^ 5))
  else if rhor < 2.0 then .ok (1.14e-2 * (exp (0.67 * rhor) - 1.069) / (gamma * Zc ^ 5))
  else if rhor < 2.8 then .ok (2.60e-3 * (exp (1.155 * rhor) + 2.016) / (gamma * Zc ^ 5))
  else .error .ValueError

/-- One iteration of the double loop of `KVMXPC_Stiel_Thodos` (thermal_conductivity/vapor.py, lines 160-168). -/
def kvmxStep (y vc Tc : Fin N → ℝ) (s : ℝ × ℝ) (ij : Fin N × Fin N) : ℝ × ℝ :=
  let i := ij.1
  let j := ij.2
  let vc_ := if i = j then vc i else (1 / 8) * (vc i ^ (1 / 3 : ℝ) + vc j ^ (1 / 3 : ℝ)) ^ 3
  let Tc_ := if i = j then Tc i else √(Tc i * Tc j)
  let t := y i * y j * vc_
  (s.1 + t, s.2 + t * Tc_)

/-- `KVMXPC_Stiel_Thodos` (thermal_conductivity/vapor.py, lines 144-176). -/
def kvmxpc (R NA v : ℝ) (y M Tc Pc Zc w : Fin N → ℝ) : Except Err ℝ :=
  let vc := fun i => Zc i * R * Tc i / Pc i
  let s := (List.finRange N).foldl (fun s i => (List.finRange N).foldl (fun s j => kvmxStep y vc Tc s (i, j)) s) (0, 0)
  let vcm := s.1
  let Tcm := s.2 / s.1
  let wm := ∑ i, y i * w i
  let Zcm := 0.291 - 0.08 * wm
  let Pcm := Zcm * R * Tcm / vcm
  let Mm := ∑ i, y i * M i
  kvpc R NA v Mm Tcm Pcm Zcm

/-- `KVMX2_Wassilijewa` (thermal_conductivity/vapor.py, lines 228-235). -/
def kvmx2Wassilijewa (y k M : Fin N → ℝ) : Option ℝ := sqrtMean y k M

/-! ## Diffusion -/

/-- `DL_Wilke_Chang` (diffusion/liquid.py, lines 91-93). -/
def dlWilkeChang (T MA MB rhoA viscB phi : ℝ) : ℝ := 7.4e-12 * √(phi * MB * 1e3) * T / ((viscB * 1e3) * (1e6 * MA / rhoA) ^ (0.6 : ℝ))

/-- `method` of `DL_Hayduk_Minhas`; any other string is `other`. -/
inductive HM where
  | paraffin | aqueous | other
  deriving DecidableEq

/-- `DL_Hayduk_Minhas` (diffusion/liquid.py, lines 149-160). -/
def dlHaydukMinhas (T : ℝ) (method : HM) (MA rhoA viscB : ℝ) : Except Err ℝ :=
  let VA := 1e6 * MA / rhoA
  match method with
  | .paraffin => .ok (13.3e-12 * T ^ (1.47 : ℝ) * (viscB * 1e3) ^ (10.2 / VA - 0.791) / VA ^ (0.71 : ℝ))
  | .aqueous => .ok (1.25e-12 * (VA ^ (-0.19 : ℝ) - 0.292) * T ^ (1.52 : ℝ) * (viscB * 1e3) ^ (9.58 / VA - 1.12))
  | .other => .error .ValueError

/-- `DL_Stokes_Einstein` (diffusion/liquid.py, line 209). -/
def dlStokesEinstein (kB T R mu : ℝ) : ℝ := kB * T / (6 * π * mu * R)

/-- `σ_B` and `ε_B` of `DV_Wilke_Lee` (diffusion/vapor.py, lines 100-108). -/
def wilkeLeeB (MB : ℝ) : Option ℝ → Option ℝ → Except Err (ℝ × ℝ)
  | none, none => .ok (3.62, 97.0)
  | some rhoB, some TB => .ok (1.18 * (1e6 * MB / rhoB) ^ (1 / 3 : ℝ), 1.15 * TB)
  | _, _ => .error .ValueError

/-- The collision integral `Ω_D` (lines 115-123). -/
def omegaD (Ts : ℝ) : ℝ := 1.06036 / Ts ^ (0.15610 : ℝ) + 0.19300 / exp (0.47635 * Ts) + 1.03587 / exp (1.52996 * Ts) + 1.76474 / exp (3.89411 * Ts)

/-- `DV_Wilke_Lee` (diffusion/vapor.py, lines 95-125). -/
def dvWilkeLee (T P MA MB rhoA : ℝ) (rhoB : Option ℝ) (TA : ℝ) (TB : Option ℝ) : Except Err ℝ := do
  let MAB := 1e3 * 2 / (1 / MA + 1 / MB)
  let eA := 1.15 * TA
  let sA := 1.18 * (1e6 * MA / rhoA) ^ (1 / 3 : ℝ)
  let (sB, eB) ← wilkeLeeB MB rhoB TB
  let eAB := √(eA * eB)
  let sAB := (sA + sB) / 2
  let Ts := T / eAB
  return 1e-2 * (3.03 - 0.98 / √MAB) * T ^ (1.5 : ℝ) / (P * √MAB * sAB ^ 2 * omegaD Ts)

/-- `DVMX` (diffusion/vapor.py, lines 147-149). -/
def dvmx (x D : Fin N → ℝ) : Option ℝ := odiv (∑ i, x i) (∑ i, x i / D i)

end

end Verif.Transport
