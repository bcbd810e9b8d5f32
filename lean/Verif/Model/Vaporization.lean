import Verif.Model.PDiv
import Mathlib.Analysis.SpecialFunctions.Pow.Real

/-!
# Model of the vapour-pressure and enthalpy-of-vaporisation estimates

`properties/vaporization/pvap.py`, `properties/vaporization/dhvl.py` and the `equation` methods of `properties/equations/vapor_pressure.py`,
for real scalar arguments. `R` is the gas constant. A fractional power of a negative number (a complex number with Python floats, NaN with
numpy floats) and a division by zero are `none`.
-/

namespace Verif.Vaporization

open Real

noncomputable section

/-- Python `x ** p` with a positive non-integer exponent `p`. -/
def fpow (x p : ℝ) : Option ℝ := if x < 0 then none else some (x ^ p)

/-- Division; by zero it gives no real number. -/
def odiv (a b : ℝ) : Option ℝ := if b = 0 then none else some (a / b)

/-- `fLK` (pvap.py, lines 64-67), called with a positive ratio only. -/
def fLK (t : ℝ) : ℝ × ℝ :=
  (5.92714 - 6.09648 / t - 1.28862 * log t + 0.169347 * t ^ 6, 15.2518 - 15.6875 / t - 13.4721 * log t + 0.43577 * t ^ 6)

/-- `PL_Lee_Kesler` (pvap.py, lines 64-74) for positive temperatures and pressures (other values give NaN). -/
def plLeeKesler (T Tb Tc Pc : ℝ) : Option ℝ := do
  let f := fLK (T / Tc)
  let ab := fLK (Tb / Tc)
  let a := -log (Pc / 101325) - ab.1
  let w ← odiv a ab.2
  return Pc * exp (f.1 + w * f.2)

/-- `PL_Ambrose_Walton` (pvap.py, lines 122-127). -/
def plAmbroseWalton (T Tc Pc w : ℝ) : Option ℝ := do
  let Tr ← odiv T Tc
  let t := 1 - Tr
  let t15 ← fpow t 1.5
  let t25 ← fpow t 2.5
  let f0 ← odiv (-5.97616 * t + 1.29874 * t15 - 0.60394 * t25 - 1.06841 * t ^ 5) Tr
  let f1 ← odiv (-5.03365 * t + 1.11505 * t15 - 5.41217 * t25 - 7.46628 * t ^ 5) Tr
  let f2 ← odiv (-0.64771 * t + 2.41539 * t15 - 4.26979 * t25 + 3.25259 * t ^ 5) Tr
  return Pc * exp (f0 + w * f1 + w ^ 2 * f2)

/-- `PL_Wilson` (pvap.py, line 173). -/
def plWilson (T Tc Pc w : ℝ) : Option ℝ := do
  let q ← odiv Tc T
  return Pc * exp (5.373 * (1 + w) * (1 - q))

/-- `Antoine.equation` (vapor_pressure.py, lines 122-126). -/
def antoine (T A B C : ℝ) (base10 : Bool) : Option ℝ := do
  let q ← odiv B (T + C)
  let x := A - q
  return if base10 then (10 : ℝ) ^ x else exp x

/-- `Wagner25.equation` (vapor_pressure.py, lines 244-246). -/
def wagner25 (T a b c d Pc Tc : ℝ) : Option ℝ := do
  let Tr ← odiv T Tc
  let t := 1 - Tr
  let t15 ← fpow t 1.5
  let t25 ← fpow t 2.5
  let e ← odiv (a * t + b * t15 + c * t25 + d * t ^ 5) Tr
  return Pc * exp e

/-- `Wagner36.equation` (vapor_pressure.py, lines 364-366). -/
def wagner36 (T a b c d Pc Tc : ℝ) : Option ℝ := do
  let Tr ← odiv T Tc
  let t := 1 - Tr
  let t15 ← fpow t 1.5
  let e ← odiv (a * t + b * t15 + c * t ^ 3 + d * t ^ 6) Tr
  return Pc * exp e

/-- `DHVL_Pitzer` (dhvl.py, lines 67-68). -/
def dhvlPitzer (R T Tc w : ℝ) : Option ℝ := do
  let Tr ← odiv T Tc
  let p ← fpow (1 - Tr) 0.354
  let q ← fpow (1 - Tr) 0.456
  return R * Tc * (7.08 * p + 10.95 * w * q)

/-- `DHVL_Vetere` (dhvl.py, lines 122-129) for positive arguments. -/
def dhvlVetere (R Tb Tc Pc : ℝ) : Option ℝ := do
  let Tbr ← odiv Tb Tc
  let q ← odiv (0.15075 / (Pc / 1e5)) (Tbr ^ 2)
  odiv (R * Tc * Tbr * (0.4343 * log (Pc / 1e5) - 0.69431 + 0.89584 * Tbr)) (0.37691 - 0.37306 * Tbr + q)

/-- `kind` of `DHVL_Kistiakowsky_Vetere`; any other string is `other`. -/
inductive Kind where
  | any | acid_alcohol | ester | hydrocarbon | polar | other
  deriving DecidableEq

/-- `numpy.log10`. -/
def log10 (x : ℝ) : ℝ := log x / log 10

/-- `DHVL_Kistiakowsky_Vetere` (dhvl.py, lines 187-219) for positive `Tb` and `M`; `log` and `log10` of other values give NaN. -/
def dhvlKV (R Tb : ℝ) (M : Option ℝ) (kind : Kind) : Except Err (Option ℝ) :=
  if kind = .any then .ok (some ((30.6 + R * log Tb) * Tb))
  else
    match M with
    | none => .error .ValueError
    | some M =>
      let M := M * 1e3
      if kind = .hydrocarbon then
        .ok do
          let q ← fpow (263 * M) 0.581
          let r ← fpow (Tb - q) 1.037
          let s ← odiv 6.49 M
          return (58.20 + 13.7 * log10 M + s * r) * Tb
      else if kind = .polar ∨ kind = .ester then
        .ok do
          let u ← odiv (0.39137 * Tb) M
          let v ← odiv 4.330e-3 M
          let x ← odiv 5.627e-6 M
          let DSvb := 44.367 + 15.33 * log10 Tb + u + v * Tb ^ 2 - x * Tb ^ 3
          let DSvb := if kind = .ester then DSvb * 1.03 else DSvb
          return DSvb * Tb
      else if kind = .acid_alcohol then
        .ok do
          let u ← odiv (25.769 * Tb) M
          let v ← odiv 0.146528 M
          let x ← odiv 2.1362e-4 M
          return (81.119 + 13.083 * log10 Tb - u + v * Tb ^ 2 - x * Tb ^ 3) * Tb
      else .error .ValueError

/-- `DHVL_Watson` (dhvl.py, line 266). -/
def dhvlWatson (hvap1 T1 T2 Tc : ℝ) : Option ℝ := do
  let r2 ← odiv T2 Tc
  let r1 ← odiv T1 Tc
  let q ← odiv (1 - r2) (1 - r1)
  let p ← fpow q 0.38
  return hvap1 * p

end

end Verif.Vaporization
