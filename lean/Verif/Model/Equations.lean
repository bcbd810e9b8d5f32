import Verif.Model.Vaporization
import Mathlib.Analysis.SpecialFunctions.Trigonometric.Deriv

/-!
# Model of the DIPPR equations and of the Yaws equation

The `equation` methods of `properties/equations/dippr.py` and `properties/equations/viscosity.py`, for real scalar arguments. What is not a real number in
Python (division by zero, power of a negative number, logarithm of a nonpositive number) is `none`. Exponents are taken as non-integer (floats).
-/

namespace Verif.Equations

open Real Vaporization

noncomputable section

/-- Python `x ** p` for a float exponent: complex for negative `x`, `ZeroDivisionError` for a negative power of zero. -/
def pw (x p : ℝ) : Option ℝ := if x < 0 ∨ (x = 0 ∧ p < 0) then none else some (x ^ p)

/-- `numpy.log`, `-inf` and NaN excluded. -/
def flog (x : ℝ) : Option ℝ := if 0 < x then some (log x) else none

/-- `DIPPR100.equation` (dippr.py, line 142). -/
def dippr100 (T A B C D E : ℝ) : ℝ := A + B * T + C * T ^ 2 + D * T ^ 3 + E * T ^ 4

/-- `DIPPR101.equation` (dippr.py, line 213). -/
def dippr101 (T A B C D E : ℝ) : Option ℝ := do
  let b ← odiv B T
  let l ← flog T
  let t ← pw T E
  return exp (A + b + C * l + D * t)

/-- `DIPPR102.equation` (dippr.py, line 274). -/
def dippr102 (T A B C D : ℝ) : Option ℝ := do
  let t ← pw T B
  let c ← odiv C T
  let d ← odiv D (T ^ 2)
  odiv (A * t) (1 + c + d)

/-- `DIPPR104.equation` (dippr.py, line 345). -/
def dippr104 (T A B C D E : ℝ) : Option ℝ := do
  let b ← odiv B T
  let c ← odiv C (T ^ 3)
  let d ← odiv D (T ^ 8)
  let e ← odiv E (T ^ 9)
  return A + b + c + d + e

/-- `DIPPR105.equation` (dippr.py, line 406). -/
def dippr105 (T A B C D : ℝ) : Option ℝ := do
  let r ← odiv T C
  let t ← pw (1 - r) D
  let b ← pw B (1 + t)
  odiv A b

/-- `DIPPR106.equation` (dippr.py, lines 484-485). -/
def dippr106 (T A B C D E Tc : ℝ) : Option ℝ := do
  let Tr ← odiv T Tc
  let p ← pw (1 - Tr) (B + Tr * (C + Tr * (D + E * Tr)))
  return A * p

/-- `DIPPR107.equation` (dippr.py, line 557). -/
def dippr107 (T A B C D E : ℝ) : Option ℝ := do
  let c ← odiv C T
  let s ← odiv c (sinh c)
  let e ← odiv E T
  let k ← odiv e (cosh e)
  return A + B * s ^ 2 + D * k ^ 2

/-- `Yaws.equation` (viscosity.py, lines 110-114). -/
def yaws (T A B C D : ℝ) (base10 : Bool) : Option ℝ := do
  let b ← odiv B T
  let x := A + b + C * T + D * T ^ 2
  return if base10 then 10 ^ x else exp x

end

end Verif.Equations
