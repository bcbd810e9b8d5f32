import Verif.Model.Special
import Verif.Model.Basic
import Mathlib.Analysis.SpecialFunctions.Trigonometric.Basic

/-!
# Model of `hmt/diffusion.py` and `ierfc`, `i2erfc` of `math/special.py`

`erfc` is the exact function. Sums `sum(... for n in range(a, b))` are sums over `Finset.Ico a b`.
-/

namespace Verif.Diffusion

open Real Finset

noncomputable section

/-- `ierfc` (math/special.py, lines 42-45). -/
def ierfc (x : ℝ) : ℝ := if x > 30 then 0 else exp (-x ^ 2) / √π - x * erfc x

/-- `i2erfc` (math/special.py, lines 67-70). -/
def i2erfc (x : ℝ) : ℝ := if x > 30 then 0 else (erfc x - 2 * x * ierfc x) / 4

/-- `(-1 if n % 2 else 1)`. -/
def sgn (n : ℕ) : ℝ := if n % 2 = 1 then -1 else 1

/-- `profile_constc_semiinf` (hmt/diffusion.py, line 67). At `D t = 0` the numpy quotient is an infinity (`erfc` is 0 or 2) or, for `x = 0`, NaN (`none`). -/
def profileSemiinf (t x D : ℝ) : Option ℝ :=
  if D * t = 0 then (if x = 0 then none else if 0 < x then some 0 else some 2) else some (erfc (x / (2 * √(D * t))))

/-- `profile_constc_sheet` (lines 127-153). -/
def profileSheet (Fo x : ℝ) : ℝ :=
  if Fo = 0 then 0
  else if Fo < 1 / 4 then
    let A := 2 * √Fo
    ∑ n ∈ Ico (0 : ℕ) 4, sgn n * (erfc (((2 * n + 1) - x) / A) + erfc (((2 * n + 1) + x) / A))
  else
    let B := -(π ^ 2 / 4) * Fo
    let C := π / 2 * x
    1 - 4 / π * ∑ n ∈ Ico (0 : ℕ) 4, sgn n / (2 * n + 1) * exp (B * (2 * n + 1) ^ 2) * cos (C * (2 * n + 1))

/-- `profile_constc_sphere` (lines 207-234). -/
def profileSphere (Fo r : ℝ) : ℝ :=
  if |r| < eps then
    let B := -π ^ 2 * Fo
    1 + 2 * ∑ n ∈ Ico (1 : ℕ) 4, sgn n * exp (B * n ^ 2)
  else if Fo = 0 then 0
  else if Fo < 1 / 4 then
    let A := 2 * √Fo
    (∑ n ∈ Ico (0 : ℕ) 4, (erfc (((2 * n + 1) - r) / A) - erfc (((2 * n + 1) + r) / A))) / r
  else
    let B := -π ^ 2 * Fo
    1 + 2 / (π * r) * ∑ n ∈ Ico (1 : ℕ) 4, sgn n / n * exp (B * n ^ 2) * sin (r * π * n)

/-- `uptake_constc_sheet` (lines 290-307). -/
def uptakeSheet (Fo : ℝ) : ℝ :=
  if Fo = 0 then 0
  else if Fo < 1 / 4 then
    let A := √Fo
    2 * A * (1 / √π + 2 * ∑ n ∈ Ico (1 : ℕ) 4, sgn n * ierfc (n / A))
  else
    let B := -(Fo * π ^ 2) / 4
    1 - 8 / π ^ 2 * ∑ n ∈ Ico (0 : ℕ) 3, 1 / (2 * n + 1) ^ 2 * exp (B * (2 * n + 1) ^ 2)

/-- `uptake_constc_sphere` (lines 357-372). -/
def uptakeSphere (Fo : ℝ) : ℝ :=
  if Fo = 0 then 0
  else if Fo < 1 / 4 then
    let A := √Fo
    6 * A * (1 / √π + 2 * ∑ n ∈ Ico (1 : ℕ) 4, ierfc (n / A)) - 3 * Fo
  else
    let B := -Fo * π ^ 2
    1 - 6 / π ^ 2 * ∑ n ∈ Ico (1 : ℕ) 4, 1 / n ^ 2 * exp (B * n ^ 2)

/-- `uptake_convection_sheet` (lines 432-441); `x` stands for `roots_xtanx(Bi, 4)`. -/
def uptakeConvSheet (x : Fin 4 → ℝ) (Fo Bi : ℝ) : ℝ :=
  if Fo ≠ 0 ∧ Bi ≠ 0 then
    1 - 2 * Bi ^ 2 * ∑ n, exp (-x n ^ 2 * Fo) / (x n ^ 2 * (x n ^ 2 + Bi * (Bi + 1)))
  else 0

/-- `uptake_convection_sphere` (lines 500-509); `x` stands for `roots_xcotx(Bi, 4)`. -/
def uptakeConvSphere (x : Fin 4 → ℝ) (Fo Bi : ℝ) : ℝ :=
  if Fo ≠ 0 ∧ Bi ≠ 0 then
    1 - 6 * Bi ^ 2 * ∑ n, exp (-x n ^ 2 * Fo) / (x n ^ 2 * (x n ^ 2 + Bi * (Bi - 1)))
  else 0

end

end Verif.Diffusion
