import Verif.Model.Basic
import Mathlib.Analysis.SpecialFunctions.Log.Basic

/-!
# Model of `properties/pvt/tait.py`

Scalar arguments; `ln` is the real logarithm, so theorems assume `1 + P/B > 0` wherever it matters. Unit conversion and range warnings of
`vs` are those of `convert_check_temperature` / `convert_check_pressure` (modelled in `Model/Utils.lean`); `repr` is not
modelled, the database is in `Model/TaitDb.lean`. An infinite `Tmax` or `Pmax` is `none`.
-/

namespace Verif.Tait

open Real

noncomputable section

/-- Attributes of a `Tait` object (properties/pvt/tait.py, lines 73-84). -/
structure Tait where
  A0 : ℝ
  A1 : ℝ
  A2 : ℝ
  B0 : ℝ
  B1 : ℝ
  Trange : ℝ × Option ℝ
  Prange : ℝ × Option ℝ

/-- The class constant `_C` (line 84). -/
def C : ℝ := 0.0894

/-- `check_bounds(x, lo, hi)` on a number (utils/tools.py, lines 190-216). -/
def bound (x lo hi : ℝ) : Except Err Unit := if lo ≤ x ∧ x ≤ hi then .ok () else .error .RangeError

/-- `check_bounds(x, lo, inf)`, where `x` may be infinite. -/
def boundInf (x : Option ℝ) (lo : ℝ) : Except Err Unit :=
  match x with
  | none => .ok ()
  | some x => if lo ≤ x then .ok () else .error .RangeError

/-- `Tait.__init__` (lines 100-120). -/
def init (A0 A1 A2 B0 B1 Tmin : ℝ) (Tmax : Option ℝ) (Pmin : ℝ) (Pmax : Option ℝ) : Except Err Tait := do
  bound A0 1e-4 2e-3
  bound A1 1e-7 2e-6
  bound A2 (-2e-9) 1e-8
  bound B0 1e7 1e9
  bound B1 1e-3 2e-2
  boundInf (some Tmin) 0
  boundInf Tmax 0
  boundInf (Tmax.map (· - Tmin)) eps
  boundInf (some Pmin) 0
  boundInf Pmax 0
  boundInf (Pmax.map (· - Pmin)) eps
  return ⟨A0, A1, A2, B0, B1, (Tmin, Tmax), (Pmin, Pmax)⟩

/-- `Tait._B` (line 176). -/
def B (s : Tait) (T : ℝ) : ℝ := s.B0 * exp (-s.B1 * (T - 273.15))

/-- `Tait.eval` (lines 157-161). -/
def eval (s : Tait) (T P : ℝ) : ℝ :=
  let TC := T - 273.15
  let v0 := s.A0 + s.A1 * TC + s.A2 * TC ^ 2
  v0 * (1 - C * log (1 + P / B s T))

/-- `Tait.beta` (lines 229-230). -/
def beta (s : Tait) (T P : ℝ) : ℝ := (C / (P + B s T)) / (1 - C * log (1 + P / B s T))

/-- `Tait.alpha` (lines 200-205). -/
def alpha (s : Tait) (T P : ℝ) : ℝ :=
  let TC := T - 273.15
  let alpha0 := (s.A1 + 2 * s.A2 * TC) / (s.A0 + s.A1 * TC + s.A2 * TC ^ 2)
  alpha0 - P * s.B1 * beta s T P

end

end Verif.Tait
