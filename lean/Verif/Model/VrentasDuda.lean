import Verif.Model.Basic
import Mathlib.Analysis.SpecialFunctions.Exp

/-!
# Model of `VrentasDudaBinary` (properties/diffusion/vrentasduda.py)

Scalar `w1` and `T` in kelvin; `R` is the gas constant. Division by a zero free volume (NaN or infinity with numpy floats,
`ZeroDivisionError` with Python floats) is `none`, as is `T = 0`. Plotting, `repr` and the stub `fit` are not modelled.
-/

namespace Verif.VrentasDuda

open Real

noncomputable section

/-- Attributes of `VrentasDudaBinary` (lines 115-128). -/
structure VD where
  D0 : ℝ
  E : ℝ
  v1 : ℝ
  v2 : ℝ
  z : ℝ
  K11 : ℝ
  K12 : ℝ
  K21 : ℝ
  K22 : ℝ
  Tg1 : ℝ
  Tg2 : ℝ
  y : ℝ
  X : ℝ

/-- The checks of `__init__` (lines 149-161); infinite bounds are omitted. -/
def init (s : VD) : Except Err VD :=
  if 0 ≤ s.D0 ∧ 0 ≤ s.E ∧ 0 ≤ s.v1 ∧ 0 ≤ s.v2 ∧ 0 ≤ s.z ∧ 0 ≤ s.K11 ∧ 0 ≤ s.K12 ∧ 0 ≤ s.Tg1 ∧ 0 ≤ s.Tg2 ∧ (0.5 ≤ s.y ∧ s.y ≤ 1) ∧ (-10 ≤ s.X ∧ s.X ≤ 10) then .ok s
  else .error .RangeError

/-- The free-volume denominator of `selfd` (line 277). -/
def freeVolume (s : VD) (w1 T : ℝ) : ℝ := w1 * (s.K11 / s.y) * (s.K21 - s.Tg1 + T) + (1 - w1) * (s.K12 / s.y) * (s.K22 - s.Tg2 + T)

/-- `selfd` (lines 258-280). -/
def selfd (R : ℝ) (s : VD) (w1 T : ℝ) : Option ℝ :=
  if R * T = 0 ∨ freeVolume s w1 T = 0 then none
  else some (s.D0 * exp (-s.E / (R * T)) * exp (-(w1 * s.v1 + (1 - w1) * s.z * s.v2) / freeVolume s w1 T))

/-- `mutual` (lines 302-305). -/
def mutuald (R : ℝ) (s : VD) (w1 T : ℝ) : Option ℝ := do
  let D1 ← selfd R s w1 T
  return D1 * (1 - w1) ^ 2 * (1 - 2 * s.X * w1)

/-- `__call__` (lines 227-236) for a number `w1` and `T` in kelvin; the temperature check is that of `convert_check_temperature`. -/
def call (R : ℝ) (s : VD) (w1 T : ℝ) (self : Bool) : Except Err (Option ℝ) :=
  if 0 ≤ w1 ∧ w1 ≤ 1 then
    if T < 0 then .error .RangeError else .ok (if self then selfd R s w1 T else mutuald R s w1 T)
  else .error .RangeError

end

end Verif.VrentasDuda
