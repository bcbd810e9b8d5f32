import Verif.Model.PDiv
import Mathlib.Analysis.SpecialFunctions.Pow.Real
import Mathlib.Analysis.SpecialFunctions.Gamma.Basic
import Mathlib.Order.WithBot

/-!
# Model of `polykin/kinetics/coefficients` and `polykin/kinetics/emulsion`

Scalar coefficients (arrays act element by element; `check_shapes` is modelled in `Model/Utils.lean`). A temperature is a real number or
`⊤` (`np.inf`). Values are Python floats: a zero divisor raises `ZeroDivisionError`.
-/

namespace Verif.Kin

/-- `1 / T` for a temperature that may be infinite. -/
noncomputable def invT : WithTop ℝ → Except Err ℝ
  | ⊤ => .ok 0
  | (t : ℝ) => pdiv 1 t

/-- An `Arrhenius` object: parameters `p` and `Trange` (`/repo/src/polykin/kinetics/coefficients/arrhenius.py` lines 99-100). -/
structure Arrhenius where
  k0 : ℝ
  EaR : ℝ
  T0 : WithTop ℝ
  Tmin : WithTop ℝ
  Tmax : WithTop ℝ

/-- The bound check on `Tmax - Tmin` (`/repo/src/polykin/properties/equations/base.py` line 58); `inf - inf` is NaN and refused. -/
def okSpan : WithTop ℝ → WithTop ℝ → Prop
  | ⊤, _ => False
  | (_ : ℝ), ⊤ => True
  | (a : ℝ), (b : ℝ) => eps ≤ b - a

open Classical in
/-- `Arrhenius.__init__` (lines 74-100) with `PropertyEquationT.__init__` (`properties/equations/base.py` lines 48-60). -/
noncomputable def init (k0 EaR : ℝ) (T0 Tmin Tmax : WithTop ℝ) : Except Err Arrhenius :=
  if ¬ 0 ≤ k0 then .error .RangeError
  else if ¬ 0 ≤ T0 then .error .RangeError
  else if ¬ 0 ≤ Tmin then .error .RangeError
  else if ¬ 0 ≤ Tmax then .error .RangeError
  else if ¬ okSpan Tmin Tmax then .error .RangeError
  else .ok ⟨k0, EaR, T0, Tmin, Tmax⟩

/-- `Arrhenius.equation` (line 127). -/
noncomputable def equation (T : WithTop ℝ) (k0 EaR : ℝ) (T0 : WithTop ℝ) : Except Err ℝ := do
  let a ← invT T
  let b ← invT T0
  return k0 * Real.exp (-EaR * (a - b))

open Classical in
/-- `PropertyEquationT.__call__` (`properties/equations/base.py` lines 62-83) at a temperature in kelvin; the flag tells whether the
out-of-range warning is issued (`utils/tools.py` lines 410-413). -/
noncomputable def call (k : Arrhenius) (T : WithTop ℝ) : Except Err (ℝ × Bool) := do
  if T < 0 then throw .RangeError
  let v ← equation T k.k0 k.EaR k.T0
  return (v, decide (T < k.Tmin ∨ T > k.Tmax))

/-- `Arrhenius.A` (line 132). -/
noncomputable def preexp (k : Arrhenius) : Except Err ℝ := do
  let (v, _) ← call k ⊤
  return v

/-- `__mul__` of two coefficients (lines 151-161). -/
noncomputable def mul (k l : Arrhenius) : Except Err Arrhenius := do
  let a ← preexp k
  let b ← preexp l
  init (a * b) (k.EaR + l.EaR) ⊤ (max k.Tmin l.Tmin) (min k.Tmax l.Tmax)

/-- Whether `__mul__` / `__truediv__` of two coefficients emits the out-of-range warning: they read `A` of both operands (lines 132, 154, 204). -/
noncomputable def mulWarns (k l : Arrhenius) : Except Err Bool := do
  let (_, w) ← call k ⊤
  let (_, v) ← call l ⊤
  return w || v

/-- `__mul__` / `__rmul__` with a number (lines 166-176, 182). -/
noncomputable def mulc (k : Arrhenius) (c : ℝ) : Except Err Arrhenius := init (k.k0 * c) k.EaR k.T0 k.Tmin k.Tmax

/-- `__truediv__` of two coefficients (lines 201-211). `A` is a numpy scalar: a positive value over zero is `inf`, an accepted `k0`; such
an object is represented by `none`. Zero over zero is NaN, a refused `k0`. -/
noncomputable def div (k l : Arrhenius) : Except Err (Option Arrhenius) := do
  let a ← preexp k
  let b ← preexp l
  if b = 0 then
    if a = 0 then throw .RangeError else return none
  let r ← init (a / b) (k.EaR - l.EaR) ⊤ (max k.Tmin l.Tmin) (min k.Tmax l.Tmax)
  return some r

/-- `__truediv__` with a number (lines 216-226); for a `k0` that is a Python float, a numpy scalar divided by zero would give a refused NaN or an infinite `k0`. -/
noncomputable def divc (k : Arrhenius) (c : ℝ) : Except Err Arrhenius := do
  let q ← pdiv k.k0 c
  init q k.EaR k.T0 k.Tmin k.Tmax

/-- `__rtruediv__` (lines 232-242). -/
noncomputable def rdivc (c : ℝ) (k : Arrhenius) : Except Err Arrhenius := do
  let q ← pdiv c k.k0
  init q (-k.EaR) k.T0 k.Tmin k.Tmax

/-- `__pow__` (lines 262-272); `0 ** c` with `c < 0` raises. -/
noncomputable def pow (k : Arrhenius) (c : ℝ) : Except Err Arrhenius :=
  if k.k0 = 0 ∧ c < 0 then .error .ZeroDivisionError else init (k.k0 ^ c) (k.EaR * c) k.T0 k.Tmin k.Tmax

/-- `TerminationCompositeModel.equation`, inner function `ktii` (`/repo/src/polykin/kinetics/coefficients/cldtermination.py` lines 152-155),
for positive chain lengths. -/
noncomputable def ktii (kt11 : ℝ) (icrit : ℕ) (aS aL : ℝ) (i : ℕ) : ℝ :=
  if i ≤ icrit then kt11 * (i : ℝ) ^ (-aS) else kt11 * (icrit : ℝ) ^ (-aS + aL) * (i : ℝ) ^ (-aL)

/-- `TerminationCompositeModel.equation` (lines 120-157). -/
noncomputable def ktij (i j : ℕ) (kt11 : ℝ) (icrit : ℕ) (aS aL : ℝ) : ℝ := √(ktii kt11 icrit aS aL i * ktii kt11 icrit aS aL j)

/-- `PropagationHalfLength.equation` (`/repo/src/polykin/kinetics/coefficients/cldpropagation.py` line 135). -/
noncomputable def kpi (i kp C ihalf : ℝ) : ℝ := kp * (1 + (C - 1) * Real.exp (-Real.log 2 * (i - 1) / ihalf))

/-- `Eyring.equation` (`/repo/src/polykin/kinetics/coefficients/eyring.py` line 126); `kB`, `h`, `R` are the physical constants. -/
noncomputable def eyring (kB h R T DSa DHa kappa : ℝ) : ℝ := kappa * kB * T / h * Real.exp ((DSa - DHa / T) / R)

/-- An `Eyring` object (`eyring.py` lines 95-96). -/
structure Eyring where
  DSa : ℝ
  DHa : ℝ
  kappa : ℝ
  Tmin : WithTop ℝ
  Tmax : WithTop ℝ

open Classical in
/-- `Eyring.__init__` (lines 80-96) with `PropertyEquationT.__init__`. -/
noncomputable def Eyring.init (DSa DHa kappa : ℝ) (Tmin Tmax : WithTop ℝ) : Except Err Eyring :=
  if ¬ 0 ≤ DSa then .error .RangeError
  else if ¬ 0 ≤ DHa then .error .RangeError
  else if ¬ (0 ≤ kappa ∧ kappa ≤ 1) then .error .RangeError
  else if ¬ 0 ≤ Tmin then .error .RangeError
  else if ¬ 0 ≤ Tmax then .error .RangeError
  else if ¬ okSpan Tmin Tmax then .error .RangeError
  else .ok ⟨DSa, DHa, kappa, Tmin, Tmax⟩

open Classical in
/-- `PropertyEquationT.__call__` of an `Eyring` object at a finite temperature in kelvin; the flag is the out-of-range warning. -/
noncomputable def Eyring.call (kB h R : ℝ) (k : Eyring) (T : ℝ) : Except Err (ℝ × Bool) :=
  if T < 0 then .error .RangeError
  else if T = 0 then .error .ZeroDivisionError
  else .ok (eyring kB h R T k.DSa k.DHa k.kappa, decide ((T : WithTop ℝ) < k.Tmin ∨ (T : WithTop ℝ) > k.Tmax))

/-- `nbar_Li_Brooks` (`/repo/src/polykin/kinetics/emulsion/nbar.py` lines 72-74). -/
noncomputable def nbarLiBrooks (alpha m : ℝ) : ℝ :=
  2 * alpha / (m + √(m ^ 2 + 8 * alpha * (2 * alpha + m) / (2 * alpha + m + 1)))

/-- What the call `nbar_Li_Brooks(alpha, m)` returns for `alpha, m ≥ 0`: `sqrt` is numpy's, so the quotient is a numpy division and `0/0` is NaN (`none`). -/
noncomputable def nbarLiBrooksCall (alpha m : ℝ) : Option ℝ :=
  if m + √(m ^ 2 + 8 * alpha * (2 * alpha + m) / (2 * alpha + m + 1)) = 0 then none else some (nbarLiBrooks alpha m)

/-- The modified Bessel function of the first kind `scipy.special.iv`, by its power series. -/
noncomputable def iv (m a : ℝ) : ℝ := ∑' k : ℕ, (a / 2) ^ (2 * (k : ℝ) + m) / ((k.factorial : ℝ) * Real.Gamma (k + m + 1))

/-- `nbar_Stockmayer_OToole` (lines 40-41), for `alpha > 0` (at 0 the quotient can be `0/0`). -/
noncomputable def nbarOToole (alpha m : ℝ) : ℝ := (√(8 * alpha) / 4) * iv m (√(8 * alpha)) / iv (m - 1) (√(8 * alpha))

end Verif.Kin
