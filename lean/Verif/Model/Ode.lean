import Verif.Model.Basic
import Mathlib.Algebra.Order.Floor.Defs

/-! # Model of `polykin/math/derivatives/ode.py` -/

namespace Verif.Ode

variable {α : Type*} [Field α] [LinearOrder α] [FloorRing α]

/-- `step_rk1` (`/repo/src/polykin/math/derivatives/ode.py` lines 71-74). -/
def stepRk1 (f : α → α → α) (t y h : α) : α := y + f t y * h

/-- `step_rk2` (lines 76-79). -/
def stepRk2 (f : α → α → α) (t y h : α) : α := y + f (t + h / 2) (y + f t y * h / 2) * h

/-- `step_rk4` (lines 81-88). -/
def stepRk4 (f : α → α → α) (t y h : α) : α :=
  let k1 := f t y
  let k2 := f (t + h / 2) (y + k1 * h / 2)
  let k3 := f (t + h / 2) (y + k2 * h / 2)
  let k4 := f (t + h) (y + k3 * h)
  y + (k1 + 2 * k2 + 2 * k3 + k4) * h / 6

/-- The `for _ in range(nsteps)` loop (lines 96-98); returns the final `(t, y)`. -/
def stepLoop (step : α → α → α → α) (h : α) : ℕ → α → α → α × α
  | 0, t, y => (t, y)
  | n + 1, t, y => stepLoop step h n (t + h) (step t y h)

/-- `integrate` (lines 90-101). `range` of a negative number is empty. Returns the final `(t, y)`; the code returns only
`y`. -/
def integrate (step : α → α → α → α) (t0 tf y0 h : α) : α × α :=
  let nsteps : ℤ := ⌊(tf - t0) / h⌋
  let hf := (tf - t0) - nsteps * h
  let s := stepLoop step h nsteps.toNat t0 y0
  (s.1 + hf, step s.1 s.2 hf)

/-- `ode_rk` (lines 71-112). A zero step size raises `ZeroDivisionError` (numba's default Python error model). -/
def odeRk (f : α → α → α) (t0 tf y0 h : α) (order : ℕ) : Except Err α :=
  if order = 1 then if h = 0 then .error .ZeroDivisionError else .ok (integrate (stepRk1 f) t0 tf y0 h).2
  else if order = 2 then if h = 0 then .error .ZeroDivisionError else .ok (integrate (stepRk2 f) t0 tf y0 h).2
  else if order = 4 then if h = 0 then .error .ZeroDivisionError else .ok (integrate (stepRk4 f) t0 tf y0 h).2
  else .error .ValueError

end Verif.Ode
