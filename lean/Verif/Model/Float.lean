import Verif.Model.Basic

/-!
# Floating-point special values

Where NaN and infinities matter for the decision logic, Python floats are modelled by `Fl α`: exact values of an ordered field
extended by NaN and the two infinities, with the IEEE comparison rules (every comparison with NaN is false).
-/

namespace Verif

/-- A float: NaN, ±∞ or an exact finite value (rounding is not modelled). -/
inductive Fl (α : Type*) where
  | nan
  | ninf
  | fin (a : α)
  | pinf
  deriving DecidableEq, Repr

namespace Fl

variable {α : Type*} [LinearOrder α]

/-- IEEE `x <= y`. -/
def le : Fl α → Fl α → Bool
  | nan, _ => false
  | _, nan => false
  | ninf, _ => true
  | _, pinf => true
  | fin a, fin b => decide (a ≤ b)
  | _, _ => false

/-- IEEE `x < y`. -/
def lt : Fl α → Fl α → Bool
  | nan, _ => false
  | _, nan => false
  | _, ninf => false
  | ninf, _ => true
  | pinf, _ => false
  | _, pinf => true
  | fin a, fin b => decide (a < b)

/-- IEEE addition of a finite constant. -/
def addFin {α : Type*} [Add α] : Fl α → α → Fl α
  | fin a, b => fin (a + b)
  | x, _ => x

/-- IEEE multiplication by a positive finite constant. -/
def mulPos {α : Type*} [Mul α] : Fl α → α → Fl α
  | fin a, b => fin (a * b)
  | x, _ => x

end Fl

end Verif
