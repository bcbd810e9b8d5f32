import Verif.Model.Float
import Mathlib.Order.WithBot

/-! # Extended numbers: the independent reading of floats as points of `[-∞, ∞]`, or not a number -/

namespace Verif

/-- The extended number denoted by a float, `none` for NaN. -/
def Fl.toExt {α : Type*} : Fl α → Option (WithBot (WithTop α))
  | .nan => none
  | .ninf => some ⊥
  | .fin a => some (((a : WithTop α)) : WithBot (WithTop α))
  | .pinf => some ((⊤ : WithTop α) : WithBot (WithTop α))

/-- `x` is a number of the closed interval `[lo, hi]` of extended numbers. -/
def Fl.Within {α : Type*} [LinearOrder α] (lo hi x : Fl α) : Prop :=
  ∃ l h e, lo.toExt = some l ∧ hi.toExt = some h ∧ x.toExt = some e ∧ l ≤ e ∧ e ≤ h

/-- `x` is a number strictly below the number `y`. -/
def Fl.Below {α : Type*} [LinearOrder α] (x y : Fl α) : Prop :=
  ∃ a b, x.toExt = some a ∧ y.toExt = some b ∧ a < b

end Verif
