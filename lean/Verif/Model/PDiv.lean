import Verif.Model.Basic
import Mathlib.Algebra.Field.Defs

namespace Verif

/-- Division of Python floats: `x / 0.0` raises. -/
def pdiv {α : Type*} [Field α] [DecidableEq α] (a b : α) : Except Err α :=
  if b = 0 then .error .ZeroDivisionError else .ok (a / b)

end Verif
