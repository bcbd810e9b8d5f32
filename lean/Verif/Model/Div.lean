import Mathlib.Algebra.Order.Field.Basic

/-! # Float division -/

namespace Verif

/-- Division of numpy floats: `none` stands for NaN or an infinity (zero divisor). -/
def fdiv {α : Type*} [Field α] [DecidableEq α] (a b : α) : Option α := if b = 0 then none else some (a / b)

end Verif
