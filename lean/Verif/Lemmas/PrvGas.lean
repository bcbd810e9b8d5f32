import Verif.Model.Prv
import Mathlib.Analysis.SpecialFunctions.Pow.Deriv
import Mathlib.Analysis.Calculus.Deriv.MeanValue
import Mathlib.Analysis.SpecialFunctions.Pow.Continuity

/-! # Helper lemmas: (gas and steam): relief valve sizing -/

namespace Verif.Prv

open Real

theorem pdiv_ok {a b : ℝ} (h : b ≠ 0) : pdiv a b = .ok (a / b) := if_neg h

theorem ok_bind {α β : Type} (x : α) (f : α → Except Err β) : (Except.ok x >>= f) = f x := rfl

end Verif.Prv
