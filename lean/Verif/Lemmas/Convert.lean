import Mathlib.Topology.Algebra.InfiniteSum.Real
import Mathlib.Analysis.Calculus.Deriv.Basic

/-! # Changing the shape of `HasSum` and `HasDerivAt` statements -/

namespace Verif

theorem hasSum_of_eq {f g : ℕ → ℝ} {a b : ℝ} (h : HasSum f a) (hf : ∀ k, g k = f k) (hb : b = a) : HasSum g b := by
  subst hb
  rw [show g = f from funext hf]
  exact h

theorem hasDerivAt_of_eq {f g : ℝ → ℝ} {x a b : ℝ} (h : HasDerivAt f a x) (hf : ∀ y, g y = f y) (hb : b = a) :
    HasDerivAt g b x := by
  subst hb
  rw [show g = f from funext hf]
  exact h

end Verif
