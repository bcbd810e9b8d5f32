import Verif.Model.Basic

/-!
# Specification vocabulary for the scalar root solvers (independent of the model's loops)
-/

namespace Verif

variable {α : Type*} [Field α]

/-- One Newton step as the mathematics defines it from the complex-step value and derivative. -/
def newtonIter (f : α × α → α × α) (x : α) : α := x - (f (x, eps)).1 / ((f (x, eps)).2 / eps)

/-- The secant sequence started from `x0, x1`, as the textbook defines it. -/
def secantSeq (f : α → α) (x0 x1 : α) : ℕ → α
  | 0 => x0
  | 1 => x1
  | k + 2 => secantSeq f x0 x1 (k + 1) - f (secantSeq f x0 x1 (k + 1)) *
      (secantSeq f x0 x1 (k + 1) - secantSeq f x0 x1 k) /
      (f (secantSeq f x0 x1 (k + 1)) - f (secantSeq f x0 x1 k))

end Verif
