import Verif.Model.Basic

/-!
# Specification vocabulary for the fixed-point solvers
-/

namespace Verif.FixPoint

variable {α : Type*} [Field α] [LinearOrder α] {n : ℕ}

/-- The bounded Wegstein sequence of the documentation: `wait` direct substitutions, then component-wise
`x' = q x + (1 - q) g(x)` with `q = s/(s-1)` bounded to `[qmin, qmax]` and `s` the secant slope of `g` (taken as 0 when
the component did not move by more than `eps`; `q = qmax` when `s = 1`). -/
def wegsteinSeq (g : (Fin n → α) → (Fin n → α)) (qmin qmax : α) (wait : ℕ) (x0 : Fin n → α) : ℕ → Fin n → α
  | 0 => x0
  | 1 => g x0
  | j + 2 =>
    let x := wegsteinSeq g qmin qmax wait x0 (j + 1)
    let xm := wegsteinSeq g qmin qmax wait x0 j
    if j + 1 < wait then g x
    else fun i =>
      let s := if eps < |x i - xm i| then (g x i - g xm i) / (x i - xm i) else 0
      let q := if s = 1 then qmax else min (max (s / (s - 1)) qmin) qmax
      q * x i + (1 - q) * g x i

end Verif.FixPoint
