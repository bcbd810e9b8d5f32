import Mathlib.Algebra.Order.Field.Basic
import Mathlib.Algebra.Order.AbsoluteValue.Basic

/-!
# Shared vocabulary of the model

Exceptions are values, Python floats are elements of an ordered field (exact arithmetic), results of the
scalar root solvers are records.
-/

namespace Verif

/-- Python exceptions raised by the modelled code (`/repo/src/polykin/utils/exceptions.py` lines 1-75 for the
project specific ones; the others are built-ins). Only the class of the exception is kept, not its text. -/
inductive Err where
  | ValueError
  | TypeError
  | NameError
  | RangeError
  | ShapeError
  | ZeroDivisionError
  | KeyError
  | NotImplementedError
  | AttributeError
  deriving DecidableEq, Repr

/-- `eps = np.finfo(np.float64).eps`, i.e. `2⁻⁵²` (`/repo/src/polykin/utils/math.py` line 32). -/
def eps {α : Type*} [Field α] : α := 1 / 2 ^ 52

/-- Exit message of the scalar root solvers; stands for the message string of `RootResult`. -/
inductive Msg where
  | tolf      -- "|f(x)| ≤ tolf" (also with x0/x1/xa/xb in place of x)
  | tolx      -- "|Δx| ≤ tolx"
  | zeroSlope -- "Nearly zero derivative ..." / "Nearly zero slope ..."
  | maxiter   -- "Maximum number of iterations ... reached."
  deriving DecidableEq, Repr

/-- `RootResult` (`/repo/src/polykin/math/roots/results.py` lines 16-43). The constant field `method` is dropped.
`β` is the number type of `x` and `f` (`Option α` where the code may store NaN). -/
structure RootResult (β : Type*) where
  success : Bool
  message : Msg
  nfeval : ℕ
  niter : ℕ
  x : β
  f : β
  deriving DecidableEq, Repr

end Verif
