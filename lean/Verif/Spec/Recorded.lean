import Verif.Model.Basic
import Mathlib.Algebra.Order.Field.Basic
import Mathlib.Algebra.Order.AbsoluteValue.Basic
import Mathlib.Algebra.Order.Ring.Rat
import Mathlib.Algebra.Field.Rat

/-!
# Recorded outputs

The docstrings of the package record the output of one or more calls of most functions. A recorded number is given with the unit `u` of its last digit
(for values printed in full precision, a unit well above the rounding error of the calculation).
-/

namespace Verif.Recorded

variable {α : Type*} [Field α] [LinearOrder α] [IsStrictOrderedRing α]

/-- The number `x` is printed as `v`, whose last digit has unit `u`. -/
def Shows (x v u : α) : Prop := |x - v| ≤ u / 2

/-- The call returns a result with the property `p`. -/
def Returns {X : Type*} (o : Except Err X) (p : X → Prop) : Prop :=
  match o with
  | .ok x => p x
  | .error _ => False

/-- The result is not NaN and has the property `p`. -/
def Has {X : Type*} (o : Option X) (p : X → Prop) : Prop :=
  match o with
  | some x => p x
  | none => False

/-- The call returns a number printed as `v`. -/
def Gives (o : Except Err α) (v u : α) : Prop := Returns o fun x => Shows x v u

/-- The call returns two such numbers. -/
def Gives2 (o : Except Err (α × α)) (v w u : α) : Prop := Returns o fun x => Shows x.1 v u ∧ Shows x.2 w u

instance (x v u : ℚ) : Decidable (Shows x v u) := inferInstanceAs (Decidable (_ ≤ _))

instance {X : Type*} (o : Except Err X) (p : X → Prop) [DecidablePred p] : Decidable (Returns o p) :=
  match o with
  | .ok x => inferInstanceAs (Decidable (p x))
  | .error _ => isFalse id

instance {X : Type*} (o : Option X) (p : X → Prop) [DecidablePred p] : Decidable (Has o p) :=
  match o with
  | some x => inferInstanceAs (Decidable (p x))
  | none => isFalse id

instance (o : Except Err ℚ) (v u : ℚ) : Decidable (Gives o v u) := inferInstanceAs (Decidable (Returns _ _))

instance (o : Except Err (ℚ × ℚ)) (v w u : ℚ) : Decidable (Gives2 o v w u) := inferInstanceAs (Decidable (Returns _ _))

end Verif.Recorded
