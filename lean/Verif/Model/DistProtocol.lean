import Verif.Model.Mixture

/-!
# Comparison, membership, iteration and truth value of distributions (`/repo/src/polykin/distributions/base.py`)

What the Python operators do with the special methods which the classes define: `Distribution.__lt__` (lines 52-56),
`MixtureDistribution.__iter__`, `__contains__`, `__bool__` (lines 745-749, 757-758). No other comparison method is defined, so `>`
falls back to the reflected `__lt__`, and `<=`, `>=` find nothing. Individual distributions are identified by numbers (their `id`),
`comp` gives their moments; a mixture is its dict.
-/

namespace Verif.Mixture

open Verif.Dist Verif.Utils

/-- Python values: an individual distribution, a mixture with its dict, anything else. -/
inductive PyObj where
  | dist (d : ℕ)
  | mix (l : Dict ℕ ℝ)
  | other

/-- The items of a dict with the distributions they stand for. -/
def items (comp : ℕ → Comp) (l : Dict ℕ ℝ) : List (Comp × ℝ) := l.map fun dw => (comp dw.1, dw.2)

/-- `Mw` (lines 79-81) of an individual distribution and of a mixture. Without components `_moment_mass` is the integer 0 (lines
819-822) and the division raises. -/
noncomputable def objMw (comp : ℕ → Comp) : PyObj → Except Err ℝ
  | .dist d => .ok (avgMw (comp d).mm)
  | .mix [] => .error .ZeroDivisionError
  | .mix (dw :: l) => .ok (avgMw (moment (items comp (dw :: l))))
  | .other => .error .AttributeError

/-- `Distribution.__lt__(self, other)` (lines 52-56); `none`: `NotImplemented`. `Mw` of `self` is evaluated first. -/
noncomputable def dunderLt (comp : ℕ → Comp) (x y : PyObj) : Option (Except Err Bool) :=
  match x, y with
  | .other, _ => none
  | _, .other => none
  | x, y => some (do
    let a ← objMw comp x
    let b ← objMw comp y
    return decide (a < b))

/-- `x < y`: `__lt__` of `x`; failing that the reflected `__gt__`, which no distribution defines. -/
noncomputable def pyLt (comp : ℕ → Comp) (x y : PyObj) : Except Err Bool := (dunderLt comp x y).getD (.error .TypeError)

/-- `x > y`: no `__gt__`, so the reflected `__lt__` of `y`. -/
noncomputable def pyGt (comp : ℕ → Comp) (x y : PyObj) : Except Err Bool := (dunderLt comp y x).getD (.error .TypeError)

/-- `x <= y`: neither `__le__` nor `__ge__` is defined. -/
def pyLe (_x _y : PyObj) : Except Err Bool := .error .TypeError

/-- What `iter(x)` gives: the keys. -/
def pyIter : PyObj → Except Err (List ℕ)
  | .mix _ => .error .TypeError -- `__iter__` (lines 745-746) returns the dict, which is not an iterator
  | .dist _ => .error .TypeError -- no `__iter__`
  | .other => .error .TypeError

/-- `d in x` for an individual distribution `d` (lines 748-749). Distributions define no `__eq__`, so keys are compared by identity;
an individual distribution supports neither `in` nor iteration. -/
def pyIn (d : ℕ) : PyObj → Except Err Bool
  | .mix l => .ok (decide (d ∈ l.map Prod.fst))
  | _ => .error .TypeError

/-- `bool(x)` (lines 757-758; objects without `__bool__` and `__len__` are true). -/
def pyBool : PyObj → Bool
  | .mix l => !l.isEmpty
  | _ => true

end Verif.Mixture
