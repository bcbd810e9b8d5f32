import Verif.Model.Dist
import Verif.Model.Utils
import Mathlib.Algebra.BigOperators.Group.List.Basic

/-!
# Model of `MixtureDistribution` (`polykin/distributions/base.py`): averages, pdf, cdf, and the dict sharing of `+`
-/

namespace Verif.Mixture

open Verif.Dist Verif.Utils

/-- What a mixture needs to know about one of its components: mass moments (`_moment_mass(order, shift)`), `_pdf` and `_cdf` as
functions of size, order and `sizeasmass`. `_cdf` is taken as total (orders 0 and 1 of the analytical distributions). -/
structure Comp where
  mm : ℕ → ℕ → ℝ
  pdf : ℝ → ℕ → Bool → ℝ
  cdf : ℝ → ℕ → Bool → ℝ

/-- `w / d.Mn` (`/repo/src/polykin/distributions/base.py` line 813). -/
noncomputable def rawMole (cw : Comp × ℝ) : ℝ := cw.2 / avgMn cw.1.mm

/-- `_molefrac` (lines 809-815), paired with the components; the dict of components is the list of its items. -/
noncomputable def molefrac (l : List (Comp × ℝ)) : List (Comp × ℝ) :=
  l.map fun cw => (cw.1, rawMole cw / (l.map rawMole).sum)

/-- `_moment_mass` (lines 817-822). -/
noncomputable def moment (l : List (Comp × ℝ)) (order shift : ℕ) : ℝ :=
  ((molefrac l).map fun cx => cx.2 * cx.1.mm order shift).sum

/-- `_pdf` (lines 824-833). -/
noncomputable def mixPdf (l : List (Comp × ℝ)) (size : ℝ) (order : ℕ) (sizeasmass : Bool) : ℝ :=
  let denominator := ((molefrac l).map fun cx => cx.2 * cx.1.mm order 0).sum
  let numerator := ((molefrac l).map fun cx => cx.2 * cx.1.mm order 0 * cx.1.pdf size order sizeasmass).sum
  numerator / denominator

/-- `_cdf` (lines 835-844). -/
noncomputable def mixCdf (l : List (Comp × ℝ)) (size : ℝ) (order : ℕ) (sizeasmass : Bool) : ℝ :=
  let denominator := ((molefrac l).map fun cx => cx.2 * cx.1.mm order 0).sum
  let numerator := ((molefrac l).map fun cx => cx.2 * cx.1.mm order 0 * cx.1.cdf size order sizeasmass).sum
  numerator / denominator

/-! ### Objects and their dicts -/

/-- The dicts of components in the order in which they were created; distributions are identified by numbers (their `id`). -/
abbrev Heap := List (Dict ℕ ℚ)

/-- Python values of an expression with distributions: a number, an individual distribution, a mixture (a reference to its dict). -/
inductive Val where
  | num (x : ℚ)
  | dist (d : ℕ)
  | mix (ref : ℕ)
  deriving DecidableEq, Repr

/-- New dict. -/
def alloc (h : Heap) (d : Dict ℕ ℚ) : Heap × Val := (h ++ [d], .mix h.length)

/-- `IndividualDistribution.__mul__/__rmul__` (lines 391-401). -/
def mul (h : Heap) (w : ℚ) (d : ℕ) : Heap × Val := if w > 0 then alloc h [(d, w)] else alloc h []

/-- Contents of a dict. -/
def deref (h : Heap) (r : ℕ) : Dict ℕ ℚ := h.getD r []

/-- `MixtureDistribution(add_dicts(self.components, d2, new=False))` (lines 728-731, 733-736): the dict of `self` is updated in
place and shared with the new mixture. -/
def addInto (h : Heap) (r : ℕ) (d2 : Dict ℕ ℚ) : Heap × Val :=
  (h.set r (addDicts (deref h r) d2 false).2, .mix r)

/-- The expression `x + y` (`Individual.__add__` lines 403-410, `Mixture.__add__`/`__radd__` lines 726-743); `none`: `TypeError`. -/
def add (h : Heap) (x y : Val) : Option (Heap × Val) :=
  match x, y with
  | .mix r, .mix s => some (addInto h r (deref h s))
  | .mix r, .dist d => some (addInto h r [(d, 1)])
  | .mix r, .num _ => some (h, .mix r)
  | .dist d, .mix r => some (addInto h r [(d, 1)])
  | .num _, .mix r => some (h, .mix r)
  | .dist d, .dist e => some (alloc h (addDicts [(d, 1)] [(e, 1)] false).1)
  | .num x, .num y => some (h, .num (x + y))
  | _, _ => none

/-- The expression `acc + w₂*D₂ + w₃*D₃ + …`, evaluated from left to right. -/
def sumFrom (h : Heap) (acc : Val) : List (ℚ × ℕ) → Option (Heap × Val)
  | [] => some (h, acc)
  | (w, d) :: l =>
    let (h, y) := mul h w d
    match add h acc y with
    | none => none
    | some (h, acc) => sumFrom h acc l

/-- The expression `w₁*D₁ + w₂*D₂ + …` (at least one term). -/
def sumExpr (h : Heap) (w : ℚ) (d : ℕ) (l : List (ℚ × ℕ)) : Option (Heap × Val) :=
  sumFrom (mul h w d).1 (mul h w d).2 l

end Verif.Mixture
