import Verif.Model.Dist
import Mathlib.MeasureTheory.Integral.IntervalIntegral.Basic
import Mathlib.Analysis.SpecialFunctions.Pow.Real

/-!
# Model of `DataDistribution` (`polykin/distributions/datadistribution.py`)

The interpolating spline (`scipy.interpolate.UnivariateSpline` with `k=3, s=0`) is an oracle: a function from the data points to a function on the line. Integrals
(`UnivariateSpline.integral` and `scipy.integrate.quad`) are taken as exact. Sums over arrays are handled element by element.
-/

namespace Verif.DataDist

open Verif.Dist

/-- Element type of the array made by `np.array(size_data)`: `int64` if all sizes are Python integers, else `float64`. -/
inductive DType where
  | int
  | float
  deriving DecidableEq, Repr

/-- The interpolation routine: from the points `(x, y)` to a function. -/
abbrev Interp := List (ℝ × ℝ) → ℝ → ℝ

/-- A `DataDistribution` object: retained points `(_length_data, _pdf_data)`, `_pdf_order`, `M0`, and the spline. -/
structure Obj where
  points : List (ℝ × ℝ)
  order : ℕ
  M0 : ℝ
  spl : ℝ → ℝ

/-- `np.logical_and(pdf_data > 0.0, size_data >= 1.0)` for one point (`/repo/src/polykin/distributions/datadistribution.py` line 67). -/
def valid (q : ℝ × ℝ) : Prop := 0 < q.2 ∧ 1 ≤ q.1

noncomputable instance (q : ℝ × ℝ) : Decidable (valid q) := Classical.propDecidable _

/-- `size_data /= self.M0` (lines 65-66), element by element; dividing an integer array in place by a float raises a `TypeError` (`UFuncTypeError`). -/
noncomputable def toLength (dt : DType) (sizeasmass : Bool) (M0 : ℝ) (xs : List ℝ) : Except Err (List ℝ) :=
  if sizeasmass then
    match dt with
    | .int => .error .TypeError
    | .float => .ok (xs.map (· / M0))
  else .ok xs

/-- Requirements of the spline with `k=3, s=0`: at least four points, strictly increasing sizes. -/
def splineOk (pts : List (ℝ × ℝ)) : Prop := 4 ≤ pts.length ∧ (pts.map Prod.fst).Pairwise (· < ·)

noncomputable instance (pts : List (ℝ × ℝ)) : Decidable (splineOk pts) := Classical.propDecidable _

/-- `DataDistribution.__init__` (lines 60-84), for a positive `M0` and a valid `kind` (whose order is given). The second component tells whether the warning of
line 69 is printed. Arrays of different lengths are a `ValueError` (broadcasting of one-element arrays is left out, it leaves too few points anyway); so is data the spline
routine refuses. -/
noncomputable def construct (I : Interp) (dt : DType) (xs ys : List ℝ) (order : ℕ) (sizeasmass : Bool) (M0 : ℝ) : Except Err (Obj × Bool) :=
  match toLength dt sizeasmass M0 xs with
  | .error e => .error e
  | .ok xs =>
    if xs.length ≠ ys.length then .error .ValueError
    else
      let pts := (xs.zip ys).filter (fun q => decide (valid q))
      let warn := !(xs.zip ys).all (fun q => decide (valid q))
      if splineOk pts then .ok (⟨pts, order, M0, I pts⟩, warn) else .error .ValueError

/-- `self._length_data[0]`. -/
def first (D : Obj) : ℝ := ((D.points.head?).map Prod.fst).getD 0

/-- `self._length_data[-1]`. -/
def last (D : Obj) : ℝ := ((D.points.getLast?).map Prod.fst).getD 0

/-- `self._pdf_spline(x)`: zero outside the data (`ext=1`, line 83). -/
noncomputable def S (D : Obj) (x : ℝ) : ℝ := if first D ≤ x ∧ x ≤ last D then D.spl x else 0

/-- `_moment_quadrature` (lines 86-98); `xb = none` is infinity. The branch `order == self._pdf_order` (line 89) integrates the spline itself. -/
noncomputable def momentQuadrature (D : Obj) (xa : ℝ) (xb : Option ℝ) (order : ℕ) : ℝ :=
  let a := max xa (first D)
  let b := match xb with
    | some xb => min xb (last D)
    | none => last D
  if order = D.order then ∫ x in a..b, S D x
  else ∫ x in a..b, x ^ ((order : ℤ) - D.order) * S D x

/-- `_pdf0_length` (lines 100-101). -/
noncomputable def pdf0 (D : Obj) (x : ℝ) : ℝ := x ^ (-(D.order : ℤ)) * S D x

/-- `_moment_length` (`base.py` lines 529-551). -/
noncomputable def momentLength (D : Obj) (order : ℕ) : ℝ := momentQuadrature D 0 none order

/-- `_cdf_length` (`base.py` lines 502-527). -/
noncomputable def cdfLength (D : Obj) (x : ℝ) (order : ℕ) : ℝ := momentQuadrature D 0 (some x) order / momentLength D order

/-- `pdf(size, kind, sizeasmass)` (`base.py` lines 98-131, 425-434). -/
noncomputable def pdf (D : Obj) (size : ℝ) (order : ℕ) (sizeasmass : Bool) : ℝ := Dist.pdf (pdf0 D) (momentLength D) D.M0 size order sizeasmass

/-- `cdf(size, kind, sizeasmass)` (`base.py` lines 133-184, 436-439). -/
noncomputable def cdf (D : Obj) (size : ℝ) (order : ℕ) (sizeasmass : Bool) : ℝ := cdfLength D (if sizeasmass then size / D.M0 else size) order

/-- `_moment_mass` (`base.py` lines 422-423), from which the averages `DPn`, `DPw`, … are computed. -/
noncomputable def momentMass (D : Obj) (order shift : ℕ) : ℝ := Dist.momentMass (momentLength D) D.M0 order shift

/-- `_xrange_plot` (`base.py` lines 441-445, `datadistribution.py` lines 103-105). -/
noncomputable def xrangePlot (D : Obj) (sizeasmass : Bool) : ℝ × ℝ :=
  if sizeasmass then (first D * D.M0, last D * D.M0) else (first D, last D)

/-! ### Fitting -/

/-- A vector of trial parameters of `fit`: weights, decimal logarithms of DPn, PDI (ignored by one-parameter classes). -/
structure Trial (n : ℕ) where
  w : Fin n → ℝ
  l : Fin n → ℝ
  p : Fin n → ℝ

/-- A component of the fitted mixture: its weight and the parameters of the distribution object (`PDI = none` for one-parameter classes). -/
structure Part where
  w : ℝ
  DPn : ℝ
  PDI : Option ℝ

/-- Initial components (lines 140-154). -/
noncomputable def initial (D : Obj) (isP2 : Bool) (n : ℕ) : Fin n → Part := fun i =>
  ⟨1 / n, first D * (last D / first D) ^ (((i : ℝ) + 1) / (n + 1)), if isP2 then some 2 else none⟩

/-- The setters of `DPn` and `PDI` accept the value (`base.py` lines 576, 591-595, 657, 669-673). -/
def accepted (isP2 : Bool) (q : Part) : Prop := 1 ≤ q.DPn ∧ (isP2 = true → ∀ p ∈ q.PDI, 1000001 / 1000000 ≤ p)

/-- Component `i` for a trial (lines 163-166). -/
noncomputable def decode {n : ℕ} (isP2 : Bool) (x : Trial n) : Fin n → Part := fun i =>
  ⟨x.w i, 10 ^ x.l i, if isP2 then some (x.p i) else none⟩

noncomputable instance (isP2 : Bool) {n : ℕ} (q : Fin n → Part) : Decidable (∀ i, accepted isP2 (q i)) := Classical.propDecidable _

/-- The evaluations of the objective function (lines 161-168) at the points chosen by the optimiser, each of which overwrites the components; a value that is
out of the range of a setter raises a `RangeError`, which leaves `fit`. -/
noncomputable def evaluate {n : ℕ} (isP2 : Bool) : (Fin n → Part) → List (Trial n) → Except Err (Fin n → Part)
  | comps, [] => .ok comps
  | _, x :: xs => if ∀ i, accepted isP2 (decode isP2 x i) then evaluate isP2 (decode isP2 x) xs else .error .RangeError

/-- What `fit` returns: nothing, a single distribution, or a mixture. -/
inductive Fitted (n : ℕ) where
  | nothing
  | single (DPn : ℝ) (PDI : Option ℝ)
  | mixture (parts : Fin n → Part)

/-- `fit` (lines 107-224) for an analytical class (`isP2`: with a PDI). The optimiser is an oracle: the points `trials` at which it evaluates the objective, in this
order, and whether it reports success. The optimum `solution.x` it reports is not used by the code. -/
noncomputable def fit (D : Obj) (isP2 : Bool) (n : ℕ) (trials : List (Trial n)) (success : Bool) : Except Err (Fitted n) :=
  if n < 1 ∨ 10 < n then .error .RangeError
  else
    match evaluate isP2 (initial D isP2 n) trials with
    | .error e => .error e
    | .ok comps =>
      if success then
        if h : n = 1 then .ok (.single (comps ⟨0, by omega⟩).DPn (comps ⟨0, by omega⟩).PDI)
        else .ok (.mixture comps)
      else .ok .nothing

end Verif.DataDist
