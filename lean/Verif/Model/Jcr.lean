import Verif.Model.RootsScalar
import Mathlib.Analysis.SpecialFunctions.Trigonometric.Arctan
import Mathlib.Analysis.SpecialFunctions.Log.Basic

/-!
# Model of the joint confidence regions

`/repo/src/polykin/math/misc/jcr.py`. The quantiles of the F and t distributions (`Fdist.ppf`, `tdist.ppf`) and the eigen-decomposition (`np.linalg.eigh`) are parameters.
The length of `center` and the shape of `cov` are fixed by the types, so their `ShapeError`s are not modelled. Colours, labels and the drawing itself are left out: the model returns what is handed to matplotlib.
-/

namespace Verif.Jcr

open Real

/-- A 2x2 matrix. -/
structure M2 where
  a00 : ℝ
  a01 : ℝ
  a10 : ℝ
  a11 : ℝ

/-- `eigen.eigenvalues`, `eigen.eigenvectors`. -/
structure Eigen where
  l0 : ℝ
  l1 : ℝ
  V : M2

/-- The arguments of `Ellipse` (lines 133-141) and of `ax.errorbar` (line 149). -/
structure Drawn where
  center : ℝ × ℝ
  width : ℝ
  height : ℝ
  angle : ℝ
  errors : Option (ℝ × ℝ)

noncomputable section

/-- `check_bounds` for a number. -/
def check (x lo hi : ℝ) : Except Err Unit := if lo ≤ x ∧ x ≤ hi then .ok () else .error .RangeError

/-- `np.degrees(arctan(y / x))` (line 124); a zero `x` gives `±inf` and hence ±90 degrees (with a unit vector, `y ≠ 0`). -/
def angleOf (x y : ℝ) : ℝ := (if x = 0 then (if 0 < y then π / 2 else -(π / 2)) else arctan (y / x)) * (180 / π)

/-- `confidence_ellipse` (lines 106-151). `Fppf p dfn dfd`, `tppf p df` are the quantile functions, `eigh` the decomposition. A negative eigenvalue (cov is not a covariance matrix) gives NaN in the code and 0 here. -/
def confidenceEllipse (eigh : M2 → Eigen) (Fppf : ℝ → ℕ → ℕ → ℝ) (tppf : ℝ → ℕ → ℝ) (center : ℝ × ℝ) (cov : M2) (ndata : ℕ) (alpha : ℝ) (confint : Bool) : Except Err Drawn := do
  check alpha 0.001 0.90
  if ndata < 3 then .error .RangeError
  else
    let e := eigh cov
    let angle := angleOf e.V.a00 e.V.a01
    let scale := 2 * Fppf (1 - alpha) 2 (ndata - 2)
    let width := 2 * √(scale * e.l0)
    let height := 2 * √(scale * e.l1)
    let t := tppf (1 - alpha / 2) (ndata - 2)
    let ci := if confint then some (√cov.a00 * t, √cov.a11 * t) else none
    return ⟨center, width, height, angle, ci⟩

/-- `find_radius` and the use of its result (lines 269-279, 287-293): the radius, or `none` (NaN) when the solver fails. The logarithm of a nonpositive guess is NaN or `-inf`: the solver then runs on NaN or stops at zero slope, and fails. -/
def findRadius (g : ℝ → ℝ) (rtol r0 : ℝ) : Option ℝ :=
  if r0 ≤ 0 then none
  else
    match rootSecant g (log (r0 * 1.02)) (log r0) |log (1 + rtol)| 1e-4 100 with
    | .ok (s, _) => if s.success then s.x.map exp else none
    | .error _ => none

/-- The loop of lines 286-293. -/
def radii (g : ℝ → ℝ → ℝ) (rtol guess0 : ℝ) : ℝ → List ℝ → List (Option ℝ)
  | _, [] => []
  | guess, θ :: rest =>
    match findRadius (fun x => g x θ) rtol guess with
    | some r => some r :: radii g rtol guess0 r rest
    | none => none :: radii g rtol guess0 guess0 rest

/-- `np.linspace(0, 2π, n)` (line 282). -/
def angles (n : ℕ) : List ℝ := if n = 1 then [0] else (List.range n).map fun i : ℕ => 2 * π * (i : ℝ) / ((n : ℝ) - 1)

/-- `confidence_region` (lines 239-299); a point with a NaN coordinate is `none`. -/
def confidenceRegion (Fppf : ℝ → ℕ → ℕ → ℝ) (center : ℝ × ℝ) (sse : ℝ × ℝ → ℝ) (ndata : ℕ) (alpha width : ℝ) (npoints : ℕ) (rtol : ℝ) : Except Err (List (Option (ℝ × ℝ))) := do
  check alpha 0.001 0.99
  if ndata < 3 then .error .RangeError
  else if npoints < 1 ∨ 500 < npoints then .error .RangeError
  else
    check rtol 1e-4 1e-1
    let sseCenter := sse center
    if |sseCenter| < eps then .error .ValueError
    else
      let point := fun r θ => (center.1 + r * cos θ, center.2 + r * sin θ)
      let nsse := fun lnr θ => sse (point (exp lnr) θ) / sseCenter
      let boundary := 1 + 2 / ((ndata : ℝ) - 2) * Fppf (1 - alpha) 2 (ndata - 2)
      let guess := if 0 < width then |width / 2| else 0.25 * center.1
      let r := radii (fun x θ => nsse x θ / boundary - 1) rtol guess guess (angles npoints)
      return List.zipWith (fun r θ => r.map fun r => point r θ) r (angles npoints)

end

end Verif.Jcr
