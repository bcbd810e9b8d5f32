import Verif.Model.Basic
import Mathlib.Analysis.SpecialFunctions.Sqrt
import Mathlib.Algebra.BigOperators.Fin

/-!
# Model of `polykin/math/misc/filters.py` (Ramer–Douglas–Peucker)

The `(nvert, ndims)` matrix `points` is a function from row index to coordinate vector, with `nvert` given separately.
Distances are `Option ℝ`; `none` is NaN.
-/

namespace Verif.Polyline

noncomputable section

/-- `np.linalg.norm` of a vector. -/
def norm2 {d : ℕ} (v : Fin d → ℝ) : ℝ := Real.sqrt (∑ i, v i ^ 2)

/-- `_perpendicular_distance` (`/repo/src/polykin/math/misc/filters.py` lines 171-176). The division by a zero norm
(coincident end points) yields NaN components and a NaN norm. -/
def perpDist {d : ℕ} (point lineStart lineEnd : Fin d → ℝ) : Option ℝ :=
  let dv := fun i => lineEnd i - lineStart i
  let n := norm2 dv
  if n = 0 then none
  else
    let u := fun i => dv i / n
    let pv := fun i => point i - lineStart i
    let pvdot := ∑ i, u i * pv i
    let ds := fun i => pvdot * u i
    some (norm2 (fun i => pv i - ds i))

/-- Body of the loop of `_farthest_point` (lines 141-144). A comparison `d > dmax` with NaN is false. -/
def farStep {d : ℕ} (points : ℕ → Fin d → ℝ) (istart iend : ℕ) (acc : ℕ × ℝ) (i : ℕ) : ℕ × ℝ :=
  match perpDist (points i) (points istart) (points iend) with
  | none => acc
  | some δ => if δ > acc.2 then (i, δ) else acc

/-- `_farthest_point` (lines 138-146): index and distance, starting from `imax = 0`, `dmax = 0`. -/
def farthest {d : ℕ} (points : ℕ → Fin d → ℝ) (istart iend : ℕ) : ℕ × ℝ :=
  (List.range' (istart + 1) (iend - (istart + 1))).foldl (farStep points istart iend) (0, 0)

/-- `_ramer_douglas_peucker` (lines 102-113). The first argument bounds the recursion depth; `none` means that the
recursion did not finish within it. -/
def rdp {d : ℕ} (points : ℕ → Fin d → ℝ) (tol : ℝ) : ℕ → ℕ → ℕ → Option (List ℕ)
  | 0, _, _ => none
  | fuel + 1, istart, iend =>
    let p := farthest points istart iend
    if p.2 > tol then
      match rdp points tol fuel istart p.1, rdp points tol fuel p.1 iend with
      | some line1, some line2 => some (line1 ++ line2.tail)
      | _, _ => none
    else some [istart, iend]

/-- `simplify_polyline` (lines 63-74), returning the list of kept row indices (`points[idx, :]` selects these rows;
for `nvert = 2` the code returns `points` itself, i.e. rows 0 and 1). `.ok none`: recursion depth exceeded. -/
def simplifyPolyline {d : ℕ} (nvert : ℕ) (points : ℕ → Fin d → ℝ) (tol : ℝ) (fuel : ℕ) :
    Except Err (Option (List ℕ)) :=
  if d < 2 then .error .ValueError
  else if nvert < 2 then .error .ValueError
  else if nvert = 2 then .ok (some [0, 1])
  else .ok (rdp points tol fuel 0 (nvert - 1))

end

end Verif.Polyline
