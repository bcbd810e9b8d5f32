import Verif.Model.Basic
import Mathlib.Algebra.BigOperators.Group.List.Basic
import Mathlib.Algebra.Module.Pi
import Mathlib.Algebra.Field.Defs
import Mathlib.Data.Fintype.Basic

/-!
# Model of `polykin/math/fixpoint/wegstein.py` and `polykin/math/fixpoint/anderson.py`

Vectors are functions `Fin n → α` over an ordered field. Solvers return the result record and the list of the points at
which the user function was called.
-/

namespace Verif.FixPoint

variable {α : Type*} [Field α] [LinearOrder α] {n : ℕ}

/-- Exit messages of the fixed-point solvers. -/
inductive FMsg where
  | tolx    -- "||sclx*(g(x) - x)||∞ ≤ tolx" (or 1e-2*tolx at x0)
  | maxiter -- "Maximum number of iterations ..."
  | qr      -- "Error in QR factorization/update."
  | lstsq   -- "Error in least-squares solution."
  deriving DecidableEq, Repr

/-- `VectorRootResult` (`/repo/src/polykin/math/roots/results.py` lines 58-93); `method`, `njeval`, `jac` (constant
`None` here) are dropped. -/
structure FResult (α : Type*) (n : ℕ) where
  success : Bool
  message : FMsg
  nfeval : ℕ
  niter : ℕ
  x : Fin n → α
  f : Fin n → α

/-- The test `np.linalg.norm(scl * v, np.inf) <= tol`: the maximum of `|scl_i v_i|` is at most `tol`. (For `n = 0` numpy
raises; `n ≥ 1` is the documented use.) -/
def scaledNormLe (scl v : Fin n → α) (tol : α) : Prop := ∀ i, |scl i * v i| ≤ tol

instance (scl v : Fin n → α) (tol : α) : Decidable (scaledNormLe scl v tol) :=
  inferInstanceAs (Decidable (∀ i, |scl i * v i| ≤ tol))

/-- `np.clip(q, lo, hi) = minimum(maximum(q, lo), hi)`. -/
def clip (q lo hi : α) : α := min (max q lo) hi

/-- Acceleration factor of one component (`/repo/src/polykin/math/fixpoint/wegstein.py` lines 135-141). If `s = 1` numpy
evaluates `1/0 = +inf`, which `np.clip` maps to `qmax`. -/
def wegsteinQ (qmin qmax Δx Δg : α) : α :=
  let s := if |Δx| > eps then Δg / Δx else 0
  if s - 1 = 0 then qmax else clip (s / (s - 1)) qmin qmax

/-- Next iterate (lines 131-143). -/
def wegsteinNext (qmin qmax : α) (wait k : ℕ) (x xm gx gxm : Fin n → α) : Fin n → α :=
  if k < wait then gx
  else fun i =>
    let q := wegsteinQ qmin qmax (x i - xm i) (gx i - gxm i)
    q * x i + (1 - q) * gx i

/-- The `for` loop of `fixpoint_wegstein` (`/repo/src/polykin/math/fixpoint/wegstein.py` lines 118-148).
`st? = some (xm, gxm, fx)` holds the previous point, its image and the last residual; `none` before the first
iteration (NaN arrays, `fx` unbound). -/
def wegsteinLoop (g : (Fin n → α) → (Fin n → α)) (sclx : Fin n → α) (tolx qmin qmax : α) (wait maxiter : ℕ) :
    ℕ → ℕ → (Fin n → α) → Option ((Fin n → α) × (Fin n → α) × (Fin n → α)) → ℕ → List (Fin n → α) →
      Except Err (FResult α n × List (Fin n → α))
  | 0, k, x, st?, nfeval, calls =>
    match st? with
    | none => .error .NameError -- `k`, `fx` unbound (line 148), only when maxiter ≤ 0
    | some (_, _, fx) => .ok (⟨false, .maxiter, nfeval, k, x, fx⟩, calls)
  | m + 1, k, x, st?, nfeval, calls =>
    let gx := g x
    let nfeval := nfeval + 1
    let calls := calls ++ [x]
    let fx := fun i => gx i - x i
    if scaledNormLe sclx fx tolx then .ok (⟨true, .tolx, nfeval, k + 1, x, fx⟩, calls)
    else
      let x' :=
        if k + 1 < maxiter then
          match st? with
          | none => gx -- k = 0 < wait
          | some (xm, gxm, _) => wegsteinNext qmin qmax wait k x xm gx gxm
        else x
      wegsteinLoop g sclx tolx qmin qmax wait maxiter m (k + 1) x' (some (x, gx, fx)) nfeval calls

/-- `fixpoint_wegstein` (`/repo/src/polykin/math/fixpoint/wegstein.py` lines 104-148), with `sclx` given (its default
`scalex(x0)` is just one possible value). `wait = max(wait, 1)` is line 116. -/
def fixpointWegstein (g : (Fin n → α) → (Fin n → α)) (x0 sclx : Fin n → α) (tolx qmin qmax : α)
    (wait maxiter : ℕ) : Except Err (FResult α n × List (Fin n → α)) :=
  wegsteinLoop g sclx tolx qmin qmax (max wait 1) maxiter maxiter 0 x0 none 0 []

/-- Outcome of the linear-algebra part of an Anderson iteration (lines 141-158): failure of the QR update, failure of
`lstsq`, or the coefficient vector `gamma` (one coefficient per stored difference, oldest first). -/
inductive LS (α : Type*) where
  | qrError
  | lsError
  | gamma (c : List α)

/-- Linear combination `np.dot(gamma, ΔG[-mk:, :])` (line 161). -/
def combine (c : List α) (D : List (Fin n → α)) : Fin n → α :=
  fun i => (List.zipWith (fun a (v : Fin n → α) => a * v i) c D).sum

/-- The `for` loop of `fixpoint_anderson` (`/repo/src/polykin/math/fixpoint/anderson.py` lines 119-166). `ΔG`, `ΔF` are
the stored differences (lists of `m` vectors, oldest first). `ls k ΔF fx` is the result of the factorisation and
least-squares step, on the last `mk` differences; it is arbitrary. -/
def andersonLoop (g : (Fin n → α) → (Fin n → α)) (ls : ℕ → List (Fin n → α) → (Fin n → α) → LS α)
    (sclx : Fin n → α) (tolx : α) (m maxiter : ℕ) :
    ℕ → ℕ → (Fin n → α) → (Fin n → α) → (Fin n → α) → List (Fin n → α) → List (Fin n → α) → ℕ →
      List (Fin n → α) → Except Err (FResult α n × List (Fin n → α))
  | 0, k, x, _, fx, _, _, nfeval, calls =>
    if k ≤ 1 then .error .NameError -- `k` unbound (line 166), only when maxiter ≤ 1
    else .ok (⟨false, .maxiter, nfeval, k, x, fx⟩, calls)
  | fuel + 1, k, x, gx, fx, ΔG, ΔF, nfeval, calls =>
    let mk := min m k
    let gx' := g x
    let nfeval := nfeval + 1
    let calls := calls ++ [x]
    let fx' := fun i => gx' i - x i
    let ΔG := ΔG.tail ++ [fun i => -gx i + gx' i]
    let ΔF := ΔF.tail ++ [fun i => -fx i + fx' i]
    if scaledNormLe sclx fx' tolx then .ok (⟨true, .tolx, nfeval, k + 1, x, fx'⟩, calls)
    else
      match ls k (ΔF.drop (m - mk)) fx' with
      | .qrError => .ok (⟨false, .qr, nfeval, k + 1, x, fx'⟩, calls)
      | .lsError => .ok (⟨false, .lstsq, nfeval, k + 1, x, fx'⟩, calls)
      | .gamma c =>
        let x' := if k + 1 < maxiter then fun i => gx' i - combine c (ΔG.drop (m - mk)) i else x
        andersonLoop g ls sclx tolx m maxiter fuel (k + 1) x' gx' fx' ΔG ΔF nfeval calls

/-- `fixpoint_anderson` (`/repo/src/polykin/math/fixpoint/anderson.py` lines 94-166). -/
def fixpointAnderson (g : (Fin n → α) → (Fin n → α)) (ls : ℕ → List (Fin n → α) → (Fin n → α) → LS α)
    (x0 sclx : Fin n → α) (tolx : α) (m maxiter : ℕ) : Except Err (FResult α n × List (Fin n → α)) :=
  let m := max m 1
  let g0 := g x0
  let f0 := fun i => g0 i - x0 i
  if scaledNormLe sclx f0 (1 / 100 * tolx) then .ok (⟨true, .tolx, 1, 0, x0, f0⟩, [x0])
  else andersonLoop g ls sclx tolx m maxiter (maxiter - 1) 1 g0 g0 f0 (List.replicate m 0) (List.replicate m 0) 1 [x0]

end Verif.FixPoint
