import Verif.Model.Basic

/-!
# Model of `polykin/math/roots/scalar.py`

Each solver returns its `RootResult` together with the list of the arguments on which the user function was called,
in call order. The trace is not part of the Python result; it is recorded in the model at every place where the code
calls `f`, independently of the counter `nfeval` kept by the code.
-/

namespace Verif

variable {α : Type*} [Field α] [LinearOrder α]

/-- `derivative_complex` (`/repo/src/polykin/math/derivatives/ndiff.py` lines 71-72). A complex number is a pair
(real part, imaginary part); the function receives `complex(x, eps)`. Returns (derivative, value). -/
def derivativeComplex (f : α × α → α × α) (x : α) : α × α :=
  let fz := f (x, eps)
  (fz.2 / eps, fz.1)

/-- The `for` loop of `root_newton` (`/repo/src/polykin/math/roots/scalar.py` lines 89-119).
Arguments: remaining iterations, `k`, `x`, `fx` (`none` = not yet assigned), `nfeval`, trace. -/
def newtonLoop (f : α × α → α × α) (tolx tolf : α) (maxiter : ℕ) :
    ℕ → ℕ → α → Option α → ℕ → List (α × α) → Except Err (RootResult α × List (α × α))
  | 0, k, x, fx?, nfeval, calls =>
    match fx? with
    | none => .error .NameError -- `k` and `fx` unbound (line 119), only when maxiter ≤ 0
    | some fx => .ok (⟨false, .maxiter, nfeval, k, x, fx⟩, calls)
  | n + 1, k, x, _, nfeval, calls =>
    let d := derivativeComplex f x
    let dfdx := d.1
    let fx := d.2
    let nfeval := nfeval + 1
    let calls := calls ++ [(x, eps)]
    if |fx| ≤ tolf then .ok (⟨true, .tolf, nfeval, k + 1, x, fx⟩, calls)
    else if |dfdx| ≤ eps then .ok (⟨false, .zeroSlope, nfeval, k + 1, x, fx⟩, calls)
    else
      let Δx := -fx / dfdx
      if |Δx| ≤ tolx then .ok (⟨true, .tolx, nfeval, k + 1, x, fx⟩, calls)
      else
        let x' := if k + 1 < maxiter then x + Δx else x
        newtonLoop f tolx tolf maxiter n (k + 1) x' (some fx) nfeval calls

/-- `root_newton` (`/repo/src/polykin/math/roots/scalar.py` lines 82-119). `maxiter` is a natural number: a negative
Python value gives an empty `range` exactly like 0. -/
def rootNewton (f : α × α → α × α) (x0 tolx tolf : α) (maxiter : ℕ) :
    Except Err (RootResult α × List (α × α)) :=
  newtonLoop f tolx tolf maxiter maxiter 0 x0 none 0 []

/-- The `for` loop of `root_secant` (`/repo/src/polykin/math/roots/scalar.py` lines 197-228).
`x2`/`f2` are `none` while they hold NaN (line 195). -/
def secantLoop (f : α → α) (tolx tolf : α) :
    ℕ → ℕ → α → α → α → α → Option α → Option α → ℕ → List α → Except Err (RootResult (Option α) × List α)
  | 0, k, _, _, _, _, x2, f2, nfeval, calls =>
    if k = 0 then .error .NameError -- `k` unbound (line 228), only when maxiter ≤ 0
    else .ok (⟨false, .maxiter, nfeval, k, x2, f2⟩, calls)
  | n + 1, k, x0, f0, x1, f1, x2, f2, nfeval, calls =>
    let Δf := f1 - f0
    if |Δf| ≤ eps * max (max |f0| |f1|) 1 then
      .ok (⟨false, .zeroSlope, nfeval, k + 1, x2, f2⟩, calls)
    else
      let x2 := x1 - f1 * (x1 - x0) / Δf
      let f2 := f x2
      let nfeval := nfeval + 1
      let calls := calls ++ [x2]
      if |x2 - x1| ≤ tolx then .ok (⟨true, .tolx, nfeval, k + 1, some x2, some f2⟩, calls)
      else if |f2| ≤ tolf then .ok (⟨true, .tolf, nfeval, k + 1, some x2, some f2⟩, calls)
      else secantLoop f tolx tolf n (k + 1) x1 f1 x2 f2 (some x2) (some f2) nfeval calls

/-- `root_secant` (`/repo/src/polykin/math/roots/scalar.py` lines 178-228). -/
def rootSecant (f : α → α) (x0 x1 tolx tolf : α) (maxiter : ℕ) :
    Except Err (RootResult (Option α) × List α) :=
  let f0 := f x0
  if |f0| ≤ tolf then .ok (⟨true, .tolf, 1, 0, some x0, some f0⟩, [x0])
  else
    let f1 := f x1
    if |f1| ≤ tolf then .ok (⟨true, .tolf, 2, 0, some x1, some f1⟩, [x0, x1])
    else secantLoop f tolx tolf maxiter 0 x0 f0 x1 f1 none none 2 [x0, x1]

/-- Local variables of the loop of `root_brent` that survive an iteration. -/
structure BrentState (α : Type*) where
  xa : α
  fa : α
  xb : α
  fb : α
  xc : α
  fc : α
  d : α
  e : α

/-- Lines 313-321 of `root_brent`: make `c` the point on the other side of the root and `b` the better one. -/
def brentReorder (s : BrentState α) : BrentState α :=
  let s := if s.fb * s.fc > 0 then
      { s with xc := s.xa, fc := s.fa, d := s.xb - s.xa, e := s.xb - s.xa }
    else s
  if |s.fc| < |s.fb| then
    { s with xa := s.xb, fa := s.fb, xb := s.xc, fb := s.fc, xc := s.xb, fc := s.fb }
  else s

/-- `tol1` of `root_brent` (line 326). -/
def brentTol (tolx xb : α) : α := 2 * eps * |xb| + 1 / 2 * tolx

/-- Interpolation numerator and denominator (lines 340-351), after the sign normalisation. -/
def brentPQ (s : BrentState α) (m : α) : α × α :=
  let t := s.fb / s.fa
  let pq : α × α :=
    if s.xa = s.xc then (2 * m * t, 1 - t)
    else
      let q := s.fa / s.fc
      let r := s.fb / s.fc
      (t * (2 * m * q * (q - r) - (s.xb - s.xa) * (r - 1)), (q - 1) * (r - 1) * (t - 1))
  let q := if pq.1 > 0 then -pq.2 else pq.2
  (|pq.1|, q)

/-- The choice of `(d, e)` in lines 339-363. -/
def brentDE (s : BrentState α) (tol1 m : α) : α × α :=
  if |s.e| ≥ tol1 ∧ |s.fa| > |s.fb| then
    let pq := brentPQ s m
    let min1 := 3 * m * pq.2 - |tol1 * pq.2|
    let min2 := |s.e * pq.2|
    if 2 * pq.1 < min min1 min2 then (pq.1 / pq.2, s.d) else (m, m)
  else (m, m)

/-- `np.copysign(x, y)` for `y ≠ 0`. -/
def copysign (x y : α) : α := if y < 0 then -|x| else |x|

/-- New abscissa of lines 366-369. -/
def brentNext (s : BrentState α) (tol1 m d : α) : α :=
  if |d| > tol1 then s.xb + d else s.xb + copysign tol1 m

/-- The `for` loop of `root_brent` (`/repo/src/polykin/math/roots/scalar.py` lines 311-379). -/
def brentLoop (f : α → α) (tolx tolf : α) :
    ℕ → ℕ → BrentState α → ℕ → List α → Except Err (RootResult α × List α)
  | 0, k, s, nfeval, calls =>
    if k = 0 then .error .NameError -- `k` unbound (line 379), only when maxiter ≤ 0
    else .ok (⟨false, .maxiter, nfeval, k, s.xb, s.fb⟩, calls)
  | n + 1, k, s, nfeval, calls =>
    let s := brentReorder s
    let tol1 := brentTol tolx s.xb
    let m := 1 / 2 * (s.xc - s.xb)
    if |m| ≤ tol1 then .ok (⟨true, .tolx, nfeval, k + 1, s.xb, s.fb⟩, calls)
    else if |s.fb| ≤ tolf then .ok (⟨true, .tolf, nfeval, k + 1, s.xb, s.fb⟩, calls)
    else
      let de := brentDE s tol1 m
      let x' := brentNext s tol1 m de.1
      let f' := f x'
      brentLoop f tolx tolf n (k + 1)
        { xa := s.xb, fa := s.fb, xb := x', fb := f', xc := s.xc, fc := s.fc, d := de.1, e := de.2 }
        (nfeval + 1) (calls ++ [x'])

/-- `root_brent` (`/repo/src/polykin/math/roots/scalar.py` lines 292-379). `d`, `e` are unassigned before the loop in
Python; they are read only after the first pass has assigned them (for `tolx ≥ 0` the only way not to assign them is
`fb = 0`, and then `m = 0` makes the loop exit before they are read), so the 0 used here is never observed. -/
def rootBrent (f : α → α) (xa xb tolx tolf : α) (maxiter : ℕ) :
    Except Err (RootResult α × List α) :=
  let fa := f xa
  if |fa| ≤ tolf then .ok (⟨true, .tolf, 1, 0, xa, fa⟩, [xa])
  else
    let fb := f xb
    if |fb| ≤ tolf then .ok (⟨true, .tolf, 2, 0, xb, fb⟩, [xa, xb])
    else if fa * fb > 0 then .error .ValueError
    else brentLoop f tolx tolf maxiter 0 ⟨xa, fa, xb, fb, xb, fb, 0, 0⟩ 2 [xa, xb]

end Verif
