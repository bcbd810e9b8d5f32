import Verif.Model.Basic
import Mathlib.Analysis.SpecialFunctions.Pow.Real
import Mathlib.Analysis.SpecialFunctions.Log.Base
import Mathlib.Data.List.FinRange
import Mathlib.Data.Complex.Basic

/-!
# Model of `polykin/math/derivatives/ndiff.py`

Exact real arithmetic. `np.ndarray`s that are updated in place inside loops are functions `Fin n → ℝ` threaded through a
left fold over the index range; an element assignment is `Function.update`.
-/

namespace Verif.NDiff

open Function

/-- `derivative_complex` (`/repo/src/polykin/math/derivatives/ndiff.py` lines 71-72): `(f'(x), f(x))`. -/
noncomputable def derivativeComplex (f : ℂ → ℂ) (x : ℝ) : ℝ × ℝ :=
  let fz := f ⟨x, eps⟩
  (fz.im / eps, fz.re)

/-- The default step `cbrt(3 * eps)` (lines 116, 362). -/
noncomputable def hDefault : ℝ := (3 * eps) ^ ((1 : ℝ) / 3)

/-- `derivative_centered` (lines 115-125). -/
noncomputable def derivativeCentered (f : ℝ → ℝ) (x h : ℝ) : ℝ × ℝ :=
  let h := if h = 0 then hDefault else h
  let h := h * (1 + |x|)
  let fp := f (x + h)
  let fm := f (x - h)
  let df := (fp - fm) / (2 * h)
  let fx := (fp + fm) / 2
  (df, fx)

/-- `η` (lines 188, 269): relative noise of `f`. -/
noncomputable def noise (ndigit : Option ℕ) : ℝ :=
  match ndigit with
  | none => eps
  | some d => (1 / 10) ^ d

/-- Step of component `i` (lines 195, 279). -/
noncomputable def stepSize {n : ℕ} (h0 : ℝ) (x sclx : Fin n → ℝ) (i : Fin n) : ℝ :=
  h0 * max |x i| |1 / sclx i|

/-- Body of the loop of `jacobian_forward` (lines 195-200). State: the work copy `xh` of `x` and the matrix `J`. -/
noncomputable def jacStep {n m : ℕ} (f : (Fin n → ℝ) → (Fin m → ℝ)) (x : Fin n → ℝ) (fx : Fin m → ℝ)
    (sclx : Fin n → ℝ) (h0 : ℝ) (s : (Fin n → ℝ) × (Fin m → Fin n → ℝ)) (i : Fin n) :
    (Fin n → ℝ) × (Fin m → Fin n → ℝ) :=
  let xh := s.1
  let J := s.2
  let h := h0 * max |x i| |1 / sclx i|
  let xtemp := xh i
  let xh := update xh i (xh i + h)
  let h := xh i - xtemp
  let J := fun r => update (J r) i ((f xh r - fx r) / h)
  let xh := update xh i xtemp
  (xh, J)

/-- `jacobian_forward` (lines 185-202). `J0` is the uninitialised array of `np.empty`. `fx` and `sclx` are given (the
defaults `f(x)` and `scalex(x)` are particular values). -/
noncomputable def jacobianForward {n m : ℕ} (f : (Fin n → ℝ) → (Fin m → ℝ)) (x : Fin n → ℝ) (fx : Fin m → ℝ)
    (sclx : Fin n → ℝ) (ndigit : Option ℕ) (J0 : Fin m → Fin n → ℝ) : Fin m → Fin n → ℝ :=
  let h0 := √(noise ndigit)
  ((List.finRange n).foldl (jacStep f x fx sclx h0) (x, J0)).2

/-- Body of the first loop of `hessian_forward` (lines 279-284). State `(xh, h, fh)`. -/
noncomputable def hess1Step {n : ℕ} (f : (Fin n → ℝ) → ℝ) (x sclx : Fin n → ℝ) (h0 : ℝ)
    (s : (Fin n → ℝ) × (Fin n → ℝ) × (Fin n → ℝ)) (i : Fin n) : (Fin n → ℝ) × (Fin n → ℝ) × (Fin n → ℝ) :=
  let xh := s.1
  let h := s.2.1
  let fh := s.2.2
  let h := update h i (h0 * max |x i| |1 / sclx i|)
  let xtemp1 := xh i
  let xh := update xh i (xh i + h i)
  let h := update h i (xh i - xtemp1)
  let fh := update fh i (f xh)
  let xh := update xh i xtemp1
  (xh, h, fh)

/-- First loop of `hessian_forward` (lines 278-284). -/
noncomputable def hessianLoop1 {n : ℕ} (f : (Fin n → ℝ) → ℝ) (x sclx : Fin n → ℝ) (h0 : ℝ)
    (s0 : (Fin n → ℝ) × (Fin n → ℝ) × (Fin n → ℝ)) : (Fin n → ℝ) × (Fin n → ℝ) × (Fin n → ℝ) :=
  (List.finRange n).foldl (hess1Step f x sclx h0) s0

/-- Body of the inner loop of `hessian_forward` (lines 292-296). State `(xh, H)`. -/
noncomputable def innerStep {n : ℕ} (f : (Fin n → ℝ) → ℝ) (fx : ℝ) (h fh : Fin n → ℝ) (i : Fin n)
    (s : (Fin n → ℝ) × (Fin n → Fin n → ℝ)) (j : Fin n) : (Fin n → ℝ) × (Fin n → Fin n → ℝ) :=
  let xh := s.1
  let H := s.2
  let xtemp2 := xh j
  let xh := update xh j (xh j + h j)
  let v := ((fx - fh i) + (f xh - fh j)) / (h i * h j)
  let H := update H i (update (H i) j v)
  let H := update H j (update (H j) i (H i j))
  let xh := update xh j xtemp2
  (xh, H)

/-- Inner loop of `hessian_forward` over `j ∈ range(i+1, N)` (lines 291-296). -/
noncomputable def hessianInner {n : ℕ} (f : (Fin n → ℝ) → ℝ) (fx : ℝ) (h fh : Fin n → ℝ) (i : Fin n)
    (s0 : (Fin n → ℝ) × (Fin n → Fin n → ℝ)) : (Fin n → ℝ) × (Fin n → Fin n → ℝ) :=
  ((List.finRange n).filter (fun j => i < j)).foldl (innerStep f fx h fh i) s0

/-- Body of the second loop of `hessian_forward` (lines 287-297). -/
noncomputable def hess2Step {n : ℕ} (f : (Fin n → ℝ) → ℝ) (fx : ℝ) (h fh : Fin n → ℝ)
    (s : (Fin n → ℝ) × (Fin n → Fin n → ℝ)) (i : Fin n) : (Fin n → ℝ) × (Fin n → Fin n → ℝ) :=
  let xh := s.1
  let H := s.2
  let xtemp1 := xh i
  let xh := update xh i (xh i + 2 * h i)
  let H := update H i (update (H i) i (((fx - fh i) + (f xh - fh i)) / (h i) ^ 2))
  let xh := update xh i (xtemp1 + h i)
  let s := hessianInner f fx h fh i (xh, H)
  (update s.1 i xtemp1, s.2)

/-- Second loop of `hessian_forward` (lines 286-297). -/
noncomputable def hessianLoop2 {n : ℕ} (f : (Fin n → ℝ) → ℝ) (fx : ℝ) (h fh : Fin n → ℝ)
    (s0 : (Fin n → ℝ) × (Fin n → Fin n → ℝ)) : (Fin n → ℝ) × (Fin n → Fin n → ℝ) :=
  (List.finRange n).foldl (hess2Step f fx h fh) s0

/-- `hessian_forward` (lines 266-299). `H0`, `h00`, `fh0` are the uninitialised arrays of `np.empty`. -/
noncomputable def hessianForward {n : ℕ} (f : (Fin n → ℝ) → ℝ) (x : Fin n → ℝ) (fx : ℝ) (sclx : Fin n → ℝ)
    (ndigit : Option ℕ) (H0 : Fin n → Fin n → ℝ) (h00 fh0 : Fin n → ℝ) : Fin n → Fin n → ℝ :=
  let h0 := (noise ndigit) ^ ((1 : ℝ) / 3)
  let s := hessianLoop1 f x sclx h0 (x, h00, fh0)
  (hessianLoop2 f fx s.2.1 s.2.2 (s.1, H0)).2

/-- The four entries of `hessian2_centered` (lines 359-379), as `(H00, H11, H01, H10)`. -/
noncomputable def hessian2Centered (f : ℝ × ℝ → ℝ) (x : ℝ × ℝ) (h : ℝ) : ℝ × ℝ × ℝ × ℝ :=
  let x0 := x.1
  let x1 := x.2
  let h := if h = 0 then hDefault else h
  let h0 := h * (1 + |x0|)
  let h1 := h * (1 + |x1|)
  let f0 := f x
  let H00 := (f (x0 + 2 * h0, x1) - 2 * f0 + f (x0 - 2 * h0, x1)) / (4 * h0 ^ 2)
  let H11 := (f (x0, x1 + 2 * h1) - 2 * f0 + f (x0, x1 - 2 * h1)) / (4 * h1 ^ 2)
  let H01 := (f (x0 + h0, x1 + h1) - f (x0 + h0, x1 - h1) - f (x0 - h0, x1 + h1) + f (x0 - h0, x1 - h1)) / (4 * h0 * h1)
  let H10 := H01
  (H00, H11, H01, H10)

/-- `scalex` on an array of floats (lines 406-423), as a list. -/
noncomputable def scalex (x : List ℝ) : List ℝ :=
  match ((x.filter (fun v => v ≠ 0)).map (fun v => |v|)).min?, (x.map (fun v => |v|)).max? with
  | some xmin, some xmax =>
    x.map fun v =>
      if v = 0 then 10 / xmin
      else if Real.logb 10 (xmax / xmin) ≥ 1 then 1 / |v|
      else 1 / xmax
  | _, _ => x.map fun _ => 1

/-- Value stored when a float is assigned to an element of an integer array: truncation toward zero. -/
noncomputable def trunc (v : ℝ) : ℤ := if 0 ≤ v then ⌊v⌋ else ⌈v⌉

/-- `scalex` on an array of integers: `np.ones_like(x)` (line 406) has the integer dtype of `x`, so all stored factors
are truncated. -/
noncomputable def scalexInt (x : List ℤ) : List ℤ := (scalex (x.map fun v : ℤ => (v : ℝ))).map trunc

end Verif.NDiff
