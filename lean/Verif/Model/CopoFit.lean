import Verif.Model.CopoDrift
import Verif.Model.NDiff
import Mathlib.LinearAlgebra.Matrix.NonsingularInverse
import Mathlib.Analysis.SpecialFunctions.Sqrt

/-!
# Model of `fit_copo_data` (`/repo/src/polykin/copolymerization/fitting.py`)

The arrays of a data set have equal lengths and scalar scales are spread over the points (data sets are lists of points). `scipy.optimize.minimize`,
`odrpack.odr_fit`, the integrator and the quantile of Student's distribution are functions given from outside. Plots and the joint confidence region are left out
(`plot_data`, `JCR_linear`, `JCR_exact` false). `none` for a number: not finite.
-/

namespace Verif.CopoFit

open Verif.Copo Verif.CopoDrift Matrix

/-- Exceptions: `FitError`, `ODESolverError`, `LinAlgError` or one of the usual. -/
inductive Fail where
  | fitError
  | odeError
  | linAlg
  | py (e : Err)
  deriving DecidableEq

/-- A point of a data set: abscissa, ordinate and their scales. -/
structure Pt where
  x : ℝ
  y : ℝ
  sx : ℝ
  sy : ℝ

/-- `CopoDataset_Ff` (`copodataset.py` lines 241-250). -/
structure DataFf where
  pts : List Pt
  weight : ℝ

/-- `CopoDataset_fx`, `CopoDataset_Fx` (lines 253-277); the abscissa is the conversion. -/
structure DataX where
  f10 : ℝ
  pts : List Pt
  weight : ℝ

/-- `np.sum` over numbers that may be not finite. -/
noncomputable def sumOpt : List (Option ℝ) → Option ℝ
  | [] => some 0
  | none :: _ => none
  | some a :: l => (sumOpt l).map (a + ·)

/-- A term of `dot(rx, rx)` with `rx = (y - est)/scale`. -/
noncomputable def sq (y s : ℝ) (est : Option ℝ) : Option ℝ := est.bind fun e => (fdiv (y - e) s).map fun v => v * v

/-- First loop of `sse` (`fitting.py` lines 434-438). -/
noncomputable def ffTerm (d : DataFf) (r : ℝ × ℝ) : Option ℝ :=
  (sumOpt (d.pts.map fun p => sq p.y p.sy (instBinary p.x r.1 r.2))).map (d.weight * ·)

/-- `monomer_drift_binary(f10, x, *r)` for one initial composition. -/
noncomputable def driftVals (ivp : Ivp 1) (f10 : ℝ) (x : List ℝ) (r : ℝ × ℝ) : Except Fail (List ℝ) :=
  match driftBinary ivp (fun _ => f10) x r.1 r.2 with
  | .value (.vec v) => .ok v
  | .value (.mat m) => .ok m.flatten
  | .nan _ => .ok []
  | .odeError => .error .odeError
  | .raised e => .error (.py e)

/-- Second loop (lines 440-446). -/
noncomputable def fxTerm (ivp : Ivp 1) (d : DataX) (r : ℝ × ℝ) : Except Fail (Option ℝ) :=
  match driftVals ivp d.f10 (d.pts.map (·.x)) r with
  | .error e => .error e
  | .ok v => .ok ((sumOpt (List.zipWith (fun p f => sq p.y p.sy (some f)) d.pts v)).map (d.weight * ·))

/-- `f1 + (f10 - f1)/(x + 1e-10)` (line 453). -/
noncomputable def meanF (f10 x f : ℝ) : Option ℝ := (fdiv (f10 - f) (x + 1 / 10 ^ 10)).map (f + ·)

/-- Third loop (lines 448-455). -/
noncomputable def FxTerm (ivp : Ivp 1) (d : DataX) (r : ℝ × ℝ) : Except Fail (Option ℝ) :=
  match driftVals ivp d.f10 (d.pts.map (·.x)) r with
  | .error e => .error e
  | .ok v => .ok ((sumOpt (List.zipWith (fun p f => sq p.y p.sy (meanF d.f10 p.x f)) d.pts v)).map (d.weight * ·))

/-- `result += ...` over the terms; the first exception ends it. -/
noncomputable def addAll (acc : Option ℝ) : List (Except Fail (Option ℝ)) → Except Fail (Option ℝ)
  | [] => .ok acc
  | .error e :: _ => .error e
  | .ok v :: l => addAll (acc.bind fun a => v.map (a + ·)) l

/-- `sse` (lines 431-456). -/
noncomputable def sse (ivp : Ivp 1) (dFf : List DataFf) (dfx dFx : List DataX) (r : ℝ × ℝ) : Except Fail (Option ℝ) :=
  addAll (some 0) (dFf.map (fun d => .ok (ffTerm d r)) ++ dfx.map (fun d => fxTerm ivp d r) ++ dFx.map (fun d => FxTerm ivp d r))

/-- Outcome of `minimize`: the exception of the objective, `not sol.success`, or `(sol.x, sol.fun)`. -/
inductive Opt where
  | raised (e : Fail)
  | failed
  | done (r : ℝ × ℝ) (v : Option ℝ)

/-- `minimize(sse, x0=r_guess, bounds=((1e-3, 1e2), (1e-3, 1e2)), method="L-BFGS-B")` as a function of objective and guess. -/
abbrev Minimize := (ℝ × ℝ → Except Fail (Option ℝ)) → ℝ × ℝ → Opt

/-- Whether the objective is finite at all the points, in order; the first exception is raised. -/
def evalAll (s : ℝ × ℝ → Except Fail (Option ℝ)) : List (ℝ × ℝ) → Except Fail Bool
  | [] => .ok true
  | q :: l =>
    match s q with
    | .error e => .error e
    | .ok none => (evalAll s l).map fun _ => false
    | .ok (some _) => evalAll s l

/-- The value of a finite result. -/
def val : Except Fail (Option ℝ) → ℝ
  | .ok (some v) => v
  | _ => 0

/-- The points where `hessian2_centered` evaluates (`ndiff.py` lines 359-379). -/
noncomputable def stencil (r : ℝ × ℝ) (h : ℝ) : List (ℝ × ℝ) :=
  let h0 := h * (1 + |r.1|)
  let h1 := h * (1 + |r.2|)
  [r, (r.1 + 2 * h0, r.2), (r.1 - 2 * h0, r.2), (r.1, r.2 + 2 * h1), (r.1, r.2 - 2 * h1),
    (r.1 + h0, r.2 + h1), (r.1 + h0, r.2 - h1), (r.1 - h0, r.2 + h1), (r.1 - h0, r.2 - h1)]

/-- `hessian2_centered(sse, r_opt, h=1e-4)` (line 475); `none`: entries that are not finite. -/
noncomputable def hess (s : ℝ × ℝ → Except Fail (Option ℝ)) (r : ℝ × ℝ) : Except Fail (Option (Matrix (Fin 2) (Fin 2) ℝ)) :=
  match evalAll s (stencil r (1 / 10 ^ 4)) with
  | .error e => .error e
  | .ok false => .ok none
  | .ok true =>
    let H := NDiff.hessian2Centered (fun q => val (s q)) r (1 / 10 ^ 4)
    .ok (some !![H.1, H.2.2.1; H.2.2.2, H.2.1])

/-- What the two fit functions return: the ratios and the covariance matrix. `cov = none` is Python's `None`, `some none` a matrix of `nan`. -/
structure Raw where
  r : ℝ × ℝ
  cov : Option (Option (Matrix (Fin 2) (Fin 2) ℝ))

open Classical in
/-- `_fit_copo_NLLS` (lines 422-484); `np.linalg.inv` is the exact inverse, an exactly singular matrix raises. -/
noncomputable def nlls (opt : Minimize) (s : ℝ × ℝ → Except Fail (Option ℝ)) (guess : ℝ × ℝ) (ndata : ℕ) : Except Fail Raw :=
  match opt s guess with
  | .raised e => .error e
  | .failed => .error .fitError
  | .done r v =>
    if 2 < ndata then
      match hess s r with
      | .error e => .error e
      | .ok none => .ok ⟨r, some none⟩
      | .ok (some H) =>
        if H.det = 0 then .error .linAlg
        else .ok ⟨r, some (v.map fun t => (2 * (t / ((ndata : ℝ) - 2))) • H⁻¹)⟩
    else .ok ⟨r, none⟩

/-- A point handed to `odr_fit`: data and the weights `1/sf1**2`, `1/sF1**2`. -/
structure OdrPt where
  x : ℝ
  y : ℝ
  wx : Option ℝ
  wy : Option ℝ

/-- `1/(scale/(weight + 1e-10))**2` (lines 497-504, 515-516). -/
noncomputable def odrWeight (scale weight : ℝ) : Option ℝ := (fdiv scale (weight + 1 / 10 ^ 10)).bind fun s => fdiv 1 (s ^ 2)

/-- Concatenation of the data sets (lines 492-509). -/
noncomputable def odrData (dFf : List DataFf) : List OdrPt :=
  dFf.flatMap fun d => d.pts.map fun p => ⟨p.x, p.y, odrWeight p.sx d.weight, odrWeight p.sy d.weight⟩

/-- What is used of the result of `odr_fit`. -/
structure OdrRes where
  beta : ℝ × ℝ
  xplusd : List ℝ
  covBeta : Matrix (Fin 2) (Fin 2) ℝ
  resVar : ℝ

/-- `odr_fit` for the model function `inst_copolymer_binary`; `none`: not successful. -/
abbrev Odr := List OdrPt → ℝ × ℝ → Option OdrRes

/-- `_fit_copo_ODR` (lines 487-537). -/
noncomputable def odrFit (odr : Odr) (dFf : List DataFf) (guess : ℝ × ℝ) : Except Fail Raw :=
  match odr (odrData dFf) guess with
  | none => .error .fitError
  | some s => .ok ⟨s.beta, if 2 < (odrData dFf).length then some (some (s.resVar • s.covBeta)) else none⟩

/-- `CopoFitResult` without the plots. -/
structure Result where
  method : String
  r1 : ℝ
  r2 : ℝ
  alpha : ℝ
  ci1 : Option ℝ
  ci2 : Option ℝ
  se1 : Option ℝ
  se2 : Option ℝ
  cov : Option (Option (Matrix (Fin 2) (Fin 2) ℝ))

open Classical in
/-- `np.sqrt`. -/
noncomputable def sqrtOpt (x : ℝ) : Option ℝ := if 0 ≤ x then some (Real.sqrt x) else none

/-- `np.sqrt(np.diag(cov))` if there are more data than parameters, else `nan` (lines 287-294). -/
noncomputable def stdErr (ndata : ℕ) (cov : Option (Option (Matrix (Fin 2) (Fin 2) ℝ))) (i : Fin 2) : Option ℝ :=
  if 2 < ndata then
    match cov with
    | some (some C) => sqrtOpt (C i i)
    | _ => none
  else none

/-- Number of observations (lines 263-274). -/
def numData (dFf : List DataFf) (dfx dFx : List DataX) : ℕ :=
  (dFf.map (·.pts.length)).sum + (dfx.map (·.pts.length)).sum + (dFx.map (·.pts.length)).sum

/-- `fit_copo_data` (lines 176-419). `tq p n` is `tdist.ppf(p, n)`. -/
noncomputable def fit (opt : Minimize) (odr : Odr) (tq : ℝ → ℕ → ℝ) (ivp : Ivp 1) (dFf : List DataFf) (dfx dFx : List DataX) (guess : ℝ × ℝ)
    (method : String) (alpha : ℝ) : Except Fail Result :=
  let ndata := numData dFf dfx dFx
  if ndata < 2 then .error .fitError
  else if method = "ODR" ∧ (0 < dfx.length ∨ 0 < dFx.length) then .error .fitError
  else
    match (if method = "NLLS" then nlls opt (sse ivp dFf dfx dFx) guess ndata
      else if method = "ODR" then odrFit odr dFf guess else .error (.py .ValueError)) with
    | .error e => .error e
    | .ok w =>
      let se := stdErr ndata w.cov
      let t := tq (1 - alpha / 2) (ndata - 2)
      .ok ⟨method, w.r.1, w.r.2, alpha, (se 0).map (· * t), (se 1).map (· * t), se 0, se 1, w.cov⟩

end Verif.CopoFit
