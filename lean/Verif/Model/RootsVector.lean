import Verif.Model.Basic
import Mathlib.Analysis.Real.Sqrt
import Mathlib.Data.List.FinRange
import Mathlib.Algebra.BigOperators.Fin

/-!
# Model of `polykin/math/roots/vector.py`

Exact real arithmetic; vectors are `Fin n → ℝ`. The matrix computations (QR, Cholesky, Broyden update, Jacobians) are arbitrary
functions (`LinAlg`, `jacEval`): everything proved holds whatever they return. `while` loops take a fuel argument and yield
`none` when it is exhausted. Lists of vectors record where the user function was called.
-/

namespace Verif.RootsVector

variable {n : ℕ}

/-- Vectors. -/
abbrev Vec (n : ℕ) := Fin n → ℝ

/-- `norm(scl * v)` (Euclidean). -/
noncomputable def norm2 (scl v : Vec n) : ℝ := √(∑ i, (scl i * v i) ^ 2)

/-- `np.dot`. -/
def dot (u v : Vec n) : ℝ := ∑ i, u i * v i

/-- `fN` (`/repo/src/polykin/math/roots/vector.py` lines 212-214): half the squared scaled norm. -/
noncomputable def merit (sclf fx : Vec n) : ℝ := 1 / 2 * ∑ i, (sclf i * fx i) ^ 2

/-- `np.max(np.abs(v) / np.maximum(np.abs(x), 1 / sclx))` (lines 466, 750). -/
noncomputable def relMax (v x sclx : Vec n) : ℝ :=
  (List.finRange n).foldl (fun m i => max m (|v i| / max |x i| (1 / sclx i))) 0

/-- Result of a line search or dogleg step. -/
structure GMOut (n : ℕ) where
  success : Bool
  ismaxstep : Bool
  nfeval : ℕ
  xp : Vec n
  fp : Vec n
  trustlen : ℝ
  calls : List (Vec n)

/-- `λ < λmin` with `λmin = tolx / max(...)` (lines 466, 489); for `p = 0` the quotient is `+inf` (`tolx > 0`) or NaN. -/
def belowMin (lam tolx M : ℝ) : Prop := if M = 0 then 0 < tolx else lam < tolx / M

noncomputable instance (lam tolx M : ℝ) : Decidable (belowMin lam tolx M) := Classical.propDecidable _

/-- Trial step of a backtrack (lines 494-509); `none` stands for NaN (negative radicand). `prev = none` on the first backtrack,
else `(λ_prev, fNp_prev)`. A zero denominator counts as `+0`, i.e. the quotient is `+inf` (`0.5 λ` after the `min`). -/
noncomputable def lambdaTemp (slope fNc lam fNp : ℝ) (prev : Option (ℝ × ℝ)) : Option ℝ :=
  match prev with
  | none => some (-slope / (2 * (fNp - fNc - slope)))
  | some (lamPrev, fNpPrev) =>
    let B0 := fNp - fNc - lam * slope
    let B1 := fNpPrev - fNc - lamPrev * slope
    let a := 1 / (lam - lamPrev) * (1 / lam ^ 2 * B0 + -1 / lamPrev ^ 2 * B1)
    let b := 1 / (lam - lamPrev) * (-lamPrev / lam ^ 2 * B0 + lam / lamPrev ^ 2 * B1)
    if |a| ≤ 1 / 10 ^ 8 then
      if b = 0 then some (1 / 2 * lam) else some (min (-slope / (2 * b)) (1 / 2 * lam))
    else if b ^ 2 - 3 * a * slope < 0 then none
    else some (min ((-b + √(b ^ 2 - 3 * a * slope)) / (3 * a)) (1 / 2 * lam))

/-- `λ = max(0.1 * λ, λtemp)` (line 512); Python's `max` keeps its first argument if the second is NaN. -/
noncomputable def nextLambda (lam : ℝ) (temp : Option ℝ) : ℝ :=
  match temp with
  | none => 1 / 10 * lam
  | some t => max (1 / 10 * lam) t

/-- The `while True` loop of `line_search` (lines 474-512). `p` is the (possibly shortened) direction. -/
noncomputable def lsLoop (f : Vec n → Vec n) (sclf : Vec n) (xc p : Vec n) (fNc slope tolx M newtlen maxlen : ℝ) :
    ℕ → ℝ → Option (ℝ × ℝ) → ℕ → List (Vec n) → Option (GMOut n)
  | 0, _, _, _, _ => none
  | fuel + 1, lam, prev, nfeval, calls =>
    let xp := fun i => xc i + lam * p i
    let fp := f xp
    let fNp := merit sclf fp
    let nfeval := nfeval + 1
    let calls := calls ++ [xp]
    if fNp ≤ fNc + 1 / 10 ^ 4 * lam * slope then
      some ⟨true, prev.isNone && decide (newtlen > 99 / 100 * maxlen), nfeval, xp, fp, 0, calls⟩
    else if belowMin lam tolx M then some ⟨false, false, nfeval, xc, fp, 0, calls⟩
    else
      lsLoop f sclf xc p fNc slope tolx M newtlen maxlen fuel (nextLambda lam (lambdaTemp slope fNc lam fNp prev))
        (some (lam, fNp)) nfeval calls

/-- `line_search` (lines 452-514). -/
noncomputable def lineSearch (fuel : ℕ) (f : Vec n → Vec n) (sclf xc fc gc p : Vec n) (tolx : ℝ) (sclx : Vec n)
    (maxlen : ℝ) : Option (GMOut n) :=
  let newtlen := norm2 sclx p
  let p' := if newtlen > maxlen then fun i => p i * (maxlen / newtlen) else p
  let newtlen' := if newtlen > maxlen then maxlen else newtlen
  let fNc := merit sclf fc
  let slope := dot gc p'
  lsLoop f sclf xc p' fNc slope tolx (relMax p' xc sclx) newtlen' maxlen fuel 1 none 0 []

/-- `TrustState` (lines 517-524). -/
inductive TrustState where
  | accepted | convergence | rejected | exploratory | start
  deriving DecidableEq, Repr

/-- Output of `_update_trust_region` (line 781). -/
structure TROut (n : ℕ) where
  state : TrustState
  ismaxstep : Bool
  trustlen : ℝ
  xp : Vec n
  fp : Vec n
  fNp : ℝ
  xprev : Vec n
  fprev : Vec n
  fNprev : ℝ

/-- `R @ v`. -/
def matVec (R : Fin n → Fin n → ℝ) (v : Vec n) : Vec n := fun i => ∑ j, R i j * v j

/-- `_update_trust_region` (lines 731-781). `np.clip(v, lo, hi) = min(max(v, lo), hi)`. -/
noncomputable def updateTrust (f : Vec n → Vec n) (sclf : Vec n) (fNc : ℝ) (xc gc : Vec n) (R : Fin n → Fin n → ℝ)
    (s sclx : Vec n) (tolx maxlen trustlen : ℝ) (isnewt : Bool) (xprev fprev : Vec n) (fNprev : ℝ)
    (state : TrustState) : TROut n :=
  let steplen := norm2 sclx s
  let slope := dot gc s
  let xp := fun i => xc i + s i
  let fp := f xp
  let fNp := merit sclf fp
  let ΔfN := fNp - fNc
  if state = .exploratory ∧ (fNp ≥ fNprev ∨ ΔfN > 1 / 10 ^ 4 * slope) then
    ⟨.accepted, false, trustlen * (1 / 2), xprev, fprev, fNprev, xprev, fprev, fNprev⟩
  else if ΔfN ≥ 1 / 10 ^ 4 * slope then
    if relMax s xp sclx < tolx then ⟨.convergence, false, trustlen, xc, fp, fNp, xprev, fprev, fNprev⟩
    else
      ⟨.rejected, false, min (max (-slope * steplen / (2 * (ΔfN - slope))) (1 / 10 * trustlen)) (1 / 2 * trustlen),
        xp, fp, fNp, xprev, fprev, fNprev⟩
  else
    let pred := slope + 1 / 2 * (norm2 (fun _ => 1) (matVec R s)) ^ 2
    if state ≠ .rejected ∧ isnewt = false ∧ trustlen ≤ 99 / 100 * maxlen ∧
        (|pred - ΔfN| ≤ 1 / 10 * |ΔfN| ∨ ΔfN ≤ slope) then
      ⟨.exploratory, false, min (2 * trustlen) maxlen, xp, fp, fNp, xp, fp, fNp⟩
    else
      ⟨.accepted, decide (steplen ≥ 99 / 100 * maxlen),
        if ΔfN ≥ 1 / 10 * pred then trustlen * (1 / 2)
        else if ΔfN ≤ 3 / 4 * pred then min (2 * trustlen) maxlen
        else trustlen,
        xp, fp, fNp, xprev, fprev, fNprev⟩

/-- Quantities of the dogleg curve computed once (lines 607-612): `(cauchylen, η, v, sSD)`. -/
noncomputable def doglegData (gc p : Vec n) (R : Fin n → Fin n → ℝ) (sclx : Vec n) : ℝ × ℝ × Vec n × Vec n :=
  let α := (norm2 (fun _ => 1) fun i => gc i / sclx i) ^ 2
  let β := (norm2 (fun _ => 1) (matVec R fun i => gc i / sclx i ^ 2)) ^ 2
  let sSD : Vec n := fun i => -(α / β) * (gc i / sclx i)
  let cauchylen := α * √α / β
  let η := 1 / 5 + 4 / 5 * α ^ 2 / (β * |dot gc p|)
  let v : Vec n := fun i => η * (p i * sclx i) - sSD i
  (cauchylen, η, v, sSD)

/-- The dogleg step for a given radius (lines 599-624); returns `(isnewtstep, s, trustlen)`. The data of lines 607-612 do not
change inside the loop, so recomputing them is the same as computing them once; likewise a non-positive `trustlen` is
replaced on the first such pass only because it is positive afterwards. -/
noncomputable def doglegStep (gc p : Vec n) (R : Fin n → Fin n → ℝ) (sclx : Vec n) (newtlen maxlen trustlen : ℝ)
    (first : Bool) : Bool × Vec n × ℝ :=
  if newtlen ≤ trustlen then (true, p, newtlen)
  else
    let d := doglegData gc p R sclx
    let cauchylen := d.1
    let η := d.2.1
    let v := d.2.2.1
    let sSD := d.2.2.2
    let trustlen := if first = true ∧ trustlen ≤ 0 then min cauchylen maxlen else trustlen
    if η * newtlen ≤ trustlen then (false, fun i => trustlen / newtlen * p i, trustlen)
    else if cauchylen ≥ trustlen then (false, fun i => trustlen / cauchylen * (sSD i / sclx i), trustlen)
    else
      let a := dot v v
      let b := dot v sSD
      let lam := (-b + √(b ^ 2 - a * (cauchylen ^ 2 - trustlen ^ 2))) / a
      (false, fun i => (sSD i + lam * v i) / sclx i, trustlen)

/-- The `while` loop of `dogleg` (lines 596-647). -/
noncomputable def dlLoop (f : Vec n → Vec n) (sclf : Vec n) (fNc : ℝ) (xc gc p : Vec n) (R : Fin n → Fin n → ℝ)
    (sclx : Vec n) (tolx newtlen maxlen : ℝ) :
    ℕ → Bool → ℝ → Vec n → Vec n → ℝ → TrustState → ℕ → List (Vec n) → Option (GMOut n)
  | 0, _, _, _, _, _, _, _, _ => none
  | fuel + 1, first, trustlen, xprev, fprev, fNprev, state, nfeval, calls =>
    let d := doglegStep gc p R sclx newtlen maxlen trustlen first
    let o := updateTrust f sclf fNc xc gc R d.2.1 sclx tolx maxlen d.2.2 d.1 xprev fprev fNprev state
    let nfeval := nfeval + 1
    let calls := calls ++ [fun i => xc i + d.2.1 i]
    if o.state = .accepted ∨ o.state = .convergence then
      some ⟨decide (o.state = .accepted), o.ismaxstep, nfeval, o.xp, o.fp, o.trustlen, calls⟩
    else
      dlLoop f sclf fNc xc gc p R sclx tolx newtlen maxlen fuel (first && d.1) o.trustlen o.xprev o.fprev o.fNprev o.state
        nfeval calls

/-- `dogleg` (lines 580-653). -/
noncomputable def dogleg (fuel : ℕ) (f : Vec n → Vec n) (sclf xc fc gc p : Vec n) (R : Fin n → Fin n → ℝ) (tolx : ℝ)
    (sclx : Vec n) (maxlen trustlen : ℝ) : Option (GMOut n) :=
  dlLoop f sclf (merit sclf fc) xc gc p R sclx tolx (norm2 sclx p) maxlen fuel true trustlen xc fc 0 .start 0 []

/-- `global_method`. -/
inductive Global where
  | plain | lineSearch | dogleg | unknown
  deriving DecidableEq, Repr

/-- The linear algebra of an iteration, arbitrary: factorisation of the scaled Jacobian (lines 227-232, `none` if it raises),
step and gradient (lines 235-250, which may also replace the stored factors, or raise), the matrix `R`, the Broyden update
(line 321). -/
structure LinAlg (n : ℕ) where
  S : Type
  factor : (Fin n → Fin n → ℝ) → Option S
  solve : S → Vec n → Except Err (Vec n × Vec n × S)
  Rmat : S → Fin n → Fin n → ℝ
  broyden : Vec n → Vec n → Vec n → Vec n → S → Except Err S

/-- Exit messages of `rootvec_qnewton`. -/
inductive QMsg where
  | x0 | qr | globalFail | tolf | tolx | maxSteps | maxiter
  deriving DecidableEq, Repr

/-- `VectorRootResult` (the Jacobian is dropped). -/
structure QResult (n : ℕ) where
  success : Bool
  message : QMsg
  nfeval : ℕ
  njeval : ℕ
  niter : ℕ
  x : Vec n
  f : Vec n

/-- `norm(scl * v, np.inf) <= tol`. -/
def scaledNormLe (scl v : Vec n) (tol : ℝ) : Prop := ∀ i, |scl i * v i| ≤ tol

noncomputable instance (scl v : Vec n) (tol : ℝ) : Decidable (scaledNormLe scl v tol) := Classical.propDecidable _

/-- The step test of line 302. -/
def smallStep (xc xp sclx : Vec n) (tolx : ℝ) : Prop := ∀ i, |(xp i - xc i) / max |xp i| (1 / sclx i)| ≤ tolx

noncomputable instance (xc xp sclx : Vec n) (tolx : ℝ) : Decidable (smallStep xc xp sclx tolx) :=
  Classical.propDecidable _

/-- The step computed by the chosen global method (lines 253-268). -/
noncomputable def globalStep (gm : Global) (fuel : ℕ) (f : Vec n → Vec n) (sclf xc fc gc p : Vec n)
    (R : Fin n → Fin n → ℝ) (tolx : ℝ) (sclx : Vec n) (maxlen trustlen : ℝ) : Option (Except Err (GMOut n)) :=
  match gm with
  | .plain =>
    let xp := fun i => xc i + p i
    some (.ok ⟨true, true, 1, xp, f xp, trustlen, [xp]⟩)
  | .lineSearch => (lineSearch fuel f sclf xc fc gc p tolx sclx maxlen).map .ok
  | .dogleg => (dogleg fuel f sclf xc fc gc p R tolx sclx maxlen trustlen).map .ok
  | .unknown => some (.error .ValueError)

/-- Loop state of `rootvec_qnewton`. `J` is the Jacobian, `S` its factors, `calls` the points where `f` was evaluated. -/
structure QState (n : ℕ) (L : LinAlg n) where
  J : Fin n → Fin n → ℝ
  S : Option L.S
  xc : Vec n
  fc : Vec n
  restart : Bool
  nmaxsteps : ℕ
  trustlen : ℝ
  nfeval : ℕ
  njeval : ℕ
  calls : List (Vec n)

/-- A new Jacobian at `x` (lines 282-287, 323-328). `jacEval x fx` returns the matrix and the points at which `f` was called for
it (`n` for finite differences, none for a user supplied `jac`); `userJac` tells which counter is increased. -/
def newJac {L : LinAlg n} (jacEval : Vec n → Vec n → (Fin n → Fin n → ℝ) × List (Vec n)) (userJac : Bool)
    (x fx : Vec n) (s : QState n L) : QState n L :=
  { s with
    J := (jacEval x fx).1
    calls := s.calls ++ (jacEval x fx).2
    nfeval := s.nfeval + if userJac then 0 else n
    njeval := s.njeval + if userJac then 1 else 0 }

/-- Parameters of `rootvec_qnewton` that stay fixed. -/
structure QParams (n : ℕ) where
  tolx : ℝ
  tolf : ℝ
  sclx : Vec n
  sclf : Vec n
  maxiter : ℕ
  maxlen : ℝ
  gm : Global
  broyden : Bool
  userJac : Bool
  fuel : ℕ

/-- Outcome of one pass of the `for` loop: an exception, `break` with a result, or the next state. -/
inductive Pass (n : ℕ) (L : LinAlg n) where
  | raise (e : Err)
  | stop (r : QResult n) (calls : List (Vec n))
  | next (s : QState n L)

/-- `gm_nmaxsteps + 1 if gm_ismaxstep else 0` (line 272). -/
def countMax (ismaxstep : Bool) (k : ℕ) : ℕ := if ismaxstep then k + 1 else 0

/-- The part of the loop body after the global step (lines 270-332). -/
noncomputable def afterStep {L : LinAlg n} (P : QParams n)
    (jacEval : Vec n → Vec n → (Fin n → Fin n → ℝ) × List (Vec n)) (niter : ℕ) (s : QState n L) (S : L.S) (o : GMOut n) :
    Pass n L :=
  let s' : QState n L := { s with
    S := some S
    nfeval := s.nfeval + o.nfeval
    nmaxsteps := countMax o.ismaxstep s.nmaxsteps
    trustlen := o.trustlen
    calls := s.calls ++ o.calls }
  if o.success = false ∧ s.restart = false then .next { newJac jacEval P.userJac s.xc s.fc s' with restart := true }
  else if o.success = false then .stop ⟨false, .globalFail, s'.nfeval, s'.njeval, niter, o.xp, o.fp⟩ s'.calls
  else if scaledNormLe P.sclf o.fp P.tolf then .stop ⟨true, .tolf, s'.nfeval, s'.njeval, niter, o.xp, o.fp⟩ s'.calls
  else if smallStep s.xc o.xp P.sclx P.tolx then .stop ⟨false, .tolx, s'.nfeval, s'.njeval, niter, o.xp, o.fp⟩ s'.calls
  else if P.gm ≠ .plain ∧ s'.nmaxsteps ≥ 5 then
    .stop ⟨false, .maxSteps, s'.nfeval, s'.njeval, niter, o.xp, o.fp⟩ s'.calls
  else if P.broyden = true then
    match L.broyden s.xc o.xp s.fc o.fp S with
    | .error e => .raise e
    | .ok S' => .next { s' with S := some S', xc := o.xp, fc := o.fp, restart := false }
  else .next { newJac jacEval P.userJac o.xp o.fp s' with xc := o.xp, fc := o.fp, restart := false }

/-- One pass of the `for` loop (lines 221-332); `none` if the inner `while` loop exceeds its fuel. -/
noncomputable def pass (f : Vec n → Vec n) (L : LinAlg n) (P : QParams n)
    (jacEval : Vec n → Vec n → (Fin n → Fin n → ℝ) × List (Vec n)) (niter : ℕ) (s : QState n L) :
    Option (Pass n L) :=
  match (if P.broyden = false ∨ s.restart = true then L.factor s.J else s.S) with
  | none => some (.stop ⟨false, .qr, s.nfeval, s.njeval, niter, s.xc, s.fc⟩ s.calls)
  | some S =>
    match L.solve S s.fc with
    | .error e => some (.raise e)
    | .ok (p, gc, S') =>
      match globalStep P.gm P.fuel f P.sclf s.xc s.fc gc p (L.Rmat S') P.tolx P.sclx P.maxlen s.trustlen with
      | none => none
      | some (.error e) => some (.raise e)
      | some (.ok o) => some (afterStep P jacEval niter s S' o)

/-- The `for` loop with its `else` clause (lines 221-340). First argument: remaining passes. -/
noncomputable def qnLoop (f : Vec n → Vec n) (L : LinAlg n) (P : QParams n)
    (jacEval : Vec n → Vec n → (Fin n → Fin n → ℝ) × List (Vec n)) :
    ℕ → ℕ → QState n L → Option (Except Err (QResult n × List (Vec n)))
  | 0, niter, s =>
    if niter = 0 then some (.error .NameError) -- `niter` unbound when maxiter < 1
    else some (.ok (⟨false, .maxiter, s.nfeval, s.njeval, niter, s.xc, s.fc⟩, s.calls))
  | m + 1, niter, s =>
    match pass f L P jacEval (niter + 1) s with
    | none => none
    | some (.raise e) => some (.error e)
    | some (.stop r calls) => some (.ok (r, calls))
    | some (.next s) => qnLoop f L P jacEval m (niter + 1) s

/-- `rootvec_qnewton` (lines 161-340) with `sclx`, `sclf` given and `jac0` absent; `maxlen` (line 203) and the initial trust
radius (lines 206-209) are parameters. -/
noncomputable def rootvecQNewton (f : Vec n → Vec n) (L : LinAlg n) (P : QParams n)
    (jacEval : Vec n → Vec n → (Fin n → Fin n → ℝ) × List (Vec n)) (x0 : Vec n) (trustlen : ℝ) :
    Option (Except Err (QResult n × List (Vec n))) :=
  let fc := f x0
  let s : QState n L := newJac jacEval P.userJac x0 fc ⟨fun _ _ => 0, none, x0, fc, true, 0, trustlen, 1, 0, [x0]⟩
  if scaledNormLe P.sclf fc (1 / 100 * P.tolf) then
    some (.ok (⟨true, .x0, s.nfeval, s.njeval, 0, x0, fc⟩, s.calls))
  else qnLoop f L P jacEval P.maxiter 0 s

/-- Residual of the secant equation as computed by `_update_broyden_qr` (lines 389-393); `B = Q R` is the current scaled
Jacobian. -/
noncomputable def broydenW (B : Fin n → Fin n → ℝ) (xc xp fc fp sclf : Vec n) : Vec n := fun i =>
  let w := sclf i * (fp i - fc i) - matVec B (fun j => xp j - xc j) i
  if |w| < (eps : ℝ) * sclf i * (|fp i| + |fc i|) then 0 else w

/-- `_update_broyden_qr` (lines 389-399) on the product `B = Q R`: `scipy.linalg.qr_update` factorises `Q R + w vᵀ`, where
`v = t / (s·t)`, `t = s * sclx²`. -/
noncomputable def broydenUpdate (B : Fin n → Fin n → ℝ) (xc xp fc fp sclx sclf : Vec n) : Fin n → Fin n → ℝ :=
  let s : Vec n := fun j => xp j - xc j
  let t : Vec n := fun j => s j * sclx j ^ 2
  fun i j => B i j + broydenW B xc xp fc fp sclf i * (t j / dot s t)

end Verif.RootsVector
