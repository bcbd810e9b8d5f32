import Verif.Model.RootsScalar
import Mathlib.Analysis.SpecialFunctions.Log.Basic
import Mathlib.Analysis.SpecialFunctions.Complex.Log
import Mathlib.Algebra.BigOperators.Fin
import Mathlib.Data.List.OfFn

/-!
# Two-phase flash

Model of `/repo/src/polykin/thermo/flash/vle.py`. Exact arithmetic; vectors are functions on `Fin N`. The user's `Kcalc` is an arbitrary function
`T P x y ↦ K`. Division by zero and logarithms of nonpositive numbers are not modelled (they do not occur for positive K-values and nonnegative,
nonzero feeds, which the theorems assume). The text of the messages is reduced to an enumeration.
-/

namespace Verif.Flash

open Finset

section RR

variable {α : Type*} [Field α] [LinearOrder α] {N : ℕ}

/-- `residual_Rachford_Rice` (lines 607-613), the residual. -/
def rr (beta : α) (K z : Fin N → α) : α := ∑ i, z i * (K i - 1) / (1 + beta * (K i - 1))

/-- `residual_Rachford_Rice` (line 612), the derivative. -/
def drr (beta : α) (K z : Fin N → α) : α := -∑ i, z i * (K i - 1) ^ 2 / (1 + beta * (K i - 1)) ^ 2

/-- `RachfordRiceResult` (lines 459-465). -/
structure RRResult (α : Type*) where
  success : Bool
  niter : ℕ
  beta : α
  F : α
  deriving DecidableEq

/-- Lines 520-522: `max` of the entries in the open interval (0, 1), 0 if there are none. -/
def betaMin (K z : Fin N → α) : α :=
  match (List.ofFn fun i => if K i > 1 then (K i * z i - 1) / (K i - 1) else 0).filter fun v => v > 0 ∧ v < 1 with
  | [] => 0
  | v :: vs => vs.foldl max v

/-- Lines 523-525. -/
def betaMax (K z : Fin N → α) : α :=
  match (List.ofFn fun i => if K i < 1 then (1 - z i) / (1 - K i) else 1).filter fun v => v > 0 ∧ v < 1 with
  | [] => 1
  | v :: vs => vs.foldl min v

/-- `np.clip(a, lo, hi)` = `minimum(maximum(a, lo), hi)`. -/
def clip (a lo hi : α) : α := min (max a lo) hi

/-- The `for` loop (lines 535-557). Arguments: remaining iterations, `iter`, `beta_min`, `beta_max`, `beta`, `F` (`none` = unassigned). -/
def rrLoop (K z : Fin N → α) (atol : α) : ℕ → ℕ → α → α → α → Option α → Except Err (RRResult α)
  | 0, iter, _, _, beta, F? =>
    match F? with
    | none => .error .NameError -- `iter` and `F` unbound (line 557), only when maxiter ≤ 0
    | some F => .ok ⟨false, iter, beta, F⟩
  | n + 1, iter, bmin, bmax, beta, _ =>
    let F := rr beta K z
    let dF := drr beta K z
    if |F| ≤ atol then .ok ⟨true, iter + 1, beta, F⟩
    else
      let bmin' := if F > 0 then beta else bmin
      let bmax' := if F > 0 then bmax else beta
      let bnew := beta - F / dF
      let beta' := if bnew > bmin' ∧ bnew < bmax' then bnew else (bmin' + bmax') / 2
      rrLoop K z atol n (iter + 1) bmin' bmax' beta' (some F)

/-- `solve_Rachford_Rice` (lines 511-557); `beta0 = none` is NaN. -/
def solveRR (K z : Fin N → α) (beta0 : Option α) (maxiter : ℕ) (atol : α) : Except Err (RRResult α) :=
  let F0 := rr 0 K z
  if F0 < 0 then .ok ⟨true, 0, 0, F0⟩
  else
    let F1 := rr 1 K z
    if F1 > 0 then .ok ⟨true, 0, 1, F1⟩
    else
      let bmin := betaMin K z
      let bmax := betaMax K z
      let beta := match beta0 with
        | some b => clip b bmin bmax
        | none => (bmin + bmax) / 2
      rrLoop K z atol maxiter 0 bmin bmax beta none

end RR

variable {N : ℕ}

/-- Vectors of reals. -/
abbrev Vec (N : ℕ) := Fin N → ℝ

/-- The user's K-value function. -/
abbrev KFun (N : ℕ) := ℝ → ℝ → Vec N → Vec N → Vec N

/-- `v / v.sum()`. -/
noncomputable def normalize (v : Vec N) : Vec N := fun i => v i / ∑ j, v j

/-- Outcome reported in the message. -/
inductive FlashMsg where
  | empty
  | converged
  | innerFailed
  | pressureFailed
  | maxiter
  deriving DecidableEq

/-- `FlashResult` (lines 23-68). `beta`, `V`, `L` are `none` when they are NaN. -/
structure FlashResult (N : ℕ) where
  success : Bool
  message : FlashMsg
  T : ℝ
  P : ℝ
  F : ℝ
  L : Option ℝ
  V : Option ℝ
  beta : Option ℝ
  z : Vec N
  x : Vec N
  y : Vec N
  K : Vec N

/-- `min(v for v in l if v > 0)`; `ValueError` on an empty sequence. -/
noncomputable def minPos (l : List ℝ) : Except Err ℝ :=
  match l.filter fun v => v > 0 with
  | [] => .error .ValueError
  | v :: vs => .ok (vs.foldl min v)

/-- `np.allclose(a, b, atol=atol)` with numpy's default `rtol = 1e-5`: `|a - b| <= atol + rtol * |b|`. -/
def AllClose {ι : Type*} (a b : ι → ℝ) (atol : ℝ) : Prop := ∀ i, |a i - b i| ≤ atol + 1e-5 * |b i|

noncomputable instance {ι : Type*} (a b : ι → ℝ) (atol : ℝ) : Decidable (AllClose a b atol) := Classical.propDecidable _

/-- Lines 164-167: `x = z / (1 + beta * (K - 1)); y = K * x; x /= x.sum(); y /= y.sum()`. -/
noncomputable def phaseX (z K : Vec N) (beta : ℝ) : Vec N := normalize fun i => z i / (1 + beta * (K i - 1))
noncomputable def phaseY (z K : Vec N) (beta : ℝ) : Vec N := normalize fun i => K i * (z i / (1 + beta * (K i - 1)))

/-- Local variables of `flash2_PT` after the loop. -/
structure PTState (N : ℕ) where
  success : Bool
  message : FlashMsg
  beta : Option ℝ
  x : Vec N
  y : Vec N
  K : Vec N

/-- The `for` loop of `flash2_PT` (lines 154-183). -/
noncomputable def ptLoop (Kcalc : KFun N) (z : Vec N) (P T : ℝ) (maxiter : ℕ) (atol rtol alpha : ℝ) : ℕ → PTState N → Except Err (PTState N)
  | 0, s => .ok { s with message := .maxiter }
  | n + 1, s => do
    let sol ← solveRR s.K z s.beta maxiter atol
    if !sol.success then return { s with beta := some sol.beta, message := .innerFailed }
    let x := phaseX z s.K sol.beta
    let y := phaseY z s.K sol.beta
    let Knew := Kcalc T P x y
    let k0 ← minPos (List.ofFn Knew)
    if AllClose Knew s.K (k0 * rtol) then return ⟨true, .converged, some sol.beta, x, y, s.K⟩
    let s' : PTState N := { s with beta := some sol.beta, x := x, y := y, K := fun i => Real.exp (alpha * Real.log (Knew i) + (1 - alpha) * Real.log (s.K i)) }
    ptLoop Kcalc z P T maxiter atol rtol alpha n s'

/-- `flash2_PT` (lines 143-189). -/
noncomputable def flashPT (F : ℝ) (z : Vec N) (P T : ℝ) (Kcalc : KFun N) (x0 y0 : Option (Vec N)) (beta0 : Option ℝ) (maxiter : ℕ)
    (atol rtol alpha : ℝ) : Except Err (FlashResult N) := do
  let z := normalize z
  let x := (x0.map normalize).getD z
  let y := (y0.map normalize).getD z
  let s ← ptLoop Kcalc z P T maxiter atol rtol alpha maxiter ⟨false, .empty, beta0.map fun b => clip b 0 1, x, y, Kcalc T P x y⟩
  let V := s.beta.map fun b => F * b
  let L := V.map fun v => F - v
  return ⟨s.success, s.message, T, P, F, L, V, s.beta, z, s.x, s.y, s.K⟩

/-! ### Inside-out flashes -/

/-- `_Rloop` (lines 631-632). -/
noncomputable def rloop (u : Vec N) (Kb0 beta : ℝ) (z : Vec N) (R : ℝ) : ℝ :=
  1 - beta - (1 - R) * ∑ i, z i / (1 - R + Kb0 * R * Real.exp (u i))

/-- The part common to `_parameters_PV` and `_parameters_TV` (lines 657-666 and 707-716): the weights `w`. -/
noncomputable def weights (beta : ℝ) (y K : Vec N) : Vec N := normalize fun i => y i / (1 + beta * (K i - 1))

/-- `ln_Kb = dot(w, ln_K)`. -/
noncomputable def lnKb (w K : Vec N) : ℝ := ∑ i, w i * Real.log (K i)

/-- `_parameters_PV(..., all=True)` (lines 657-680): `u, Kb, A, B`; `dT = 1`. -/
noncomputable def paramsPVall (T P : ℝ) (x y : Vec N) (beta : ℝ) (Kcalc : KFun N) (Tref : ℝ) : Vec N × ℝ × ℝ × ℝ :=
  let K := Kcalc T P x y
  let w := weights beta y K
  let lk := lnKb w K
  let Tp := T + 1
  let lkp := lnKb w (Kcalc Tp P x y)
  let B := (lkp - lk) / (1 / Tp - 1 / T)
  (fun i => Real.log (K i) - lk, Real.exp lk, lk - B * (1 / T - 1 / Tref), B)

/-- `_parameters_PV(..., all=False, B=B)` (lines 657-666, 677, 682): `u, A, K`. -/
noncomputable def paramsPV (T P : ℝ) (x y : Vec N) (beta : ℝ) (Kcalc : KFun N) (Tref B : ℝ) : Vec N × ℝ × Vec N :=
  let K := Kcalc T P x y
  let lk := lnKb (weights beta y K) K
  (fun i => Real.log (K i) - lk, lk - B * (1 / T - 1 / Tref), K)

/-- `_parameters_TV(..., all=True)` (lines 707-730); `dP = 1e3`. -/
noncomputable def paramsTVall (T P : ℝ) (x y : Vec N) (beta : ℝ) (Kcalc : KFun N) (Pref : ℝ) : Vec N × ℝ × ℝ × ℝ :=
  let K := Kcalc T P x y
  let w := weights beta y K
  let lk := lnKb w K
  let Pp := P + 1000
  let lkp := lnKb w (Kcalc T Pp x y)
  let B := (lkp - lk + Real.log (Pp / P)) * Pref / 1000
  (fun i => Real.log (K i) - lk, Real.exp lk, lk + Real.log P - B * (P / Pref), B)

/-- `_parameters_TV(..., all=False, B=B)` (lines 707-716, 727, 732). -/
noncomputable def paramsTV (T P : ℝ) (x y : Vec N) (beta : ℝ) (Kcalc : KFun N) (Pref B : ℝ) : Vec N × ℝ × Vec N :=
  let K := Kcalc T P x y
  let lk := lnKb (weights beta y K) K
  (fun i => Real.log (K i) - lk, lk + Real.log P - B * (P / Pref), K)

/-- Local variables of `flash2_PV` and `flash2_TV` in the outer loop; `Q` is the unknown (`T` or `P`). -/
structure IOState (N : ℕ) where
  success : Bool
  message : FlashMsg
  Q : ℝ
  x : Vec N
  y : Vec N
  K : Vec N
  u : Vec N
  A : ℝ

/-- The inner R-loop (lines 270-286 and 397-413). `none` means that it did not converge. -/
noncomputable def innerR (u : Vec N) (Kb0 beta : ℝ) (z : Vec N) (maxiter : ℕ) (atol : ℝ) : Except Err (Option ℝ) :=
  if |beta - 0| ≤ eps then .ok (some 0)
  else if |beta - 1| ≤ eps then .ok (some 1)
  else do
    let sol ← rootBrent (rloop u Kb0 beta z) 0 1 atol atol maxiter
    return if sol.1.success then some sol.1.x else none

/-- Lines 289-294 and 416-421: `p`, `x = p / p.sum()`, `y = eup / eup.sum()`, and `Kb = sum_p / sum_eup` (lines 295, 424). -/
noncomputable def ioP (u : Vec N) (Kb0 R : ℝ) (z : Vec N) : Vec N := fun i => z i / (1 - R + Kb0 * R * Real.exp (u i))
noncomputable def ioEup (u : Vec N) (Kb0 R : ℝ) (z : Vec N) : Vec N := fun i => Real.exp (u i) * ioP u Kb0 R z i
noncomputable def ioKb (u : Vec N) (Kb0 R : ℝ) (z : Vec N) : ℝ := (∑ i, ioP u Kb0 R z i) / ∑ i, ioEup u Kb0 R z i

/-- `np.concatenate((u, [A]))`. -/
def concat (u : Vec N) (A : ℝ) : Option (Fin N) → ℝ
  | some i => u i
  | none => A

/-- The outer loop of `flash2_PV` (lines 265-310). -/
noncomputable def pvLoop (Kcalc : KFun N) (z : Vec N) (P beta Tref B Kb0 : ℝ) (maxiter : ℕ) (atol rtol : ℝ) : ℕ → IOState N → Except Err (IOState N)
  | 0, s => .ok { s with message := .maxiter }
  | n + 1, s => do
    match ← innerR s.u Kb0 beta z maxiter atol with
    | none => return { s with message := .innerFailed }
    | some R =>
      let x := normalize (ioP s.u Kb0 R z)
      let y := normalize (ioEup s.u Kb0 R z)
      let Kb := ioKb s.u Kb0 R z
      let T := 1 / (1 / Tref + (Real.log Kb - s.A) / B)
      let r := paramsPV T P x y beta Kcalc Tref B
      let v0 ← minPos (List.ofFn r.1 ++ [r.2.1])
      if AllClose (concat r.1 r.2.1) (concat s.u s.A) (v0 * rtol) then return ⟨true, .converged, T, x, y, r.2.2, r.1, r.2.1⟩
      let s' : IOState N := { s with Q := T, x := x, y := y, K := r.2.2, u := r.1, A := r.2.1 }
      pvLoop Kcalc z P beta Tref B Kb0 maxiter atol rtol n s'

/-- `flash2_PV` (lines 244-316). -/
noncomputable def flashPV (F : ℝ) (z : Vec N) (P beta : ℝ) (Kcalc : KFun N) (x0 y0 : Option (Vec N)) (T0 : ℝ) (maxiter : ℕ) (atol rtol : ℝ) :
    Except Err (FlashResult N) := do
  let z := normalize z
  let x := (x0.map normalize).getD z
  let y := (y0.map normalize).getD z
  let K := Kcalc T0 P x y
  let x := phaseX z K beta
  let y := phaseY z K beta
  let q := paramsPVall T0 P x y beta Kcalc 300
  let s ← pvLoop Kcalc z P beta 300 q.2.2.2 q.2.1 maxiter atol rtol maxiter ⟨false, .empty, T0, x, y, K, q.1, q.2.2.1⟩
  let V := F * beta
  return ⟨s.success, s.message, s.Q, P, F, some (F - V), some V, some beta, z, s.x, s.y, s.K⟩

/-- The function of the pressure whose root is sought (line 426), evaluated on a complex number given as a pair (`root_newton` evaluates it
at `P + i eps`). -/
noncomputable def pressureEq (Kb A B Pref : ℝ) (p : ℝ × ℝ) : ℝ × ℝ :=
  let w := Complex.log (Kb * (p.1 + p.2 * Complex.I))
  (w.re - A - B * (p.1 / Pref), w.im - B * (p.2 / Pref))

/-- The outer loop of `flash2_TV` (lines 392-449); `root_newton` runs with its default `maxiter = 50`. The message "did not converge" is set at the
end of each pass (lines 448-449). -/
noncomputable def tvLoop (Kcalc : KFun N) (z : Vec N) (T beta Pref B Kb0 : ℝ) (maxiter : ℕ) (atol rtol : ℝ) : ℕ → IOState N → Except Err (IOState N)
  | 0, s => .ok s
  | n + 1, s => do
    match ← innerR s.u Kb0 beta z maxiter atol with
    | none => return { s with message := .innerFailed }
    | some R =>
      let x := normalize (ioP s.u Kb0 R z)
      let y := normalize (ioEup s.u Kb0 R z)
      let Kb := ioKb s.u Kb0 R z
      let sol ← rootNewton (pressureEq Kb s.A B Pref) (Real.exp s.A / Kb) 0 1e-10 50
      if !sol.1.success then return { s with x := x, y := y, message := .pressureFailed }
      let P := sol.1.x
      let r := paramsTV T P x y beta Kcalc Pref B
      let v0 ← minPos (List.ofFn r.1 ++ [r.2.1])
      if AllClose (concat r.1 r.2.1) (concat s.u s.A) (v0 * rtol) then return ⟨true, .converged, P, x, y, r.2.2, r.1, r.2.1⟩
      let s' : IOState N := { s with message := .maxiter, Q := P, x := x, y := y, K := r.2.2, u := r.1, A := r.2.1 }
      tvLoop Kcalc z T beta Pref B Kb0 maxiter atol rtol n s'

/-- `flash2_TV` (lines 371-455). -/
noncomputable def flashTV (F : ℝ) (z : Vec N) (T beta : ℝ) (Kcalc : KFun N) (x0 y0 : Option (Vec N)) (P0 : ℝ) (maxiter : ℕ) (atol rtol : ℝ) :
    Except Err (FlashResult N) := do
  let z := normalize z
  let x := (x0.map normalize).getD z
  let y := (y0.map normalize).getD z
  let K := Kcalc T P0 x y
  let x := phaseX z K beta
  let y := phaseY z K beta
  let q := paramsTVall T P0 x y beta Kcalc 100000
  let s ← tvLoop Kcalc z T beta 100000 q.2.2.2 q.2.1 maxiter atol rtol maxiter ⟨false, .empty, P0, x, y, K, q.1, q.2.2.1⟩
  let V := F * beta
  return ⟨s.success, s.message, T, s.Q, F, some (F - V), some V, some beta, z, s.x, s.y, s.K⟩

end Verif.Flash
