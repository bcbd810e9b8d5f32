import Verif.Model.Eos
import Verif.Model.FixPoint
import Verif.Model.NDiff
import Verif.Model.Vaporization

/-!
# Saturation pressure from a cubic equation of state

Model of `CubicEoS.Psat` (`/repo/src/polykin/thermo/eos/cubic.py` lines 341-385), on top of the models of the equation of state and of the Wegstein
solver. Exact reals. As in the model of the equation of state, logarithms of nonpositive numbers (NaN) are not modelled: the results
are meaningful for runs whose trial pressures are all positive.
-/

namespace Verif.Psat

open Verif.Eos Verif.FixPoint

/-- What a call of `Psat` does: it returns a pressure (listed with the pressures at which the K-value was evaluated, in order), raises
`ConvergenceError` (lines 384-385), or raises another exception. -/
inductive Out where
  | found (P : ℝ) (trials : List ℝ)
  | notConverged (trials : List ℝ)
  | raised (e : Err)

/-- The fixed-point function `g` (lines 377-378). A call that raises is given the value 0 here, and makes `psat` below raise. -/
noncomputable def g (npRoots : ℝ → ℝ → ℝ → List (ℝ × ℝ)) (R : ℝ) (e : Cubic 1) (T : ℝ) (x : Fin 1 → ℝ) : Fin 1 → ℝ := fun i =>
  match cubicK npRoots R e T (x 0) (fun _ => 1) (fun _ => 1) with
  | .ok K => x i * K i
  | .error _ => 0

/-- Does the evaluation of `g` at this pressure raise? -/
def raises (npRoots : ℝ → ℝ → ℝ → List (ℝ × ℝ)) (R : ℝ) (e : Cubic 1) (T P : ℝ) : Prop :=
  ∃ er, cubicK npRoots R e T P (fun _ => 1) (fun _ => 1) = .error er

/-- The initial guess (lines 373-374); `T = 0` gives `exp(-inf) = 0`. -/
noncomputable def guess (e : Cubic 1) (T : ℝ) : Option ℝ → ℝ
  | some P => P
  | none => (Vaporization.plWilson T (e.Tc 0) (e.Pc 0) (e.w 0)).getD 0

open Classical in
/-- Lines 370-385 for one component; the defaults of `fixpoint_wegstein` are those of wegstein.py lines 21-26. -/
noncomputable def psat1 (npRoots : ℝ → ℝ → ℝ → List (ℝ × ℝ)) (R : ℝ) (e : Cubic 1) (T : ℝ) (Psat0 : Option ℝ) : Out :=
  if T ≥ e.Tc 0 then .raised .ValueError
  else
    let x0 : ℝ := guess e T Psat0
    let sclx : Fin 1 → ℝ := fun _ => (NDiff.scalex [x0]).headD 1
    match fixpointWegstein (g npRoots R e T) (fun _ => x0) sclx (1 / 10 ^ 6) (-5) 0 1 50 with
    | .error er => .raised er
    | .ok (sol, calls) =>
      if ∃ x ∈ calls, raises npRoots R e T (x 0) then .raised .ValueError
      else if sol.success then .found (sol.x 0) (calls.map fun x => x 0)
      else .notConverged (calls.map fun x => x 0)

/-- `CubicEoS.Psat` (lines 367-385). -/
noncomputable def psat (npRoots : ℝ → ℝ → ℝ → List (ℝ × ℝ)) (R : ℝ) {N : ℕ} (e : Cubic N) (T : ℝ) (Psat0 : Option ℝ) : Out :=
  match N, e with
  | 1, e => psat1 npRoots R e T Psat0
  | _, _ => .raised .ValueError

end Verif.Psat
