import Verif.Model.Copo
import Verif.Model.CopoMulti
import Mathlib.Data.Fin.Tuple.Basic
import Mathlib.Data.Real.Basic

/-!
# Model of the composition drift (`monomer_drift_binary`, `CopoModel.drift`, `monomer_drift_multi`)

`scipy.integrate.solve_ivp` is a function `ivp` from the right-hand side, the end of the interval `(0, tf)` and the initial values to the computed trajectory,
or `none` when it reports failure (`sol.success` false). What it does with `t_eval` before integrating is modelled. Tolerances and method are part of `ivp`.
`none` as a value of the right-hand side: not a finite number.
-/

namespace Verif.CopoDrift

open Verif.Copo Verif.CopoMulti

/-- The integrator. -/
abbrev Ivp (n : ℕ) := (ℝ → (Fin n → ℝ) → Fin n → Option ℝ) → ℝ → (Fin n → ℝ) → Option (ℝ → Fin n → ℝ)

/-- The checks of `t_eval` in `scipy.integrate.solve_ivp` for the interval `(0, tf)`: within the interval, and sorted without repetition in the direction of
integration. -/
def EvalOk (tf : ℝ) (x : List ℝ) : Prop :=
  (∀ t ∈ x, min 0 tf ≤ t ∧ t ≤ max 0 tf) ∧ (0 < tf → x.Pairwise (· < ·)) ∧ (tf < 0 → x.Pairwise (· > ·))

open Classical in
/-- `solve_ivp(rhs, (0.0, max(x)), y0, t_eval=x)`: `ValueError` for an empty `x` (from `max`) or an unacceptable `t_eval`; otherwise the rows `sol.y`, or
`none` for failure. -/
noncomputable def solveIvp {n : ℕ} (ivp : Ivp n) (rhs : ℝ → (Fin n → ℝ) → Fin n → Option ℝ) (y0 : Fin n → ℝ) (x : List ℝ) :
    Except Err (Option (Fin n → List ℝ)) :=
  match x.max? with
  | none => .error .ValueError
  | some tf => if EvalOk tf x then .ok ((ivp rhs tf y0).map fun y i => x.map fun t => y t i) else .error .ValueError

/-- An array of one or two dimensions. -/
inductive Arr where
  | vec (v : List ℝ)
  | mat (m : List (List ℝ))

/-- How a call ends: a result, an array of `nan` with a warning, `ODESolverError`, or another exception. -/
inductive Out where
  | value (a : Arr)
  | nan (len : ℕ)
  | odeError
  | raised (e : Err)

/-- `result = np.maximum(0.0, sol.y)`; `if result.shape[0] == 1: result = result[0]` (`/repo/src/polykin/copolymerization/binary.py` lines 225-228, terminal.py
lines 226-229). -/
noncomputable def squeeze {n : ℕ} (y : Fin n → List ℝ) : Arr :=
  match List.ofFn fun i => (y i).map (max 0) with
  | [v] => .vec v
  | m => .mat m

/-- Right-hand side for several starting compositions at once (lines 212-218, 236-261): `df1dx` applied elementwise. -/
noncomputable def rhsBinary {n : ℕ} (r1 r2 : ℝ) (x : ℝ) (f : Fin n → ℝ) (i : Fin n) : Option ℝ := df1dx x (f i) r1 r2

/-- `monomer_drift_binary` (binary.py lines 147-233). A scalar `f10` is a vector of length one (lines 208-209). -/
noncomputable def driftBinary {n : ℕ} (ivp : Ivp n) (f10 : Fin n → ℝ) (x : List ℝ) (r1 r2 : ℝ) : Out :=
  match solveIvp ivp (rhsBinary r1 r2) f10 x with
  | .error e => .raised e
  | .ok none => .odeError
  | .ok (some y) => .value (squeeze y)

/-- The inner `df1dx` of `drift` (terminal.py lines 211-213), elementwise. -/
noncomputable def rhsModel {n : ℕ} (ri : ℝ → Option (ℝ × ℝ)) (x : ℝ) (f : Fin n → ℝ) (i : Fin n) : Option ℝ :=
  match ri (f i) with
  | some r =>
    match instBinary (f i) r.1 r.2 with
    | some F1 => fdiv (f i - F1) (1 - x + eps)
    | none => none
  | none => none

/-- `CopoModel.drift` (terminal.py lines 179-235). -/
noncomputable def driftModel {n : ℕ} (ivp : Ivp n) (ri : ℝ → Option (ℝ × ℝ)) (f10 : Fin n → ℝ) (x : List ℝ) : Out :=
  match solveIvp ivp (rhsModel ri) f10 x with
  | .error e => .raised e
  | .ok none => .nan x.length
  | .ok (some y) => .value (squeeze y)

/-- `np.append(f, 1.0 - f.sum())` (multicomponent.py line 470). -/
def append {n : ℕ} (f : Fin n → ℝ) : Fin (n + 1) → ℝ := Fin.snoc f (1 - ∑ i, f i)

open Classical in
/-- The inner `dfdx` (multicomponent.py lines 469-471). A zero `r_ij` or a zero sum of `f_k/r_ik` gives `nan`s. -/
noncomputable def rhsMulti {n : ℕ} (solve : Matrix (Fin (n + 1)) (Fin (n + 1)) ℝ → (Fin (n + 1) → ℝ) → Option (Fin (n + 1) → ℝ))
    (r : Matrix (Fin (n + 1)) (Fin (n + 1)) ℝ) (x : ℝ) (f : Fin n → ℝ) (i : Fin n) : Option ℝ :=
  if (∀ i j, r i j ≠ 0) ∧ ∀ i, ∑ k, append f k / r i k ≠ 0 then
    match instMulti solve (some (append f)) (some r) none with
    | .ok (some F) => fdiv (f i - F i.castSucc) (1 - x + eps)
    | _ => none
  else none

/-- `f[:, :-1] = sol.y.T; f[:, -1] = 1 - sum(f[:, :-1], axis=1)` (lines 483-486). `y` are the rows of `sol.y`, each of length `m`. -/
noncomputable def assemble {n : ℕ} (y : Fin n → List ℝ) (m : ℕ) : List (List ℝ) :=
  (List.range m).map fun j => List.ofFn (append fun i => (y i).getD j 0)

/-- `monomer_drift_multi` (lines 395-490). `r` has shape `(k, l)`. -/
noncomputable def driftMulti {n k l : ℕ} (solve : Matrix (Fin (n + 1)) (Fin (n + 1)) ℝ → (Fin (n + 1) → ℝ) → Option (Fin (n + 1) → ℝ)) (ivp : Ivp n)
    (f0 : Fin (n + 1) → ℝ) (x : List ℝ) (r : Matrix (Fin k) (Fin l) ℝ) : Out :=
  if h : k = n + 1 ∧ l = n + 1 then
    match solveIvp ivp (rhsMulti solve fun i j => r (i.cast h.1.symm) (j.cast h.2.symm)) (fun i => f0 i.castSucc) x with
    | .error e => .raised e
    | .ok none => .odeError
    | .ok (some y) => .value (.mat (assemble y x.length))
  else .raised .ShapeError

end Verif.CopoDrift
