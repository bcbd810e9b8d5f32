import Verif.Model.Basic
import Verif.Model.Special
import Mathlib.Analysis.SpecialFunctions.Exp

/-!
# Residence time distributions

Model of `/repo/src/polykin/reactors/rtd.py`. The residence time `t` ranges over `[0, ∞]`: `⊤` is `inf`. Exact reals otherwise.
-/

namespace Verif.Rtd

open Real

/-- `E_cstr` (line 51); `exp(-inf) = 0`. -/
noncomputable def ECstr : WithTop ℝ → ℝ → ℝ
  | ⊤, tavg => (1 / tavg) * 0
  | (t : ℝ), tavg => (1 / tavg) * exp (-t / tavg)

/-- `F_cstr` (line 81). -/
noncomputable def FCstr : WithTop ℝ → ℝ → ℝ
  | ⊤, _ => 1 - 0
  | (t : ℝ), tavg => 1 - exp (-t / tavg)

/-- `E_tanks_series` (lines 114-118). -/
noncomputable def ETanks : WithTop ℝ → ℝ → ℕ → ℝ
  | ⊤, _, _ => 0
  | (t : ℝ), tavg, N =>
    let q := t / tavg
    q ^ (N - 1) * ((N : ℝ) ^ N / Gamma N) * exp (-N * q) / tavg

/-- `F_tanks_series` (lines 151-158). -/
noncomputable def FTanks : WithTop ℝ → ℝ → ℕ → ℝ
  | ⊤, _, _ => 1
  | (t : ℝ), tavg, N =>
    let q := t / tavg
    if q = 0 then 0
    else
      let S := ∑ i ∈ Finset.range N, (N * q) ^ i / Gamma ((i : ℝ) + 1)
      1 - exp (-N * q) * S

/-- `E_laminar_flow` (lines 193-197). -/
noncomputable def ELaminar : WithTop ℝ → ℝ → ℝ
  | ⊤, _ => 0
  | (t : ℝ), tavg =>
    let q := t / tavg
    if q < 1 / 2 then 0 else 0.5 * tavg ^ 2 / t ^ 3

/-- `F_laminar_flow` (lines 232-236). -/
noncomputable def FLaminar : WithTop ℝ → ℝ → ℝ
  | ⊤, _ => 1 - 0
  | (t : ℝ), tavg =>
    let q := t / tavg
    if q ≤ 1 / 2 then 0 else 1 - 1 / (4 * q ^ 2)

/-- `E_dispersion_model` (lines 283-290). -/
noncomputable def EDisp : WithTop ℝ → ℝ → ℝ → ℝ
  | ⊤, _, _ => 0
  | (t : ℝ), tavg, Pe =>
    let q := t / tavg
    if q = 0 then 0
    else if Pe > 1e2 then √(Pe / π) / (2 * tavg) * exp (-Pe / 4 * (1 - q) ^ 2)
    else √(Pe / (π * q)) / (2 * tavg) * exp (-Pe / (4 * q) * (1 - q) ^ 2)

/-- `F_dispersion_model` (lines 333-345); `quad` is taken to return the exact integral. -/
noncomputable def FDisp : WithTop ℝ → ℝ → ℝ → ℝ
  | ⊤, _, _ => 1
  | (t : ℝ), tavg, Pe =>
    let q := t / tavg
    if q = 0 then 0
    else if Pe > 1e2 then 0.5 * (1 + erf (√Pe / 2 * (q - 1)))
    else ∫ x in (0 : ℝ)..t, EDisp x tavg Pe

/-- `Pe_tube` (lines 387-393), for positive arguments. -/
noncomputable def peTube (Re : ℝ) (Sc : Option ℝ) : Except Err ℝ :=
  if Re < 2300 then
    match Sc with
    | none => .error .ValueError
    | some Sc => .ok (1 / (1 / (Re * Sc) + (Re * Sc) / 192))
  else .ok (1 / (3e7 / Re ^ (2.1 : ℝ) + 1.35 / Re ^ (0.125 : ℝ)))

end Verif.Rtd
