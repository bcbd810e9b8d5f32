import Verif.Model.Diffusion
import Verif.Model.SpecialRoots

/-!
# Model of the uptake with a surface resistance, including the numerical roots

`/repo/src/polykin/hmt/diffusion.py`, with `roots_xtanx` / `roots_xcotx` at their default tolerance `1e-6` (`/repo/src/polykin/math/special.py` lines 75, 132).
-/

namespace Verif.Diffusion

open SpecialRoots

noncomputable section

/-- `uptake_convection_sheet` (lines 432-442). -/
def uptakeConvectionSheet (Fo Bi : ℝ) : Except Err ℝ :=
  if Fo ≠ 0 ∧ Bi ≠ 0 then do
    let x ← rootsXtanx (Bi : WithTop ℝ) 4 1e-6
    return uptakeConvSheet (fun n => x.getD n 0) Fo Bi
  else .ok 0

/-- `uptake_convection_sphere` (lines 500-510). -/
def uptakeConvectionSphere (Fo Bi : ℝ) : Except Err ℝ :=
  if Fo ≠ 0 ∧ Bi ≠ 0 then do
    let x ← rootsXcotx (Bi : WithTop ℝ) 4 1e-6
    return uptakeConvSphere (fun n => x.getD n 0) Fo Bi
  else .ok 0

end

end Verif.Diffusion
