import Verif.Model.Basic
import Verif.Model.Vaporization

/-! # Model of `VL_Rackett` (`/repo/src/polykin/properties/pvt/volume.py`) -/

namespace Verif.Rackett

open Real Verif.Vaporization

/-- `scipy.constants.R`, the exact SI value. -/
noncomputable def R : ℝ := 8.31446261815324

/-- `VL_Rackett` (lines 63-70); `none` is a complex number. The exponent is fractional in general; a negative `ZRA` (an acentric factor above 3.3) is taken to give a complex number always. -/
noncomputable def vlRackett (T Tc Pc : ℝ) (ZRA w : Option ℝ) : Except Err (Option ℝ) :=
  match ZRA, w with
  | none, none => .error .ValueError
  | some _, some _ => .error .ValueError
  | some z, none => .ok (body z)
  | none, some w => .ok (body (0.29056 - 0.08775 * w))
where
  /-- Lines 69-70. -/
  body (z : ℝ) : Option ℝ := do
    let Tr := T / Tc
    let p ← fpow (1 - Tr) (2 / 7)
    let q ← fpow z (1 + p)
    return R * Tc / Pc * q

end Verif.Rackett
