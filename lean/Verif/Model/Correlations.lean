import Verif.Model.Flow
import Verif.Model.Vaporization

/-!
# Model of the heat-transfer correlations (hmt/correlations.py)

Real numbers for floats. Reynolds, Prandtl, Rayleigh numbers and geometric ratios are meant to be positive; powers are `Real.rpow` and divisions are
total, the theorems assume positivity. `check_range_warn` prints a message; the names of the arguments reported are returned beside the value.
-/

namespace Verif.Correlations

open Real

noncomputable section

/-- `check_range_warn` (utils/tools.py, lines 373-375): the list of names printed. -/
def warn (x lo : ℝ) (hi : Option ℝ) (name : String) : List String :=
  if x < lo ∨ (∃ h ∈ hi, h < x) then [name] else []

/-- `Nu_tube` (lines 107-113). -/
def nuTube (Re Pr D_L er : ℝ) : ℝ :=
  if Re < 2.3e3 then 3.66 + (0.0668 * D_L * Re * Pr) / (1 + 0.04 * (D_L * Re * Pr) ^ (2 / 3 : ℝ))
  else
    let fD := Flow.fDHaaland Re er
    (fD / 8) * (Re - 1e3) * Pr / (1 + 12.7 * √(fD / 8) * (Pr ^ (2 / 3 : ℝ) - 1))

/-- `Nu_plate` (lines 150-157). -/
def nuPlate (Re Pr : ℝ) : ℝ × List String :=
  let Re_c := 5e5
  (if Re < Re_c then 0.664 * Re ^ (1 / 2 : ℝ) * Pr ^ (1 / 3 : ℝ)
    else
      let A := 0.037 * Re_c ^ (4 / 5 : ℝ) - 0.664 * Re_c ^ (1 / 2 : ℝ)
      (0.037 * Re ^ (4 / 5 : ℝ) - A) * Pr ^ (1 / 3 : ℝ),
    warn Pr 0.6 (some 60) "Pr")

/-- `Nu_cylinder` (lines 220-224). -/
def nuCylinder (Re Pr : ℝ) : ℝ × List String :=
  (0.3 + 0.62 * Re ^ (1 / 2 : ℝ) * Pr ^ (1 / 3 : ℝ) / (1 + (0.4 / Pr) ^ (2 / 3 : ℝ)) ^ (1 / 4 : ℝ) * (1 + (Re / 282e3) ^ (5 / 8 : ℝ)) ^ (4 / 5 : ℝ),
    warn (Re * Pr) 0.2 none "Re*Pr")

/-- `Nu_cylinder_free` (lines 287-291). -/
def nuCylinderFree (Ra Pr : ℝ) : ℝ × List String :=
  ((0.6 + 0.387 * Ra ^ (1 / 6 : ℝ) / (1 + (0.559 / Pr) ^ (9 / 16 : ℝ)) ^ (8 / 27 : ℝ)) ^ 2, warn Ra 0 (some 1e12) "Ra")

/-- `Nu_sphere` (lines 343-347). -/
def nuSphere (Re Pr mur : ℝ) : ℝ × List String :=
  (2 + (0.4 * Re ^ (1 / 2 : ℝ) + 0.06 * Re ^ (2 / 3 : ℝ)) * Pr ^ (0.4 : ℝ) * mur ^ (1 / 4 : ℝ),
    warn Re 3.5 (some 7.6e4) "Re" ++ warn Pr 0.71 (some 380) "Pr" ++ warn mur 1 (some 3.2) "mur")

/-- `Nu_drop` (lines 405-408). -/
def nuDrop (Re Pr : ℝ) : ℝ × List String :=
  (2 + 0.6 * Re ^ (1 / 2 : ℝ) * Pr ^ (1 / 3 : ℝ), warn Re 0 (some 1000) "Re" ++ warn Pr 0.7 (some 100) "Pr")

/-- `surface` of `Nu_tank`; any other string is `other`. -/
inductive Surface where
  | wall | bottomHead | helicalCoil | harpCoil0 | harpCoil45 | other
  deriving DecidableEq

/-- `impeller` of `Nu_tank`; any other string is `other`. -/
inductive Impeller where
  | b4F | b4P | b6D | HE3 | PROP | anchor | helicalRibbon | other
  deriving DecidableEq

/-- The local variables `K, a, b, Gc` of `Nu_tank` after the branches of lines 500-591 (`c = 0.14` always). -/
structure TankPar where
  K : ℝ := 0
  a : ℝ := 2 / 3
  b : ℝ := 1 / 3
  Gc : ℝ := 1

/-- The branches of `Nu_tank` (lines 506-591). -/
def tankPar (surface : Surface) (impeller : Impeller) (Re D_T H_T L_Ls d_T P_D : ℝ) (nb : ℕ) : Except Err TankPar :=
  let h := H_T ^ (-0.15 : ℝ)
  let l := L_Ls ^ (0.2 : ℝ)
  match surface with
  | .wall =>
    match impeller with
    | .b6D => .ok { K := 0.74, Gc := h * l }
    | .b4F => .ok { K := 0.66, Gc := h * l }
    | .b4P => .ok { K := 0.45, Gc := h * l }
    | .HE3 => .ok { K := 0.31, Gc := h }
    | .PROP => .ok { K := 0.50, Gc := h * 1.29 * P_D / (0.29 + P_D) }
    | .anchor =>
      if Re < 12 then .ok { K := 0 }
      else if 12 ≤ Re ∧ Re < 100 then .ok { K := 0.69, a := 1 / 2 }
      else if 100 ≤ Re then .ok { K := 0.32 }
      else .ok {}
    | .helicalRibbon =>
      if Re < 13 then .ok { K := 0.94, a := 1 / 3 }
      else if 13 ≤ Re ∧ Re < 210 then .ok { K := 0.61, a := 1 / 2 }
      else .ok { K := 0.25 }
    | _ => .error .ValueError
  | .bottomHead =>
    match impeller with
    | .b6D => .ok { K := 0.50, Gc := h * l }
    | .b4F => .ok { K := 0.40, Gc := h * l }
    | .b4P => .ok { K := 1.08, Gc := h * l }
    | .HE3 => .ok { K := 0.90, Gc := h }
    | _ => .error .ValueError
  | .helicalCoil =>
    match impeller with
    | .PROP => .ok { K := 0.016, a := 0.67, b := 0.37, Gc := (D_T / (1 / 3)) ^ (0.1 : ℝ) * (d_T / 0.04) ^ (0.5 : ℝ) }
    | .b6D => .ok { K := 0.03, Gc := h * l * (D_T / (1 / 3)) ^ (0.1 : ℝ) * (d_T / 0.04) ^ (0.5 : ℝ) }
    | _ => .error .ValueError
  | .harpCoil0 =>
    match impeller with
    | .b4F => .ok { K := 0.06, a := 0.65, b := 0.3, Gc := h * l * (D_T / (1 / 3)) ^ (0.33 : ℝ) * (2 / nb) ^ (0.2 : ℝ) }
    | _ => .error .ValueError
  | .harpCoil45 =>
    match impeller with
    | .b6D => .ok { K := 0.021, a := 0.67, b := 0.4, Gc := h * l * (D_T / (1 / 3)) ^ (0.33 : ℝ) * (2 / nb) ^ (0.2 : ℝ) }
    | _ => .error .ValueError
  | .other => .error .ValueError

/-- `Nu_tank` (lines 499-593). -/
def nuTank (surface : Surface) (impeller : Impeller) (Re Pr mur D_T H_T L_Ls d_T P_D : ℝ) (nb : ℕ) : Except Err ℝ := do
  let p ← tankPar surface impeller Re D_T H_T L_Ls d_T P_D nb
  return p.K * Re ^ p.a * Pr ^ p.b * mur ^ (0.14 : ℝ) * p.Gc

/-- `numpy.interp(x, xp, fp)` for increasing abscissae, given as a list of points. -/
def interp (x : ℝ) : List (ℝ × ℝ) → ℝ
  | [] => 0
  | [p] => p.2
  | p :: q :: l =>
    if x ≤ p.1 then p.2
    else if x ≤ q.1 then p.2 + (q.2 - p.2) / (q.1 - p.1) * (x - p.1)
    else interp x (q :: l)

/-- The table of lines 734-735. -/
def tableAligned : List (ℝ × ℝ) :=
  [(1, 0.70), (2, 0.80), (3, 0.86), (4, 0.90), (5, 0.92), (7, 0.95), (10, 0.97), (13, 0.98), (16, 0.99), (20, 1.00)]

/-- The table of lines 740-741. -/
def tableStaggered : List (ℝ × ℝ) :=
  [(1, 0.64), (2, 0.76), (3, 0.84), (4, 0.89), (5, 0.92), (7, 0.95), (10, 0.97), (13, 0.98), (16, 0.99), (20, 1.00)]

/-- `C2` of `Nu_cylinder_bank` (lines 730-744). -/
def bankC2 (aligned : Bool) (NL : ℕ) : ℝ := if NL < 20 then (if aligned then interp NL tableAligned else interp NL tableStaggered) else 1

/-- `vmax` of `Nu_cylinder_bank` (lines 685-689). -/
def bankVmax (v D ST SL : ℝ) (aligned : Bool) : ℝ :=
  let SD := √(SL ^ 2 + (ST / 2) ^ 2)
  if aligned = false ∧ SD < (ST + D) / 2 then v * ST / (2 * (SD - D)) else v * ST / (ST - D)

/-- `C * Re_max**m` of `Nu_cylinder_bank` (lines 697-727). -/
def bankCRe (Re ST SL : ℝ) (aligned : Bool) : ℝ :=
  if aligned then
    if Re < 1e2 then 0.8 * Re ^ (0.4 : ℝ)
    else if 1e2 ≤ Re ∧ Re < 1e3 then 0.51 * Re ^ (0.50 : ℝ)
    else if 1e3 ≤ Re ∧ Re < 2e5 then 0.27 * Re ^ (0.63 : ℝ)
    else 0.021 * Re ^ (0.84 : ℝ)
  else
    if Re < 1e2 then 0.9 * Re ^ (0.4 : ℝ)
    else if 1e2 ≤ Re ∧ Re < 1e3 then 0.51 * Re ^ (0.50 : ℝ)
    else if 1e3 ≤ Re ∧ Re < 2e5 then (if ST / SL < 2 then 0.35 * (ST / SL) ^ (0.2 : ℝ) else 0.40) * Re ^ (0.60 : ℝ)
    else 0.022 * Re ^ (0.84 : ℝ)

/-- `Nu_cylinder_bank` (lines 684-746). -/
def nuCylinderBank (v rho mu Pr Prs : ℝ) (aligned : Bool) (D ST SL : ℝ) (NL : ℕ) : ℝ × List String :=
  let vmax := bankVmax v D ST SL aligned
  let Re := rho * vmax * D / mu
  (bankC2 aligned NL * (bankCRe Re ST SL aligned * Pr ^ (0.36 : ℝ) * (Pr / Prs) ^ (1 / 4 : ℝ)), warn Re 1e1 (some 2e6) "Re_max" ++ warn Pr 0.7 (some 500) "Pr")

/-- `Nu_sphere_free` (lines 809-812). -/
def nuSphereFree (Ra Pr : ℝ) : ℝ × List String :=
  (2 + 0.589 * Ra ^ (1 / 4 : ℝ) / (1 + (0.469 / Pr) ^ (9 / 16 : ℝ)) ^ (4 / 9 : ℝ), warn Ra 0 (some 1e11) "Ra" ++ warn Pr 0.7 none "Pr")

/-- `orientation` of `Nu_plate_free`; any other string is `other`. -/
inductive Orientation where
  | vertical | upper | lower | other
  deriving DecidableEq

/-- `Nu_plate_free` (lines 912-930). `if Pr:` is false for `None` and for zero. -/
def nuPlateFree (o : Orientation) (Ra : ℝ) (Pr : Option ℝ) : Except Err (ℝ × List String) :=
  match o with
  | .vertical =>
    match Pr with
    | none => .error .ValueError
    | some p => if p = 0 then .error .ValueError else .ok ((0.825 + 0.387 * Ra ^ (1 / 6 : ℝ) / (1 + (0.492 / p) ^ (9 / 16 : ℝ)) ^ (8 / 27 : ℝ)) ^ 2, [])
  | .upper => .ok (if Ra < 1e7 then 0.54 * Ra ^ (1 / 4 : ℝ) else 0.15 * Ra ^ (1 / 3 : ℝ), warn Ra 1e4 (some 1e11) "Ra")
  | .lower => .ok (0.27 * Ra ^ (1 / 4 : ℝ), warn Ra 1e5 (some 1e10) "Ra")
  | .other => .error .ValueError

/-- `numpy.cbrt`. -/
def cbrt (x : ℝ) : ℝ := if x < 0 then -((-x) ^ (1 / 3 : ℝ)) else x ^ (1 / 3 : ℝ)

/-- `Nu_combined` (lines 982-985). -/
def nuCombined (forced free : ℝ) (assisted : Bool) : ℝ := if assisted then cbrt (forced ^ 3 + free ^ 3) else cbrt (forced ^ 3 - free ^ 3)

end

end Verif.Correlations
