import Verif.Model.PDiv
import Mathlib.Analysis.SpecialFunctions.Log.Base
import Mathlib.Analysis.SpecialFunctions.Pow.Real

/-!
# Model of `flow/prv.py`: pressure relief valve sizing

Divisions by Python floats that can vanish in range are `pdiv` (`ZeroDivisionError`). Divisions by
numpy scalars (anything multiplied by a numpy square root) are total real divisions; the theorems only
use them with nonzero divisors. Square roots of negative numbers (NaN) are only modelled in the liquid sizing.
-/

namespace Verif.Prv

open Real

noncomputable section

/-- `PRVResult` (lines 19-39). `Pcf = none` stands for NaN. -/
structure Result where
  Pcf : Option ℝ
  critical : Prop
  A : ℝ

/-- Steam correction `KN` (lines 135-140); `P1` in kPa. -/
def steamKN (P1 : ℝ) : Except Err ℝ :=
  if P1 ≤ 10339 then .ok 1 else if P1 < 22057 then pdiv (0.02764 * P1 - 1000) (0.03324 * P1 - 1061) else .error .ValueError

/-- Critical flow nozzle pressure (line 130). -/
def gasPcf (P1 k : ℝ) : Except Err ℝ := do
  let a ← pdiv 2 (k + 1)
  let b ← pdiv k (k - 1)
  return P1 * a ^ b

/-- `area_relief_gas`, critical branch (lines 134-144); `P1` in kPa. -/
def gasCrit (W P1 T k M Z : ℝ) (steam : Bool) (Kd Kb Kc KSH : ℝ) : Except Err ℝ := do
  if steam then
    let KN ← steamKN P1
    pdiv (190.5 * W) (P1 * Kd * Kb * Kc * KN * KSH)
  else
    let a ← pdiv 2 (k + 1)
    let b ← pdiv (k + 1) (k - 1)
    let C := 0.03948 * √(k * a ^ b)
    let q ← pdiv (T * Z) M
    return W / (C * Kd * P1 * Kb * Kc) * √q

/-- `area_relief_gas`, subcritical branch (lines 146-148); `P1`, `P2` in kPa. -/
def gasSub (W P1 P2 T k M Z Kd Kc : ℝ) : Except Err ℝ := do
  let r ← pdiv P2 P1
  let a ← pdiv k (k - 1)
  let b ← pdiv 2 k
  let c ← pdiv (k - 1) k
  let d ← pdiv (1 - r ^ c) (1 - r)
  let F2 := √(a * r ^ b * d)
  let q ← pdiv (T * Z) (M * P1 * (P1 - P2))
  return 17.9 * W / (F2 * Kd * Kc) * √q

/-- `area_relief_gas` (lines 125-150); pressures in bar. -/
def areaGas (W P1 P2 T k M Z : ℝ) (steam : Bool) (Kd Kb Kc KSH : ℝ) : Except Err Result := do
  let P1 := P1 * 100
  let P2 := P2 * 100
  let Pcf ← gasPcf P1 k
  let A ← if P2 ≤ Pcf then gasCrit W P1 T k M Z steam Kd Kb Kc KSH else gasSub W P1 P2 T k M Z Kd Kc
  return ⟨some (Pcf / 100), P2 ≤ Pcf, A⟩

/-- numpy square root: `none` is NaN. -/
def nsqrt (x : ℝ) : Option ℝ := if x < 0 then none else some √x

/-- numpy division: `none` is NaN or an infinity. -/
def ndiv (a b : ℝ) : Option ℝ := if b = 0 then none else some (a / b)

/-- Reynolds number and viscosity correction of `area_relief_liquid` (lines 232-233). `Re` is a numpy scalar. -/
def liqKv (Q Gl mu A : ℝ) : Option ℝ := do
  let s ← nsqrt A
  let Re ← ndiv (18800 * Q * Gl) (mu * s)
  if Re ≤ 0 then none else
    ndiv 1 (0.9935 + 2.878 / Re ^ (0.5 : ℝ) + 342.75 / Re ^ (1.5 : ℝ))

/-- Loop of `area_relief_liquid` (lines 227-241) from the second iteration on. `c` is `sqrt(Gl/(P1-P2))`, `K` the
product `Kd Kw Kc`. A NaN or infinity never satisfies the stopping test and persists, so it ends in the
`ValueError` of line 244. -/
def liqLoop (Q Gl mu K c : ℝ) : ℕ → ℝ → Except Err ℝ
  | 0, _ => .error .ValueError
  | n + 1, Aold =>
    match liqKv Q Gl mu Aold with
    | none => .error .ValueError
    | some Kv =>
      match ndiv (11.78 * Q) (K * Kv) with
      | none => .error .ValueError
      | some q =>
        let A := q * c
        match ndiv (A - Aold) A with
        | none => .error .ValueError
        | some e => if |e| < 1e-5 then .ok A else liqLoop Q Gl mu K c n A

/-- `area_relief_liquid` (lines 219-246); pressures in bar. In the first iteration `A_old = 0`, so the relative
change is one (or NaN) and the loop goes on. -/
def areaLiquid (Q P1 P2 mu Gl Kd Kw Kc : ℝ) : Except Err ℝ := do
  let P1 := P1 * 100
  let P2 := P2 * 100
  let q ← pdiv (11.78 * Q) (Kd * Kw * Kc * 1)
  let d ← pdiv Gl (P1 - P2)
  match nsqrt d with
  | none => throw .ValueError
  | some c => liqLoop Q Gl mu (Kd * Kw * Kc) c 49 (q * c)

/-- Critical pressure ratio of `area_relief_2phase` (lines 331-333). -/
def omegaEta (w : ℝ) : ℝ := (1 + (1.0446 - 0.0093431 * √w) * w ^ (-0.56261 : ℝ)) ^ (-0.70356 + 0.014685 * log w)

/-- Mass flux of `area_relief_2phase` (lines 340-348); pressures in Pa. -/
def omegaG (P1 P2 v1 w etac : ℝ) : ℝ :=
  if P2 ≤ P1 * etac then etac * √(P1 / (v1 * w))
  else √(-2 * (w * log (P2 / P1) + (w - 1) * (1 - P2 / P1))) * √(P1 / v1) / (w * (1 / (P2 / P1) - 1) + 1)

/-- `area_relief_2phase` (lines 323-353); pressures in bar. `w = 0` raises in `w ** (-0.56261)`; `w < 0` (outside the
method's range) is not modelled and given the same error. -/
def area2phase (W P1 P2 v1 v9 Kd Kb Kc Kv : ℝ) : Except Err Result := do
  let P1 := P1 * 100000
  let P2 := P2 * 100000
  let x ← pdiv v9 v1
  let w := 9 * (x - 1)
  if w ≤ 0 then throw .ZeroDivisionError
  let etac := omegaEta w
  return ⟨some (P1 * etac / 100000), P2 ≤ P1 * etac, 277.8 * W / (Kd * Kb * Kc * Kv * omegaG P1 P2 v1 w etac)⟩

/-- `ηc_` of `area_relief_2phase_subcooled` (lines 457-461). -/
def subEta_ (ws es : ℝ) : Except Err ℝ := do
  let a ← pdiv (2 * ws) (2 * ws - 1)
  let b ← pdiv 1 es
  let c ← pdiv (2 * ws - 1) (2 * ws)
  return es * a * (1 - √(1 - b * c))

/-- Mass flux in the low subcooling region (lines 466-470). -/
def subG (P1 rho1 ws es e : ℝ) : ℝ :=
  √(2 * (1 - es) + 2 * (ws * es * log (es / e) - (ws - 1) * (es - e))) * √(P1 * rho1) / (ws * (es / e - 1) + 1)

/-- `area_relief_2phase_subcooled` (lines 434-475); pressures in bar. -/
def areaSubcooled (Q P1 P2 Ps rho1 rho9 Kd Kb Kc Kv : ℝ) : Except Err Result := do
  let P1 := P1 * 100000
  let P2 := P2 * 100000
  let Ps := Ps * 100000
  let x ← pdiv rho1 rho9
  let ws := 9 * (x - 1)
  let est ← pdiv (2 * ws) (1 + 2 * ws)
  let es ← pdiv Ps P1
  let ea ← pdiv P2 P1
  if es < est then
    let P := if P2 ≤ Ps then Ps else P2
    let G := 1.414 * √(rho1 * (P1 - P))
    return ⟨none, P2 ≤ Ps, 16.67 * Q * rho1 / (Kd * Kb * Kc * Kv * G)⟩
  else
    let ec_ ← subEta_ ws es
    let ec := if es > est then ec_ else es
    let Pcf := P1 * ec
    let e := if P2 ≤ Pcf then ec else ea
    return ⟨some (Pcf / 100000), P2 ≤ Pcf, 16.67 * Q * rho1 / (Kd * Kb * Kc * Kv * subG P1 rho1 ws es e)⟩

end

end Verif.Prv
