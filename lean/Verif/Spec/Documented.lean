import Mathlib.Analysis.SpecialFunctions.Pow.Real
import Mathlib.Analysis.SpecialFunctions.Log.Base
import Mathlib.Analysis.SpecialFunctions.Trigonometric.Deriv
import Mathlib.MeasureTheory.Integral.IntervalIntegral.Basic

/-!
# The formulas of the docstrings

Transcribed from the LaTeX of the docstrings (files named at each section), with the arrangement used there.
-/

namespace Verif.Documented

open Real

noncomputable section

/-! ## Heat transfer (hmt/correlations.py) -/

/-- `Nu_tube`, laminar; `x = (D/L) Re Pr`. -/
def tubeLaminar (x : ℝ) : ℝ := 3.66 + 0.0668 * x / (1 + 0.04 * x ^ (2 / 3 : ℝ))

/-- `Nu_tube`, turbulent, for Darcy friction factor `f`. -/
def tubeTurbulent (f Re Pr : ℝ) : ℝ := f / 8 * (Re - 1000) * Pr / (1 + 12.7 * (f / 8) ^ (1 / 2 : ℝ) * (Pr ^ (2 / 3 : ℝ) - 1))

/-- `fD_Haaland` (flow/friction.py): the friction factor satisfies this equation. -/
def Haaland (f Re er : ℝ) : Prop := 0 < f ∧ 1 / √f = -1.8 * logb 10 ((er / 3.7) ^ (1.11 : ℝ) + 6.9 / Re)

/-- `Nu_plate`, laminar. -/
def plateLaminar (Re Pr : ℝ) : ℝ := 0.664 * √Re * Pr ^ (1 / 3 : ℝ)

/-- `Nu_plate`, mixed; the docstring has `A = 871`. -/
def plateMixed (A Re Pr : ℝ) : ℝ := (0.037 * Re ^ (4 / 5 : ℝ) - A) * Pr ^ (1 / 3 : ℝ)

/-- `Nu_cylinder`. -/
def cylinder (Re Pr : ℝ) : ℝ :=
  0.3 + 0.62 * √Re * Pr ^ (1 / 3 : ℝ) * (1 + (0.4 / Pr) ^ (2 / 3 : ℝ)) ^ (-(1 / 4) : ℝ) * (1 + (Re / (282 * 10 ^ 3)) ^ (5 / 8 : ℝ)) ^ (4 / 5 : ℝ)

/-- The fraction of `Nu_cylinder_free`, `Nu_plate_free` (vertical). -/
def churchill (c Ra Pr : ℝ) : ℝ := 0.387 * Ra ^ (1 / 6 : ℝ) * (1 + (c / Pr) ^ (9 / 16 : ℝ)) ^ (-(8 / 27) : ℝ)

/-- `Nu_sphere`. -/
def sphere (Re Pr mur : ℝ) : ℝ := 2 + (0.4 * √Re + 0.06 * Re ^ (2 / 3 : ℝ)) * Pr ^ (2 / 5 : ℝ) * mur ^ (1 / 4 : ℝ)

/-- `Nu_drop`. -/
def drop (Re Pr : ℝ) : ℝ := 2 + 0.6 * √Re * Pr ^ (1 / 3 : ℝ)

/-- `Nu_sphere_free`. -/
def sphereFree (Ra Pr : ℝ) : ℝ := 2 + 0.589 * Ra ^ (1 / 4 : ℝ) * (1 + (0.469 / Pr) ^ (9 / 16 : ℝ)) ^ (-(4 / 9) : ℝ)

/-- `Nu_cylinder_bank`: `C` and `m` of Zukauskas (Incropera, table 7.5; single cylinder between 100 and 1000). -/
def bankC (aligned : Bool) (Re ratio : ℝ) : ℝ × ℝ :=
  if Re < 100 then (if aligned then 0.80 else 0.90, 0.40)
  else if Re < 1000 then (0.51, 0.5)
  else if Re < 200000 then (if aligned then (0.27, 0.63) else if ratio < 2 then (0.35 * ratio ^ (1 / 5 : ℝ), 0.60) else (0.40, 0.60))
  else (if aligned then 0.021 else 0.022, 0.84)

/-- `Nu_cylinder_bank`: correction for the number of rows (Incropera, table 7.6). -/
def bankRows (aligned : Bool) : List (ℕ × ℝ) :=
  if aligned then [(1, 0.70), (2, 0.80), (3, 0.86), (4, 0.90), (5, 0.92), (7, 0.95), (10, 0.97), (13, 0.98), (16, 0.99)]
  else [(1, 0.64), (2, 0.76), (3, 0.84), (4, 0.89), (5, 0.92), (7, 0.95), (10, 0.97), (13, 0.98), (16, 0.99)]

/-- `Nu_cylinder_bank`: velocity in the narrowest passage, the transverse one or (staggered) the larger of the transverse and the diagonal one. -/
def bankV (aligned : Bool) (v D ST SL : ℝ) : ℝ :=
  if aligned then ST / (ST - D) * v else max (ST / (ST - D) * v) (ST / (2 * (√(SL ^ 2 + (ST / 2) ^ 2) - D)) * v)

/-- `Nu_cylinder_bank`. -/
def bank (C2 : ℝ) (C : ℝ × ℝ) (Re Pr Prs : ℝ) : ℝ := C2 * C.1 * Re ^ C.2 * Pr ^ (0.36 : ℝ) * (Pr / Prs) ^ (1 / 4 : ℝ)

/-! ## Residence time distributions (reactors/rtd.py) -/

/-- `E_tanks_series`. -/
def tanksE (t τ : ℝ) (N : ℕ) : ℝ := 1 / τ * (t / τ) ^ (N - 1) * ((N : ℝ) ^ N / (N - 1).factorial) * exp (-(N * t / τ))

/-- `F_tanks_series`. -/
def tanksF (t τ : ℝ) (N : ℕ) : ℝ := 1 - exp (-(N * t / τ)) * ∑ i ∈ Finset.range N, (N * t / τ) ^ i / i.factorial

/-- `E_dispersion_model` for `Pe > 100`. -/
def dispersionE (θ τ Pe : ℝ) : ℝ := 1 / τ * √(Pe / (4 * π)) * exp (-(Pe / 4 * (1 - θ) ^ 2))

/-- `E_dispersion_model` otherwise. -/
def openOpenE (θ τ Pe : ℝ) : ℝ := 1 / τ * √(Pe / (4 * π * θ)) * exp (-(Pe / 4 * ((1 - θ) ^ 2 / θ)))

/-- The integral of `F_dispersion_model`, `Pe ≤ 100`, without the factor in front of it. -/
def openOpenF (θ Pe : ℝ) : ℝ := √(Pe / (4 * π)) * ∫ x in (0 : ℝ)..θ, 1 / √x * exp (-(Pe / 4 * ((1 - x) ^ 2 / x)))

/-! ## Flow (flow/friction.py, flow/rheology.py) -/

/-- Friction factor of a packing (Sato and Tallmadge). -/
def packing (Re : ℝ) : ℝ := 150 / Re + 4.2 / Re ^ (1 / 6 : ℝ)

/-- `DP_packed_bed`. -/
def packedBed (G eps f rho Dp L : ℝ) : ℝ := G ^ 2 * (1 - eps) * f / (rho * Dp * eps ^ 3) * L

/-- `Cd_sphere` (Turton and Levenspiel). -/
def turton (Re : ℝ) : ℝ := 24 / Re * (1 + 0.173 * Re ^ (0.657 : ℝ)) + 0.413 / (1 + 16300 / Re ^ (1.09 : ℝ))

/-- The factor `1 + C/X + 1/X²` of `DP_GL_Lockhart_Martinelli`, which the docstring calls `φ`. -/
def phiL (C X : ℝ) : ℝ := 1 + C / X + 1 / X ^ 2

/-- Müller-Steinhagen & Heck (1986): pressure gradient from the gradients `A` and `B` of the whole flow as liquid and as gas. -/
def muellerHeck (A B x : ℝ) : ℝ := (A + 2 * (B - A) * x) * (1 - x) ^ (1 / 3 : ℝ) + B * x ^ 3

/-- Müller-Steinhagen & Heck (1986): Blasius friction factor above `Re = 1187`. -/
def blasius (Re : ℝ) : ℝ := if Re ≤ 1187 then 64 / Re else 0.3164 * Re ^ (-(1 / 4) : ℝ)

/-! ## Equations of state (thermo/eos/cubic.py) -/

/-- `a P_c / (R T_c)²` of Redlich and Kwong. -/
def rkA (Tr : ℝ) : ℝ := 0.42748 * Tr ^ (-(1 / 2) : ℝ)

/-- The common form of the later equations: `f` is the polynomial in the acentric factor. -/
def soaveA (Ω f Tr : ℝ) : ℝ := Ω * (1 + f * (1 - Tr ^ (1 / 2 : ℝ))) ^ 2

/-- Polynomial of Soave. -/
def fSoave (w : ℝ) : ℝ := 0.48 + 1.574 * w - 0.176 * w ^ 2

/-- Polynomial of Graboski and Daubert (1978). -/
def fGraboski (w : ℝ) : ℝ := 0.48508 + 1.55171 * w - 0.15613 * w ^ 2

/-- Polynomial of Peng and Robinson. -/
def fPR (w : ℝ) : ℝ := 0.37464 + 1.54226 * w - 0.26992 * w ^ 2

end

end Verif.Documented
