import Mathlib.Analysis.SpecialFunctions.Pow.Real
import Mathlib.Analysis.SpecialFunctions.Log.Base
import Mathlib.Analysis.Real.Pi.Bounds

/-!
# Published estimation equations, in the units of the publications

Transcribed from the literature cited in the docstrings (Poling, Prausnitz & O'Connell, *The properties of gases and liquids*; Reid & Sherwood; the
original articles), not from the code. Every quantity is in the unit of the publication, which is stated; `gmol`, `cP`, … convert from SI.
-/

namespace Verif.Published

open Real

noncomputable section

/-! ## Units -/

/-- kg/mol to g/mol. -/
def gmol (M : ℝ) : ℝ := 1000 * M

/-- Pa·s to cP. -/
def cP (mu : ℝ) : ℝ := 1000 * mu

/-- Pa·s to µP. -/
def microP (mu : ℝ) : ℝ := 10 ^ 7 * mu

/-- m³/mol to cm³/mol. -/
def cm3 (v : ℝ) : ℝ := 10 ^ 6 * v

/-- m²/s to cm²/s. -/
def cm2s (D : ℝ) : ℝ := 10 ^ 4 * D

/-- Pa to bar. -/
def bar (P : ℝ) : ℝ := P / 10 ^ 5

/-- Pa to atm. -/
def atm (P : ℝ) : ℝ := P / 101325

/-! ## Diffusion coefficients -/

/-- Wilke & Chang (1955): `D` in cm²/s from `M_B` in g/mol, `T` in K, `η_B` in cP, `V_A` in cm³/mol. -/
def wilkeChang (phi MB T etaB VA : ℝ) : ℝ := 7.4e-8 * (phi * MB) ^ (1 / 2 : ℝ) * T * etaB⁻¹ * VA ^ (-0.6 : ℝ)

/-- Hayduk & Minhas (1982), normal paraffins: `D` in cm²/s, `η_B` in cP, `V_A` in cm³/mol. -/
def haydukMinhasParaffin (T etaB VA : ℝ) : ℝ := 13.3e-8 * T ^ (1.47 : ℝ) * etaB ^ (10.2 / VA - 0.791) * VA ^ (-0.71 : ℝ)

/-- Hayduk & Minhas (1982), aqueous solutions: `D` in cm²/s, `η_B` in cP, `V_A` in cm³/mol. -/
def haydukMinhasAqueous (T etaB VA : ℝ) : ℝ := 1.25e-8 * (VA ^ (-0.19 : ℝ) - 0.292) * T ^ (1.52 : ℝ) * etaB ^ (9.58 / VA - 1.12)

/-- Neufeld's collision integral for diffusion, constants A to H. -/
def neufeld (T : ℝ) : ℝ :=
  1.06036 * T ^ (-0.15610 : ℝ) + 0.19300 * exp (-(0.47635 * T)) + 1.03587 * exp (-(1.52996 * T)) + 1.76474 * exp (-(3.89411 * T))

/-- Molecule seen by Wilke & Lee: characteristic length in Å and energy over Boltzmann's constant in K. -/
structure LJ where
  sigma : ℝ
  eps : ℝ

/-- Wilke & Lee (1955): length and energy of a molecule from the liquid volume at the boiling point (cm³/mol) and the boiling point (K). -/
def wilkeLeeLJ (Vb Tb : ℝ) : LJ := ⟨1.18 * Vb ^ (1 / 3 : ℝ), 1.15 * Tb⟩

/-- Length and energy of air (Wilke & Lee). -/
def airLJ : LJ := ⟨3.62, 97⟩

/-- Wilke & Lee (1955): `D` in cm²/s from `T` in K, `P` in bar, molar masses in g/mol. -/
def wilkeLee (T P MA MB : ℝ) (A B : LJ) : ℝ :=
  let M := 2 / (1 / MA + 1 / MB)
  let sigma := (A.sigma + B.sigma) / 2
  let eps := (A.eps * B.eps) ^ (1 / 2 : ℝ)
  (3.03 - 0.98 / M ^ (1 / 2 : ℝ)) * 1e-3 * T ^ (3 / 2 : ℝ) / (P * M ^ (1 / 2 : ℝ) * sigma ^ 2 * neufeld (T / eps))

/-! ## Viscosity -/

/-- Inverse viscosity of Jossi, Stiel & Thodos (1962) in 1/µP; `Tc` in K, `Pc` in atm, `M` in g/mol. -/
def xiJossi (Tc Pc M : ℝ) : ℝ := Tc ^ (1 / 6 : ℝ) * M ^ (-(1 / 2) : ℝ) * Pc ^ (-(2 / 3) : ℝ)

/-- Right-hand side of Jossi, Stiel & Thodos: `[(μ - μ°) ξ + 1]^(1/4)`. -/
def jossi (r : ℝ) : ℝ := 1.0230 + 0.23364 * r + 0.58533 * r ^ 2 - 0.40758 * r ^ 3 + 0.093324 * r ^ 4

/-- Right-hand side of Dean & Stiel (1965): `(μ - μ°) ξ`, `μ` in cP and `ξ` in the units of `xiJossi`. -/
def deanStiel (r : ℝ) : ℝ := 10.8e-5 * (exp (1.439 * r) - exp (-(1.111 * r ^ (1.858 : ℝ))))

/-- Lucas: inverse viscosity in 1/µP; `Tc` in K, `Pc` in bar, `M` in g/mol. -/
def xiLucas (Tc Pc M : ℝ) : ℝ := 0.176 * (Tc / (M ^ 3 * Pc ^ 4)) ^ (1 / 6 : ℝ)

/-- Lucas: reduced dipole moment; the dipole moment in debye, `Pc` in bar. -/
def dipoleLucas (mu Pc Tc : ℝ) : ℝ := 52.46 * (mu ^ 2 * Pc / Tc ^ 2)

/-- Lucas: polarity factor at low pressure. -/
def polarityLucas (mur Zc Tr : ℝ) : ℝ :=
  if mur ≤ 0.022 then 1
  else if mur < 0.075 then 1 + 30.55 * (0.292 - Zc) ^ (1.72 : ℝ)
  else 1 + 30.55 * (0.292 - Zc) ^ (1.72 : ℝ) * |0.96 + 0.1 * (Tr - 0.7)|

/-- Lucas: `η° ξ` at low pressure for polarity factor `F`. -/
def lowLucas (Tr F : ℝ) : ℝ := (0.807 * Tr ^ (0.618 : ℝ) - 0.357 * exp (-0.449 * Tr) + 0.340 * exp (-4.058 * Tr) + 0.018) * F

/-- Lucas: `Z2` for subcritical temperature and reduced pressure below one. -/
def subLucas (Tr Pr : ℝ) : ℝ :=
  let α := 3.262 + 14.98 * Pr ^ (5.508 : ℝ)
  let β := 1.390 + 5.746 * Pr
  0.600 + 0.760 * Pr ^ α + (6.990 * Pr ^ β - 0.6) * (1 - Tr)

/-- Lucas: `Z2 / (η° ξ)` otherwise. -/
def supLucas (Tr Pr : ℝ) : ℝ :=
  let A := 0.001245 * Tr⁻¹ * exp (5.1726 / Tr ^ (0.3286 : ℝ))
  let B := A * (1.6553 * Tr - 1.2723)
  let C := 0.4489 * Tr⁻¹ * exp (3.0578 / Tr ^ (37.7332 : ℝ))
  let D := 1.7368 * Tr⁻¹ * exp (2.2310 / Tr ^ (7.6351 : ℝ))
  let F := 0.9425 * exp (-(0.1853 * Tr ^ (0.4489 : ℝ)))
  1 + A * Pr ^ (1.3088 : ℝ) / (B * Pr ^ F + (1 + C * Pr ^ D)⁻¹)

/-- Lucas: viscosity in µP. -/
def lucas (Tr Pr xi F0 : ℝ) : ℝ :=
  let Z1 := lowLucas Tr F0
  let Z2 := if Tr ≤ 1 ∧ Pr < 1 then subLucas Tr Pr else Z1 * supLucas Tr Pr
  let Y := Z2 / Z1
  let F := (1 + (F0 - 1) * (Y⁻¹) ^ 3) / F0
  Z2 * F / xi

/-! ## Thermal conductivity -/

/-- Stiel & Thodos (1964): `(λ - λ°) Γ Zc⁵` as a function of the reduced density below 2.8. -/
def stielThodos (r : ℝ) : ℝ :=
  if r < 0.5 then 0.0122 * (exp (0.535 * r) - 1)
  else if r < 2 then 0.0114 * (exp (0.67 * r) - 1.069)
  else 0.0026 * (exp (1.155 * r) + 2.016)

/-- The group `Γ` of Stiel & Thodos with `Tc` in K, `M` in g/mol, `Pc` in bar; `Γ⁻¹` in W/(m K). -/
def gammaStielThodos (Tc M Pc : ℝ) : ℝ := 210 * (Tc * M ^ 3 / Pc ^ 4) ^ (1 / 6 : ℝ)

/-! ## Vapour pressure -/

/-- Lee & Kesler (1975): `f⁽⁰⁾`. -/
def lk0 (Tr : ℝ) : ℝ := 5.92714 - 6.09648 / Tr - 1.28862 * log Tr + 0.169347 * Tr ^ 6

/-- Lee & Kesler (1975): `f⁽¹⁾`. -/
def lk1 (Tr : ℝ) : ℝ := 15.2518 - 15.6875 / Tr - 13.4721 * log Tr + 0.43577 * Tr ^ 6

/-- Lee & Kesler (1975): acentric factor from the reduced boiling point `θ` and the critical pressure in atm. -/
def lkOmega (θ Pc : ℝ) : ℝ :=
  (-log Pc - 5.92714 + 6.09648 / θ + 1.28862 * log θ - 0.169347 * θ ^ 6) / (15.2518 - 15.6875 / θ - 13.4721 * log θ + 0.43577 * θ ^ 6)

/-- The form of the polynomials of Ambrose & Walton (1989). -/
def awForm (a b c d Tr : ℝ) : ℝ := (a * (1 - Tr) + b * (1 - Tr) ^ (3 / 2 : ℝ) + c * (1 - Tr) ^ (5 / 2 : ℝ) + d * (1 - Tr) ^ 5) / Tr

/-- Ambrose & Walton (1989): logarithm of the reduced vapour pressure. -/
def ambroseWalton (Tr w : ℝ) : ℝ :=
  awForm (-5.97616) 1.29874 (-0.60394) (-1.06841) Tr + w * awForm (-5.03365) 1.11505 (-5.41217) (-7.46628) Tr +
    w ^ 2 * awForm (-0.64771) 2.41539 (-4.26979) 3.25259 Tr

/-! ## Enthalpy of vaporisation -/

/-- Vetere: `ΔH / (R Tc)`; `Pc` in bar. -/
def vetere (Tbr Pc : ℝ) : ℝ := Tbr * (0.4343 * log Pc - 0.69431 + 0.89584 * Tbr) / (0.37691 - 0.37306 * Tbr + 0.15075 * Pc⁻¹ * (Tbr ^ 2)⁻¹)

/-- Kistiakowsky & Vetere: entropy of vaporisation in J/(mol K) of hydrocarbons; `M` in g/mol. -/
def kvHydrocarbon (M Tb : ℝ) : ℝ := 58.20 + 13.7 * logb 10 M + 6.49 / M * (Tb - (263 * M) ^ (0.581 : ℝ)) ^ (1.037 : ℝ)

/-- Kistiakowsky & Vetere: polar compounds except esters (3 % more), acids and alcohols. -/
def kvPolar (M Tb : ℝ) : ℝ := 44.367 + 15.33 * logb 10 Tb + 0.39137 * Tb / M + 0.004330 * Tb ^ 2 / M - 5.627 * 10⁻¹ ^ 6 * Tb ^ 3 / M

/-- Kistiakowsky & Vetere: alcohols and acids. -/
def kvAlcohol (M Tb : ℝ) : ℝ := 81.119 + 13.083 * logb 10 Tb - 25.769 * Tb / M + 0.146528 * Tb ^ 2 / M - 2.1362 * 10⁻¹ ^ 4 * Tb ^ 3 / M

/-! ## Second virial coefficient -/

/-- Abbott's form of the Pitzer correlation: `B Pc / (R Tc)`. -/
def abbott (Tr w : ℝ) : ℝ := 0.083 - 0.422 * Tr ^ (-1.6 : ℝ) + w * (0.139 - 0.172 * Tr ^ (-4.2 : ℝ))

end

end Verif.Published
