import Verif.Model.Basic
import Verif.Model.Mixing
import Mathlib.Analysis.SpecialFunctions.Log.Basic
import Mathlib.Analysis.SpecialFunctions.Exp
import Mathlib.Data.List.MinMax

/-!
# Equations of state

Model of `/repo/src/polykin/thermo/eos/` (`base.py`, `cubic.py`, `virial.py`, `idealgas.py`). Exact reals; the gas constant `R` is a parameter.
Caching of `a(T)` and `b` is not modelled (the parameters of an object are taken as constant). Divisions by zero and logarithms of
nonpositive numbers (NaN with a warning) are not modelled: the theorems are about states where they do not occur.
-/

namespace Verif.Eos

open Finset Verif.Mixing

variable {N : ℕ}

/-- The three cubic equations of state; `SRK` with its option `use_graboski`. -/
inductive Kind where
  | RK
  | SRK (graboski : Bool)
  | PR
  deriving DecidableEq

/-- `_u` (`cubic.py` lines 440, 505, 578). -/
def Kind.u : Kind → ℝ
  | .RK => 1
  | .SRK _ => 1
  | .PR => 2

/-- `_w` (lines 441, 506, 579). -/
def Kind.w : Kind → ℝ
  | .RK => 0
  | .SRK _ => 0
  | .PR => -1

/-- `_Ωa` (lines 442, 507, 580). -/
noncomputable def Kind.Ωa : Kind → ℝ
  | .RK => 0.42748
  | .SRK _ => 0.42748
  | .PR => 0.45724

/-- `_Ωb` (lines 443, 508, 581). -/
noncomputable def Kind.Ωb : Kind → ℝ
  | .RK => 0.08664
  | .SRK _ => 0.08664
  | .PR => 0.07780

/-- A cubic equation of state object (lines 91-98). -/
structure Cubic (N : ℕ) where
  kind : Kind
  Tc : Fin N → ℝ
  Pc : Fin N → ℝ
  w : Fin N → ℝ
  k : Option (Fin N → Fin N → ℝ)

/-- `_alpha` (lines 457, 525-533, 595-598). -/
noncomputable def alpha (e : Cubic N) (T : ℝ) (i : Fin N) : ℝ :=
  match e.kind with
  | .RK => √(e.Tc i / T)
  | .SRK true => (1 + (0.48508 + 1.55171 * e.w i - 0.1561 * e.w i ^ 2) * (1 - √(T / e.Tc i))) ^ 2
  | .SRK false => (1 + (0.48 + 1.574 * e.w i - 0.176 * e.w i ^ 2) * (1 - √(T / e.Tc i))) ^ 2
  | .PR => (1 + (0.37464 + 1.54226 * e.w i - 0.26992 * e.w i ^ 2) * (1 - √(T / e.Tc i))) ^ 2

/-- `a` (line 119). -/
noncomputable def a (R : ℝ) (e : Cubic N) (T : ℝ) (i : Fin N) : ℝ := e.kind.Ωa * (R * e.Tc i) ^ 2 / e.Pc i * alpha e T i

/-- `b` (line 131). -/
noncomputable def b (R : ℝ) (e : Cubic N) (i : Fin N) : ℝ := e.kind.Ωb * R * e.Tc i / e.Pc i

/-- `am` (line 156). -/
noncomputable def am (R : ℝ) (e : Cubic N) (T : ℝ) (z : Fin N → ℝ) : ℝ := geometric z (a R e T) e.k

/-- `bm` (line 179). -/
noncomputable def bm (R : ℝ) (e : Cubic N) (z : Fin N → ℝ) : ℝ := ∑ i, z i * b R e i

/-- `Bm` (line 203). -/
noncomputable def cubicBm (R : ℝ) (e : Cubic N) (T : ℝ) (z : Fin N → ℝ) : ℝ := bm R e z - am R e T z / (R * T)

/-- `CubicEoS.P` (lines 227-231). -/
noncomputable def cubicP (R : ℝ) (e : Cubic N) (T v : ℝ) (z : Fin N → ℝ) : ℝ :=
  let u := e.kind.u
  let w := e.kind.w
  let am := am R e T z
  let bm := bm R e z
  R * T / (v - bm) - am / (v ^ 2 + u * v * bm + w * bm ^ 2)

/-- Coefficients `(c2, c1, c0)` of the monic cubic (lines 647-649). -/
def cubicCoefs (u w A B : ℝ) : ℝ × ℝ × ℝ :=
  (-(1 + B - u * B), A + w * B ^ 2 - u * B - u * B ^ 2, -(A * B + w * B ^ 2 + w * B ^ 3))

/-- `eps` of numpy. -/
noncomputable def eps : ℝ := 1 / 2 ^ 52

/-- The root selection of `Z_cubic_roots` (lines 652-658), given the list returned by `np.roots` as (real, imaginary) parts; `min` of an empty list
raises `ValueError`. -/
noncomputable def selectRoots (roots : List (ℝ × ℝ)) (B : ℝ) : Except Err (List ℝ) :=
  match (roots.filter fun x => decide (|x.2| < eps ∧ x.1 > B)).map Prod.fst with
  | [] => .error .ValueError
  | r :: rs =>
    let Z := [rs.foldl min r]
    .ok (if (r :: rs).length > 1 then Z ++ [rs.foldl max r] else Z)

/-- `Z_cubic_roots` (lines 646-658); `npRoots c2 c1 c0` stands for `np.roots((1, c2, c1, c0))`. -/
noncomputable def zCubicRoots (npRoots : ℝ → ℝ → ℝ → List (ℝ × ℝ)) (u w A B : ℝ) : Except Err (List ℝ) :=
  let (c2, c1, c0) := cubicCoefs u w A B
  selectRoots (npRoots c2 c1 c0) B

/-- `CubicEoS.Z` (lines 259-262). -/
noncomputable def cubicZ (npRoots : ℝ → ℝ → ℝ → List (ℝ × ℝ)) (R : ℝ) (e : Cubic N) (T P : ℝ) (z : Fin N → ℝ) : Except Err (List ℝ) :=
  let A := am R e T z * P / (R * T) ^ 2
  let B := bm R e z * P / (R * T)
  zCubicRoots npRoots e.kind.u e.kind.w A B

/-- Phases. -/
inductive Phase where
  | L | V | other

/-- The coefficient `δ` of `CubicEoS.phi` (lines 318-321). -/
noncomputable def delta (R : ℝ) (e : Cubic N) (T : ℝ) (z : Fin N → ℝ) (i : Fin N) : ℝ :=
  match e.k with
  | none => 2 * √(a R e T i / am R e T z)
  | some k => ∑ j, z j * √(a R e T j) * (1 - k i j)

/-- The exponent `ln_phi` (lines 330-337) at the chosen root `Zi`. -/
noncomputable def lnPhi (R : ℝ) (e : Cubic N) (T P : ℝ) (z : Fin N → ℝ) (Zi : ℝ) (i : Fin N) : ℝ :=
  let u := e.kind.u
  let w := e.kind.w
  let d := √(u ^ 2 - 4 * w)
  let am := am R e T z
  let bm := bm R e z
  let A := am * P / (R * T) ^ 2
  let B := bm * P / (R * T)
  let b_bm := b R e i / bm
  b_bm * (Zi - 1) - Real.log (Zi - B) + A / (B * d) * (b_bm - delta R e T z i) * Real.log ((2 * Zi + B * (u + d)) / (2 * Zi + B * (u - d)))

/-- `CubicEoS.phi` (lines 305-339). -/
noncomputable def cubicPhi (npRoots : ℝ → ℝ → ℝ → List (ℝ × ℝ)) (R : ℝ) (e : Cubic N) (T P : ℝ) (z : Fin N → ℝ) (phase : Phase) :
    Except Err (Fin N → ℝ) := do
  let Z ← cubicZ npRoots R e T P z
  let Zi ← match phase with
    | .L => Except.ok (Z.headD 0)
    | .V => Except.ok (Z.getLastD 0)
    | .other => Except.error .ValueError
  return fun i => Real.exp (lnPhi R e T P z Zi i)

/-- `GasLiquidEoS.K` (`base.py` lines 299-301). -/
noncomputable def cubicK (npRoots : ℝ → ℝ → ℝ → List (ℝ × ℝ)) (R : ℝ) (e : Cubic N) (T P : ℝ) (x y : Fin N → ℝ) : Except Err (Fin N → ℝ) := do
  let phiV ← cubicPhi npRoots R e T P y .V
  let phiL ← cubicPhi npRoots R e T P x .L
  return fun i => phiL i / phiV i

/-- `CubicEoS.DA` (lines 388-398). -/
noncomputable def cubicDA (R : ℝ) (e : Cubic N) (T V : ℝ) (n : Fin N → ℝ) (v0 : ℝ) : ℝ :=
  let nT := ∑ i, n i
  let z := fun i => n i / nT
  let u := e.kind.u
  let w := e.kind.w
  let d := √(u ^ 2 - 4 * w)
  let am := am R e T z
  let bm := bm R e z
  nT * am / (bm * d) * Real.log ((2 * V + nT * bm * (u - d)) / (2 * V + nT * bm * (u + d))) -
    nT * R * T * Real.log ((V - nT * bm) / (nT * v0))

/-- A virial equation of state object (`virial.py` lines 74-81). -/
structure Virial (N : ℕ) where
  Tc : Fin N → ℝ
  Pc : Fin N → ℝ
  Zc : Fin N → ℝ
  w : Fin N → ℝ

/-- `Virial.Bij` (line 130). -/
noncomputable def virialB (R : ℝ) (e : Virial N) (T : ℝ) : Fin N → Fin N → ℝ := bMixture R T e.Tc e.Pc e.Zc e.w

/-- `Virial.Bm` (line 109). -/
noncomputable def virialBm (R : ℝ) (e : Virial N) (T : ℝ) (y : Fin N → ℝ) : ℝ := quadratic y (virialB R e T)

/-- `Virial.Z` (lines 164-165). -/
noncomputable def virialZ (R : ℝ) (e : Virial N) (T P : ℝ) (y : Fin N → ℝ) : ℝ := 1 + virialBm R e T y * P / (R * T)

/-- `Virial.P` (lines 189-190). -/
noncomputable def virialP (R : ℝ) (e : Virial N) (T v : ℝ) (y : Fin N → ℝ) : ℝ := R * T / (v - virialBm R e T y)

/-- `Virial.phi` (lines 229-231). -/
noncomputable def virialPhi (R : ℝ) (e : Virial N) (T P : ℝ) (y : Fin N → ℝ) (i : Fin N) : ℝ :=
  Real.exp ((2 * (∑ j, virialB R e T i j * y j) - virialBm R e T y) * P / (R * T))

/-- `Virial.DA` (lines 240-243). -/
noncomputable def virialDA (R : ℝ) (e : Virial N) (T V : ℝ) (n : Fin N → ℝ) (v0 : ℝ) : ℝ :=
  let nT := ∑ i, n i
  let y := fun i => n i / nT
  let r := -nT * R * T * Real.log ((V - nT * virialBm R e T y) / (nT * v0))
  r

/-- `GasEoS.v` / `GasLiquidEoS.v` (`base.py` lines 144, 235) for one value of `Z`. -/
noncomputable def vol (R Z T P : ℝ) : ℝ := Z * R * T / P

/-- `GasEoS.f` / `GasLiquidEoS.f` (lines 175, 270). -/
def fug (phi y : Fin N → ℝ) (P : ℝ) (i : Fin N) : ℝ := phi i * y i * P

/-- `IdealGas.Z` (`idealgas.py` line 48). -/
def idealZ : ℝ := 1

/-- `IdealGas.P` (line 65). -/
noncomputable def idealP (R T v : ℝ) : ℝ := R * T / v

/-- `IdealGas.phi` (line 77). -/
def idealPhi (_ : Fin N) : ℝ := 1

/-- `IdealGas.DA` (lines 106-107). -/
noncomputable def idealDA (R T V : ℝ) (n : Fin N → ℝ) (v0 : ℝ) : ℝ :=
  let nT := ∑ i, n i
  let r := -nT * R * T * Real.log (V / (nT * v0))
  r

/-- The dict returned by `EoS.DX`. -/
structure Departure where
  A : ℝ
  G : ℝ
  H : ℝ
  S : ℝ
  U : ℝ

/-- `EoS.DX` (`base.py` lines 77-95) for any equation of state with compressibility factor `Z` (the largest, lines 82-83) and departure function `DA`. -/
noncomputable def DX (R : ℝ) (DA : ℝ → ℝ → (Fin N → ℝ) → ℝ → ℝ) (Z : ℝ) (T P : ℝ) (y : Fin N → ℝ) (P0 : ℝ) : Departure :=
  let v0 := R * T / P0
  let n := fun i => 1 * y i
  let V := 1 * Z * R * T / P
  let dT := 2 * √eps * T
  let DAm := DA (T - dT) V n v0
  let DAp := DA (T + dT) V n v0
  let dA := (DAm + DAp) / 2
  let dS := -(DAp - DAm) / (2 * dT)
  let dU := dA + T * dS
  let dH := dU + R * T * (Z - 1)
  let dG := dA + R * T * (Z - 1)
  ⟨dA, dG, dH, dS, dU⟩

end Verif.Eos
