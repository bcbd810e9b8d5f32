import Verif.Model.Basic
import Mathlib.Analysis.SpecialFunctions.Log.Basic
import Mathlib.Analysis.SpecialFunctions.Exp
import Mathlib.Algebra.BigOperators.Fin

/-!
# Activity coefficient models

Model of `/repo/src/polykin/thermo/acm/` (`base.py`, `ideal.py`, `nrtl.py`, `wilson.py`, `uniquac.py`, `floryhuggins.py`) and of `enforce_symmetry`
(`/repo/src/polykin/utils/math.py` lines 125-138). Exact reals, the gas constant `R` is a parameter, matrices are functions (the shape checks are
therefore part of the types). Constructors return the object together with the final contents of the matrices they were given, because they
write into them in place; the matrices are assumed to be distinct arrays. The caching of `tau`, `alpha`, `Lambda`, `chi` is the subject of `Model/Cache.lean`. Division by zero
and logarithms of nonpositive numbers are not modelled: the theorems are about compositions where they do not occur.
-/

namespace Verif.Acm

open Finset

variable {N : ℕ}

/-- Square matrices. -/
abbrev Mat (N : ℕ) := Fin N → Fin N → ℝ

/-- `np.fill_diagonal(array, 0.0)`. -/
def fillDiag (a : Mat N) : Mat N := fun i j => if i = j then 0 else a i j

/-- `enforce_symmetry` (`utils/math.py` lines 136-138): the strict lower triangle is overwritten with the upper one. -/
def enforceSymmetry (a : Mat N) : Mat N := fun i j => if j < i then a j i else a i j

/-- `check_bounds` on a matrix. -/
noncomputable def checkMat (a : Mat N) (lo hi : ℝ) : Except Err Unit :=
  open Classical in if ∀ i j, lo ≤ a i j ∧ a i j ≤ hi then .ok () else .error .RangeError

/-- A matrix argument with its default value (`if a is None: a = np.full((N, N), v)`). -/
def orFull (a : Option (Mat N)) (v : ℝ) : Mat N := a.getD fun _ _ => v

/-! ### Base class -/

/-- `_Dsmix_ideal` (`base.py` lines 47-48). -/
noncomputable def dsmixIdeal (R : ℝ) (x : Fin N → ℝ) : ℝ := -R * ∑ i ∈ univ.filter (fun i => x i > 0), x i * Real.log (x i)

/-- `SmallSpeciesActivityModel.sE` (line 147); `ddT f T` stands for `derivative_complex(f, T)[0]`. -/
def sE (ddT : (ℝ → ℝ) → ℝ → ℝ) (gE : ℝ → ℝ) (T : ℝ) : ℝ := -1 * ddT gE T

/-- `hE` (line 128). -/
def hE (ddT : (ℝ → ℝ) → ℝ → ℝ) (gE : ℝ → ℝ) (T : ℝ) : ℝ := gE T + T * sE ddT gE T

/-- `Dgmix` (line 71). -/
noncomputable def dgmix (R : ℝ) (gE : ℝ → ℝ) (T : ℝ) (x : Fin N → ℝ) : ℝ := gE T - T * dsmixIdeal R x

/-- `Dhmix` (line 90). -/
def dhmix (ddT : (ℝ → ℝ) → ℝ → ℝ) (gE : ℝ → ℝ) (T : ℝ) : ℝ := hE ddT gE T

/-- `Dsmix` (line 109). -/
noncomputable def dsmix (R : ℝ) (ddT : (ℝ → ℝ) → ℝ → ℝ) (gE : ℝ → ℝ) (T : ℝ) (x : Fin N → ℝ) : ℝ := sE ddT gE T + dsmixIdeal R x

/-- `activity` (line 166). -/
def activity (gamma x : Fin N → ℝ) (i : Fin N) : ℝ := x i * gamma i

/-- `IdealSolution.gE` and `gamma` (`ideal.py` lines 35, 38). -/
def idealGE : ℝ := 0
def idealGamma (_ : Fin N) : ℝ := 1

/-! ### NRTL -/

/-- The attributes of an `NRTL` object. -/
structure Nrtl (N : ℕ) where
  a : Mat N
  b : Mat N
  c : Mat N
  d : Mat N
  e : Mat N
  f : Mat N

/-- `NRTL.__init__` (`nrtl.py` lines 99-141). The second component of the result is the list of the matrices `a, ..., f` of the caller after the call. -/
noncomputable def Nrtl.init (a b c d e f : Option (Mat N)) : Except Err (Nrtl N × List (Option (Mat N))) := do
  checkMat (orFull a 0) (-100) 100
  checkMat (orFull b 0) (-30000) 30000
  checkMat (orFull c 0.3) 0 1
  checkMat (orFull d 0) (-0.02) 0.02
  let tr := fun m => fillDiag m
  let sy := fun m => enforceSymmetry (fillDiag m)
  return (⟨tr (orFull a 0), tr (orFull b 0), sy (orFull c 0.3), sy (orFull d 0), tr (orFull e 0), tr (orFull f 0)⟩,
    [a.map tr, b.map tr, c.map sy, d.map sy, e.map tr, f.map tr])

/-- `NRTL.alpha` (line 159). -/
noncomputable def Nrtl.alpha (m : Nrtl N) (T : ℝ) : Mat N := fun i j => m.c i j + m.d i j * (T - 273.15)

/-- `NRTL.tau` (line 177). -/
noncomputable def Nrtl.tau (m : Nrtl N) (T : ℝ) : Mat N := fun i j => m.a i j + m.b i j / T + m.e i j * Real.log T + m.f i j * T

/-- `NRTL.gE` (lines 180-185), as a function of the matrices. -/
noncomputable def nrtlGE (R T : ℝ) (x : Fin N → ℝ) (tau alpha : Mat N) : ℝ :=
  let G : Mat N := fun i j => Real.exp (-alpha i j * tau i j)
  let A := fun j => ∑ i, x i * (tau i j * G i j)
  let B := fun j => ∑ i, x i * G i j
  R * T * ∑ j, x j * (A j / B j)

/-- `NRTL.gE`. -/
noncomputable def Nrtl.gE (R : ℝ) (m : Nrtl N) (T : ℝ) (x : Fin N → ℝ) : ℝ := nrtlGE R T x (m.tau T) (m.alpha T)

/-- `NRTL_gamma` (lines 235-251). -/
noncomputable def nrtlGamma (x : Fin N → ℝ) (tau alpha : Mat N) (i : Fin N) : ℝ :=
  let G : Mat N := fun i j => Real.exp (-alpha i j * tau i j)
  let A := fun j => ∑ i, x i * (tau i j * G i j)
  let B := fun j => ∑ i, x i * G i j
  let C := fun i => (∑ j, tau i j * G i j * (x j / B j)) - ∑ j, G i j * (x j * A j / B j ^ 2)
  Real.exp (A i / B i + C i)

/-- `NRTL.gamma` (line 188). -/
noncomputable def Nrtl.gamma (m : Nrtl N) (T : ℝ) (x : Fin N → ℝ) : Fin N → ℝ := nrtlGamma x (m.tau T) (m.alpha T)

/-! ### Wilson -/

/-- The attributes of a `Wilson` object. -/
structure Wilson (N : ℕ) where
  a : Mat N
  b : Mat N
  c : Mat N
  d : Mat N

/-- `Wilson.__init__` (`wilson.py` lines 81-110). -/
noncomputable def Wilson.init (a b c d : Option (Mat N)) : Except Err (Wilson N × List (Option (Mat N))) := do
  checkMat (orFull a 0) (-50) 50
  checkMat (orFull b 0) (-15000) 15000
  let tr := fun m => fillDiag m
  return (⟨tr (orFull a 0), tr (orFull b 0), tr (orFull c 0), tr (orFull d 0)⟩, [a.map tr, b.map tr, c.map tr, d.map tr])

/-- `Wilson.Lambda` (line 128). -/
noncomputable def Wilson.Lambda (m : Wilson N) (T : ℝ) : Mat N := fun i j => Real.exp (m.a i j + m.b i j / T + m.c i j * Real.log T + m.d i j * T)

/-- `Wilson.gE` (line 131), as a function of the matrix. -/
noncomputable def wilsonGE (R T : ℝ) (x : Fin N → ℝ) (Lambda : Mat N) : ℝ := -R * T * ∑ i, x i * Real.log (∑ j, Lambda i j * x j)

/-- `Wilson.gE`. -/
noncomputable def Wilson.gE (R : ℝ) (m : Wilson N) (T : ℝ) (x : Fin N → ℝ) : ℝ := wilsonGE R T x (m.Lambda T)

/-- `Wilson_gamma` (lines 174-175). -/
noncomputable def wilsonGamma (x : Fin N → ℝ) (Lambda : Mat N) (i : Fin N) : ℝ :=
  let A := fun i => ∑ j, Lambda i j * x j
  Real.exp (1 - ∑ l, x l / A l * Lambda l i) / A i

/-- `Wilson.gamma` (line 134). -/
noncomputable def Wilson.gamma (m : Wilson N) (T : ℝ) (x : Fin N → ℝ) : Fin N → ℝ := wilsonGamma x (m.Lambda T)

/-! ### UNIQUAC -/

/-- The attributes of a `UNIQUAC` object. -/
structure Uniquac (N : ℕ) where
  q : Fin N → ℝ
  r : Fin N → ℝ
  a : Mat N
  b : Mat N
  c : Mat N
  d : Mat N

/-- `UNIQUAC.__init__` (`uniquac.py` lines 101-139). -/
noncomputable def Uniquac.init (q r : Fin N → ℝ) (a b c d : Option (Mat N)) : Except Err (Uniquac N × List (Option (Mat N))) := do
  checkMat (orFull a 0) (-50) 50
  checkMat (orFull b 0) (-15000) 15000
  let tr := fun m => fillDiag m
  return (⟨q, r, tr (orFull a 0), tr (orFull b 0), tr (orFull c 0), tr (orFull d 0)⟩, [a.map tr, b.map tr, c.map tr, d.map tr])

/-- `UNIQUAC.tau` (line 157). -/
noncomputable def Uniquac.tau (m : Uniquac N) (T : ℝ) : Mat N := fun i j => Real.exp (m.a i j + m.b i j / T + m.c i j * Real.log T + m.d i j * T)

/-- `UNIQUAC.gE` (lines 161-172), as a function of its parameters; the mask `p = x > 0` restricts the sums. -/
noncomputable def uniquacGE (R T : ℝ) (x q r : Fin N → ℝ) (tau : Mat N) : ℝ :=
  let phi := fun i => x i * r i / ∑ j, x j * r j
  let theta := fun i => x i * q i / ∑ j, x j * q j
  let p := univ.filter fun i => x i > 0
  let gC := ∑ i ∈ p, x i * (Real.log (phi i / x i) + 5 * q i * Real.log (theta i / phi i))
  let gR := -∑ i ∈ p, q i * x i * Real.log (∑ j, theta j * tau j i)
  R * T * (gC + gR)

/-- `UNIQUAC.gE`. -/
noncomputable def Uniquac.gE (R : ℝ) (m : Uniquac N) (T : ℝ) (x : Fin N → ℝ) : ℝ := uniquacGE R T x m.q m.r (m.tau T)

/-- `UNIQUAC_gamma` (lines 236-243). -/
noncomputable def uniquacGamma (x q r : Fin N → ℝ) (tau : Mat N) (i : Fin N) : ℝ :=
  let J := fun i => r i / ∑ j, x j * r j
  let L := fun i => q i / ∑ j, x j * q j
  let theta := fun i => x i * L i
  let s := fun i => ∑ j, theta j * tau j i
  J i * Real.exp (1 - J i + q i * (1 - Real.log (s i) - (∑ j, tau i j * (theta j / s j)) - 5 * (1 - J i / L i + Real.log (J i / L i))))

/-- `UNIQUAC.gamma` (line 175). -/
noncomputable def Uniquac.gamma (m : Uniquac N) (T : ℝ) (x : Fin N → ℝ) : Fin N → ℝ := uniquacGamma x m.q m.r (m.tau T)

/-! ### Flory-Huggins -/

/-- The attributes of a `FloryHuggins` object. -/
structure FloryHuggins (N : ℕ) where
  a : Mat N
  b : Mat N
  c : Mat N
  d : Mat N
  e : Mat N

/-- `FloryHuggins.__init__` (`floryhuggins.py` lines 90-126). -/
noncomputable def FloryHuggins.init (a b c d e : Option (Mat N)) : Except Err (FloryHuggins N × List (Option (Mat N))) := do
  checkMat (orFull a 0) (-100) 100
  checkMat (orFull b 0) (-1000000) 1000000
  checkMat (orFull c 0) (-1000000) 1000000
  checkMat (orFull d 0) (-1000000) 1000000
  checkMat (orFull e 0) (-1000000) 1000000
  let sy := fun m => enforceSymmetry (fillDiag m)
  return (⟨sy (orFull a 0), sy (orFull b 0), sy (orFull c 0), sy (orFull d 0), sy (orFull e 0)⟩,
    [a.map sy, b.map sy, c.map sy, d.map sy, e.map sy])

/-- `FloryHuggins.chi` (line 146). -/
noncomputable def FloryHuggins.chi (m : FloryHuggins N) (T : ℝ) : Mat N := fun i j =>
  m.a i j + m.b i j / T + m.c i j * Real.log T + m.d i j * T + m.e i j * T ^ 2

/-- `FloryHuggins.Dgmix` (lines 172-175), as a function of the matrix. -/
noncomputable def fhDgmix (R T : ℝ) (phi m : Fin N → ℝ) (chi : Mat N) : ℝ :=
  let gC := ∑ i ∈ univ.filter (fun i => phi i > 0), phi i / m i * Real.log (phi i)
  let gR := 0.5 * ∑ j, phi j * ∑ i, phi i * chi i j
  R * T * (gC + gR)

/-- `FloryHuggins_activity` (lines 319-322). -/
noncomputable def fhActivity (phi m : Fin N → ℝ) (chi : Mat N) (i : Fin N) : ℝ :=
  let A := ∑ j, phi j * (1 / m j)
  let B := fun i => ∑ j, chi i j * phi j
  let C := 0.5 * ∑ j, phi j * ∑ i, phi i * chi i j
  phi i * Real.exp (1 - m i * (A - B i + C))

/-- `FloryHuggins2_activity` (lines 387-388). -/
noncomputable def fh2Activity (phi1 m chi : ℝ) : ℝ :=
  let phi2 := 1 - phi1
  phi1 * Real.exp ((1 - 1 / m) * phi2 + chi * phi2 ^ 2)

end Verif.Acm
