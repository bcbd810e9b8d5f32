import Verif.Model.Utils
import Mathlib.LinearAlgebra.Matrix.NonsingularInverse
import Mathlib.Analysis.SpecialFunctions.Exp

/-!
# Model of multicomponent copolymerization (`polykin/copolymerization/multicomponent.py`), Fineman-Ross, and `add_data`

Vectors and square matrices have `N + 1` rows (the code needs at least one monomer for its index `-1`).
`solve` stands for `np.linalg.solve`: an unknown function that either fails (`LinAlgError`, here `none`) or returns a vector.
-/

namespace Verif.CopoMulti

open Verif.Utils

variable {α : Type*} [Field α] [LinearOrder α]

/-- What `np.linalg.solve(A, b)` is assumed to do: it succeeds exactly on non-singular matrices, and then the result solves the
equations. -/
structure IsSolve {n : ℕ} (solve : Matrix (Fin n) (Fin n) α → (Fin n → α) → Option (Fin n → α)) : Prop where
  sound : ∀ A b x, solve A b = some x → A.mulVec x = b
  total : ∀ A b, A.det ≠ 0 → ∃ x, solve A b = some x
  singular : ∀ A b, A.det = 0 → solve A b = none

/-- `inst_copolymer_ternary` (`/repo/src/polykin/copolymerization/multicomponent.py` lines 113-131); zero divisors are excluded by
the hypotheses of the theorems. -/
def instTernary (f1 f2 r12 r21 r13 r31 r23 r32 : α) : α × α × α :=
  let f3 := 1 - (f1 + f2)
  let a := f1 / (r21 * r31) + f2 / (r21 * r32) + f3 / (r31 * r23)
  let b := f1 + f2 / r12 + f3 / r13
  let c := f1 / (r12 * r31) + f2 / (r12 * r32) + f3 / (r13 * r32)
  let d := f2 + f1 / r21 + f3 / r23
  let e := f1 / (r13 * r21) + f2 / (r23 * r12) + f3 / (r13 * r23)
  let g := f3 + f1 / r31 + f2 / r32
  let denominator := f1 * a * b + f2 * c * d + f3 * e * g
  let F1 := f1 * a * b / denominator
  let F2 := f2 * c * d / denominator
  (F1, F2, 1 - (F1 + F2))

/-- `transitions_multi` (lines 558-567). -/
def transitionsMulti {n : ℕ} (f : Fin n → α) (r : Matrix (Fin n) (Fin n) α) : Matrix (Fin n) (Fin n) α :=
  fun i j => (f j / r i j) / ∑ k, f k / r i k

/-- The coefficient matrix `P.T - I` with the last row set to one (lines 228-230). -/
def compMatrix {n : ℕ} (P : Matrix (Fin (n + 1)) (Fin (n + 1)) α) : Matrix (Fin (n + 1)) (Fin (n + 1)) α :=
  fun i j => if i = Fin.last n then 1 else P j i - (if i = j then 1 else 0)

/-- The right-hand side: zeros and a final one (lines 231-232). -/
def lastOne {n : ℕ} : Fin (n + 1) → α := fun i => if i = Fin.last n then 1 else 0

/-- `inst_copolymer_multi` (lines 221-235). `.ok none`: `LinAlgError` of the linear solver. -/
def instMulti {n : ℕ} (solve : Matrix (Fin (n + 1)) (Fin (n + 1)) α → (Fin (n + 1) → α) → Option (Fin (n + 1) → α))
    (f : Option (Fin (n + 1) → α)) (r P : Option (Matrix (Fin (n + 1)) (Fin (n + 1)) α)) : Except Err (Option (Fin (n + 1) → α)) :=
  match f, r, P with
  | none, none, some P => .ok (solve (compMatrix P) lastOne)
  | some f, some r, none => .ok (solve (compMatrix (transitionsMulti f r)) lastOne)
  | _, _, _ => .error .ValueError

/-- `radical_fractions_ternary` (lines 311-325). -/
def radTernary (f1 f2 k12 k21 k13 k31 k23 k32 : α) : α × α × α :=
  let f3 := 1 - (f1 + f2)
  let p1 := k21 * k31 * f1 ^ 2 + k21 * k32 * f1 * f2 + k23 * k31 * f1 * f3
  let p2 := k12 * k31 * f1 * f2 + k12 * k32 * f2 ^ 2 + k13 * k32 * f2 * f3
  let p3 := k12 * k23 * f2 * f3 + k13 * k21 * f1 * f3 + k13 * k23 * f3 ^ 2
  let denominator := p1 + p2 + p3
  (p1 / denominator, p2 / denominator, p3 / denominator)

/-- The coefficient matrix of `radical_fractions_multi` (lines 384-387): `A = k.T*f[:, None]`, column sums subtracted from the
diagonal, last row set to one. -/
def radMatrix {n : ℕ} (f : Fin (n + 1) → α) (k : Matrix (Fin (n + 1)) (Fin (n + 1)) α) : Matrix (Fin (n + 1)) (Fin (n + 1)) α :=
  fun i j => if i = Fin.last n then 1 else k j i * f i - (if i = j then ∑ l, k j l * f l else 0)

/-- `radical_fractions_multi` (lines 382-392). -/
def radMulti {n : ℕ} (solve : Matrix (Fin (n + 1)) (Fin (n + 1)) α → (Fin (n + 1) → α) → Option (Fin (n + 1) → α))
    (f : Fin (n + 1) → α) (k : Matrix (Fin (n + 1)) (Fin (n + 1)) α) : Option (Fin (n + 1) → α) :=
  solve (radMatrix f k) lastOne

/-! ### Tuples -/

/-- `itertools.product(range(N), repeat=n)` (line 743). -/
def product (N : ℕ) : ℕ → List (List ℕ)
  | 0 => [[]]
  | n + 1 => (List.range N).flatMap fun a => (product N n).map (a :: ·)

/-- `P_product` (lines 748-750): product of the transition probabilities along the tuple, from the left. -/
def pathProd (P : ℕ → ℕ → α) (acc : α) : List ℕ → α
  | i :: j :: t => pathProd P (acc * P i j) (j :: t)
  | _ => acc

/-- `A` (line 751). -/
def tupleProb (F : ℕ → α) (P : ℕ → ℕ → α) (idx : List ℕ) : α := F (idx.headD 0) * pathProd P 1 idx

/-- One pass of the loop (lines 751-757). -/
def tupleStep (A : List ℕ → α) (result : Dict (List ℕ) α) (idx : List ℕ) : Dict (List ℕ) α :=
  if idx.reverse ∈ result.map Prod.fst then dset result idx.reverse (dget result idx.reverse + A idx)
  else dset result idx (A idx)

/-- `tuples_multi` (lines 742-759) for a given `F`, `n ≥ 1`. -/
def tuplesMulti (F : ℕ → α) (P : ℕ → ℕ → α) (N n : ℕ) : Dict (List ℕ) α :=
  (product N n).foldl (tupleStep (tupleProb F P)) []

/-! ### Q-e scheme -/

/-- `convert_Qe_to_r` (lines 807-816). -/
noncomputable def convertQe {n : ℕ} (Q e : Fin n → ℝ) : Matrix (Fin n) (Fin n) ℝ :=
  fun i j => Q i / Q j * Real.exp (-e i * (e i - e j))

/-! ### Fineman-Ross -/

/-- Arithmetic mean. -/
def mean (l : List α) : α := l.sum / l.length

/-- `scipy.stats.linregress`: slope and intercept of the least squares line; `ValueError` if all abscissae are equal (or there are
no data). -/
def linregress (xy : List (α × α)) : Except Err (α × α) :=
  let xm := mean (xy.map Prod.fst)
  let ym := mean (xy.map Prod.snd)
  let ssxm := mean (xy.map fun p => (p.1 - xm) * (p.1 - xm))
  let ssxym := mean (xy.map fun p => (p.1 - xm) * (p.2 - ym))
  if xy.all (fun p => p.1 = (xy.map Prod.fst).headD 0) then .error .ValueError
  else .ok (ssxym / ssxm, ym - ssxym / ssxm * xm)

/-- `fit_Finemann_Ross` (`/repo/src/polykin/copolymerization/fitting.py` lines 159-173) on the list of pairs `(f1, F1)`. -/
def finemannRoss (data : List (α × α)) : Except Err (α × α) :=
  let HG := data.map fun p =>
    let x := p.1 / (1 - p.1)
    let y := p.2 / (1 - p.2)
    (x ^ 2 / y, x * (y - 1) / y)
  match linregress HG with
  | .error e => .error e
  | .ok (slope, intercept) => .ok (slope, -intercept)

/-! ### `CopoModel.add_data` -/

/-- A data set: its identity and its two monomers. -/
structure DataSet where
  id : ℕ
  M1 : String
  M2 : String
  deriving DecidableEq

/-- `{ds.M1, ds.M2} == {self.M1, self.M2}` (`terminal.py` lines 446-449): equality of sets. -/
def sameMonomers (a b c d : String) : Bool := (a = c ∧ b = d) ∨ (a = d ∧ b = c)

/-- The loop of `add_data` (lines 447-457): data sets are compared by identity (no `__eq__` is defined); returns the stored list
after the call together with the exception, if any. -/
def addData (M1 M2 : String) (stored : List DataSet) : List DataSet → List DataSet × Option Err
  | [] => (stored, none)
  | ds :: rest =>
    if sameMonomers ds.M1 ds.M2 M1 M2 then
      addData M1 M2 (if ds.id ∈ stored.map DataSet.id then stored else stored ++ [ds]) rest
    else (stored, some .ValueError)

end Verif.CopoMulti
