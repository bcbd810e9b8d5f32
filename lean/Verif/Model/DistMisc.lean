import Verif.Model.Basic
import Mathlib.Analysis.SpecialFunctions.Pow.Real
import Mathlib.Algebra.BigOperators.Intervals

/-! # Model of `polykin/distributions/misc.py` -/

namespace Verif.DistMisc

/-- `p[i]` after the inner loop of `convolve_moments` (`/repo/src/polykin/distributions/misc.py` lines 67-68). -/
def convAt {α : Type*} [Field α] (q r : List α) (i : ℕ) : α :=
  (List.range (i + 1)).foldl (fun p j => p + (i.choose j : α) * q.getD j 0 * r.getD (i - j) 0) 0

/-- `convolve_moments` (lines 62-70). -/
def convolveMoments {α : Type*} [Field α] (q r : List α) : Except Err (List α) :=
  if q.length ≠ r.length then .error .ValueError
  else .ok ((List.range q.length).map (convAt q r))

/-- The loop `for _ in range(order): p = convolve_moments(q, p)` (lines 136-137). -/
def selfLoop {α : Type*} [Field α] (q : List α) : ℕ → List α → Except Err (List α)
  | 0, p => .ok p
  | n + 1, p =>
    match convolveMoments q p with
    | .error e => .error e
    | .ok p => selfLoop q n p

/-- `convolve_moments_self` (lines 119-139), for `order ≥ 0`. -/
def convolveMomentsSelf {α : Type*} [Field α] (q : List α) (order : ℕ) : Except Err (List α) :=
  if order = 0 then .ok q
  else
    match q with
    | [] => .ok []
    | [q0] => .ok [q0 ^ (order + 1)]
    | [q0, q1] => .ok [q0 ^ (order + 1), (order + 1 : α) * q0 ^ order * q1]
    | [q0, q1, q2] => .ok [q0 ^ (order + 1), (order + 1 : α) * q0 ^ order * q1,
        (order + 1 : α) * q0 ^ (order - 1) * (order * q1 ^ 2 + q0 * q2)]
    | q => selfLoop q order q

/-- `convert_polymer_standards` (lines 202-203). -/
noncomputable def convertStandards (M1 K1 K2 a1 a2 : ℝ) : ℝ := (K1 / K2) ^ (1 / (1 + a2)) * M1 ^ ((1 + a1) / (1 + a2))

/-- The Laguerre polynomial `L_m(x) = ∑ (-1)^i C(m,i) x^i / i!` of `numpy.polynomial.laguerre`. -/
noncomputable def laguerre (m : ℕ) (x : ℝ) : ℝ := ∑ i ∈ Finset.range (m + 1), (-1) ^ i * (m.choose i : ℝ) * x ^ i / i.factorial

/-- `γ[m]` (lines 260-263). -/
noncomputable def laguerreCoeff (moments : List ℝ) (DPn : ℝ) (m : ℕ) : ℝ :=
  ∑ i ∈ Finset.range (m + 1), (m.choose i : ℝ) * (-1) ^ i * moments.getD i 0 / DPn ^ ((i : ℤ) - 1) / i.factorial

/-- `reconstruct_Laguerre` (lines 253-274): the returned function; `moments[1]` of a shorter list is an `IndexError`, which is left
out (`getD` gives 0). -/
noncomputable def reconstructLaguerre (moments : List ℝ) (n : ℝ) : ℝ :=
  let DPn := moments.getD 1 0 / moments.getD 0 0
  let rho := n / DPn
  Real.exp (-rho) / DPn ^ 2 * ∑ m ∈ Finset.range moments.length, laguerreCoeff moments DPn m * laguerre m rho

end Verif.DistMisc
