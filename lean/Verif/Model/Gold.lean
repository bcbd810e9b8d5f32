import Verif.Model.RootsScalar
import Verif.Model.Dist

/-!
# Model of the Weibull-Nycander-Gold distribution

`WeibullNycanderGold_pdf` (`/repo/src/polykin/distributions/gold.py`) for one chain length `k ≥ 0` (the code treats the entries of an array one by one).
Floats are real numbers, so overflow (`factorial(171)` does not fit in a float) and cancellation are outside the model.
-/

namespace Verif.Gold

open Real Verif.Dist

/-- The loop of lines 171-173: `n` iterations left, `j` the loop variable. -/
def sumLoop {α : Type*} [Field α] (a : α) : ℕ → ℕ → α → α → α
  | 0, _, _, S => S
  | n + 1, j, s, S =>
    let s := s * (a / j)
    sumLoop a n (j + 1) s (S + s)

/-- The loop of lines 181-185: `n` iterations left, `j` the loop variable. -/
def tailLoop {α : Type*} [Field α] [LinearOrder α] (a : α) : ℕ → ℕ → α → α → α
  | 0, _, _, S => S
  | n + 1, j, s, S =>
    let s := s * (a / j)
    let S := S + s
    if |s| < eps * 100 then S else tailLoop a n (j + 1) s S

noncomputable section

/-- `find_p0` (lines 105-106). -/
def findP0 (v r p : ℝ) : ℝ := v + r * log p + (r - 1) * (1 - p)

/-- The number fraction of unreacted initiator (lines 108-113). `sol.success` is not looked at. -/
def goldP0 (v r : ℝ) : Except Err ℝ :=
  if findP0 v r eps < 0 then do
    let s ← rootBrent (findP0 v r) eps 1 1e-12 1e-12 50
    return s.1.x
  else .ok (exp ((1 - v - r) / r))

/-- `_gold` (lines 165-186). -/
def goldSum (k : ℕ) (v r p0 a : ℝ) : ℝ :=
  let A := exp (log (p0 / r) + k * log (r / (1 - r))) * (-1) ^ k
  let B := exp (-a)
  let S := sumLoop a (k - 1) 1 1 1
  if √eps < |B * S - 1| ∧ (k : ℝ) < v then A * (1 - B * S)
  else
    let s := a ^ k / (k.factorial : ℝ)
    A * B * tailLoop a 100 (k + 1) s s

/-- Lines 116-127 for one chain length, given `p0`. -/
def goldBody (k : ℕ) (v r p0 : ℝ) : ℝ :=
  if k = 0 then p0
  else
    let a := (1 - r) * log p0
    if 1 < r then exp (log (p0 / r) + k * log (r / (r - 1))) * gammainc k a else goldSum k v r p0 a

/-- `WeibullNycanderGold_pdf` (lines 96-133); `none` is NaN. -/
def goldPdf (k : ℕ) (v r : ℝ) : Except Err (Option ℝ) :=
  if |r - 1| < 1e-3 then .ok (poisson k v true)
  else do
    let p0 ← goldP0 v r
    return some (goldBody k v r p0)

end

end Verif.Gold
