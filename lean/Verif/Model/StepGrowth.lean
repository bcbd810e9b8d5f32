import Verif.Model.PDiv
import Verif.Model.Div
import Mathlib.Analysis.Real.Sqrt
import Mathlib.Algebra.BigOperators.Fin

/-!
# Model of `polykin/stepgrowth/solutions.py`

Arguments of the `Case_*`, `Flory_Af` and `Miller_1` functions are Python floats (a zero divisor raises `ZeroDivisionError`, `pdiv`);
`Stockmayer` and `Miller_2` compute with numpy scalars, there `none` stands for NaN.
-/

namespace Verif.StepGrowth

section
variable {α : Type*} [Field α] [LinearOrder α]

/-- `Case_1` (`/repo/src/polykin/stepgrowth/solutions.py` lines 79-88). -/
def case1 (pB r_BB_AA MAA MBB : α) : Except Err (α × α) := do
  let b := pB
  let a := b * r_BB_AA
  let Mn ← pdiv (b * MAA + a * MBB) (a + b - 2 * a * b)
  let t1 ← pdiv (1 + a * b) (1 - a * b)
  let t2 ← pdiv (t1 * (b * MAA ^ 2 + a * MBB ^ 2)) (b * MAA + a * MBB)
  let t3 ← pdiv (4 * a * b * MAA * MBB) ((1 - a * b) * (b * MAA + a * MBB))
  return (Mn, t2 + t3)

/-- `Case_3` (lines 159-171). -/
def case3 (pB pC r_BC_AA MAA MBC : α) : Except Err (α × α) := do
  let b := pB
  let c := pC
  let a := r_BC_AA * (b + c) / 2
  let Mn ← pdiv ((b + c) * MAA + 2 * a * MBC) (2 * a + b + c - 2 * a * (b + c))
  let t1 ← pdiv (2 * a * b * c) (b + c)
  let t2 ← pdiv (2 * a * (b + c + a * b ^ 2 + a * c ^ 2)) ((b + c) ^ 2)
  let t3 ← pdiv (2 * a) (b + c)
  let Mw ← pdiv ((1 + t1) * MAA ^ 2 + 4 * a * MAA * MBC + t2 * MBC ^ 2) ((1 - t1) * (MAA + t3 * MBC))
  return (Mn, Mw)

/-- `Case_5` (lines 241-250). -/
def case5 (pB pC r_BC_A r_C_B MAA MBB MC : α) : Except Err α := do
  let b := pB
  let c := pC
  let v := r_C_B
  let a ← pdiv (r_BC_A * (b + v * c)) (1 + v)
  let t1 ← pdiv (2 * a) (2 * b + v * c)
  let t2 ← pdiv (2 * a * v) (2 * b + v * c)
  let t3 ← pdiv (2 * a * (1 + v)) (2 * b + v * c)
  pdiv (MAA + t1 * MBB + t2 * MC) (1 - 2 * a + t3)

/-- `Case_6` (lines 316-325). -/
def case6 (pC r_BC_AA MAA MBC : α) : Except Err α :=
  let c := pC
  let v := r_BC_AA
  pdiv (MAA + v * MBC) (1 + v * (1 - c))

/-- `Case_7` (lines 386-392). -/
def case7 (pA pC r_CD_AB MAB MCD : α) : Except Err α :=
  let a := pA
  let c := pC
  let v := r_CD_AB
  pdiv (MAB + v * MCD) (1 + v - (a + v * c))

/-- `Case_8` (lines 462-471). -/
def case8 (pB pC r_BC_A r_CC_BB MAA MBB MCC : α) : Except Err α := do
  let b := pB
  let c := pC
  let v := r_CC_BB
  let a ← pdiv (r_BC_A * (b + v * c)) (1 + v)
  let t1 ← pdiv (a * (MBB + v * MCC)) (b + v * c)
  let t2 ← pdiv (a * (1 + v)) (b + v * c)
  pdiv (MAA + t1) (1 - 2 * a + t2)

/-- `Case_9` (lines 554-565). -/
def case9 (pB pC pD r_CD_AB r_BB_AA r_DD_CC MAA MBB MCC MDD : α) : Except Err α := do
  let b := pB
  let c := pC
  let d := pD
  let v := r_BB_AA
  let r := r_DD_CC
  let t0 ← pdiv (r_CD_AB * (1 + v)) (1 + r)
  let a := t0 * (c + r * d) - v * b
  let t1 ← pdiv (a + v * b) (c + r * d)
  pdiv (MAA + v * MBB + t1 * (MCC + r * MDD)) (1 - a + v * (1 - b) + t1 * (1 - c + r * (1 - d)))

/-- `Case_10` (lines 640-650). -/
def case10 (pB pC pD r_BCD_A r_BC_DD MAA MBC MDD : α) : Except Err α := do
  let b := pB
  let c := pC
  let d := pD
  let v := r_BC_DD / 2
  let a ← pdiv (r_BCD_A * (v * (b + c) + d)) (2 * v + 1)
  let t1 ← pdiv (a * (MDD + 2 * v * MBC)) (v * (b + c) + d)
  let t2 ← pdiv a (v * (b + c) + d)
  pdiv (MAA + t1) (1 - a + t2 * ((1 - d) + v * (2 - b - c)))

/-- `Case_11` (lines 724-734). -/
def case11 (pB pC pD r_BC_AA r_DD_AA MAA MBC MDD : α) : Except Err α := do
  let b := pB
  let c := pC
  let d := pD
  let v := r_BC_AA / 2
  let a := v * (c - b) + r_DD_AA * d
  let t1 ← pdiv (a + v * (b - c)) d
  pdiv (MAA + 2 * v * MBC + t1 * MDD) (1 - 2 * a + 2 * v * (1 - b) + t1)

/-- `Flory_Af` (lines 897-905); `.ok none`: all NaN. -/
def floryAf (f : ℕ) (MAf p : α) : Except Err (Option (α × α × α)) := do
  let f : α := f
  let p_gel ← pdiv 1 (f - 1)
  if p ≥ p_gel then return none
  let Mn ← pdiv MAf (1 - f / 2 * p)
  let Mw ← pdiv (MAf * (1 + p)) (1 - p * (f - 1))
  let Mz ← pdiv (MAf * ((1 + p) ^ 3 - (3 + p) * f * p ^ 2)) ((1 + p) * (1 - p * (f - 1)) ^ 2)
  return some (Mn, Mw, Mz)

/-- `Miller_1` (lines 975-995). -/
def miller1 (nAf nA2 nB2 : α) (f : ℕ) (MAf MA2 MB2 pB1 pB2 : α) : Except Err (α × α) := do
  let f : α := f
  let r ← pdiv (f * nAf + 2 * nA2) (2 * nB2)
  let pA ← pdiv (1 / 2 * (pB1 + pB2)) r
  let af ← pdiv (f * nAf) (f * nAf + 2 * nA2)
  let q ← pdiv (pB1 * pB2) r
  let EAout ← pdiv (pA * MB2 + q * ((1 - af) * MA2 + af * MAf)) (1 - q * (1 + (f - 2) * af))
  let EBout := (1 - af) * MA2 + af * MAf + (1 + (f - 2) * af) * EAout
  let EB1out := pB1 * EBout
  let EB2out := pB2 * EBout
  let EAf := MAf + f * EAout
  let EA2 := MA2 + 2 * EAout
  let EBB := MB2 + EB1out + EB2out
  let Mn ← pdiv (MAf * nAf + MA2 * nA2 + MB2 * nB2) (nAf + nA2 + nB2 - nB2 * (pB1 + pB2))
  let Mw ← pdiv (MAf * nAf * EAf + MA2 * nA2 * EA2 + MB2 * nB2 * EBB) (MAf * nAf + MA2 * nA2 + MB2 * nB2)
  return (Mn, Mw)

/-- `Miller_2` (lines 1065-1086). `p i` is the fraction of `Af` units with exactly `i + 1` reacted groups. The ratio `r` and the
averages are computed with Python floats or numpy scalars; non-zero amounts are assumed by the theorems, so zero divisors other
than `Σ i p_i` (NaN, hence the `else` branch) are left out. -/
def miller2 (nAf nB2 : α) (f : ℕ) (MAf MB2 : α) (p : Fin f → α) : Option (α × α) :=
  let sip := ∑ i : Fin f, ((i : ℕ) + 1 : α) * p i
  match fdiv (∑ i : Fin f, ((i : ℕ) + 1 : α) ^ 2 * p i) sip with
  | none => none
  | some m =>
    let pA := sip / f
    let r := f * nAf / (2 * nB2)
    if r * pA * (m - 1) < 1 then
      some ((MAf * nAf + MB2 * nB2) / (nAf + nB2 - f * nAf * pA),
        (2 * r / f * (1 + r * pA * (f * pA - m + 1)) * MAf ^ 2 + (1 + r * pA * (m - 1)) * MB2 ^ 2 + 4 * r * pA * MAf * MB2) /
          ((2 * r / f * MAf + MB2) * (1 - r * pA * (m - 1))))
    else none

end

/-- `Stockmayer` (lines 809-847) for vectors of `N` and `K` monomers; `none`: both NaN. If `sgB*(fe - 1)*(ge - 1)` is not positive,
the gel point is `+inf` or NaN and the comparison in line 833 is false. Zero sums (`sfA`, `sgB`) are left out. -/
noncomputable def stockmayer {N K : ℕ} (nA : Fin N → ℝ) (nB : Fin K → ℝ) (f : Fin N → ℕ) (g : Fin K → ℕ) (MA : Fin N → ℝ)
    (MB : Fin K → ℝ) (pB : ℝ) : Option (ℝ × ℝ) :=
  let sMA := ∑ i, MA i * nA i
  let sM2A := ∑ i, MA i ^ 2 * nA i
  let sfA := ∑ i, (f i : ℝ) * nA i
  let sf2A := ∑ i, (f i : ℝ) ^ 2 * nA i
  let sMB := ∑ j, MB j * nB j
  let sM2B := ∑ j, MB j ^ 2 * nB j
  let sgB := ∑ j, (g j : ℝ) * nB j
  let sg2B := ∑ j, (g j : ℝ) ^ 2 * nB j
  let fe := sf2A / sfA
  let ge := sg2B / sgB
  let Ma := (∑ i, MA i * f i * nA i) / sfA
  let Mb := (∑ j, MB j * g j * nB j) / sgB
  let pA := pB * sgB / sfA
  if 0 < sgB * (fe - 1) * (ge - 1) ∧ pB ≥ √(sfA / (sgB * (fe - 1) * (ge - 1))) then none
  else
    let Mn := (sMA + sMB) / (∑ i, nA i + ∑ j, nB j - pA * sfA)
    let Mw := (pB * (sM2A / sfA) + pA * (sM2B / sgB) +
        pA * pB * (pA * (fe - 1) * Mb ^ 2 + pB * (ge - 1) * Ma ^ 2 + 2 * Ma * Mb) / (1 - pA * pB * (fe - 1) * (ge - 1))) /
      (pB * (sMA / sfA) + pA * (sMB / sgB))
    some (Mn, Mw)

end Verif.StepGrowth
