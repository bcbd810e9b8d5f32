import Verif.Lemmas.Flash
import Verif.Props.RootsScalar
import Mathlib.Analysis.Calculus.Deriv.Inv
import Mathlib.Analysis.Calculus.Deriv.Add
import Mathlib.Analysis.Calculus.Deriv.Mul
import Mathlib.Topology.Order.IntermediateValue

/-! # Helper lemmas: C83, C84: two-phase flash -/

namespace Verif.Flash

open Finset

variable {α : Type*} [Field α] [LinearOrder α] [IsStrictOrderedRing α] {N : ℕ} {K z : Fin N → α}

variable {N : ℕ}

theorem solveRR_mid {beta0 : Option α} {maxiter : ℕ} {atol : α} (h0 : ¬ rr 0 K z < 0) (h1 : ¬ rr 1 K z > 0) :
    ∃ b, 0 ≤ b ∧ b ≤ 1 ∧ (betaMin K z ≤ betaMax K z → betaMin K z ≤ b ∧ b ≤ betaMax K z) ∧
      solveRR K z beta0 maxiter atol = rrLoop K z atol maxiter 0 (betaMin K z) (betaMax K z) b none := by
  obtain ⟨m1, m2⟩ := betaMin_range K z
  obtain ⟨M1, M2⟩ := betaMax_range K z
  cases beta0 with
  | none =>
    refine ⟨(betaMin K z + betaMax K z) / 2, by linarith, by linarith, fun h => ⟨by linarith, by linarith⟩, ?_⟩
    simp only [solveRR, if_neg h0, if_neg h1]
  | some b =>
    refine ⟨clip b (betaMin K z) (betaMax K z), le_min (m1.trans (le_max_right _ _)) M1, (min_le_right _ _).trans M2,
      fun h => ⟨le_min (le_max_right _ _) h, min_le_right _ _⟩, ?_⟩
    simp only [solveRR, if_neg h0, if_neg h1]

end Verif.Flash
