import Verif.Model.Copo
import Verif.Lemmas.RootsScalar
import Verif.Lemmas.Tactics
import Verif.Lemmas.Convert
import Mathlib.Analysis.SpecificLimits.Normed

/-! # Helper lemmas for the binary copolymerization models -/

namespace Verif

variable {α : Type*} [Field α] [DecidableEq α]

theorem fdiv_ne {a b : α} (h : b ≠ 0) : fdiv a b = some (a / b) := if_neg h

theorem fdiv_zero {a : α} : fdiv a 0 = none := if_pos rfl

theorem fdiv_eq_none {a b : α} : fdiv a b = none ↔ b = 0 := by unfold fdiv; split_ifs with h <;> simp [h]

theorem fdiv_eq_some {a b c : α} : fdiv a b = some c ↔ b ≠ 0 ∧ a = c * b := by
  unfold fdiv
  split_ifs with h
  · simp [h]
  · simp only [Option.some.injEq]
    exact ⟨fun e => ⟨h, by rw [← e]; field_simp⟩, fun e => by rw [e.2]; field_simp⟩

end Verif

namespace Verif.Copo

variable {α : Type*} [Field α] [LinearOrder α] [IsStrictOrderedRing α]

/-- Denominator of the composition equation. -/
theorem den_pos {f1 r1 r2 : α} (h0 : 0 ≤ f1) (h1 : f1 ≤ 1) (hr1 : 0 ≤ r1) (hr2 : 0 ≤ r2)
    (ha : f1 = 1 → r1 ≠ 0) (hb : f1 = 0 → r2 ≠ 0) : 0 < r1 * f1 ^ 2 + 2 * f1 * (1 - f1) + r2 * (1 - f1) ^ 2 := by
  have h2 : 0 ≤ 1 - f1 := sub_nonneg.mpr h1
  rcases h0.eq_or_lt with rfl | h0'
  · have := lt_of_le_of_ne hr2 (Ne.symm (hb rfl))
    simpa using this
  rcases h1.eq_or_lt with rfl | h1'
  · have := lt_of_le_of_ne hr1 (Ne.symm (ha rfl))
    simpa using this
  have h3 : 0 < 1 - f1 := sub_pos.mpr h1'
  positivity

theorem instBinary_eq {f1 r1 r2 : α} (h0 : 0 ≤ f1) (h1 : f1 ≤ 1) (hr1 : 0 ≤ r1) (hr2 : 0 ≤ r2)
    (ha : f1 = 1 → r1 ≠ 0) (hb : f1 = 0 → r2 ≠ 0) : instBinary f1 r1 r2 =
      some ((r1 * f1 ^ 2 + f1 * (1 - f1)) / (r1 * f1 ^ 2 + 2 * f1 * (1 - f1) + r2 * (1 - f1) ^ 2)) :=
  fdiv_ne (den_pos h0 h1 hr1 hr2 ha hb).ne'

/-- Denominators of the transition probabilities. -/
theorem tden_pos {f r : α} (h0 : 0 ≤ f) (h1 : f ≤ 1) (hr : 0 ≤ r) (ha : f = 1 → r ≠ 0) : 0 < r * f + (1 - f) := by
  rcases h1.eq_or_lt with rfl | h1'
  · have := lt_of_le_of_ne hr (Ne.symm (ha rfl))
    simpa using this
  have : 0 < 1 - f := sub_pos.mpr h1'
  positivity

theorem transitions_eq {f1 r1 r2 : α} (h0 : 0 ≤ f1) (h1 : f1 ≤ 1) (hr1 : 0 ≤ r1) (hr2 : 0 ≤ r2)
    (ha : f1 = 1 → r1 ≠ 0) (hb : f1 = 0 → r2 ≠ 0) : transitions r1 r2 f1 =
      .ok (some ⟨r1 * f1 / (r1 * f1 + (1 - f1)), 1 - r1 * f1 / (r1 * f1 + (1 - f1)),
        1 - r2 * (1 - f1) / (r2 * (1 - f1) + f1), r2 * (1 - f1) / (r2 * (1 - f1) + f1)⟩) := by
  have e1 := (tden_pos h0 h1 hr1 ha).ne'
  have e2 := (tden_pos (f := 1 - f1) (r := r2) (sub_nonneg.mpr h1) (by linarith) hr2 (fun h => hb (by linarith))).ne'
  rw [sub_sub_cancel] at e2
  unfold transitions
  rw [if_pos ⟨h0, h1⟩]
  dsimp only
  rw [fdiv_ne e1, fdiv_ne e2]

/-! ### Geometric laws -/

theorem hasSum_geom (P : ℝ) (h0 : 0 ≤ P) (h1 : P < 1) : HasSum (fun k : ℕ => (1 - P) * P ^ k) 1 := by
  have := (hasSum_geometric_of_lt_one h0 h1).mul_left (1 - P)
  rwa [mul_inv_cancel₀ (sub_pos.mpr h1).ne'] at this

theorem hasSum_geom_mean (P : ℝ) (h0 : 0 ≤ P) (h1 : P < 1) :
    HasSum (fun k : ℕ => ((k : ℝ) + 1) * ((1 - P) * P ^ k)) (1 / (1 - P)) := by
  have hne := (sub_pos.mpr h1).ne'
  have a := (hasSum_coe_mul_geometric_of_norm_lt_one (𝕜 := ℝ) (r := P) (by rw [Real.norm_of_nonneg h0]; exact h1)).mul_left (1 - P)
  have b := (hasSum_geom P h0 h1)
  refine hasSum_of_eq (a.add b) (fun k => by ring) ?_
  field_simp
  ring

end Verif.Copo
