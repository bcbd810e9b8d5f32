import Verif.Model.PDiv
import Mathlib.Analysis.Real.Sqrt
import Mathlib.Tactic.FieldSimp
import Mathlib.Tactic.Ring
import Mathlib.Tactic.Positivity

/-! # Divisions under a change of units -/

namespace Verif.Units

theorem pdiv_scale {a b a' b' c : ℝ} (d : ℝ) (hd : d ≠ 0) (hb : b' = d * b) (ha : a' = c * d * a) : pdiv a' b' = (pdiv a b).map (c * ·) := by
  subst hb ha
  unfold pdiv
  by_cases h : b = 0
  · simp [h, Except.map]
  · rw [if_neg (mul_ne_zero hd h), if_neg h]
    simp only [Except.map]
    congr 1
    field_simp

theorem pdiv_same {a b a' b' : ℝ} (d : ℝ) (hd : d ≠ 0) (hb : b' = d * b) (ha : a' = d * a) : pdiv a' b' = pdiv a b := by
  rw [pdiv_scale (c := 1) d hd hb (by rw [ha, one_mul])]
  cases pdiv a b <;> simp [Except.map]

theorem map_bind {γ : Type} (f : ℝ → ℝ) (x : Except Err ℝ) (g : ℝ → Except Err γ) : (x.map f) >>= g = x >>= fun v => g (f v) := by
  cases x <;> rfl

theorem bind_map {γ : Type} (f : ℝ → ℝ) (x : Except Err γ) (g : γ → Except Err ℝ) : (x >>= g).map f = x >>= fun v => (g v).map f := by
  cases x <;> rfl

theorem bind_congr {β γ : Type} (x : Except Err β) (g h : β → Except Err γ) (e : ∀ v, x = .ok v → g v = h v) : x >>= g = x >>= h := by
  cases x with
  | error _ => rfl
  | ok v => exact e v rfl

end Verif.Units
