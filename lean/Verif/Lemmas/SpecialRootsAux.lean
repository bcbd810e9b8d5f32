import Verif.Lemmas.SpecialRoots
import Verif.Props.RootsScalar

/-! # Helper lemmas: roots of x tan x = a and 1 - x cot x = a -/

namespace Verif.SpecialRoots

open Real

theorem newtonIter_tan (a x : ℝ) : newtonIter (tanF a) x = x - (x * tan x - a) / tanD x := by
  have : (eps : ℝ) ≠ 0 := by norm_num [eps]
  simp only [newtonIter, tanF, tanD]
  rw [mul_div_cancel_left₀ _ this]

theorem newtonIter_cot (a x : ℝ) : newtonIter (cotF a) x = x - -(x * cos x / sin x + a - 1) / cotD x := by
  have : (eps : ℝ) ≠ 0 := by norm_num [eps]
  simp only [newtonIter, cotF, cotD]
  rw [mul_div_cancel_left₀ _ this, tan_eq_sin_div_cos, div_div_eq_mul_div, ← neg_sub (x / sin x ^ 2), div_neg, neg_div]

theorem mapM_ok {β : Type} (f : ℕ → Except Err β) (g : ℕ → β) (h : ∀ i, f i = .ok (g i)) (l : List ℕ) : l.mapM f = .ok (l.map g) := by
  induction l with
  | nil => rfl
  | cons i l ih => rw [List.mapM_cons, h, ih]; rfl

/-- What a converged Newton run says about the distance to the root, for a function with increasing slope. -/
theorem success_bound {F : ℝ × ℝ → ℝ × ℝ} {f f' : ℝ → ℝ} {x0 tolx tolf q x : ℝ} {r : RootResult ℝ} {calls : List (ℝ × ℝ)} {m : ℕ} (h : rootNewton F x0 tolx tolf m = .ok (r, calls))
    (hs : r.success = true) (hx : r.x = x) (hF : |(F (x, eps)).1| = |f x|) (hF' : |(F (x, eps)).2 / eps| = f' x) (hq : f q = 0)
    (hd : ∀ t ∈ Set.uIcc q x, HasDerivAt f (f' t) t) (hm : MonotoneOn f' (Set.uIcc q x)) (hp : ∀ t ∈ Set.uIcc q x, 0 < f' t) :
    |x - q| ≤ tolf / f' (min x q) ∨ |x - q| ≤ tolx * (f' (max x q) / f' q) := by
  obtain ⟨_, _, _, _, _, _, hf, hsucc, _⟩ := C01_newton_certificate F x0 tolx tolf m r calls h
  have hqm : q ∈ Set.uIcc q x := Set.left_mem_uIcc
  have hxm : x ∈ Set.uIcc q x := Set.right_mem_uIcc
  have key : f' (min x q) * |x - q| ≤ |f x| := by
    rcases le_total q x with hqx | hqx
    · rw [Set.uIcc_of_le hqx] at hd hm
      have := (slope_bounds hqx hd hm).1
      rw [hq, sub_zero] at this
      rw [min_eq_right hqx, abs_of_nonneg (sub_nonneg.2 hqx)]
      exact this.trans (le_abs_self _)
    · rw [Set.uIcc_of_ge hqx] at hd hm
      have := (slope_bounds hqx hd hm).1
      rw [hq, zero_sub] at this
      rw [min_eq_left hqx, abs_of_nonpos (sub_nonpos.2 hqx), neg_sub]
      exact this.trans (neg_le_abs _)
  have hmin : min x q ∈ Set.uIcc q x := by rcases min_choice x q with h | h <;> rw [h] <;> assumption
  rcases hsucc hs with ⟨_, h1⟩ | ⟨_, _, h1⟩
  · left
    rw [hf, hx, hF] at h1
    rw [le_div_iff₀ (hp _ hmin), mul_comm]
    exact key.trans h1
  · right
    rw [hf, hx, abs_div, hF, hF', div_le_iff₀ (hp x hxm)] at h1
    rcases le_total q x with hqx | hqx
    · rw [min_eq_right hqx] at key
      rw [max_eq_left hqx, ← mul_div_assoc, le_div_iff₀ (hp q hqm), mul_comm]
      exact key.trans h1
    · rw [min_eq_left hqx] at key
      rw [max_eq_right hqx, div_self (hp q hqm).ne', mul_one]
      have := key.trans h1
      rw [mul_comm] at this
      exact le_of_mul_le_mul_right this (hp x hxm)

end Verif.SpecialRoots
