import Verif.Model.Mixture
import Verif.Lemmas.Dist
import Verif.Lemmas.Utils
import Mathlib.Algebra.BigOperators.Ring.List
import Mathlib.Algebra.Order.BigOperators.Group.List
import Mathlib.Data.List.Perm.Basic

/-! # Helper lemmas: mixtures -/

namespace Verif.Mixture

open Verif.Dist Verif.Utils

/-- A component with positive zeroth and first mass moments and a positive weight. -/
def Pos (cw : Comp × ℝ) : Prop := 0 < cw.1.mm 0 0 ∧ 0 < cw.1.mm 1 0 ∧ 0 < cw.2

theorem rawMole_pos (cw : Comp × ℝ) (h : Pos cw) : 0 < rawMole cw := by
  obtain ⟨h0, h1, h2⟩ := h
  unfold rawMole avgMn
  positivity

theorem sum_pos_of {ι : Type*} (l : List ι) (f : ι → ℝ) (hne : l ≠ []) (h : ∀ x ∈ l, 0 < f x) : 0 < (l.map f).sum := by
  apply List.sum_pos
  · intro x hx
    obtain ⟨y, hy, rfl⟩ := List.mem_map.mp hx
    exact h y hy
  · simpa using hne

/-- Weighted sums over mole fractions. -/
theorem molefrac_sum (l : List (Comp × ℝ)) (f : Comp → ℝ) :
    ((molefrac l).map fun cx => cx.2 * f cx.1).sum = (l.map fun cw => rawMole cw * f cw.1).sum / (l.map rawMole).sum := by
  unfold molefrac
  rw [List.map_map, div_eq_mul_inv, ← List.sum_map_mul_right]
  congr 1
  refine List.map_congr_left fun cw _ => ?_
  simp only [Function.comp]
  ring

theorem moment_eq (l : List (Comp × ℝ)) (order shift : ℕ) :
    moment l order shift = (l.map fun cw => rawMole cw * cw.1.mm order shift).sum / (l.map rawMole).sum :=
  molefrac_sum l fun c => c.mm order shift

theorem quad_sum (l : List (Comp × ℝ)) (a b c : Comp → ℝ) (t : ℝ) (h : ∀ cw ∈ l, 0 < rawMole cw ∧ 0 ≤ a cw.1 - 2 * t * b cw.1 + t ^ 2 * c cw.1) :
    0 ≤ (l.map fun cw => rawMole cw * a cw.1).sum - 2 * t * (l.map fun cw => rawMole cw * b cw.1).sum +
      t ^ 2 * (l.map fun cw => rawMole cw * c cw.1).sum := by
  induction l with
  | nil => simp
  | cons x l ih =>
    have h1 := h x (by simp)
    have h2 := ih fun cw hcw => h cw (by simp [hcw])
    simp only [List.map_cons, List.sum_cons]
    nlinarith [mul_nonneg h1.1.le h1.2]

/-- Ordered averages from quadratic forms. -/
theorem ordered_of_quad (a b c : ℝ) (ha : 0 < a) (hb : 0 < b) (h : ∀ t, 0 ≤ c - 2 * t * b + t ^ 2 * a) : b / a ≤ c / b := by
  rw [div_le_div_iff₀ ha hb]
  have := h (b / a)
  field_simp at this
  nlinarith

/-! ### heap -/

theorem deref_append_left (h : Heap) (d) (r : ℕ) (hr : r < h.length) : deref (h ++ [d]) r = deref h r := by
  unfold deref
  rw [List.getD_eq_getElem?_getD, List.getD_eq_getElem?_getD, List.getElem?_append_left hr]

theorem deref_append_self (h : Heap) (d) : deref (h ++ [d]) h.length = d := by
  unfold deref
  rw [List.getD_eq_getElem?_getD, List.getElem?_append_right le_rfl]
  simp

theorem deref_set (h : Heap) (r s : ℕ) (d) (hr : r < h.length) : deref (h.set r d) s = if r = s then d else deref h s := by
  unfold deref
  rw [List.getD_eq_getElem?_getD, List.getD_eq_getElem?_getD, List.getElem?_set]
  split_ifs with h1
  · simp
  · rfl

/-- Total weight given to component `k` by a list of terms. -/
def total (l : List (ℚ × ℕ)) (k : ℕ) : ℚ := (l.map fun wd => if wd.2 = k then wd.1 else 0).sum

theorem sumFrom_spec (l : List (ℚ × ℕ)) (hl : ∀ wd ∈ l, 0 < wd.1) (h0 : ℕ) (h : Heap) (r : ℕ) (hr0 : h0 ≤ r) (hr : r < h.length) :
    ∃ h', sumFrom h (.mix r) l = some (h', .mix r) ∧ h.length ≤ h'.length ∧ (∀ s < h0, deref h' s = deref h s) ∧
      ∀ k, dget (deref h' r) k = dget (deref h r) k + total l k := by
  induction l generalizing h with
  | nil => exact ⟨h, rfl, le_rfl, fun _ _ => rfl, fun k => by simp [total]⟩
  | cons x l ih =>
    obtain ⟨w, d⟩ := x
    have hw : 0 < w := hl (w, d) (by simp)
    have hm : mul h w d = (h ++ [[(d, w)]], .mix h.length) := by unfold mul alloc; rw [if_pos hw]
    set h1 : Heap := (h ++ [[(d, w)]]).set r (addDicts (deref h r) [(d, w)] false).2 with hh1
    have hr1 : r < (h ++ [[(d, w)]]).length := by simp; omega
    have hadd : add (h ++ [[(d, w)]]) (.mix r) (.mix h.length) = some (h1, .mix r) := by
      simp only [add, addInto]
      rw [deref_append_self, deref_append_left h _ r hr]
    obtain ⟨h', e1, e2, e3, e4⟩ := ih (fun wd hwd => hl wd (by simp [hwd])) h1 (by rw [hh1, List.length_set]; exact hr1)
    refine ⟨h', ?_, ?_, ?_, ?_⟩
    · unfold sumFrom
      rw [hm]
      dsimp only
      rw [hadd]
      exact e1
    · rw [hh1, List.length_set, List.length_append] at e2
      omega
    · intro s hs
      rw [e3 s hs, hh1, deref_set _ _ _ _ hr1, if_neg (by omega), deref_append_left h _ s (by omega)]
    · intro k
      rw [e4 k, hh1, deref_set _ _ _ _ hr1, if_pos rfl]
      have : (addDicts (deref h r) [(d, w)] false).2 = addLoop (deref h r) [(d, w)] := rfl
      rw [this, addLoop_get _ (by simp)]
      simp only [dget, total, List.map_cons, List.sum_cons]
      ring

end Verif.Mixture
