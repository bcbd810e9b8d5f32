import Verif.Lemmas.CopoTuples
import Verif.Lemmas.Copo
import Mathlib.Tactic.NormNum
import Mathlib.Analysis.SpecialFunctions.Exp

/-! # Helper lemmas: tuples, Q-e scheme, Fineman-Ross, data bookkeeping -/

namespace Verif.CopoMulti

open Verif.Copo Verif.Utils

variable {α : Type*} [Field α] [LinearOrder α] [IsStrictOrderedRing α]

variable {α : Type*} [Field α] [LinearOrder α] [IsStrictOrderedRing α]

theorem pathProd_eq (P : ℕ → ℕ → α) (t : List ℕ) : pathProd P 1 t = ((t.zip t.tail).map fun p => P p.1 p.2).prod := by
  induction t with
  | nil => simp [pathProd]
  | cons i t ih =>
    cases t with
    | nil => simp [pathProd]
    | cons j t => rw [pathProd_cons, ih]; simp

/-- Least squares on points of a line that do not all have the same abscissa returns the line. -/
theorem linregress_line (l : List α) (m c : α) (h : ∃ x ∈ l, ∃ y ∈ l, x ≠ y) :
    linregress (l.map fun x => (x, m * x + c)) = .ok (m, c) := by
  obtain ⟨x, hx, y, hy, hxy⟩ := h
  have hlen : (l.length : α) ≠ 0 := by
    have := List.length_pos_of_mem hx
    exact_mod_cast this.ne'
  have hall : ¬ ((l.map fun x => (x, m * x + c)).all
      (fun p => p.1 = ((l.map fun x => (x, m * x + c)).map Prod.fst).headD 0)) = true := by
    rw [List.all_eq_true]
    intro hc
    have h1 := hc (x, m * x + c) (List.mem_map_of_mem hx)
    have h2 := hc (y, m * y + c) (List.mem_map_of_mem hy)
    simp only [decide_eq_true_eq] at h1 h2
    exact hxy (h1.trans h2.symm)
  have hsum : ∀ l : List α, (l.map fun x => m * x + c).sum = m * l.sum + l.length * c := by
    intro l
    induction l with
    | nil => simp
    | cons a l ih => simp only [List.map_cons, List.sum_cons, ih, List.length_cons]; push_cast; ring
  unfold linregress
  dsimp only
  rw [if_neg hall]
  simp only [List.map_map, Function.comp_def, mean, List.length_map, List.map_id']
  rw [hsum l, add_div, mul_div_assoc, mul_div_cancel_left₀ _ hlen]
  generalize hM : l.sum / l.length = M
  have e : (l.map fun x => (x - M) * (m * x + c - (m * M + c))) = l.map fun x => m * ((x - M) * (x - M)) := by
    apply List.map_congr_left; intro x _; ring
  rw [e, List.sum_map_mul_left]
  have hpos : 0 < (l.map fun x => (x - M) * (x - M)).sum := by
    have hne : ∃ z ∈ l, z ≠ M := by
      by_contra hc
      push Not at hc
      exact hxy ((hc x hx).trans (hc y hy).symm)
    obtain ⟨z, hz, hzM⟩ := hne
    refine lt_of_lt_of_le (mul_self_pos.mpr (sub_ne_zero.mpr hzM)) ?_
    refine List.single_le_sum ?_ _ (List.mem_map_of_mem (f := fun x => (x - M) * (x - M)) hz)
    intro w hw
    obtain ⟨u, _, rfl⟩ := List.mem_map.mp hw
    exact mul_self_nonneg _
  have hS := hpos.ne'
  generalize (l.map fun x => (x - M) * (x - M)).sum = S at hS
  have : m * S / l.length / (S / l.length) = m := by field_simp
  rw [this]; congr 2; ring

end Verif.CopoMulti
