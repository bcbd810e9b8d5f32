import Verif.Model.CopoMulti
import Verif.Lemmas.Tactics
import Mathlib.LinearAlgebra.Matrix.ToLinearEquiv
import Mathlib.Algebra.Order.BigOperators.Group.Finset
import Mathlib.Algebra.BigOperators.Field
import Mathlib.Algebra.Order.BigOperators.Ring.Finset

/-! # Helper lemmas: stationary vectors of stochastic matrices, nonsingularity of the coefficient matrices -/

namespace Verif.CopoMulti

variable {α : Type*} [Field α] [LinearOrder α] [IsStrictOrderedRing α]

/-- Row-stochastic matrix with a strictly positive column. -/
structure Doeblin {n : ℕ} (P : Fin n → Fin n → α) : Prop where
  nonneg : ∀ i j, 0 ≤ P i j
  rows : ∀ i, ∑ j, P i j = 1
  col : ∃ j, ∀ i, 0 < P i j

theorem sum_stationary {n : ℕ} (P : Fin n → Fin n → α) (hr : ∀ i, ∑ j, P i j = 1) (y : Fin n → α) :
    ∑ j, ∑ i, y i * P i j = ∑ i, y i := by
  rw [Finset.sum_comm]
  exact Finset.sum_congr rfl fun i _ => by rw [← Finset.mul_sum, hr, mul_one]

/-- If all but one of the stationarity equations hold, the last one holds too. -/
theorem stationary_last {n : ℕ} (P : Fin (n + 1) → Fin (n + 1) → α) (hr : ∀ i, ∑ j, P i j = 1) (y : Fin (n + 1) → α)
    (h : ∀ j, j ≠ Fin.last n → ∑ i, y i * P i j = y j) (j : Fin (n + 1)) : ∑ i, y i * P i j = y j := by
  by_cases hj : j = Fin.last n
  · subst hj
    have e := sum_stationary P hr y
    rw [Fin.sum_univ_castSucc, Fin.sum_univ_castSucc (f := y)] at e
    have : ∑ j : Fin n, ∑ i, y i * P i j.castSucc = ∑ j : Fin n, y j.castSucc :=
      Finset.sum_congr rfl fun j _ => h _ (Fin.castSucc_lt_last j).ne
    rw [this] at e
    exact add_left_cancel e
  · exact h j hj

/-- A stationary vector has a constant sign. -/
theorem stationary_sign {n : ℕ} (P : Fin n → Fin n → α) (hP : Doeblin P) (y : Fin n → α)
    (h : ∀ j, ∑ i, y i * P i j = y j) : (∀ i, 0 ≤ y i) ∨ (∀ i, y i ≤ 0) := by
  obtain ⟨j0, hj0⟩ := hP.col
  have s0 : ∀ j, 0 ≤ ∑ i, |y i| * P i j - |y j| := by
    intro j
    rw [sub_nonneg]
    calc |y j| = |∑ i, y i * P i j| := by rw [h]
      _ ≤ ∑ i, |y i * P i j| := Finset.abs_sum_le_sum_abs _ _
      _ = ∑ i, |y i| * P i j := Finset.sum_congr rfl fun i _ => by rw [abs_mul, abs_of_nonneg (hP.nonneg i j)]
  have st : ∑ j, (∑ i, |y i| * P i j - |y j|) = 0 := by
    rw [Finset.sum_sub_distrib, sum_stationary P hP.rows, sub_self]
  have s1 : ∑ i, |y i| * P i j0 - |y j0| = 0 :=
    (Finset.sum_eq_zero_iff_of_nonneg (fun j _ => s0 j)).mp st j0 (Finset.mem_univ _)
  rcases le_total 0 (y j0) with hy | hy
  · left
    rw [abs_of_nonneg hy, ← h j0, ← Finset.sum_sub_distrib] at s1
    intro i
    have := (Finset.sum_eq_zero_iff_of_nonneg (fun i _ => by
      rw [← sub_mul]; exact mul_nonneg (sub_nonneg.mpr (le_abs_self _)) (hP.nonneg _ _))).mp s1 i (Finset.mem_univ _)
    rw [← sub_mul] at this
    rcases mul_eq_zero.mp this with h' | h'
    · rw [sub_eq_zero] at h'; rw [← h']; exact abs_nonneg _
    · exact absurd h' (hj0 i).ne'
  · right
    rw [abs_of_nonpos hy, ← h j0, sub_neg_eq_add, ← Finset.sum_add_distrib] at s1
    intro i
    have := (Finset.sum_eq_zero_iff_of_nonneg (fun i _ => by
      rw [← add_mul]; exact mul_nonneg (by linarith [neg_abs_le (y i)]) (hP.nonneg _ _))).mp s1 i (Finset.mem_univ _)
    rw [← add_mul] at this
    rcases mul_eq_zero.mp this with h' | h'
    · have := abs_nonneg (y i); linarith
    · exact absurd h' (hj0 i).ne'

/-- A stationary vector with weighted sum zero vanishes. -/
theorem stationary_zero {n : ℕ} (P : Fin n → Fin n → α) (hP : Doeblin P) (w y : Fin n → α) (hw : ∀ i, 0 < w i)
    (h : ∀ j, ∑ i, y i * P i j = y j) (h0 : ∑ i, w i * y i = 0) : y = 0 := by
  funext i
  rcases stationary_sign P hP y h with hs | hs
  · have := (Finset.sum_eq_zero_iff_of_nonneg (fun i _ => mul_nonneg (hw i).le (hs i))).mp h0 i (Finset.mem_univ _)
    exact (mul_eq_zero.mp this).resolve_left (hw i).ne'
  · have := (Finset.sum_eq_zero_iff_of_nonpos (fun i _ => mul_nonpos_of_nonneg_of_nonpos (hw i).le (hs i))).mp h0 i
      (Finset.mem_univ _)
    exact (mul_eq_zero.mp this).resolve_left (hw i).ne'

/-- A stationary vector with weighted sum one is non-negative. -/
theorem stationary_nonneg {n : ℕ} (P : Fin n → Fin n → α) (hP : Doeblin P) (w y : Fin n → α) (hw : ∀ i, 0 < w i)
    (h : ∀ j, ∑ i, y i * P i j = y j) (h1 : ∑ i, w i * y i = 1) : ∀ i, 0 ≤ y i := by
  rcases stationary_sign P hP y h with hs | hs
  · exact hs
  · have : ∑ i, w i * y i ≤ 0 := Finset.sum_nonpos fun i _ => mul_nonpos_of_nonneg_of_nonpos (hw i).le (hs i)
    rw [h1] at this
    exact absurd this (not_le.mpr one_pos)

/-- Uniqueness. -/
theorem stationary_unique {n : ℕ} (P : Fin n → Fin n → α) (hP : Doeblin P) (w y z : Fin n → α) (hw : ∀ i, 0 < w i)
    (hy : ∀ j, ∑ i, y i * P i j = y j) (hz : ∀ j, ∑ i, z i * P i j = z j) (h : ∑ i, w i * y i = ∑ i, w i * z i) : y = z := by
  have := stationary_zero P hP w (y - z) hw (fun j => by
    simp only [Pi.sub_apply, sub_mul, Finset.sum_sub_distrib, hy, hz]) (by
    simp only [Pi.sub_apply, mul_sub, Finset.sum_sub_distrib, h, sub_self])
  exact sub_eq_zero.mp this

/-! ### Composition -/

theorem compMatrix_mulVec {n : ℕ} (P : Matrix (Fin (n + 1)) (Fin (n + 1)) α) (x : Fin (n + 1) → α) (i : Fin (n + 1)) :
    (compMatrix P).mulVec x i = if i = Fin.last n then ∑ j, x j else ∑ j, x j * P j i - x i := by
  unfold Matrix.mulVec dotProduct compMatrix
  split_ifs with h
  · exact Finset.sum_congr rfl fun j _ => by simp only [if_pos h, one_mul]
  · simp only [if_neg h, sub_mul, Finset.sum_sub_distrib, ite_mul, one_mul, zero_mul, Finset.sum_ite_eq, Finset.mem_univ, if_true]
    congr 1
    exact Finset.sum_congr rfl fun j _ => mul_comm _ _

/-- The equations solved by `inst_copolymer_multi`. -/
theorem comp_solution_iff {n : ℕ} (P : Matrix (Fin (n + 1)) (Fin (n + 1)) α) (hr : ∀ i, ∑ j, P i j = 1) (x : Fin (n + 1) → α) :
    (compMatrix P).mulVec x = lastOne ↔ (∀ j, ∑ i, x i * P i j = x j) ∧ ∑ i, x i = 1 := by
  constructor
  · intro h
    have h' : ∀ i, (compMatrix P).mulVec x i = lastOne i := fun i => congrFun h i
    simp only [compMatrix_mulVec, lastOne] at h'
    refine ⟨stationary_last P hr x fun j hj => ?_, ?_⟩
    · have := h' j; rw [if_neg hj, if_neg hj] at this; exact sub_eq_zero.mp this
    · have := h' (Fin.last n); rwa [if_pos rfl, if_pos rfl] at this
  · rintro ⟨h1, h2⟩
    funext i
    rw [compMatrix_mulVec, lastOne]
    split_ifs with hi
    · exact h2
    · rw [h1, sub_self]

theorem compMatrix_det {n : ℕ} (P : Matrix (Fin (n + 1)) (Fin (n + 1)) α) (hP : Doeblin P) : (compMatrix P).det ≠ 0 := by
  intro h0
  obtain ⟨v, hv, h⟩ := Matrix.exists_mulVec_eq_zero_iff.mpr h0
  have h' : ∀ i, (compMatrix P).mulVec v i = 0 := fun i => congrFun h i
  simp only [compMatrix_mulVec] at h'
  apply hv
  refine stationary_zero P hP (fun _ => 1) v (fun _ => one_pos) (stationary_last P hP.rows v fun j hj => ?_) ?_
  · have := h' j; rw [if_neg hj] at this; exact sub_eq_zero.mp this
  · have := h' (Fin.last n); rw [if_pos rfl] at this
    simpa using this

/-- Transition probabilities of a composition `f ≥ 0`, not all zero. -/
theorem transitions_doeblin {n : ℕ} (f : Fin n → α) (r : Matrix (Fin n) (Fin n) α) (hf : ∀ i, 0 ≤ f i) (hf0 : ∃ i, 0 < f i)
    (hr : ∀ i j, 0 < r i j) : Doeblin (transitionsMulti f r) := by
  obtain ⟨j0, h0⟩ := hf0
  have hs : ∀ i, 0 < ∑ k, f k / r i k := fun i =>
    Finset.sum_pos' (fun k _ => div_nonneg (hf k) (hr i k).le) ⟨j0, Finset.mem_univ _, div_pos h0 (hr i j0)⟩
  refine ⟨fun i j => div_nonneg (div_nonneg (hf j) (hr i j).le) (hs i).le, fun i => ?_, j0, fun i =>
    div_pos (div_pos h0 (hr i j0)) (hs i)⟩
  unfold transitionsMulti
  rw [← Finset.sum_div, div_self (hs i).ne']

theorem comp_unique (m : ℕ) (f : Fin m → α) (r : Matrix (Fin m) (Fin m) α) (hf : ∀ i, 0 ≤ f i) (hf0 : ∃ i, 0 < f i)
    (hr : ∀ i j, 0 < r i j) (F G : Fin m → α) (hF : ∑ i, F i = 1)
    (hFs : ∀ j, ∑ i, F i * ((f j / r i j) / ∑ k, f k / r i k) = F j) (hG : ∑ i, G i = 1)
    (hGs : ∀ j, ∑ i, G i * ((f j / r i j) / ∑ k, f k / r i k) = G j) : F = G :=
  stationary_unique _ (transitions_doeblin f r hf hf0 hr) (fun _ => 1) F G (fun _ => one_pos) hFs hGs (by simp [hF, hG])

/-! ### Radical fractions -/

theorem radMatrix_mulVec {n : ℕ} (f : Fin (n + 1) → α) (k : Matrix (Fin (n + 1)) (Fin (n + 1)) α) (x : Fin (n + 1) → α)
    (i : Fin (n + 1)) : (radMatrix f k).mulVec x i =
      if i = Fin.last n then ∑ j, x j else ∑ j, k j i * f i * x j - (∑ l, k i l * f l) * x i := by
  unfold Matrix.mulVec dotProduct radMatrix
  split_ifs with h
  · exact Finset.sum_congr rfl fun j _ => by simp only [if_pos h, one_mul]
  · simp only [if_neg h, sub_mul, Finset.sum_sub_distrib, ite_mul, zero_mul, Finset.sum_ite_eq, Finset.mem_univ, if_true]

/-- Rate of consumption of radical `j` by propagation. -/
def radOut {n : ℕ} (f : Fin n → α) (k : Matrix (Fin n) (Fin n) α) (j : Fin n) : α := ∑ l, k j l * f l

theorem radOut_pos {n : ℕ} (f : Fin n → α) (k : Matrix (Fin n) (Fin n) α) (hf : ∀ i, 0 ≤ f i) (hf0 : ∃ i, 0 < f i)
    (hk : ∀ i j, 0 < k i j) (j : Fin n) : 0 < radOut f k j := by
  obtain ⟨j0, h0⟩ := hf0
  exact Finset.sum_pos' (fun l _ => mul_nonneg (hk j l).le (hf l)) ⟨j0, Finset.mem_univ _, mul_pos (hk j j0) h0⟩

theorem rad_doeblin {n : ℕ} (f : Fin n → α) (k : Matrix (Fin n) (Fin n) α) (hf : ∀ i, 0 ≤ f i) (hf0 : ∃ i, 0 < f i)
    (hk : ∀ i j, 0 < k i j) : Doeblin (fun j i => k j i * f i / radOut f k j) := by
  have hs := radOut_pos f k hf hf0 hk
  obtain ⟨j0, h0⟩ := hf0
  refine ⟨fun i j => div_nonneg (mul_nonneg (hk i j).le (hf j)) (hs i).le, fun i => ?_, j0, fun i => div_pos (mul_pos (hk i j0) h0) (hs i)⟩
  rw [← Finset.sum_div]
  exact div_self (hs i).ne'

/-- The balances in terms of `y j = radOut j · x j` are the stationarity equations. -/
theorem rad_balance_iff {n : ℕ} (f : Fin n → α) (k : Matrix (Fin n) (Fin n) α) (hs : ∀ j, 0 < radOut f k j) (x : Fin n → α)
    (i : Fin n) : (∑ j, k j i * f i * x j = radOut f k i * x i) ↔
      ∑ j, (radOut f k j * x j) * (k j i * f i / radOut f k j) = radOut f k i * x i := by
  have : ∀ j, (radOut f k j * x j) * (k j i * f i / radOut f k j) = k j i * f i * x j := fun j => by
    have := (hs j).ne'; field_simp
  simp only [this]

theorem rad_solution_iff {n : ℕ} (f : Fin (n + 1) → α) (k : Matrix (Fin (n + 1)) (Fin (n + 1)) α) (hf : ∀ i, 0 ≤ f i)
    (hf0 : ∃ i, 0 < f i) (hk : ∀ i j, 0 < k i j) (x : Fin (n + 1) → α) :
    (radMatrix f k).mulVec x = lastOne ↔ (∀ i, ∑ j, k j i * f i * x j = radOut f k i * x i) ∧ ∑ i, x i = 1 := by
  have hs := radOut_pos f k hf hf0 hk
  constructor
  · intro h
    have h' : ∀ i, (radMatrix f k).mulVec x i = lastOne i := fun i => congrFun h i
    simp only [radMatrix_mulVec, lastOne] at h'
    refine ⟨fun i => (rad_balance_iff f k hs x i).mpr ?_, ?_⟩
    · refine stationary_last _ (rad_doeblin f k hf hf0 hk).rows (fun j => radOut f k j * x j) (fun j hj => ?_) i
      have := h' j
      rw [if_neg hj, if_neg hj] at this
      exact (rad_balance_iff f k hs x j).mp (sub_eq_zero.mp this)
    · have := h' (Fin.last n); rwa [if_pos rfl, if_pos rfl] at this
  · rintro ⟨h1, h2⟩
    funext i
    rw [radMatrix_mulVec, lastOne]
    split_ifs with hi
    · exact h2
    · rw [h1]; exact sub_self _

theorem rad_weight {n : ℕ} (f : Fin n → α) (k : Matrix (Fin n) (Fin n) α) (hs : ∀ j, 0 < radOut f k j) (x : Fin n → α) :
    ∑ i, 1 / radOut f k i * (radOut f k i * x i) = ∑ i, x i :=
  Finset.sum_congr rfl fun i _ => by have := (hs i).ne'; field_simp

theorem radMatrix_det {n : ℕ} (f : Fin (n + 1) → α) (k : Matrix (Fin (n + 1)) (Fin (n + 1)) α) (hf : ∀ i, 0 ≤ f i)
    (hf0 : ∃ i, 0 < f i) (hk : ∀ i j, 0 < k i j) : (radMatrix f k).det ≠ 0 := by
  intro h0
  have hs := radOut_pos f k hf hf0 hk
  obtain ⟨v, hv, h⟩ := Matrix.exists_mulVec_eq_zero_iff.mpr h0
  have h' : ∀ i, (radMatrix f k).mulVec v i = 0 := fun i => congrFun h i
  simp only [radMatrix_mulVec] at h'
  have hy := stationary_zero _ (rad_doeblin f k hf hf0 hk) (fun i => 1 / radOut f k i) (fun j => radOut f k j * v j)
    (fun i => one_div_pos.mpr (hs i))
    (stationary_last _ (rad_doeblin f k hf hf0 hk).rows _ fun j hj => by
      have := h' j
      rw [if_neg hj] at this
      exact (rad_balance_iff f k hs v j).mp (sub_eq_zero.mp this))
    (by rw [rad_weight f k hs]; have := h' (Fin.last n); rwa [if_pos rfl] at this)
  apply hv
  funext i
  have := congrFun hy i
  exact (mul_eq_zero.mp this).resolve_left (hs i).ne'

theorem rad_unique (m : ℕ) (f : Fin m → α) (k : Matrix (Fin m) (Fin m) α) (hf : ∀ i, 0 ≤ f i) (hf0 : ∃ i, 0 < f i)
    (hk : ∀ i j, 0 < k i j) (p q : Fin m → α) (hp : ∑ i, p i = 1) (hps : ∀ i, ∑ j, k j i * f i * p j = (∑ l, k i l * f l) * p i)
    (hq : ∑ i, q i = 1) (hqs : ∀ i, ∑ j, k j i * f i * q j = (∑ l, k i l * f l) * q i) : p = q := by
  have hs := radOut_pos f k hf hf0 hk
  have := stationary_unique _ (rad_doeblin f k hf hf0 hk) (fun i => 1 / radOut f k i) (fun j => radOut f k j * p j)
    (fun j => radOut f k j * q j) (fun i => one_div_pos.mpr (hs i)) (fun i => (rad_balance_iff f k hs p i).mp (hps i))
    (fun i => (rad_balance_iff f k hs q i).mp (hqs i)) (by rw [rad_weight f k hs, rad_weight f k hs, hp, hq])
  funext i
  exact mul_left_cancel₀ (hs i).ne' (congrFun this i)

end Verif.CopoMulti
