import Verif.Lemmas.Mixing

/-!
# C66: mixing rules

The specification is the double sum `Σ_i Σ_j y_i y_j √(Q_i Q_j) (1 - k_ij)` over all pairs; the code computes a square (no interaction) or a loop
over the upper triangle.
-/

namespace Verif.Mixing

open Finset

variable {N : ℕ}

/-- C66: for a symmetric interaction matrix with zero diagonal, the upper-triangle loop is the full double sum. -/
theorem C66_geometric_double_sum (y Q : Fin N → ℝ) (hQ : ∀ i, 0 ≤ Q i) (k : Fin N → Fin N → ℝ) (hk : ∀ i j, k i j = k j i) (hd : ∀ i, k i i = 0) :
    geometric y Q (some k) = ∑ i, ∑ j, y i * y j * √(Q i * Q j) * (1 - k i j) := geometric_some_eq y Q hQ k hk hd

example : geometric ![1 / 2, 1 / 2] ![1, 4] (some ![![0, 1 / 2], ![1 / 2, 0]]) = 7 / 4 := by
  rw [C66_geometric_double_sum _ _ (by intro i; fin_cases i <;> norm_num) _ (by intro i j; fin_cases i <;> fin_cases j <;> rfl)
    (by intro i; fin_cases i <;> rfl)]
  have h1 : √(4 * 4 : ℝ) = 4 := Real.sqrt_mul_self (by norm_num)
  have h2 : √(4 : ℝ) = 2 := by rw [show (4 : ℝ) = 2 * 2 by norm_num]; exact Real.sqrt_mul_self (by norm_num)
  simp [Fin.sum_univ_two, h1, h2]; norm_num

/-- C66: an all-zero interaction matrix gives the same mixture value as no interaction matrix. -/
theorem C66_zero_interaction (y Q : Fin N → ℝ) (hQ : ∀ i, 0 ≤ Q i) : geometric y Q (some fun _ _ => 0) = geometric y Q none := by
  rw [geometric_some_eq y Q hQ _ (fun _ _ => rfl) (fun _ => rfl), geometric_none_eq y Q hQ]
  simp

example : geometric ![1 / 2, 1 / 2] ![1, 4] (some fun _ _ => 0) = geometric ![1 / 2, 1 / 2] ![1, 4] none :=
  C66_zero_interaction _ _ (by intro i; fin_cases i <;> norm_num)

/-- C66: the pure-component ends, whatever the interaction matrix. -/
theorem C66_pure (i : Fin N) (Q : Fin N → ℝ) (hQ : 0 ≤ Q i) (k : Option (Fin N → Fin N → ℝ)) (q : Fin N → Fin N → ℝ) :
    geometric (Pi.single i 1) Q k = Q i ∧ quadratic (Pi.single i 1) q = q i i := by
  constructor
  · cases k with
    | none => simp [geometric, Pi.single_apply, Real.sq_sqrt hQ]
    | some k =>
      rw [geometric, sum_eq_single i]
      · rw [sum_eq_zero]
        · simp
        · intro j hj
          have : j ≠ i := (mem_filter.1 hj).2.ne'
          simp [Pi.single_apply, this]
      · intro j _ hj
        simp [Pi.single_apply, hj]
      · simp
  · simp [quadratic, Pi.single_apply]

example : geometric (Pi.single 1 1) ![1, 4] (some ![![0, 1], ![1, 0]]) = 4 := (C66_pure 1 _ (by norm_num) _ fun _ _ => 0).1

/-- C66: a mixture of identical components has the property of the component. -/
theorem C66_identical (y : Fin N → ℝ) (hy : ∑ i, y i = 1) (q : ℝ) (hq : 0 ≤ q) :
    geometric y (fun _ => q) none = q ∧ geometric y (fun _ => q) (some fun _ _ => 0) = q ∧ quadratic y (fun _ _ => q) = q := by
  have h : geometric y (fun _ => q) none = q := by
    rw [geometric, ← sum_mul, hy, one_mul, Real.sq_sqrt hq]
  refine ⟨h, (C66_zero_interaction y _ fun _ => hq).trans h, ?_⟩
  rw [quadratic]
  simp_rw [← sum_mul, hy, one_mul]

example : geometric ![1 / 4, 3 / 4] (fun _ => 9) none = 9 := (C66_identical _ (by norm_num [Fin.sum_univ_two]) 9 (by norm_num)).1

/-- C66: the mixture value lies between the smallest and the largest entries. -/
theorem C66_bounds (y : Fin N → ℝ) (hy : ∑ i, y i = 1) (hy0 : ∀ i, 0 ≤ y i) (lo hi : ℝ) :
    (∀ q : Fin N → Fin N → ℝ, (∀ i j, lo ≤ q i j ∧ q i j ≤ hi) → lo ≤ quadratic y q ∧ quadratic y q ≤ hi) ∧
      (∀ Q : Fin N → ℝ, 0 ≤ lo → (∀ i, lo ≤ Q i ∧ Q i ≤ hi) → lo ≤ geometric y Q none ∧ geometric y Q none ≤ hi) := by
  have key : ∀ (f : Fin N → ℝ) (l h : ℝ), (∀ i, l ≤ f i ∧ f i ≤ h) → l ≤ ∑ i, y i * f i ∧ ∑ i, y i * f i ≤ h := by
    intro f l h hf
    constructor
    · calc l = ∑ i, y i * l := by rw [← sum_mul, hy, one_mul]
        _ ≤ _ := sum_le_sum fun i _ => mul_le_mul_of_nonneg_left (hf i).1 (hy0 i)
    · calc ∑ i, y i * f i ≤ ∑ i, y i * h := sum_le_sum fun i _ => mul_le_mul_of_nonneg_left (hf i).2 (hy0 i)
        _ = h := by rw [← sum_mul, hy, one_mul]
  constructor
  · intro q hq
    exact key _ _ _ fun j => key _ _ _ fun i => hq i j
  · intro Q hlo hQ
    have hhi : 0 ≤ hi := by
      by_contra hneg
      have : ∀ i : Fin N, False := fun i => hneg (hlo.trans ((hQ i).1.trans (hQ i).2))
      have h0 : ∑ i, y i = 0 := sum_eq_zero fun i _ => (this i).elim
      rw [hy] at h0; exact one_ne_zero h0
    obtain ⟨h1, h2⟩ := key (fun i => √(Q i)) (√lo) (√hi) fun i => ⟨Real.sqrt_le_sqrt (hQ i).1, Real.sqrt_le_sqrt (hQ i).2⟩
    rw [geometric]
    constructor
    · calc lo = √lo ^ 2 := (Real.sq_sqrt hlo).symm
        _ ≤ _ := pow_le_pow_left₀ (Real.sqrt_nonneg _) h1 2
    · calc _ ≤ √hi ^ 2 := pow_le_pow_left₀ ((Real.sqrt_nonneg _).trans h1) h2 2
        _ = hi := Real.sq_sqrt hhi

example : 1 ≤ geometric ![1 / 4, 3 / 4] ![1, 9] none ∧ geometric ![1 / 4, 3 / 4] ![1, 9] none ≤ 9 :=
  (C66_bounds _ (by norm_num [Fin.sum_univ_two]) (by intro i; fin_cases i <;> norm_num) 1 9).2 _ (by norm_num)
    (by intro i; fin_cases i <;> norm_num)

/-- C66: the pseudocritical properties satisfy `Pc vc = Zc R Tc`, are those of the component at a pure end, and lie within the range of the components. -/
theorem C66_pseudocritical (R : ℝ) (hR : 0 < R) (y Tc Pc Zc w : Fin N → ℝ) (hy : ∑ i, y i = 1) (hy0 : ∀ i, 0 ≤ y i) (hT : ∀ i, 0 < Tc i) (hP : ∀ i, 0 < Pc i)
    (hZ : ∀ i, 0 < Zc i) :
    (∃ T P v Z o, pseudocritical R y Tc Pc Zc (some w) = (T, P, v, Z, o) ∧ 0 < T ∧ 0 < P ∧ 0 < v ∧ 0 < Z ∧ P * v = Z * R * T ∧
      T = ∑ i, y i * Tc i ∧ Z = ∑ i, y i * Zc i ∧ v = ∑ i, y i * (Zc i * R * Tc i / Pc i) ∧ o = ∑ i, y i * w i) ∧
    (∀ i, pseudocritical R (Pi.single i 1) Tc Pc Zc (some w) = (Tc i, Pc i, Zc i * R * Tc i / Pc i, Zc i, w i)) ∧
    (∀ T P Z o, Tc = (fun _ => T) → Pc = (fun _ => P) → Zc = (fun _ => Z) → w = (fun _ => o) →
      pseudocritical R y Tc Pc Zc (some w) = (T, P, Z * R * T / P, Z, o)) := by
  have hpos : ∀ f : Fin N → ℝ, (∀ i, 0 < f i) → 0 < ∑ i, y i * f i := by
    intro f hf
    obtain ⟨i, hi⟩ : ∃ i, 0 < y i := by
      by_contra h
      push Not at h
      have : ∑ i, y i ≤ 0 := sum_nonpos fun i _ => h i
      linarith
    exact sum_pos' (fun j _ => mul_nonneg (hy0 j) (hf j).le) ⟨i, mem_univ _, mul_pos hi (hf i)⟩
  have hv : 0 < ∑ i, y i * (Zc i * R * Tc i / Pc i) := hpos _ fun i => div_pos (mul_pos (mul_pos (hZ i) hR) (hT i)) (hP i)
  refine ⟨⟨_, _, _, _, _, rfl, hpos _ hT, div_pos (mul_pos (mul_pos hR (hpos _ hZ)) (hpos _ hT)) hv, hv, hpos _ hZ, ?_, rfl, rfl, rfl, rfl⟩, ?_, ?_⟩
  · rw [div_mul_cancel₀ _ hv.ne']; ring
  · intro i
    have hi := (hP i).ne'
    have hTi := (hT i).ne'
    have hZi := (hZ i).ne'
    simp only [pseudocritical, Pi.single_apply, ite_mul, one_mul, zero_mul, sum_ite_eq', mem_univ, if_true]
    refine Prod.ext rfl (Prod.ext ?_ rfl)
    change R * Zc i * Tc i / (Zc i * R * Tc i / Pc i) = Pc i
    field_simp
  · rintro T P Z o rfl rfl rfl rfl
    have hne : Nonempty (Fin N) := by
      by_contra h
      rw [not_nonempty_iff] at h
      rw [univ_eq_empty, sum_empty] at hy
      exact zero_ne_one hy
    obtain ⟨i⟩ := hne
    have hPi := (hP i).ne'
    have hTi := (hT i).ne'
    have hZi := (hZ i).ne'
    simp only [pseudocritical, ← sum_mul, hy, one_mul]
    refine Prod.ext rfl (Prod.ext ?_ rfl)
    change R * Z * T / (Z * R * T / P) = P
    field_simp

example : pseudocritical 8 (Pi.single 1 1) ![1, 2] ![3, 4] ![1 / 4, 1 / 3] (some ![0, 1]) = (2, 4, 1 / 3 * 8 * 2 / 4, 1 / 3, 1) :=
  ((C66_pseudocritical 8 (by norm_num) ![1, 0] ![1, 2] ![3, 4] ![1 / 4, 1 / 3] ![0, 1] (by norm_num [Fin.sum_univ_two])
    (by intro i; fin_cases i <;> norm_num) (by intro i; fin_cases i <;> norm_num) (by intro i; fin_cases i <;> norm_num)
    (by intro i; fin_cases i <;> norm_num)).2.1 1)

end Verif.Mixing
