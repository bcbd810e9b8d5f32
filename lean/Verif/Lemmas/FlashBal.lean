import Verif.Lemmas.FlashIO

/-! # Helper lemmas: C83, C84: material balances, convergence test and robustness of the flash calculations -/

namespace Verif.Flash

open Finset

variable {N : ℕ}

theorem flashPT_inv {F : ℝ} {z : Vec N} {P T : ℝ} {Kcalc : KFun N} {x0 y0 : Option (Vec N)} {beta0 : Option ℝ} {maxiter : ℕ} {atol rtol alpha : ℝ}
    {r : FlashResult N} (h : flashPT F z P T Kcalc x0 y0 beta0 maxiter atol rtol alpha = .ok r) :
    ∃ x y s, ptLoop Kcalc (normalize z) P T maxiter atol rtol alpha maxiter ⟨false, .empty, beta0.map fun b => clip b 0 1, x, y, Kcalc T P x y⟩ = .ok s ∧
      r = ⟨s.success, s.message, T, P, F, (s.beta.map fun b => F * b).map fun v => F - v, s.beta.map fun b => F * b, s.beta, normalize z, s.x, s.y, s.K⟩ := by
  simp only [flashPT] at h
  obtain ⟨s, e, h⟩ := bind_ok h
  injection h with h
  exact ⟨_, _, s, e, h.symm⟩

theorem minPos_spec {l : List ℝ} {k : ℝ} (h : minPos l = .ok k) : k ∈ l ∧ 0 < k := by
  unfold minPos at h
  split at h
  · cases h
  · rename_i v vs hl
    injection h with h
    have hm : k ∈ l.filter fun v => v > 0 := by
      rw [hl, ← h]
      rcases foldl_min_mem vs v with h | h
      · rw [h]; simp
      · exact List.mem_cons_of_mem _ h
    rw [List.mem_filter] at hm
    simpa using hm

theorem weights_sum {beta : ℝ} {y K : Vec N} (hb : 0 ≤ beta) (hb1 : beta ≤ 1) (hK : ∀ i, 0 < K i) (hy : ∀ i, 0 ≤ y i) (hy1 : ∑ i, y i = 1) :
    (∀ i, 0 ≤ weights beta y K i) ∧ ∑ i, weights beta y K i = 1 := by
  have h0 : ∀ i, 0 ≤ y i / (1 + beta * (K i - 1)) := fun i => div_nonneg (hy i) (den_pos (hK i) hb hb1).le
  obtain ⟨i, hi⟩ := exists_pos_of_sum hy hy1
  exact ⟨normalize_nonneg h0, normalize_sum (sum_pos' (fun i _ => h0 i) ⟨i, mem_univ _, div_pos hi (den_pos (hK i) hb hb1)⟩).ne'⟩

theorem flashPV_inv {F : ℝ} {z : Vec N} {P beta : ℝ} {Kcalc : KFun N} {x0 y0 : Option (Vec N)} {T0 : ℝ} {maxiter : ℕ} {atol rtol : ℝ}
    {r : FlashResult N} (h : flashPV F z P beta Kcalc x0 y0 T0 maxiter atol rtol = .ok r) :
    ∃ x y x' y' s, x' = phaseX (normalize z) (Kcalc T0 P x y) beta ∧ y' = phaseY (normalize z) (Kcalc T0 P x y) beta ∧
      pvLoop Kcalc (normalize z) P beta 300 (paramsPVall T0 P x' y' beta Kcalc 300).2.2.2 (paramsPVall T0 P x' y' beta Kcalc 300).2.1 maxiter atol rtol maxiter
        ⟨false, .empty, T0, x', y', Kcalc T0 P x y, (paramsPVall T0 P x' y' beta Kcalc 300).1, (paramsPVall T0 P x' y' beta Kcalc 300).2.2.1⟩ = .ok s ∧
      r = ⟨s.success, s.message, s.Q, P, F, some (F - F * beta), some (F * beta), some beta, normalize z, s.x, s.y, s.K⟩ := by
  simp only [flashPV] at h
  obtain ⟨s, e, h⟩ := bind_ok h
  injection h with h
  exact ⟨_, _, _, _, s, rfl, rfl, e, h.symm⟩

theorem flashTV_inv {F : ℝ} {z : Vec N} {T beta : ℝ} {Kcalc : KFun N} {x0 y0 : Option (Vec N)} {P0 : ℝ} {maxiter : ℕ} {atol rtol : ℝ}
    {r : FlashResult N} (h : flashTV F z T beta Kcalc x0 y0 P0 maxiter atol rtol = .ok r) :
    ∃ x y x' y' s, x' = phaseX (normalize z) (Kcalc T P0 x y) beta ∧ y' = phaseY (normalize z) (Kcalc T P0 x y) beta ∧
      tvLoop Kcalc (normalize z) T beta 100000 (paramsTVall T P0 x' y' beta Kcalc 100000).2.2.2 (paramsTVall T P0 x' y' beta Kcalc 100000).2.1 maxiter atol rtol maxiter
        ⟨false, .empty, P0, x', y', Kcalc T P0 x y, (paramsTVall T P0 x' y' beta Kcalc 100000).1, (paramsTVall T P0 x' y' beta Kcalc 100000).2.2.1⟩ = .ok s ∧
      r = ⟨s.success, s.message, T, s.Q, F, some (F - F * beta), some (F * beta), some beta, normalize z, s.x, s.y, s.K⟩ := by
  simp only [flashTV] at h
  obtain ⟨s, e, h⟩ := bind_ok h
  injection h with h
  exact ⟨_, _, _, _, s, rfl, rfl, e, h.symm⟩

theorem phaseY_nonneg {z K : Vec N} (hz : ∀ i, 0 ≤ z i) (hz1 : ∑ i, z i = 1) (hK : ∀ i, 0 < K i) {b : ℝ} (h0 : 0 ≤ b) (h1 : b ≤ 1) :
    (∀ i, 0 ≤ phaseY z K b i) ∧ ∑ i, phaseY z K b i = 1 := by
  have hn : ∀ i, 0 ≤ K i * (z i / (1 + b * (K i - 1))) := fun i => mul_nonneg (hK i).le (div_nonneg (hz i) (den_pos (hK i) h0 h1).le)
  obtain ⟨i, hi⟩ := exists_pos_of_sum hz hz1
  exact ⟨normalize_nonneg hn, normalize_sum (sum_pos' (fun i _ => hn i) ⟨i, mem_univ _, mul_pos (hK i) (div_pos hi (den_pos (hK i) h0 h1))⟩).ne'⟩

theorem minPos_ok {l : List ℝ} {v : ℝ} (hv : v ∈ l) (h0 : 0 < v) : ∃ k, minPos l = .ok k := by
  unfold minPos
  have : v ∈ l.filter fun v => v > 0 := by rw [List.mem_filter]; simpa using ⟨hv, h0⟩
  split
  · rename_i h; rw [h] at this; cases this
  · exact ⟨_, rfl⟩

theorem bind_exists {β γ : Type} {m : Except Err β} {f : β → Except Err γ} (hm : ∃ v, m = .ok v) (hf : ∀ v, ∃ r, f v = .ok r) : ∃ r, (m >>= f) = .ok r := by
  obtain ⟨v, rfl⟩ := hm
  exact hf v

theorem ptLoop_ok (hN : 0 < N) (Kcalc : KFun N) (hKpos : ∀ T P x y i, 0 < Kcalc T P x y i) (z : Vec N) (P T : ℝ) (maxiter : ℕ) (atol rtol alpha : ℝ) :
    ∀ (n : ℕ) (s : PTState N), n ≤ maxiter → ∃ r, ptLoop Kcalc z P T maxiter atol rtol alpha n s = .ok r := by
  intro n
  induction n with
  | zero => exact fun s _ => ⟨_, rfl⟩
  | succ n ih =>
    intro s hn
    simp only [ptLoop]
    obtain ⟨sol, hsol⟩ := (C56_error_iff (K := s.K) (z := z) s.beta maxiter atol).2 (Or.inl (by omega))
    rw [hsol, ok_bind]
    split_ifs with h1
    · exact ⟨_, rfl⟩
    · obtain ⟨k0, hk0⟩ := minPos_ok (l := List.ofFn (Kcalc T P (phaseX z s.K sol.beta) (phaseY z s.K sol.beta))) (List.mem_ofFn.2 ⟨⟨0, hN⟩, rfl⟩) (hKpos _ _ _ _ _)
      simp only [hk0, ok_bind]
      split_ifs
      · exact ⟨_, rfl⟩
      · exact ih _ (by omega)

/-- If the K-values are not all equal and all weights are positive, one of the volatility parameters is positive. -/
theorem exists_pos_u {w K : Vec N} (hw : ∀ i, 0 < w i) (hw1 : ∑ i, w i = 1) (hK : ∀ i, 0 < K i) (hne : ∃ i j, K i ≠ K j) : ∃ i, 0 < Real.log (K i) - lnKb w K := by
  by_contra hcon
  push Not at hcon
  have h0 : ∑ i, w i * (lnKb w K - Real.log (K i)) = 0 := by
    simp only [mul_sub, sum_sub_distrib, ← sum_mul, hw1, one_mul]
    exact sub_self _
  have h1 := (sum_eq_zero_iff_of_nonneg fun i _ => mul_nonneg (hw i).le (by linarith [hcon i])).1 h0
  obtain ⟨i, j, hij⟩ := hne
  have : ∀ i, Real.log (K i) = lnKb w K := fun i => by
    have := (mul_eq_zero.1 (h1 i (mem_univ _))).resolve_left (hw i).ne'
    linarith
  exact hij (Real.log_injOn_pos (hK i) (hK j) ((this i).trans (this j).symm))

theorem weights_pos {beta : ℝ} {y K : Vec N} (hb : 0 ≤ beta) (hb1 : beta ≤ 1) (hK : ∀ i, 0 < K i) (hy : ∀ i, 0 < y i) (i : Fin N) : 0 < weights beta y K i := by
  have h0 : ∀ i, 0 < y i / (1 + beta * (K i - 1)) := fun i => div_pos (hy i) (den_pos (hK i) hb hb1)
  exact div_pos (h0 i) (sum_pos (fun i _ => h0 i) ⟨i, mem_univ _⟩)

theorem io_params_pos {z : Vec N} (hz : ∀ i, 0 < z i) {u : Vec N} {Kb0 R beta : ℝ} (hb : 0 ≤ beta) (hb1 : beta ≤ 1) (hKb : 0 < Kb0) (h0 : 0 ≤ R) (h1 : R ≤ 1) {K : Vec N}
    (hK : ∀ i, 0 < K i) (hne : ∃ i j, K i ≠ K j) (A : ℝ) : ∃ v, minPos (List.ofFn (fun i => Real.log (K i) - lnKb (weights beta (normalize (ioEup u Kb0 R z)) K) K) ++ [A]) = .ok v := by
  have hp : ∀ i, 0 < ioP u Kb0 R z i := fun i => div_pos (hz i) (ioden_pos u hKb h0 h1 i)
  have he : ∀ i, 0 < ioEup u Kb0 R z i := fun i => mul_pos (Real.exp_pos _) (hp i)
  have hy : ∀ i, 0 < normalize (ioEup u Kb0 R z) i := fun i => div_pos (he i) (sum_pos (fun i _ => he i) ⟨i, mem_univ _⟩)
  have hne' := hne
  obtain ⟨i0, -⟩ := hne'
  have hy1 : ∑ i, normalize (ioEup u Kb0 R z) i = 1 := normalize_sum (sum_pos (fun i _ => he i) ⟨i0, mem_univ _⟩).ne'
  obtain ⟨i, hi⟩ := exists_pos_u (weights_pos hb hb1 hK hy) (weights_sum hb hb1 hK (fun i => (hy i).le) hy1).2 hK hne
  exact minPos_ok (List.mem_append_left _ (List.mem_ofFn.2 ⟨i, rfl⟩)) hi

theorem normalize_one (v : Vec 1) (h : v 0 ≠ 0) : normalize v = fun _ => 1 := by
  funext i
  rw [Subsingleton.elim i 0]
  simp [normalize, h]

theorem exLog (t : ℝ) : (fun i => Real.log ((![2, 1 / 2] : Vec 2) i * Real.exp t)) = ![Real.log 2 + t, -Real.log 2 + t] := by
  funext i
  fin_cases i
  · simp [Real.log_mul]
  · simp [Real.log_mul]

theorem ex_params (t : ℝ) : lnKb (weights 0 ![4 / 5, 1 / 5] (fun i => (![2, 1 / 2] : Vec 2) i * Real.exp t)) (fun i => (![2, 1 / 2] : Vec 2) i * Real.exp t) =
    3 / 5 * Real.log 2 + t := by
  have hw : weights 0 ![4 / 5, 1 / 5] (fun i => (![2, 1 / 2] : Vec 2) i * Real.exp t) = ![4 / 5, 1 / 5] := by
    funext i; fin_cases i <;> norm_num [weights, normalize, Fin.sum_univ_two]
  have h0 := congrFun (exLog t) 0
  have h1 := congrFun (exLog t) 1
  rw [hw, lnKb, Fin.sum_univ_two, h0, h1]
  simp
  ring

theorem ex_lnKb' (t s : ℝ) : lnKb (weights 0 ![4 / 5, 1 / 5] (fun i => (![2, 1 / 2] : Vec 2) i * Real.exp t)) (fun i => (![2, 1 / 2] : Vec 2) i * Real.exp s) =
    3 / 5 * Real.log 2 + s := by
  rw [← ex_params s]
  congr 1
  funext i; fin_cases i <;> norm_num [weights, normalize, Fin.sum_univ_two]

theorem ex_y0 : phaseY ![1 / 2, 1 / 2] ![2, 1 / 2] 0 = ![4 / 5, 1 / 5] := by
  funext i; fin_cases i <;> norm_num [phaseY, normalize, Fin.sum_univ_two]

end Verif.Flash
