import Verif.Props.FlashBal

/-!
# C113: `flash2_PT` is damped successive substitution
-/

namespace Verif.Flash

open Finset

variable {N : ℕ}

/-- One step of damped successive substitution in `ln K`, for phase fraction `b`: phases from the current K-values, new K-values from the model, weighted geometric mean. -/
def IsStep (Kcalc : KFun N) (z : Vec N) (P T alpha b : ℝ) (K K' : Vec N) : Prop :=
  let x := fun i => z i / (1 + b * (K i - 1)) / ∑ j, z j / (1 + b * (K j - 1))
  let y := fun i => K i * (z i / (1 + b * (K i - 1))) / ∑ j, K j * (z j / (1 + b * (K j - 1)))
  ∀ i, Real.log (K' i) = alpha * Real.log (Kcalc T P x y i) + (1 - alpha) * Real.log (K i)

theorem ptLoop_trace (Kcalc : KFun N) (z : Vec N) (P T : ℝ) (maxiter : ℕ) (atol rtol alpha : ℝ) : ∀ (n : ℕ) (s s' : PTState N),
    ptLoop Kcalc z P T maxiter atol rtol alpha n s = .ok s' → ∃ (k : ℕ) (K : ℕ → Vec N) (b : ℕ → ℝ), k ≤ n ∧ K 0 = s.K ∧ K k = s'.K ∧
      (∀ j < k, IsStep Kcalc z P T alpha (b j) (K j) (K (j + 1)) ∧ ∃ b0 sol, solveRR (K j) z b0 maxiter atol = .ok sol ∧ sol.success = true ∧ sol.beta = b j) ∧
      (s'.message = .maxiter → s.message ≠ .maxiter → k = n) := by
  intro n
  induction n with
  | zero =>
    intro s s' h
    simp only [ptLoop] at h
    injection h with h
    exact ⟨0, fun _ => s.K, fun _ => 0, le_rfl, rfl, by rw [← h], fun j hj => absurd hj (Nat.not_lt_zero j), fun _ _ => rfl⟩
  | succ n ih =>
    intro s s' h
    simp only [ptLoop] at h
    obtain ⟨sol, e1, h⟩ := bind_ok h
    by_cases hs : sol.success = true
    · simp only [hs, Bool.not_true, Bool.false_eq_true, if_false] at h
      obtain ⟨k0, e2, h⟩ := bind_ok h
      by_cases hc : AllClose (Kcalc T P (phaseX z s.K sol.beta) (phaseY z s.K sol.beta)) s.K (k0 * rtol)
      · rw [if_pos hc] at h
        injection h with h
        refine ⟨0, fun _ => s.K, fun _ => 0, Nat.zero_le _, rfl, by rw [← h], fun j hj => absurd hj (Nat.not_lt_zero j), fun h1 _ => ?_⟩
        rw [← h] at h1; cases h1
      · rw [if_neg hc] at h
        obtain ⟨k, K, b, hk, h0, hK, hst, hm⟩ := ih _ s' h
        refine ⟨k + 1, fun j => Nat.casesOn j s.K K, fun j => Nat.casesOn j sol.beta b, by omega, rfl, hK, ?_, fun h1 h2 => by rw [hm h1 h2]⟩
        intro j hj
        cases j with
        | zero =>
          refine ⟨?_, s.beta, sol, e1, hs, rfl⟩
          intro i
          show Real.log (K 0 i) = _
          rw [h0]
          exact Real.log_exp _
        | succ j => exact hst j (by omega)
    · simp only [Bool.not_eq_true] at hs
      simp only [hs, Bool.not_false, if_true] at h
      injection h with h
      refine ⟨0, fun _ => s.K, fun _ => 0, Nat.zero_le _, rfl, by rw [← h], fun j hj => absurd hj (Nat.not_lt_zero j), fun h1 _ => ?_⟩
      rw [← h] at h1; cases h1

/-- **C113.** The K-values that `flash2_PT` returns come from those at the starting compositions by at most `maxiter` steps of damped successive substitution, each with a
phase fraction for which the Rachford-Rice solver reported success; by exactly `maxiter` steps if the iteration limit is reported. -/
theorem C113_trace {F : ℝ} {z : Vec N} {P T : ℝ} {Kcalc : KFun N} {x0 y0 : Option (Vec N)} {beta0 : Option ℝ} {maxiter : ℕ} {atol rtol alpha : ℝ} {r : FlashResult N}
    (h : flashPT F z P T Kcalc x0 y0 beta0 maxiter atol rtol alpha = .ok r) :
    ∃ (k : ℕ) (K : ℕ → Vec N) (b : ℕ → ℝ), k ≤ maxiter ∧ K 0 = Kcalc T P (normalize (x0.getD z)) (normalize (y0.getD z)) ∧ K k = r.K ∧
      (∀ j < k, IsStep Kcalc (fun i => z i / ∑ l, z l) P T alpha (b j) (K j) (K (j + 1)) ∧
        ∃ b0 sol, solveRR (K j) (fun i => z i / ∑ l, z l) b0 maxiter atol = .ok sol ∧ sol.success = true ∧ sol.beta = b j) ∧
      (r.message = .maxiter → k = maxiter) := by
  simp only [flashPT] at h
  obtain ⟨s, e, h⟩ := bind_ok h
  injection h with h
  obtain ⟨k, K, b, hk, h0, hK, hst, hm⟩ := ptLoop_trace Kcalc _ P T maxiter atol rtol alpha maxiter _ s e
  refine ⟨k, K, b, hk, ?_, by rw [hK, ← h], hst, fun h1 => hm (by rw [← h] at h1; exact h1) (by simp)⟩
  rw [h0]
  cases x0 <;> cases y0 <;> rfl

/-- **C113.** With `alpha = 0` the K-values never move from those at the starting compositions. -/
theorem C113_no_step {F : ℝ} {z : Vec N} {P T : ℝ} {Kcalc : KFun N} (hKpos : ∀ T P x y i, 0 < Kcalc T P x y i) {x0 y0 : Option (Vec N)} {beta0 : Option ℝ} {maxiter : ℕ}
    {atol rtol : ℝ} {r : FlashResult N} (h : flashPT F z P T Kcalc x0 y0 beta0 maxiter atol rtol 0 = .ok r) :
    r.K = Kcalc T P (normalize (x0.getD z)) (normalize (y0.getD z)) := by
  have hpos : ∀ i, 0 < r.K i := by
    obtain ⟨x, y, s, e, rfl⟩ := flashPT_inv h
    exact (ptLoop_spec Kcalc _ P T maxiter atol rtol 0 maxiter _ s (fun i => hKpos T P x y i) rfl e).1
  obtain ⟨k, K, b, -, h0, hK, hst, -⟩ := C113_trace h
  have : ∀ j ≤ k, ∀ i, Real.log (K j i) = Real.log (K 0 i) := by
    intro j
    induction j with
    | zero => intro _ _; rfl
    | succ j ih =>
      intro hj i
      have := (hst j (by omega)).1 i
      rw [this, zero_mul, zero_add, sub_zero, one_mul, ih (by omega)]
  funext i
  rw [← h0]
  refine Real.log_injOn_pos (hpos i) (by rw [h0]; exact hKpos ..) ?_
  rw [← hK]; exact this k le_rfl i

/-- **C113.** K-values that do not depend on composition: one pass suffices, for any damping, and they are returned unchanged. -/
theorem C113_ideal {F : ℝ} {z : Vec N} {P T : ℝ} {K0 : Vec N} (hK : ∀ i, 0 < K0 i) {x0 y0 : Option (Vec N)} {beta0 : Option ℝ} {n : ℕ} {atol rtol alpha : ℝ} (hrt : 0 ≤ rtol)
    {r : FlashResult N} (h : flashPT F z P T (fun _ _ _ _ => K0) x0 y0 beta0 (n + 1) atol rtol alpha = .ok r) :
    r.K = K0 ∧ (r.success = true ∨ r.message = .innerFailed) := by
  simp only [flashPT] at h
  obtain ⟨s, e, h⟩ := bind_ok h
  injection h with h
  simp only [ptLoop] at e
  obtain ⟨sol, e1, e⟩ := bind_ok e
  by_cases hs : sol.success = true
  · simp only [hs, Bool.not_true, Bool.false_eq_true, if_false] at e
    obtain ⟨k0, e2, e⟩ := bind_ok e
    have hk0 := (minPos_spec e2).2
    have hc : AllClose K0 K0 (k0 * rtol) := by
      intro i
      rw [sub_self, abs_zero]
      have := mul_nonneg hk0.le hrt
      positivity
    rw [if_pos hc] at e
    injection e with e
    rw [← h, ← e]
    exact ⟨rfl, Or.inl rfl⟩
  · simp only [Bool.not_eq_true] at hs
    simp only [hs, Bool.not_false, if_true] at e
    injection e with e
    rw [← h, ← e]
    exact ⟨rfl, Or.inr rfl⟩

/-- Composition-dependent K-values, damping 1/2: the flash returns a result, whatever the limit of iterations. -/
example (maxiter : ℕ) : (∀ (T P : ℝ) (x y : Vec 2) (i : Fin 2), 0 < (fun _ _ x _ i => Real.exp (x 1 ^ 2) * ![2, 1 / 2] i : KFun 2) T P x y i) ∧
    ∃ r, flashPT 1 ![1, 2] 1 300 (fun _ _ x _ i => Real.exp (x 1 ^ 2) * ![2, 1 / 2] i : KFun 2) none none none maxiter 1e-9 1e-6 (1 / 2) = .ok r := by
  have h : ∀ (T P : ℝ) (x y : Vec 2) (i : Fin 2), 0 < (fun _ _ x _ i => Real.exp (x 1 ^ 2) * ![2, 1 / 2] i : KFun 2) T P x y i := by
    intro T P x y i
    have := Real.exp_pos (x 1 ^ 2)
    fin_cases i <;> simp [this]
  exact ⟨h, C84_PT_returns (by norm_num) _ _ _ _ _ h ..⟩

end Verif.Flash
