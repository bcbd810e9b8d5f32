import Verif.Lemmas.FlashBal

/-!
# C57, C83, C84: material balances, convergence test and robustness of the flash calculations
-/

namespace Verif.Flash

open Finset

variable {N : ℕ}

/-! ### C57: PT flash -/

/-- **C57.** Overall balance of `flash2_PT`, converged or not: `V + L = F` and `V/F` in [0, 1]. -/
theorem C57_PT_total {F : ℝ} {z : Vec N} {P T : ℝ} {Kcalc : KFun N} (hKpos : ∀ T P x y i, 0 < Kcalc T P x y i) {x0 y0 : Option (Vec N)} {beta0 : Option ℝ}
    {maxiter : ℕ} (hm : 1 ≤ maxiter) {atol rtol alpha : ℝ} {r : FlashResult N} (h : flashPT F z P T Kcalc x0 y0 beta0 maxiter atol rtol alpha = .ok r) :
    ∃ b v l, r.beta = some b ∧ r.V = some v ∧ r.L = some l ∧ v + l = F ∧ v = F * b ∧ 0 ≤ b ∧ b ≤ 1 := by
  obtain ⟨x, y, s, e, rfl⟩ := flashPT_inv h
  obtain ⟨-, a2, a3, -⟩ := ptLoop_spec Kcalc _ P T maxiter atol rtol alpha maxiter _ s (fun i => hKpos T P x y i) rfl e
  obtain ⟨b, hb⟩ := a2 hm
  refine ⟨b, F * b, F - F * b, hb, by simp [hb], by simp [hb], by ring, rfl, ?_⟩
  rcases a3 b hb with h3 | h3
  · simp only [Option.mem_def, Option.map_eq_some_iff] at h3
    obtain ⟨c, -, rfl⟩ := h3
    exact ⟨le_min (le_max_right _ _) zero_le_one, min_le_right _ _⟩
  · exact h3

/-- **C57.** A converged `flash2_PT`: the phase compositions sum to one, `y_i = c K_i x_i` with a common factor `c` (close to 1 for a two-phase
result), and the component balances `F z_i = L x_i + V y_i` hold to a relative accuracy `atol/(1 - atol)`, where `atol` is the tolerance of the Rachford-Rice
solver (exactly for a single-phase result). -/
theorem C57_PT_balance {F : ℝ} (hF : 0 ≤ F) {z : Vec N} (hz : ∀ i, 0 ≤ z i) (hz0 : 0 < ∑ i, z i) {P T : ℝ} {Kcalc : KFun N}
    (hKpos : ∀ T P x y i, 0 < Kcalc T P x y i) {x0 y0 : Option (Vec N)} {beta0 : Option ℝ} {maxiter : ℕ} {atol rtol alpha : ℝ} (hat0 : 0 ≤ atol)
    (hat : atol < 1) {r : FlashResult N} (h : flashPT F z P T Kcalc x0 y0 beta0 maxiter atol rtol alpha = .ok r) (hs : r.success = true) :
    (∀ i, r.z i = z i / ∑ j, z j) ∧ ∑ i, r.x i = 1 ∧ ∑ i, r.y i = 1 ∧ (∀ i, 0 ≤ r.x i ∧ 0 ≤ r.y i) ∧ ∃ b v l c, r.beta = some b ∧ r.V = some v ∧ r.L = some l ∧ 0 < c ∧
      (∀ i, r.y i = c * (r.K i * r.x i)) ∧ (0 < b → b < 1 → |c - 1| ≤ atol / (1 - atol)) ∧
      ∀ i, |F * r.z i - (l * r.x i + v * r.y i)| ≤ F * r.z i * (atol / (1 - atol)) := by
  obtain ⟨x, y, s, e, rfl⟩ := flashPT_inv h
  simp only at hs ⊢
  obtain ⟨hK, -, -, a4⟩ := ptLoop_spec Kcalc _ P T maxiter atol rtol alpha maxiter _ s (fun i => hKpos T P x y i) rfl e
  obtain ⟨-, b0, sol, k0, e1, e2, e3, e4, e5, -, -⟩ := a4 hs
  obtain ⟨c1, c2, -, c4, -⟩ := C56_certified b0 maxiter atol sol e1
  obtain ⟨-, c4⟩ := c4 e2
  have hzn : ∀ i, 0 ≤ normalize z i := normalize_nonneg hz
  have hzn1 : ∑ i, normalize z i = 1 := normalize_sum hz0.ne'
  have hSx := sumX_eq hK hzn1 c1 c2
  have hSy := sumY_eq hK hzn1 c1 c2
  have hx0 : ∀ i, 0 ≤ normalize z i / (1 + sol.beta * (s.K i - 1)) := fun i => div_nonneg (hzn i) (den_pos (hK i) c1 c2).le
  obtain ⟨i0, hi0⟩ := exists_pos_of_sum hzn hzn1
  have hSx0 : 0 < ∑ i, normalize z i / (1 + sol.beta * (s.K i - 1)) :=
    sum_pos' (fun i _ => hx0 i) ⟨i0, mem_univ _, div_pos hi0 (den_pos (hK i0) c1 c2)⟩
  have hSy0 : 0 < ∑ i, s.K i * (normalize z i / (1 + sol.beta * (s.K i - 1))) :=
    sum_pos' (fun i _ => mul_nonneg (hK i).le (hx0 i)) ⟨i0, mem_univ _, mul_pos (hK i0) (div_pos hi0 (den_pos (hK i0) c1 c2))⟩
  refine ⟨fun i => rfl, by rw [e4]; exact normalize_sum hSx0.ne', by rw [e5]; exact normalize_sum hSy0.ne', fun i => ⟨?_, ?_⟩, sol.beta, F * sol.beta,
    F - F * sol.beta, (1 - sol.beta * rr sol.beta s.K (normalize z)) / (1 + (1 - sol.beta) * rr sol.beta s.K (normalize z)), e3, by simp [e3], by simp [e3],
    by rw [← hSx, ← hSy]; exact div_pos hSx0 hSy0, fun i => ?_, fun hb0 hb1 => ?_, fun i => ?_⟩
  · rw [e4]; exact normalize_nonneg hx0 i
  · rw [e5]; exact normalize_nonneg (fun i => mul_nonneg (hK i).le (hx0 i)) i
  · rw [e4, e5, ← hSx, ← hSy]
    have aux : ∀ X A B k : ℝ, A ≠ 0 → k * X / B = A / B * (k * (X / A)) := fun X A B k hA => by
      rw [div_mul_eq_mul_div]; congr 1; field_simp
    exact aux _ _ _ _ hSx0.ne'
  · have hr : |rr sol.beta s.K (normalize z)| ≤ atol := by
      rcases c4 with h | ⟨h, -⟩ | ⟨h, -⟩
      · exact h
      · rw [h] at hb0; exact absurd hb0 (lt_irrefl _)
      · rw [h] at hb1; exact absurd hb1 (lt_irrefl _)
    rw [hSy] at hSy0
    obtain ⟨h1, h2⟩ := abs_le.1 hr
    have e : (1 - sol.beta * rr sol.beta s.K (normalize z)) / (1 + (1 - sol.beta) * rr sol.beta s.K (normalize z)) - 1 =
        -rr sol.beta s.K (normalize z) / (1 + (1 - sol.beta) * rr sol.beta s.K (normalize z)) := by
      rw [div_sub_one hSy0.ne']; congr 1; ring
    rw [e, abs_div, abs_neg, abs_of_pos hSy0]
    refine div_le_div₀ hat0 hr (by linarith) ?_
    nlinarith
  · have e8 : s.x i = normalize z i / (1 + sol.beta * (s.K i - 1)) / (1 - sol.beta * rr sol.beta s.K (normalize z)) := by
      rw [e4, ← hSx]; rfl
    have e9 : s.y i = s.K i * (normalize z i / (1 + sol.beta * (s.K i - 1))) / (1 + (1 - sol.beta) * rr sol.beta s.K (normalize z)) := by
      rw [e5, ← hSy]; rfl
    have hd := den_pos (hK i) c1 c2
    have hzi : normalize z i = (1 - sol.beta) * (normalize z i / (1 + sol.beta * (s.K i - 1))) + sol.beta * (s.K i * (normalize z i / (1 + sol.beta * (s.K i - 1)))) := by
      have : (1 - sol.beta) + sol.beta * s.K i = 1 + sol.beta * (s.K i - 1) := by ring
      rw [← mul_assoc, ← add_mul, this, mul_div_cancel₀ _ hd.ne']
    have hX := hx0 i
    have hY : 0 ≤ s.K i * (normalize z i / (1 + sol.beta * (s.K i - 1))) := mul_nonneg (hK i).le hX
    rw [e8, e9]
    rw [hSx] at hSx0
    rw [hSy] at hSy0
    have hgoal : |normalize z i - ((1 - sol.beta) * (normalize z i / (1 + sol.beta * (s.K i - 1)) / (1 - sol.beta * rr sol.beta s.K (normalize z))) +
        sol.beta * (s.K i * (normalize z i / (1 + sol.beta * (s.K i - 1))) / (1 + (1 - sol.beta) * rr sol.beta s.K (normalize z))))| ≤
        normalize z i * (atol / (1 - atol)) := by
      generalize normalize z i / (1 + sol.beta * (s.K i - 1)) = X at *
      generalize s.K i * X = Y at *
      generalize rr sol.beta s.K (normalize z) = ρ at *
      generalize sol.beta = b at *
      have ex : X - X / (1 - b * ρ) = X * (-(b * ρ) / (1 - b * ρ)) := by field_simp; ring
      have ey : Y - Y / (1 + (1 - b) * ρ) = Y * (((1 - b) * ρ) / (1 + (1 - b) * ρ)) := by field_simp; ring
      have e : normalize z i - ((1 - b) * (X / (1 - b * ρ)) + b * (Y / (1 + (1 - b) * ρ))) = (1 - b) * (X - X / (1 - b * ρ)) + b * (Y - Y / (1 + (1 - b) * ρ)) := by
        linear_combination hzi
      have hq : 0 ≤ atol / (1 - atol) := div_nonneg hat0 (by linarith)
      have key : (1 - b) * |(-(b * ρ) / (1 - b * ρ))| ≤ (1 - b) * (atol / (1 - atol)) ∧ b * |((1 - b) * ρ) / (1 + (1 - b) * ρ)| ≤ b * (atol / (1 - atol)) := by
        rcases c4 with h | ⟨h, -⟩ | ⟨h, -⟩
        · obtain ⟨h1, h2⟩ := abs_le.1 h
          have hb1 : 0 ≤ 1 - b := by linarith
          constructor
          · refine mul_le_mul_of_nonneg_left ?_ hb1
            rw [abs_div, abs_neg, abs_mul, abs_of_nonneg c1, abs_of_pos hSx0]
            refine div_le_div₀ hat0 ?_ (by linarith) ?_
            · nlinarith [abs_nonneg ρ]
            · nlinarith
          · refine mul_le_mul_of_nonneg_left ?_ c1
            rw [abs_div, abs_mul, abs_of_nonneg hb1, abs_of_pos hSy0]
            refine div_le_div₀ hat0 ?_ (by linarith) ?_
            · nlinarith [abs_nonneg ρ]
            · nlinarith
        · subst h; simpa using hq
        · subst h; simpa using hq
      rw [e, ex, ey]
      refine (abs_add_le _ _).trans ?_
      rw [abs_mul, abs_mul, abs_mul, abs_mul, abs_of_nonneg (sub_nonneg.2 c2), abs_of_nonneg c1, abs_of_nonneg hX, abs_of_nonneg hY]
      have k1 := mul_le_mul_of_nonneg_left key.1 hX
      have k2 := mul_le_mul_of_nonneg_left key.2 hY
      rw [hzi]
      linarith
    have efin : F * normalize z i - ((F - F * sol.beta) * (normalize z i / (1 + sol.beta * (s.K i - 1)) / (1 - sol.beta * rr sol.beta s.K (normalize z))) +
        F * sol.beta * (s.K i * (normalize z i / (1 + sol.beta * (s.K i - 1))) / (1 + (1 - sol.beta) * rr sol.beta s.K (normalize z)))) =
        F * (normalize z i - ((1 - sol.beta) * (normalize z i / (1 + sol.beta * (s.K i - 1)) / (1 - sol.beta * rr sol.beta s.K (normalize z))) +
        sol.beta * (s.K i * (normalize z i / (1 + sol.beta * (s.K i - 1))) / (1 + (1 - sol.beta) * rr sol.beta s.K (normalize z))))) := by ring
    rw [efin, abs_mul, abs_of_nonneg hF, mul_assoc]
    exact mul_le_mul_of_nonneg_left hgoal hF

/-! ### C83 -/

/-- **C83 (partial).** What the convergence test of `flash2_PT` does guarantee: the K-values used agree with those of the model at the returned compositions
within `rtol_outer` times the smallest one plus **1e-5 of each value** (the default `rtol` of `np.allclose`). -/
theorem C83_tolerance_partial {F : ℝ} {z : Vec N} {P T : ℝ} {Kcalc : KFun N} (hKpos : ∀ T P x y i, 0 < Kcalc T P x y i) {x0 y0 : Option (Vec N)}
    {beta0 : Option ℝ} {maxiter : ℕ} {atol rtol alpha : ℝ} {r : FlashResult N} (h : flashPT F z P T Kcalc x0 y0 beta0 maxiter atol rtol alpha = .ok r)
    (hs : r.success = true) : ∃ j, ∀ i, |Kcalc T P r.x r.y i - r.K i| ≤ rtol * Kcalc T P r.x r.y j + 1e-5 * r.K i := by
  obtain ⟨x, y, s, e, rfl⟩ := flashPT_inv h
  simp only at hs ⊢
  obtain ⟨hK, -, -, a4⟩ := ptLoop_spec Kcalc _ P T maxiter atol rtol alpha maxiter _ s (fun i => hKpos T P x y i) rfl e
  obtain ⟨-, b0, sol, k0, e1, e2, e3, e4, e5, e6, e7⟩ := a4 hs
  obtain ⟨hk, -⟩ := minPos_spec e6
  rw [List.mem_ofFn] at hk
  obtain ⟨j, hj⟩ := hk
  refine ⟨j, fun i => ?_⟩
  have := e7 i
  rw [abs_of_pos (hK i), ← hj] at this
  rw [mul_comm rtol]
  exact this

/-- K-values of the witness of `C83_tolerance_false`: nearly constant. -/
noncomputable def exK : KFun 2 := fun _ _ x _ i => ![2, 1 / 2] i * (1 + 3e-5 * (1 / 2 - x 0))

/-- **C83 (false as stated).** `flash2_PT` may report convergence with `rtol_outer = 1e-12` although the K-values used differ from those of the model at the returned
compositions by a relative `5e-6`. -/
theorem C83_tolerance_false : ∃ r : FlashResult 2, flashPT 1 ![1, 1] 1 300 exK none none none 50 1e-9 1e-12 1 = .ok r ∧ r.success = true ∧ r.beta = some (1 / 2) ∧
    ∀ i, |exK 300 1 r.x r.y i - r.K i| = 5e-6 * r.K i := by
  have hz : normalize ![1, 1] = (![1 / 2, 1 / 2] : Vec 2) := by
    funext i; fin_cases i <;> norm_num [normalize, Fin.sum_univ_two]
  have hK : exK 300 1 ![1 / 2, 1 / 2] ![1 / 2, 1 / 2] = ![2, 1 / 2] := by
    funext i; fin_cases i <;> norm_num [exK]
  have hrr : solveRR ![2, 1 / 2] ![1 / 2, 1 / 2] (none : Option ℝ) 50 1e-9 = .ok ⟨true, 1, 1 / 2, 0⟩ := by
    have h0 : ¬ rr 0 ![2, 1 / 2] ![1 / 2, (1 : ℝ) / 2] < 0 := by norm_num [rr, Fin.sum_univ_two]
    have h1 : ¬ rr 1 ![2, 1 / 2] ![1 / 2, (1 : ℝ) / 2] > 0 := by norm_num [rr, Fin.sum_univ_two]
    have h2 : rr (1 / 2) ![2, 1 / 2] ![1 / 2, (1 : ℝ) / 2] = 0 := by norm_num [rr, Fin.sum_univ_two]
    have hmin : betaMin ![2, 1 / 2] ![1 / 2, (1 : ℝ) / 2] = 0 := by norm_num [betaMin, List.ofFn_succ, List.filter]
    have hmax : betaMax ![2, 1 / 2] ![1 / 2, (1 : ℝ) / 2] = 1 := by norm_num [betaMax, List.ofFn_succ, List.filter]
    simp only [solveRR, if_neg h0, if_neg h1, hmin, hmax, zero_add]
    simp only [rrLoop, h2]
    rw [if_pos (by norm_num)]
  have hx : phaseX ![1 / 2, 1 / 2] ![2, 1 / 2] (1 / 2) = ![1 / 3, 2 / 3] := by
    funext i; fin_cases i <;> norm_num [phaseX, normalize, Fin.sum_univ_two]
  have hy : phaseY ![1 / 2, 1 / 2] ![2, 1 / 2] (1 / 2) = ![2 / 3, 1 / 3] := by
    funext i; fin_cases i <;> norm_num [phaseY, normalize, Fin.sum_univ_two]
  have hK' : exK 300 1 ![1 / 3, 2 / 3] ![2 / 3, 1 / 3] = ![2.00001, 0.5000025] := by
    funext i; fin_cases i <;> norm_num [exK]
  have hmin : minPos (List.ofFn (![2.00001, 0.5000025] : Vec 2)) = .ok 0.5000025 := by
    norm_num [minPos, List.ofFn_succ, List.filter]
  refine ⟨⟨true, .converged, 300, 1, 1, some (1 - 1 * (1 / 2)), some (1 * (1 / 2)), some (1 / 2), ![1 / 2, 1 / 2], ![1 / 3, 2 / 3], ![2 / 3, 1 / 3], ![2, 1 / 2]⟩, ?_, rfl, rfl, ?_⟩
  · have hc : AllClose (![2.00001, 0.5000025] : Vec 2) ![2, 1 / 2] (0.5000025 * 1e-12) := by
      intro i
      fin_cases i <;> norm_num [abs_of_pos]
    have hloop : ptLoop exK ![1 / 2, 1 / 2] 1 300 50 1e-9 1e-12 1 (49 + 1) ⟨false, .empty, none, ![1 / 2, 1 / 2], ![1 / 2, 1 / 2], ![2, 1 / 2]⟩ =
        .ok ⟨true, .converged, some (1 / 2), ![1 / 3, 2 / 3], ![2 / 3, 1 / 3], ![2, 1 / 2]⟩ := by
      rw [ptLoop]
      simp only [hrr, ok_bind, hx, hy, hK', hmin, Bool.not_true, Bool.false_eq_true, if_false, if_pos hc]
      rfl
    simp only [flashPT, Option.map_none, Option.getD_none, hz, hK]
    rw [show (50 : ℕ) = 49 + 1 from rfl] at *
    rw [hloop]
    rfl
  · intro i
    simp only [hK']
    fin_cases i <;> norm_num [abs_of_pos]

/-! ### C57: PV and TV flashes -/

/-- What a converged inside-out flash guarantees about the balances; `b` is the specified vapour fraction. There are pseudo volatilities `Kb0 exp(u_i)` such
that the error of the component balances is `F ρ (x_i - y_i)`, with `ρ` bounded by the tolerance of the inner loop times their spread. -/
def IOBalance (F b atol : ℝ) (r : FlashResult N) : Prop :=
  ∃ (u : Vec N) (Kb0 ρ : ℝ), 0 < Kb0 ∧
    |ρ| ≤ max eps (max atol ((4 * eps + atol) * ∑ i, r.z i * max (Kb0 * Real.exp (u i)) (1 / (Kb0 * Real.exp (u i))))) ∧
    ∀ i, F * (1 - b) * r.x i + F * b * r.y i - F * r.z i = F * ρ * (r.x i - r.y i)

/-- **C57.** Overall balance of `flash2_PV` and `flash2_TV`, converged or not. -/
theorem C57_PV_TV_total {F : ℝ} {z : Vec N} {Q beta : ℝ} {Kcalc : KFun N} {x0 y0 : Option (Vec N)} {Q0 : ℝ} {maxiter : ℕ} {atol rtol : ℝ} {r : FlashResult N}
    (h : flashPV F z Q beta Kcalc x0 y0 Q0 maxiter atol rtol = .ok r ∨ flashTV F z Q beta Kcalc x0 y0 Q0 maxiter atol rtol = .ok r) :
    ∃ v l, r.beta = some beta ∧ r.V = some v ∧ r.L = some l ∧ v + l = F ∧ v = F * beta := by
  rcases h with h | h
  · obtain ⟨_, _, _, _, s, -, -, -, rfl⟩ := flashPV_inv h
    exact ⟨_, _, rfl, rfl, rfl, by ring, rfl⟩
  · obtain ⟨_, _, _, _, s, -, -, -, rfl⟩ := flashTV_inv h
    exact ⟨_, _, rfl, rfl, rfl, by ring, rfl⟩

/-- **C57.** A converged `flash2_PV` or `flash2_TV`: the phase compositions are nonnegative and sum to one, the returned K-values are those of the model at the
returned state, and the component balances hold with the error given by `IOBalance`. -/
theorem C57_PV_TV_balance {F : ℝ} {z : Vec N} (hz : ∀ i, 0 ≤ z i) (hz0 : 0 < ∑ i, z i) {Q beta : ℝ} {Kcalc : KFun N} {x0 y0 : Option (Vec N)} {Q0 : ℝ}
    {maxiter : ℕ} {atol rtol : ℝ} (hat : 0 ≤ atol) {r : FlashResult N}
    (h : flashPV F z Q beta Kcalc x0 y0 Q0 maxiter atol rtol = .ok r ∨ flashTV F z Q beta Kcalc x0 y0 Q0 maxiter atol rtol = .ok r) (hs : r.success = true) :
    (∀ i, r.z i = z i / ∑ j, z j) ∧ ∑ i, r.x i = 1 ∧ ∑ i, r.y i = 1 ∧ (∀ i, 0 ≤ r.x i ∧ 0 ≤ r.y i) ∧ r.K = Kcalc r.T r.P r.x r.y ∧ IOBalance F beta atol r := by
  have hzn : ∀ i, 0 ≤ normalize z i := normalize_nonneg hz
  have hzn1 : ∑ i, normalize z i = 1 := normalize_sum hz0.ne'
  have main : ∀ (u : Vec N) (Kb0 R : ℝ), 0 < Kb0 → innerR u Kb0 beta (normalize z) maxiter atol = .ok (some R) → r.z = normalize z →
      r.x = normalize (ioP u Kb0 R (normalize z)) → r.y = normalize (ioEup u Kb0 R (normalize z)) →
      ∑ i, r.x i = 1 ∧ ∑ i, r.y i = 1 ∧ (∀ i, 0 ≤ r.x i ∧ 0 ≤ r.y i) ∧ IOBalance F beta atol r := by
    intro u Kb0 R hK hR ez ex ey
    obtain ⟨R0, R1, hρ⟩ := innerR_spec hK hzn hzn1 hat hR
    refine ⟨?_, ?_, fun i => ⟨?_, ?_⟩, u, Kb0, rloop u Kb0 beta (normalize z) R, hK, ?_, fun i => ?_⟩
    · rw [ex]; exact normalize_sum (ioP_sum_pos hK R0 R1 hzn hzn1).ne'
    · rw [ey]; exact normalize_sum (ioEup_sum_pos hK R0 R1 hzn hzn1).ne'
    · rw [ex]; exact normalize_nonneg (ioP_nonneg hK R0 R1 hzn) i
    · rw [ey]; exact normalize_nonneg (fun i => mul_nonneg (Real.exp_pos _).le (ioP_nonneg hK R0 R1 hzn i)) i
    · rw [ez]; exact hρ
    · have := io_balance (u := u) beta hK R0 R1 hzn hzn1 i
      rw [ex, ey, ez]
      linear_combination F * this
  rcases h with h | h
  · obtain ⟨x, y, x', y', s, -, -, e, rfl⟩ := flashPV_inv h
    obtain ⟨u, A, R, v0, e1, e2, e3, e4, e5, -, -⟩ := pvLoop_spec Kcalc _ _ _ _ _ _ _ _ _ _ _ s rfl e hs
    obtain ⟨a, b, c, d⟩ := main u _ R (Real.exp_pos _) e1 rfl e2 e3
    have hK : s.K = Kcalc s.Q Q s.x s.y := congrArg (fun q => q.2.2) e5
    exact ⟨fun i => rfl, a, b, c, hK, d⟩
  · obtain ⟨x, y, x', y', s, -, -, e, rfl⟩ := flashTV_inv h
    obtain ⟨u, A, R, v0, sol, e1, e2, e3, -, -, -, e5, -, -⟩ := tvLoop_spec Kcalc _ _ _ _ _ _ _ _ _ _ _ s rfl e hs
    obtain ⟨a, b, c, d⟩ := main u _ R (Real.exp_pos _) e1 rfl e2 e3
    have hK : s.K = Kcalc Q s.Q s.x s.y := congrArg (fun q => q.2.2) e5
    exact ⟨fun i => rfl, a, b, c, hK, d⟩

/-- A convex average of `log K`. -/
def IsMean (m : ℝ) (K : Vec N) : Prop := ∃ w : Vec N, (∀ i, 0 ≤ w i) ∧ ∑ i, w i = 1 ∧ m = ∑ i, w i * Real.log (K i)

/-- Two averages of `log K` with the same weights, for two sets of K-values. -/
def IsMean2 (m m' : ℝ) (K K' : Vec N) : Prop :=
  ∃ w : Vec N, (∀ i, 0 ≤ w i) ∧ ∑ i, w i = 1 ∧ m = ∑ i, w i * Real.log (K i) ∧ m' = ∑ i, w i * Real.log (K' i)

theorem IsMean2.lt {m m' : ℝ} {K K' : Vec N} (h : IsMean2 m m' K K') (hK : ∀ i, 0 < K i) (hlt : ∀ i, K i < K' i) : m < m' := by
  obtain ⟨w, w0, w1, rfl, rfl⟩ := h
  obtain ⟨i, hi⟩ := exists_pos_of_sum w0 w1
  exact sum_lt_sum (fun j _ => mul_le_mul_of_nonneg_left (Real.log_lt_log (hK j) (hlt j)).le (w0 j))
    ⟨i, mem_univ _, mul_lt_mul_of_pos_left (Real.log_lt_log (hK i) (hlt i)) hi⟩

/-- How closely `y_i = K_i x_i` holds after convergence of an inside-out flash: the volatility parameters `u_i = log K_i - m` and `a` of the last two passes agree within
`v rtol + 1e-5` of their values, `v` being the smallest positive one of the last pass, and `log(y_i/(K_i x_i))` is the sum of their changes plus `d`. -/
def IOEquil (m a d rtol : ℝ) (r : FlashResult N) : Prop :=
  ∃ (u0 : Vec N) (a0 v : ℝ), 0 < v ∧ ((∃ i, v = Real.log (r.K i) - m) ∨ v = a) ∧
    (∀ i, |Real.log (r.K i) - m - u0 i| ≤ v * rtol + 1e-5 * |u0 i|) ∧ |a - a0| ≤ v * rtol + 1e-5 * |a0| ∧
    ∀ i, r.y i = r.K i * r.x i * Real.exp (u0 i - (Real.log (r.K i) - m) + (a0 - a) + d)

/-- **C57.** A converged `flash2_PV`: equilibrium relation. `B` is the slope of an average of `log K` with respect to `1/T` at the initial estimate. -/
theorem C57_PV_equilibrium {F : ℝ} {z : Vec N} (hz : ∀ i, 0 ≤ z i) (hz0 : 0 < ∑ i, z i) {P beta : ℝ} (hb0 : 0 ≤ beta) (hb1 : beta ≤ 1) {Kcalc : KFun N}
    (hKpos : ∀ T P x y i, 0 < Kcalc T P x y i) (hKmono : ∀ P x y i, StrictMonoOn (fun T => Kcalc T P x y i) (Set.Ioi 0)) {x0 y0 : Option (Vec N)} {T0 : ℝ} (hT0 : 0 < T0)
    {maxiter : ℕ} {atol rtol : ℝ} (hat : 0 ≤ atol) {r : FlashResult N} (h : flashPV F z P beta Kcalc x0 y0 T0 maxiter atol rtol = .ok r) (hs : r.success = true) :
    ∃ m m0 m1 x y, IsMean m r.K ∧ IsMean2 m0 m1 (Kcalc T0 P x y) (Kcalc (T0 + 1) P x y) ∧
      IOEquil m (m - (m1 - m0) / (1 / (T0 + 1) - 1 / T0) * (1 / r.T - 1 / 300)) 0 rtol r := by
  have hzn : ∀ i, 0 ≤ normalize z i := normalize_nonneg hz
  have hzn1 : ∑ i, normalize z i = 1 := normalize_sum hz0.ne'
  obtain ⟨x, y, x', y', s, -, hy', e, rfl⟩ := flashPV_inv h
  obtain ⟨u, A, R, v0, e1, e2, e3, e4, e5, e6, e7⟩ := pvLoop_spec Kcalc _ _ _ _ _ _ _ _ _ _ _ s rfl e hs
  obtain ⟨R0, R1, -⟩ := innerR_spec (Real.exp_pos _) hzn hzn1 hat e1
  have hKp : 0 < (paramsPVall T0 P x' y' beta Kcalc 300).2.1 := Real.exp_pos _
  have hKb := ioKb_pos (u := u) hKp R0 R1 hzn hzn1
  have hK : s.K = Kcalc s.Q P s.x s.y := congrArg (fun q => q.2.2) e5
  have hu : ∀ i, s.u i = Real.log (s.K i) - lnKb (weights beta s.y s.K) s.K := by
    intro i; rw [hK]; exact congrFun (congrArg (fun q => q.1) e5) i
  have hA : s.A = lnKb (weights beta s.y s.K) s.K - (paramsPVall T0 P x' y' beta Kcalc 300).2.2.2 * (1 / s.Q - 1 / 300) := by
    rw [hK]; exact congrArg (fun q => q.2.1) e5
  have hyn : (∀ i, 0 ≤ s.y i) ∧ ∑ i, s.y i = 1 := by
    rw [e3]
    exact ⟨normalize_nonneg fun i => mul_nonneg (Real.exp_pos _).le (ioP_nonneg (Real.exp_pos _) R0 R1 hzn i), normalize_sum (ioEup_sum_pos (Real.exp_pos _) R0 R1 hzn hzn1).ne'⟩
  have hsK : ∀ i, 0 < s.K i := by rw [hK]; exact hKpos _ _ _ _
  obtain ⟨w0, w1⟩ := weights_sum hb0 hb1 hsK hyn.1 hyn.2
  obtain ⟨y0', y1'⟩ := phaseY_nonneg hzn hzn1 (hKpos T0 P x y) hb0 hb1
  rw [← hy'] at y0' y1'
  obtain ⟨w0', w1'⟩ := weights_sum hb0 hb1 (hKpos T0 P x' y') y0' y1'
  have hM2 : IsMean2 (lnKb (weights beta y' (Kcalc T0 P x' y')) (Kcalc T0 P x' y')) (lnKb (weights beta y' (Kcalc T0 P x' y')) (Kcalc (T0 + 1) P x' y'))
      (Kcalc T0 P x' y') (Kcalc (T0 + 1) P x' y') := ⟨_, w0', w1', rfl, rfl⟩
  refine ⟨lnKb (weights beta s.y s.K) s.K, _, _, x', y', ⟨_, w0, w1, rfl⟩, hM2, u, A, v0, ?_, ?_, ?_, ?_, ?_⟩
  · exact (minPos_spec e6).2
  · have := (minPos_spec e6).1
    rw [List.mem_append, List.mem_ofFn, List.mem_singleton] at this
    rcases this with ⟨i, hi⟩ | hi
    · exact Or.inl ⟨i, by rw [← hi, hu]⟩
    · exact Or.inr (by rw [hi, hA]; rfl)
  · intro i
    rw [← hu]; exact e7 (some i)
  · have := e7 none
    rw [show concat s.u s.A none = s.A from rfl, hA] at this
    exact this
  · intro i
    have hB : (paramsPVall T0 P x' y' beta Kcalc 300).2.2.2 ≠ 0 := by
      have := hM2.lt (hKpos T0 P x' y') fun i => hKmono P x' y' i hT0 (show (0 : ℝ) < T0 + 1 by linarith) (by linarith)
      have h1 : 1 / (T0 + 1) - 1 / T0 ≠ 0 := by
        have : 1 / (T0 + 1) < 1 / T0 := one_div_lt_one_div_of_lt hT0 (by linarith)
        linarith
      exact div_ne_zero (by linarith) h1
    have hQ : 1 / s.Q = 1 / 300 + (Real.log (ioKb u (paramsPVall T0 P x' y' beta Kcalc 300).2.1 R (normalize z)) - A) / (paramsPVall T0 P x' y' beta Kcalc 300).2.2.2 := by
      rw [e4, one_div_one_div]
    have hm : lnKb (weights beta s.y s.K) s.K = s.A - A + Real.log (ioKb u (paramsPVall T0 P x' y' beta Kcalc 300).2.1 R (normalize z)) := by
      rw [hA, hQ]
      field_simp
      ring
    have hr := io_ratio (u := u) hKp R0 R1 hzn hzn1 i
    change s.y i = s.K i * s.x i * _
    have hfin : s.K i * Real.exp (u i - (Real.log (s.K i) - lnKb (weights beta s.y s.K) s.K) +
        (A - (lnKb (weights beta s.y s.K) s.K - (paramsPVall T0 P x' y' beta Kcalc 300).2.2.2 * (1 / s.Q - 1 / 300))) + 0) =
        ioKb u (paramsPVall T0 P x' y' beta Kcalc 300).2.1 R (normalize z) * Real.exp (u i) := by
      rw [← hA]
      have h3 : u i - (Real.log (s.K i) - lnKb (weights beta s.y s.K) s.K) + (A - s.A) + 0 =
          u i + Real.log (ioKb u (paramsPVall T0 P x' y' beta Kcalc 300).2.1 R (normalize z)) - Real.log (s.K i) := by
        rw [hm]; ring
      rw [h3, Real.exp_sub, Real.exp_add, Real.exp_log (hsK i), Real.exp_log hKb]
      field_simp [(hsK i).ne']
    have hfin' := congrArg (fun t => t * normalize (ioP u (paramsPVall T0 P x' y' beta Kcalc 300).2.1 R (normalize z)) i) hfin
    rw [e3, e2]
    refine hr.trans (Eq.trans hfin'.symm ?_)
    rw [mul_right_comm, ← e2, ← e3]
    rfl

/-- **C57.** A converged `flash2_TV` with a positive pressure: equilibrium relation. `B` is determined by an average of `log K` at the initial estimate and 1000 Pa above it. -/
theorem C57_TV_equilibrium {F : ℝ} {z : Vec N} (hz : ∀ i, 0 ≤ z i) (hz0 : 0 < ∑ i, z i) {T beta : ℝ} (hb0 : 0 ≤ beta) (hb1 : beta ≤ 1) {Kcalc : KFun N}
    (hKpos : ∀ T P x y i, 0 < Kcalc T P x y i) {x0 y0 : Option (Vec N)} {P0 : ℝ}
    {maxiter : ℕ} {atol rtol : ℝ} (hat : 0 ≤ atol) {r : FlashResult N} (h : flashTV F z T beta Kcalc x0 y0 P0 maxiter atol rtol = .ok r) (hs : r.success = true)
    (hP : 0 < r.P) :
    ∃ m m0 m1 x y d, IsMean m r.K ∧ IsMean2 m0 m1 (Kcalc T P0 x y) (Kcalc T (P0 + 1000) x y) ∧
      |d| ≤ 1e-10 + (1 / 2 ^ 52 / r.P) ^ 2 / 2 ∧
      IOEquil m (m + Real.log r.P - (m1 - m0 + Real.log ((P0 + 1000) / P0)) * 100000 / 1000 * (r.P / 100000)) d rtol r := by
  have hzn : ∀ i, 0 ≤ normalize z i := normalize_nonneg hz
  have hzn1 : ∑ i, normalize z i = 1 := normalize_sum hz0.ne'
  obtain ⟨x, y, x', y', s, -, hy', e, rfl⟩ := flashTV_inv h
  obtain ⟨u, A, R, v0, sol, e1, e2, e3, f1, f2, f3, e5, e6, e7⟩ := tvLoop_spec Kcalc _ _ _ _ _ _ _ _ _ _ _ s rfl e hs
  simp only at hP ⊢
  obtain ⟨R0, R1, -⟩ := innerR_spec (Real.exp_pos _) hzn hzn1 hat e1
  have hKp : 0 < (paramsTVall T P0 x' y' beta Kcalc 100000).2.1 := Real.exp_pos _
  have hKb := ioKb_pos (u := u) hKp R0 R1 hzn hzn1
  have hK : s.K = Kcalc T s.Q s.x s.y := congrArg (fun q => q.2.2) e5
  have hu : ∀ i, s.u i = Real.log (s.K i) - lnKb (weights beta s.y s.K) s.K := by
    intro i; rw [hK]; exact congrFun (congrArg (fun q => q.1) e5) i
  have hA : s.A = lnKb (weights beta s.y s.K) s.K + Real.log s.Q - (paramsTVall T P0 x' y' beta Kcalc 100000).2.2.2 * (s.Q / 100000) := by
    rw [hK]; exact congrArg (fun q => q.2.1) e5
  have hyn : (∀ i, 0 ≤ s.y i) ∧ ∑ i, s.y i = 1 := by
    rw [e3]
    exact ⟨normalize_nonneg fun i => mul_nonneg (Real.exp_pos _).le (ioP_nonneg (Real.exp_pos _) R0 R1 hzn i), normalize_sum (ioEup_sum_pos (Real.exp_pos _) R0 R1 hzn hzn1).ne'⟩
  have hsK : ∀ i, 0 < s.K i := by rw [hK]; exact hKpos _ _ _ _
  obtain ⟨w0, w1⟩ := weights_sum hb0 hb1 hsK hyn.1 hyn.2
  obtain ⟨y0', y1'⟩ := phaseY_nonneg hzn hzn1 (hKpos T P0 x y) hb0 hb1
  rw [← hy'] at y0' y1'
  obtain ⟨w0', w1'⟩ := weights_sum hb0 hb1 (hKpos T P0 x' y') y0' y1'
  have hM2 : IsMean2 (lnKb (weights beta y' (Kcalc T P0 x' y')) (Kcalc T P0 x' y')) (lnKb (weights beta y' (Kcalc T P0 x' y')) (Kcalc T (P0 + 1000) x' y'))
      (Kcalc T P0 x' y') (Kcalc T (P0 + 1000) x' y') := ⟨_, w0', w1', rfl, rfl⟩
  -- the pressure equation
  obtain ⟨-, -, -, -, -, -, g1, g2, -⟩ := C01_newton_certificate _ _ _ _ _ sol.1 sol.2 f1
  have hδ : |sol.1.f| ≤ 1e-10 := by
    rcases g2 f2 with ⟨-, h⟩ | ⟨-, h1, h2⟩
    · exact h
    · have h3 := abs_nonpos_iff.1 h2
      rcases div_eq_zero_iff.1 h3 with h4 | h4
      · rw [h4]; norm_num
      · rw [h4, abs_zero] at h1
        exact absurd h1 (not_lt.2 eps_pos.le)
  refine ⟨lnKb (weights beta s.y s.K) s.K, _, _, x', y', Real.log (ioKb u (paramsTVall T P0 x' y' beta Kcalc 100000).2.1 R (normalize z)) + Real.log s.Q - A -
    (paramsTVall T P0 x' y' beta Kcalc 100000).2.2.2 * (s.Q / 100000), ⟨_, w0, w1, rfl⟩, hM2, ?_, u, A, v0, ?_, ?_, ?_, ?_, ?_⟩
  · rw [f3]
    rw [f3] at hP
    rw [g1] at hδ
    have h1 : (pressureEq (ioKb u (paramsTVall T P0 x' y' beta Kcalc 100000).2.1 R (normalize z)) A (paramsTVall T P0 x' y' beta Kcalc 100000).2.2.2 100000 (sol.1.x, eps)).1 =
        Real.log (ioKb u (paramsTVall T P0 x' y' beta Kcalc 100000).2.1 R (normalize z)) + Real.log sol.1.x + Real.log (1 + (eps / sol.1.x) ^ 2) / 2 - A -
          (paramsTVall T P0 x' y' beta Kcalc 100000).2.2.2 * (sol.1.x / 100000) := by
      simp only [pressureEq]
      rw [Complex.log_re, norm_mul, Complex.norm_real, Real.norm_of_nonneg hKb.le]
      have h2 : ‖(sol.1.x : ℂ) + (eps : ℝ) * Complex.I‖ = sol.1.x * Real.sqrt (1 + (eps / sol.1.x) ^ 2) := by
        rw [Complex.norm_add_mul_I, show sol.1.x ^ 2 + eps ^ 2 = sol.1.x ^ 2 * (1 + (eps / sol.1.x) ^ 2) by field_simp, Real.sqrt_mul (sq_nonneg _), Real.sqrt_sq hP.le]
      have h3 : 0 < 1 + (eps / sol.1.x) ^ 2 := by positivity
      rw [h2, Real.log_mul hKb.ne' (mul_pos hP (Real.sqrt_pos.2 h3)).ne', Real.log_mul hP.ne' (Real.sqrt_pos.2 h3).ne', Real.log_sqrt h3.le]
      ring
    rw [h1] at hδ
    have h4 : 0 ≤ Real.log (1 + (eps / sol.1.x) ^ 2) := Real.log_nonneg (by nlinarith [sq_nonneg (eps / sol.1.x)])
    have h5 : Real.log (1 + (eps / sol.1.x) ^ 2) ≤ (eps / sol.1.x) ^ 2 := by
      have := Real.log_le_sub_one_of_pos (x := 1 + (eps / sol.1.x) ^ 2) (by positivity)
      linarith
    have h6 : (eps : ℝ) = 1 / 2 ^ 52 := rfl
    rw [← h6]
    obtain ⟨k1, k2⟩ := abs_le.1 hδ
    rw [abs_le]
    constructor <;> linarith
  · exact (minPos_spec e6).2
  · have := (minPos_spec e6).1
    rw [List.mem_append, List.mem_ofFn, List.mem_singleton] at this
    rcases this with ⟨i, hi⟩ | hi
    · exact Or.inl ⟨i, by rw [← hi, hu]⟩
    · exact Or.inr (by rw [hi, hA]; rfl)
  · intro i
    rw [← hu]; exact e7 (some i)
  · have := e7 none
    rw [show concat s.u s.A none = s.A from rfl, hA] at this
    exact this
  · intro i
    have hr := io_ratio (u := u) hKp R0 R1 hzn hzn1 i
    change s.y i = s.K i * s.x i * _
    have hfin : s.K i * Real.exp (u i - (Real.log (s.K i) - lnKb (weights beta s.y s.K) s.K) +
        (A - (lnKb (weights beta s.y s.K) s.K + Real.log s.Q - (paramsTVall T P0 x' y' beta Kcalc 100000).2.2.2 * (s.Q / 100000))) +
        (Real.log (ioKb u (paramsTVall T P0 x' y' beta Kcalc 100000).2.1 R (normalize z)) + Real.log s.Q - A -
          (paramsTVall T P0 x' y' beta Kcalc 100000).2.2.2 * (s.Q / 100000))) =
        ioKb u (paramsTVall T P0 x' y' beta Kcalc 100000).2.1 R (normalize z) * Real.exp (u i) := by
      have h3 : u i - (Real.log (s.K i) - lnKb (weights beta s.y s.K) s.K) +
        (A - (lnKb (weights beta s.y s.K) s.K + Real.log s.Q - (paramsTVall T P0 x' y' beta Kcalc 100000).2.2.2 * (s.Q / 100000))) +
        (Real.log (ioKb u (paramsTVall T P0 x' y' beta Kcalc 100000).2.1 R (normalize z)) + Real.log s.Q - A -
          (paramsTVall T P0 x' y' beta Kcalc 100000).2.2.2 * (s.Q / 100000)) =
          u i + Real.log (ioKb u (paramsTVall T P0 x' y' beta Kcalc 100000).2.1 R (normalize z)) - Real.log (s.K i) := by
        ring
      rw [h3, Real.exp_sub, Real.exp_add, Real.exp_log (hsK i), Real.exp_log hKb]
      field_simp [(hsK i).ne']
    have hfin' := congrArg (fun t => t * normalize (ioP u (paramsTVall T P0 x' y' beta Kcalc 100000).2.1 R (normalize z)) i) hfin
    rw [e3, e2]
    refine hr.trans (Eq.trans hfin'.symm ?_)
    rw [mul_right_comm, ← e2, ← e3]
    rfl

/-! ### C84: exceptions -/

/-- **C84.** `flash2_PT` returns a result for every feed and every positive K-value model. -/
theorem C84_PT_returns (hN : 0 < N) (F : ℝ) (z : Vec N) (P T : ℝ) (Kcalc : KFun N) (hKpos : ∀ T P x y i, 0 < Kcalc T P x y i) (x0 y0 : Option (Vec N)) (beta0 : Option ℝ)
    (maxiter : ℕ) (atol rtol alpha : ℝ) : ∃ r, flashPT F z P T Kcalc x0 y0 beta0 maxiter atol rtol alpha = .ok r := by
  simp only [flashPT]
  obtain ⟨s, hs⟩ := ptLoop_ok hN Kcalc hKpos (normalize z) P T maxiter atol rtol alpha maxiter
    ⟨false, .empty, beta0.map fun b => clip b 0 1, (x0.map normalize).getD (normalize z), (y0.map normalize).getD (normalize z), Kcalc T P ((x0.map normalize).getD (normalize z)) ((y0.map normalize).getD (normalize z))⟩ le_rfl
  rw [hs]
  exact ⟨_, rfl⟩

/-- **C84 (partial).** `flash2_PV` and `flash2_TV` return a result when all components are present and the K-values of the components are never all equal. -/
theorem C84_PV_TV_returns_partial (F : ℝ) {z : Vec N} (hz : ∀ i, 0 < z i) (Q : ℝ) {beta : ℝ} (hb0 : 0 ≤ beta) (hb1 : beta ≤ 1) (Kcalc : KFun N)
    (hKpos : ∀ T P x y i, 0 < Kcalc T P x y i) (hne : ∀ T P x y, ∃ i j, Kcalc T P x y i ≠ Kcalc T P x y j) (x0 y0 : Option (Vec N)) (Q0 : ℝ)
    (maxiter : ℕ) {atol : ℝ} (hat : 0 ≤ atol) (rtol : ℝ) :
    (∃ r, flashPV F z Q beta Kcalc x0 y0 Q0 maxiter atol rtol = .ok r) ∧ ∃ r, flashTV F z Q beta Kcalc x0 y0 Q0 maxiter atol rtol = .ok r := by
  obtain ⟨i0, -⟩ := hne 0 0 z z
  have hS : 0 < ∑ i, z i := sum_pos (fun i _ => hz i) ⟨i0, mem_univ _⟩
  have hzn : ∀ i, 0 < normalize z i := fun i => div_pos (hz i) hS
  have hzn1 : ∑ i, normalize z i = 1 := normalize_sum hS.ne'
  have hpv : ∀ (B Kb0 : ℝ), 0 < Kb0 → ∀ (n : ℕ) (s : IOState N), n ≤ maxiter → ∃ r, pvLoop Kcalc (normalize z) Q beta 300 B Kb0 maxiter atol rtol n s = .ok r := by
    intro B Kb0 hKb n
    induction n with
    | zero => exact fun s _ => ⟨_, rfl⟩
    | succ n ih =>
      intro s hn
      simp only [pvLoop]
      obtain ⟨R, hR, hR1⟩ := C58_bracketed s.u Kb0 beta _ hzn1 hb0 hb1 maxiter (by omega) atol hat
      rw [hR, ok_bind]
      cases R with
      | none => exact ⟨_, rfl⟩
      | some R =>
        obtain ⟨r0, r1⟩ := hR1 R rfl
        refine bind_exists (io_params_pos hzn (u := s.u) hb0 hb1 hKb r0 r1 (hKpos _ _ _ _) (hne _ _ _ _) _) fun v => ?_
        split_ifs
        · exact ⟨_, rfl⟩
        · exact ih _ (by omega)
  have htv : ∀ (B Kb0 : ℝ), 0 < Kb0 → ∀ (n : ℕ) (s : IOState N), n ≤ maxiter → ∃ r, tvLoop Kcalc (normalize z) Q beta 100000 B Kb0 maxiter atol rtol n s = .ok r := by
    intro B Kb0 hKb n
    induction n with
    | zero => exact fun s _ => ⟨_, rfl⟩
    | succ n ih =>
      intro s hn
      simp only [tvLoop]
      obtain ⟨R, hR, hR1⟩ := C58_bracketed s.u Kb0 beta _ hzn1 hb0 hb1 maxiter (by omega) atol hat
      rw [hR, ok_bind]
      cases R with
      | none => exact ⟨_, rfl⟩
      | some R =>
        obtain ⟨r0, r1⟩ := hR1 R rfl
        obtain ⟨sol, hsol⟩ := (C01_newton_error_iff (pressureEq (ioKb s.u Kb0 R (normalize z)) s.A B 100000) (Real.exp s.A / ioKb s.u Kb0 R (normalize z)) 0 1e-10 50).2 (by norm_num)
        simp only [hsol, ok_bind]
        split_ifs
        · exact ⟨_, rfl⟩
        · refine bind_exists (io_params_pos hzn (u := s.u) hb0 hb1 hKb r0 r1 (hKpos _ _ _ _) (hne _ _ _ _) _) fun v => ?_
          split_ifs
          · exact ⟨_, rfl⟩
          · exact ih _ (by omega)
  constructor
  · simp only [flashPV]
    exact bind_exists (hpv _ _ (Real.exp_pos _) maxiter _ le_rfl) fun s => ⟨_, rfl⟩
  · simp only [flashTV]
    exact bind_exists (htv _ _ (Real.exp_pos _) maxiter _ le_rfl) fun s => ⟨_, rfl⟩

/-- K-values of the witness of `C84_PV_false`: a pure component, `ln K = 1 - 600/T`, at equilibrium at 600 K. -/
noncomputable def pureK : KFun 1 := fun T _ _ _ _ => Real.exp (1 - 600 / T)

/-- **C84 (false as stated).** For a pure component `flash2_PV` finds the exact boiling temperature in the first iteration and then raises `ValueError` (`min()` of an
empty sequence): all volatility parameters `u` are zero and `A` happens to be negative. -/
theorem C84_PV_false : (∀ T P x y i, 0 < pureK T P x y i) ∧ (∀ P x y i, pureK 600 P x y i = 1) ∧
    flashPV 1 ![1] 100000 0 pureK none none 300 50 1e-9 1e-6 = .error .ValueError := by
  refine ⟨fun _ _ _ _ _ => Real.exp_pos _, fun _ _ _ _ => by norm_num [pureK], ?_⟩
  have hz : normalize ![1] = (fun _ => 1 : Vec 1) := normalize_one _ (by simp)
  have hw : ∀ K : Vec 1, weights 0 (fun _ => 1) K = fun _ => 1 := fun K => normalize_one _ (by simp)
  have hy : ∀ K : Vec 1, K 0 ≠ 0 → phaseY (fun _ => 1 : Vec 1) K 0 = fun _ => 1 := fun K hK => normalize_one _ (by simpa using hK)
  have hx : ∀ K : Vec 1, phaseX (fun _ => 1 : Vec 1) K 0 = fun _ => 1 := fun K => normalize_one _ (by simp)
  have hl : ∀ T, lnKb (fun _ => 1) (fun _ : Fin 1 => Real.exp (1 - 600 / T)) = 1 - 600 / T := fun T => by simp [lnKb]
  have hpk : ∀ T P x y, pureK T P x y = fun _ => Real.exp (1 - 600 / T) := fun _ _ _ _ => rfl
  have hp : paramsPVall 300 100000 (fun _ => 1) (fun _ => 1) 0 pureK 300 = (fun _ => 0, Real.exp (-1), -1, -600) := by
    simp only [paramsPVall, hpk, hw, hl, Real.log_exp]
    norm_num
  have hloop : pvLoop pureK (fun _ => 1) 100000 0 300 (-600) (Real.exp (-1)) 50 1e-9 1e-6 (49 + 1)
      ⟨false, .empty, 300, fun _ => 1, fun _ => 1, fun _ => Real.exp (1 - 600 / 300), fun _ => 0, -1⟩ = .error .ValueError := by
    have h1 : ioP (fun _ => 0 : Vec 1) (Real.exp (-1)) 0 (fun _ => 1) = fun _ => 1 := by funext i; simp [ioP]
    have h2 : ioEup (fun _ => 0 : Vec 1) (Real.exp (-1)) 0 (fun _ => 1) = fun _ => 1 := by funext i; simp [ioEup, h1]
    have h3 : innerR (fun _ => 0 : Vec 1) (Real.exp (-1)) 0 (fun _ => 1) 50 1e-9 = .ok (some 0) := by
      rw [innerR, if_pos]; rw [sub_zero, abs_zero]; exact eps_pos.le
    have h4 : ioKb (fun _ => 0 : Vec 1) (Real.exp (-1)) 0 (fun _ => 1) = 1 := by simp [ioKb, h1, h2]
    have h5 : paramsPV 600 100000 (fun _ => 1) (fun _ => 1) 0 pureK 300 (-600) = (fun _ => 0, -1, fun _ => Real.exp (1 - 600 / 600)) := by
      simp only [paramsPV, hpk, hw, hl, Real.log_exp]
      norm_num
    have h6 : minPos (List.ofFn (fun _ : Fin 1 => (0 : ℝ)) ++ [-1]) = .error .ValueError := by
      simp [minPos, List.ofFn_succ]
    have h7 : normalize (fun _ : Fin 1 => (1 : ℝ)) = fun _ => 1 := normalize_one _ (by simp)
    rw [pvLoop, h3, ok_bind]
    simp only [h1, h2, h4, h7, Real.log_one]
    rw [show (1 : ℝ) / (1 / 300 + (0 - -1) / -600) = 600 by norm_num]
    simp only [h5, h6]
    rfl
  have hK0 : ∀ x y, pureK 300 100000 x y = fun _ => Real.exp (1 - 600 / 300) := fun _ _ => rfl
  simp only [flashPV, Option.map_none, Option.getD_none, hz, hK0]
  rw [hx, hy _ (Real.exp_pos _).ne', hp]
  rw [show (50 : ℕ) = 49 + 1 from rfl] at *
  rw [hloop]
  rfl

/-! ### Converged runs -/

/-- The hypotheses of `C57_PT_total`, `C57_PT_balance` and `C83_tolerance_partial` are met: constant K-values, feed of equal parts, half of it vaporised. -/
example : ∃ r : FlashResult 2, flashPT 3 ![1, 1] 1 300 (fun _ _ _ _ => ![2, 1 / 2]) none none none (0 + 1) 1e-9 1e-6 1 = .ok r ∧ r.success = true ∧ r.beta = some (1 / 2) ∧
    (∀ (T P : ℝ) (x y : Vec 2) (i : Fin 2), 0 < (fun _ _ _ _ => ![2, 1 / 2] : KFun 2) T P x y i) := by
  have hpos : ∀ i, (0 : ℝ) < (![2, 1 / 2] : Vec 2) i := by intro i; fin_cases i <;> norm_num
  have hz : normalize ![1, 1] = (![1 / 2, 1 / 2] : Vec 2) := by
    funext i; fin_cases i <;> norm_num [normalize, Fin.sum_univ_two]
  have hrr : solveRR ![2, 1 / 2] ![1 / 2, 1 / 2] (none : Option ℝ) (0 + 1) 1e-9 = .ok ⟨true, 1, 1 / 2, 0⟩ := by
    have h0 : ¬ rr 0 ![2, 1 / 2] ![1 / 2, (1 : ℝ) / 2] < 0 := by norm_num [rr, Fin.sum_univ_two]
    have h1 : ¬ rr 1 ![2, 1 / 2] ![1 / 2, (1 : ℝ) / 2] > 0 := by norm_num [rr, Fin.sum_univ_two]
    have h2 : rr (1 / 2) ![2, 1 / 2] ![1 / 2, (1 : ℝ) / 2] = 0 := by norm_num [rr, Fin.sum_univ_two]
    have hmin : betaMin ![2, 1 / 2] ![1 / 2, (1 : ℝ) / 2] = 0 := by norm_num [betaMin, List.ofFn_succ, List.filter]
    have hmax : betaMax ![2, 1 / 2] ![1 / 2, (1 : ℝ) / 2] = 1 := by norm_num [betaMax, List.ofFn_succ, List.filter]
    simp only [solveRR, if_neg h0, if_neg h1, hmin, hmax, zero_add]
    simp only [rrLoop, h2]
    rw [if_pos (by norm_num)]
  obtain ⟨k0, hk0⟩ := minPos_ok (l := List.ofFn (![2, 1 / 2] : Vec 2)) (v := 2) (List.mem_ofFn.2 ⟨0, rfl⟩) (by norm_num)
  have hc : AllClose (![2, 1 / 2] : Vec 2) ![2, 1 / 2] (k0 * 1e-6) := by
    intro i
    have := (minPos_spec hk0).2
    rw [sub_self, abs_zero]
    positivity
  refine ⟨⟨true, .converged, 300, 1, 3, some (3 - 3 * (1 / 2)), some (3 * (1 / 2)), some (1 / 2), ![1 / 2, 1 / 2], phaseX ![1 / 2, 1 / 2] ![2, 1 / 2] (1 / 2),
      phaseY ![1 / 2, 1 / 2] ![2, 1 / 2] (1 / 2), ![2, 1 / 2]⟩, ?_, rfl, rfl, fun _ _ _ _ => hpos⟩
  · simp only [flashPT, ptLoop, Option.map_none, Option.getD_none, hz, hrr, ok_bind, hk0, Bool.not_true, Bool.false_eq_true, if_false, if_pos hc]
    rfl

/-- Feed, vapour composition and volatilities of the examples for the inside-out flashes: a bubble point with `K = (2, 1/2) f(T, P)`. -/
noncomputable def exU : Vec 2 := ![2 / 5 * Real.log 2, -(8 / 5) * Real.log 2]

theorem ex_u (t : ℝ) : (fun i => Real.log ((![2, 1 / 2] : Vec 2) i * Real.exp t) - (3 / 5 * Real.log 2 + t)) = exU := by
  have h := exLog t
  funext i
  have hi := congrFun h i
  rw [hi]
  fin_cases i
  · simp [exU]; ring
  · simp [exU]; ring

theorem ex_exp : Real.exp (exU 0) = 4 * Real.exp (exU 1) := by
  have : exU 0 = Real.log 4 + exU 1 := by
    rw [show (4 : ℝ) = 2 ^ 2 by norm_num, Real.log_pow]
    simp [exU]; ring
  rw [this, Real.exp_add, Real.exp_log (by norm_num)]

theorem ex_y (Kb0 : ℝ) : normalize (ioEup exU Kb0 0 ![1 / 2, 1 / 2]) = ![4 / 5, 1 / 5] := by
  have h := ex_exp
  have hp := Real.exp_pos (exU 1)
  funext i
  simp only [normalize, ioEup, ioP, Fin.sum_univ_two, h]
  fin_cases i
  · simp [h]; field_simp; norm_num
  · simp [h]; field_simp; norm_num

theorem ex_min (A : ℝ) : ∃ v, minPos (List.ofFn exU ++ [A]) = .ok v ∧ 0 < v := by
  obtain ⟨v, hv⟩ := minPos_ok (l := List.ofFn exU ++ [A]) (v := exU 0) (List.mem_append_left _ (List.mem_ofFn.2 ⟨0, rfl⟩))
    (by have := Real.log_pos (x := 2) (by norm_num); simp [exU]; positivity)
  exact ⟨v, hv, (minPos_spec hv).2⟩

/-- K-values decreasing with `1/T`: `K = (2, 1/2) exp(-600 (1/T - 1/300))`. -/
noncomputable def exKT : KFun 2 := fun T _ _ _ i => ![2, 1 / 2] i * Real.exp (-600 * (1 / T - 1 / 300))

/-- The hypotheses of `C57_PV_equilibrium` and `C57_PV_TV_balance` are met: `flash2_PV` converges in the first pass for the bubble point of `exKT`. -/
example : (∃ r : FlashResult 2, flashPV 3 ![1, 1] 100000 0 exKT none none 300 (0 + 1) 1e-9 1e-6 = .ok r ∧ r.success = true) ∧
    (∀ T P x y i, 0 < exKT T P x y i) ∧ (∀ P x y i, StrictMonoOn (fun T => exKT T P x y i) (Set.Ioi 0)) := by
  have hpos : ∀ i, (0 : ℝ) < (![2, 1 / 2] : Vec 2) i := by intro i; fin_cases i <;> norm_num
  refine ⟨?_, fun T P x y i => mul_pos (hpos i) (Real.exp_pos _), fun P x y i T hT T' hT' h => mul_lt_mul_of_pos_left (Real.exp_lt_exp.2 ?_) (hpos i)⟩
  · have hz : normalize ![1, 1] = (![1 / 2, 1 / 2] : Vec 2) := by
      funext i; fin_cases i <;> norm_num [normalize, Fin.sum_univ_two]
    have hKT : ∀ T P x y, exKT T P x y = fun i => (![2, 1 / 2] : Vec 2) i * Real.exp (-600 * (1 / T - 1 / 300)) := fun _ _ _ _ => rfl
    have hK0 : ∀ P x y, exKT 300 P x y = ![2, 1 / 2] := fun P x y => by funext i; simp [exKT]
    have hq : ∀ x, paramsPVall 300 100000 x ![4 / 5, 1 / 5] 0 exKT 300 = (exU, Real.exp (3 / 5 * Real.log 2), 3 / 5 * Real.log 2, -600) := by
      intro x
      have hu := ex_u (-600 * (1 / 300 - 1 / 300))
      simp only [paramsPVall, hKT, ex_params, ex_lnKb']
      rw [hu]
      norm_num
    have hr : ∀ T x, paramsPV T 100000 x ![4 / 5, 1 / 5] 0 exKT 300 (-600) = (exU, 3 / 5 * Real.log 2, exKT T 100000 x ![4 / 5, 1 / 5]) := by
      intro T x
      have hu := ex_u (-600 * (1 / T - 1 / 300))
      simp only [paramsPV, hKT, ex_params]
      rw [hu]
      simp
    have hR : ∀ Kb0, innerR exU Kb0 0 ![1 / 2, 1 / 2] (0 + 1) 1e-9 = .ok (some 0) := fun Kb0 => by
      rw [innerR, if_pos]; rw [sub_zero, abs_zero]; exact eps_pos.le
    obtain ⟨v, hv, hv0⟩ := ex_min (3 / 5 * Real.log 2)
    have hc : ∀ f : Option (Fin 2) → ℝ, AllClose f f (v * 1e-6) := fun f i => by
      rw [sub_self, abs_zero]
      positivity
    simp only [flashPV, Option.map_none, Option.getD_none, hz, hK0, ex_y0, hq, pvLoop, hR, ok_bind, ex_y, hr, hv, if_pos (hc _)]
    exact ⟨_, rfl, rfl⟩
  · have := one_div_lt_one_div_of_lt (show (0 : ℝ) < T from hT) h
    linarith

/-- K-values inversely proportional to the pressure: `K = (2, 1/2) 100000/P`. -/
noncomputable def exKP : KFun 2 := fun _ P _ _ i => ![2, 1 / 2] i * Real.exp (Real.log 100000 - Real.log P)

theorem ex_sumP (Kb0 : ℝ) : Real.exp (3 / 5 * Real.log 2 + Real.log 100000) / ioKb exU Kb0 0 ![1 / 2, 1 / 2] = 125000 := by
  have h := ex_exp
  have h1 : Real.exp (3 / 5 * Real.log 2) * Real.exp (exU 1) = 1 / 2 := by
    rw [← Real.exp_add, show 3 / 5 * Real.log 2 + exU 1 = -Real.log 2 by simp [exU]; ring, Real.exp_neg, Real.exp_log (by norm_num)]
    norm_num
  rw [Real.exp_add, Real.exp_log (by norm_num)]
  simp only [ioKb, ioEup, ioP, Fin.sum_univ_two, h]
  have hp := Real.exp_pos (exU 1)
  generalize Real.exp (3 / 5 * Real.log 2) = E at h1 ⊢
  simp
  field_simp
  linarith

/-- The hypotheses of `C57_TV_equilibrium` and `C57_PV_TV_balance` are met: `flash2_TV` converges in the first pass for the bubble point of `exKP`, at 125000 Pa. -/
example : (∃ r : FlashResult 2, flashTV 3 ![1, 1] 300 0 exKP none none 100000 (0 + 1) 1e-9 1e-6 = .ok r ∧ r.success = true ∧ r.P = 125000) ∧
    (∀ T P x y i, 0 < exKP T P x y i) := by
  have hpos : ∀ i, (0 : ℝ) < (![2, 1 / 2] : Vec 2) i := by intro i; fin_cases i <;> norm_num
  refine ⟨?_, fun T P x y i => mul_pos (hpos i) (Real.exp_pos _)⟩
  have hz : normalize ![1, 1] = (![1 / 2, 1 / 2] : Vec 2) := by
    funext i; fin_cases i <;> norm_num [normalize, Fin.sum_univ_two]
  have hKP : ∀ T P x y, exKP T P x y = fun i => (![2, 1 / 2] : Vec 2) i * Real.exp (Real.log 100000 - Real.log P) := fun _ _ _ _ => rfl
  have hK0 : ∀ T x y, exKP T 100000 x y = ![2, 1 / 2] := fun P x y => by funext i; simp [exKP]
  have hq : ∀ x, paramsTVall 300 100000 x ![4 / 5, 1 / 5] 0 exKP 100000 = (exU, Real.exp (3 / 5 * Real.log 2), 3 / 5 * Real.log 2 + Real.log 100000, 0) := by
    intro x
    have hu := ex_u (Real.log 100000 - Real.log 100000)
    simp only [paramsTVall, hKP, ex_params, ex_lnKb']
    rw [hu, Real.log_div (by norm_num) (by norm_num)]
    norm_num
  have hr : ∀ x, paramsTV 300 125000 x ![4 / 5, 1 / 5] 0 exKP 100000 0 = (exU, 3 / 5 * Real.log 2 + Real.log 100000, exKP 300 125000 x ![4 / 5, 1 / 5]) := by
    intro x
    have hu := ex_u (Real.log 100000 - Real.log 125000)
    simp only [paramsTV, hKP, ex_params]
    rw [hu]
    simp
    ring
  have hR : ∀ Kb0, innerR exU Kb0 0 ![1 / 2, 1 / 2] (0 + 1) 1e-9 = .ok (some 0) := fun Kb0 => by
    rw [innerR, if_pos]; rw [sub_zero, abs_zero]; exact eps_pos.le
  have hN : ∀ Kb0, ∃ sol, rootNewton (pressureEq (ioKb exU Kb0 0 ![1 / 2, 1 / 2]) (3 / 5 * Real.log 2 + Real.log 100000) 0 100000)
      (Real.exp (3 / 5 * Real.log 2 + Real.log 100000) / ioKb exU Kb0 0 ![1 / 2, 1 / 2]) 0 1e-10 (49 + 1) = .ok sol ∧ sol.1.success = true ∧ sol.1.x = 125000 := by
    intro Kb0
    have hx := ex_sumP Kb0
    have hkb : 0 < ioKb exU Kb0 0 ![1 / 2, 1 / 2] := by
      by_contra hcon
      have := div_nonpos_of_nonneg_of_nonpos (Real.exp_pos (3 / 5 * Real.log 2 + Real.log 100000)).le (not_lt.1 hcon)
      linarith
    have hlog : Real.log (ioKb exU Kb0 0 ![1 / 2, 1 / 2]) + Real.log 125000 = 3 / 5 * Real.log 2 + Real.log 100000 := by
      rw [← hx, Real.log_div (Real.exp_pos _).ne' hkb.ne', Real.log_exp]; ring
    rw [hx]
    have hf : |(pressureEq (ioKb exU Kb0 0 ![1 / 2, 1 / 2]) (3 / 5 * Real.log 2 + Real.log 100000) 0 100000 (125000, eps)).1| ≤ 1e-10 := by
      simp only [pressureEq]
      rw [Complex.log_re, norm_mul, Complex.norm_real, Real.norm_of_nonneg hkb.le, Complex.norm_add_mul_I,
        show (125000 : ℝ) ^ 2 + eps ^ 2 = 125000 ^ 2 * (1 + (eps / 125000) ^ 2) by ring, Real.sqrt_mul (sq_nonneg _), Real.sqrt_sq (by norm_num)]
      have h3 : (0 : ℝ) < 1 + (eps / 125000) ^ 2 := by positivity
      rw [Real.log_mul hkb.ne' (mul_pos (by norm_num) (Real.sqrt_pos.2 h3)).ne', Real.log_mul (by norm_num) (Real.sqrt_pos.2 h3).ne', Real.log_sqrt h3.le]
      have h4 : 0 ≤ Real.log (1 + (eps / 125000) ^ 2) := Real.log_nonneg (by nlinarith [sq_nonneg ((eps : ℝ) / 125000)])
      have h5 : Real.log (1 + (eps / 125000) ^ 2) ≤ (eps / 125000) ^ 2 := by
        have := Real.log_le_sub_one_of_pos h3
        linarith
      have h6 : ((eps : ℝ) / 125000) ^ 2 ≤ 1e-10 := by norm_num [eps]
      rw [abs_le]
      constructor <;> linarith
    rw [rootNewton, newtonLoop]
    simp only [derivativeComplex]
    exact ⟨_, if_pos hf, rfl, rfl⟩
  obtain ⟨sol, hs1, hs2, hs3⟩ := hN (Real.exp (3 / 5 * Real.log 2))
  obtain ⟨v, hv, hv0⟩ := ex_min (3 / 5 * Real.log 2 + Real.log 100000)
  have hc : ∀ f : Option (Fin 2) → ℝ, AllClose f f (v * 1e-6) := fun f i => by
    rw [sub_self, abs_zero]
    positivity
  simp only [flashTV, Option.map_none, Option.getD_none, hz, hK0, ex_y0, hq, tvLoop, hR, ok_bind, ex_y]
  rw [hs1]
  simp only [ok_bind, hs2, hs3, Bool.not_true, Bool.false_eq_true, if_false, hr, hv, if_pos (hc _)]
  exact ⟨_, rfl, rfl, rfl⟩

/-- The hypotheses of `C84_PV_TV_returns_partial` are met by the K-values `exKT`. -/
example : (∀ T P x y i, 0 < exKT T P x y i) ∧ ∀ T P x y, ∃ i j, exKT T P x y i ≠ exKT T P x y j := by
  have hpos : ∀ i, (0 : ℝ) < (![2, 1 / 2] : Vec 2) i := by intro i; fin_cases i <;> norm_num
  refine ⟨fun T P x y i => mul_pos (hpos i) (Real.exp_pos _), fun T P x y => ⟨0, 1, fun h => ?_⟩⟩
  have := mul_right_cancel₀ (Real.exp_pos _).ne' h
  norm_num at this

end Verif.Flash
