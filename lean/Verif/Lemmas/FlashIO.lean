import Verif.Props.Flash
import Mathlib.Algebra.Order.BigOperators.Ring.Finset

/-! Helper lemmas for the flash model: outer loops. -/

namespace Verif.Flash

open Finset

variable {N : ℕ}

theorem normalize_sum {v : Vec N} (h : ∑ i, v i ≠ 0) : ∑ i, normalize v i = 1 := by
  simp only [normalize]
  rw [← sum_div, div_self h]

theorem normalize_nonneg {v : Vec N} (h : ∀ i, 0 ≤ v i) (i : Fin N) : 0 ≤ normalize v i := div_nonneg (h i) (sum_nonneg fun j _ => h j)

theorem ok_bind {β γ : Type} (a : β) (f : β → Except Err γ) : (Except.ok a >>= f) = f a := rfl

theorem bind_ok {β γ : Type} {m : Except Err β} {f : β → Except Err γ} {c : γ} (h : (m >>= f) = .ok c) : ∃ b, m = .ok b ∧ f b = .ok c := by
  cases m with
  | error e => cases h
  | ok b => exact ⟨b, rfl, h⟩

/-! ### PT flash -/

theorem ptLoop_spec (Kcalc : KFun N) (z : Vec N) (P T : ℝ) (maxiter : ℕ) (atol rtol alpha : ℝ) :
    ∀ (n : ℕ) (s r : PTState N), (∀ i, 0 < s.K i) → s.success = false → ptLoop Kcalc z P T maxiter atol rtol alpha n s = .ok r →
      (∀ i, 0 < r.K i) ∧ (1 ≤ n → ∃ b, r.beta = some b) ∧ (∀ b ∈ r.beta, b ∈ s.beta ∨ (0 ≤ b ∧ b ≤ 1)) ∧
      (r.success = true → r.message = .converged ∧ ∃ b0 sol k0, solveRR r.K z b0 maxiter atol = .ok sol ∧ sol.success = true ∧ r.beta = some sol.beta ∧
        r.x = phaseX z r.K sol.beta ∧ r.y = phaseY z r.K sol.beta ∧ minPos (List.ofFn (Kcalc T P r.x r.y)) = .ok k0 ∧
        AllClose (Kcalc T P r.x r.y) r.K (k0 * rtol)) := by
  intro n
  induction n with
  | zero =>
    intro s r hK hs h
    simp only [ptLoop, Except.ok.injEq] at h
    subst h
    exact ⟨hK, by simp, fun b hb => Or.inl hb, by simp [hs]⟩
  | succ n ih =>
    intro s r hK hs h
    simp only [ptLoop] at h
    obtain ⟨sol, e1, h⟩ := bind_ok h
    have hrange := C56_certified _ _ _ _ e1
    by_cases hsol : sol.success = true
    · rw [hsol] at h
      simp only [Bool.not_true, Bool.false_eq_true, if_false] at h
      obtain ⟨k0, e2, h⟩ := bind_ok h
      split_ifs at h with hc
      · have h' : r = ⟨true, .converged, some sol.beta, phaseX z s.K sol.beta, phaseY z s.K sol.beta, s.K⟩ := by
          injection h with h; exact h.symm
        subst h'
        exact ⟨hK, fun _ => ⟨_, rfl⟩, fun b hb => Or.inr (by simp at hb; rw [← hb]; exact ⟨hrange.1, hrange.2.1⟩),
          fun _ => ⟨rfl, _, sol, k0, e1, hsol, rfl, rfl, rfl, e2, hc⟩⟩
      · refine (fun q => ?_) (fun h1 h2 => ih _ r h1 h2 h)
        obtain ⟨a1, a2, a3, a4⟩ := q (fun i => Real.exp_pos _) hs
        refine ⟨a1, fun _ => ?_, fun b hb => ?_, a4⟩
        · cases hb : r.beta with
          | some b => exact ⟨b, rfl⟩
          | none =>
            rcases Nat.eq_zero_or_pos n with rfl | hn
            · simp only [ptLoop, Except.ok.injEq] at h
              rw [← h] at hb
              simp at hb
            · obtain ⟨b, hb'⟩ := a2 hn
              rw [hb] at hb'; cases hb'
        · rcases a3 b hb with h3 | h3
          · simp at h3
            rw [← h3]; exact Or.inr ⟨hrange.1, hrange.2.1⟩
          · exact Or.inr h3
    · rw [Bool.not_eq_true] at hsol
      rw [hsol] at h
      simp only [Bool.not_false, if_true] at h
      have h' : r = { s with beta := some sol.beta, message := .innerFailed } := by
        injection h with h; exact h.symm
      subst h'
      exact ⟨hK, fun _ => ⟨_, rfl⟩, fun b hb => Or.inr (by simp at hb; rw [← hb]; exact ⟨hrange.1, hrange.2.1⟩), by simp [hs]⟩

theorem sumX_eq {K z : Vec N} (hK : ∀ i, 0 < K i) (hz1 : ∑ i, z i = 1) {b : ℝ} (hb : 0 ≤ b) (hb1 : b ≤ 1) :
    ∑ i, z i / (1 + b * (K i - 1)) = 1 - b * rr b K z := by
  have e1 : (1 : ℝ) - b * rr b K z = ∑ i, (z i - b * (z i * (K i - 1) / (1 + b * (K i - 1)))) := by
    rw [sum_sub_distrib, hz1, ← mul_sum]; rfl
  rw [e1]
  refine sum_congr rfl fun i _ => ?_
  have h := (den_pos (hK i) hb hb1).ne'
  rw [eq_sub_iff_add_eq, ← mul_div_assoc, ← add_div, div_eq_iff h]
  ring

theorem sumY_eq {K z : Vec N} (hK : ∀ i, 0 < K i) (hz1 : ∑ i, z i = 1) {b : ℝ} (hb : 0 ≤ b) (hb1 : b ≤ 1) :
    ∑ i, K i * (z i / (1 + b * (K i - 1))) = 1 + (1 - b) * rr b K z := by
  have : ∑ i, K i * (z i / (1 + b * (K i - 1))) = (∑ i, z i / (1 + b * (K i - 1))) + rr b K z := by
    rw [rr, ← sum_add_distrib]
    exact sum_congr rfl fun i _ => by ring
  rw [this, sumX_eq hK hz1 hb hb1]
  ring

/-! ### Inside-out flashes -/

section IO

variable {u z : Vec N} {Kb0 R : ℝ}

theorem ioden_pos (u : Vec N) (hK : 0 < Kb0) (h0 : 0 ≤ R) (h1 : R ≤ 1) (i : Fin N) : 0 < 1 - R + Kb0 * R * Real.exp (u i) := by
  have := Real.exp_pos (u i)
  rcases h0.eq_or_lt with rfl | h0
  · simp
  · have : 0 < Kb0 * R * Real.exp (u i) := by positivity
    linarith

theorem ioP_nonneg (hK : 0 < Kb0) (h0 : 0 ≤ R) (h1 : R ≤ 1) (hz : ∀ i, 0 ≤ z i) (i : Fin N) : 0 ≤ ioP u Kb0 R z i :=
  div_nonneg (hz i) (ioden_pos u hK h0 h1 i).le

theorem exists_pos_of_sum {z : Vec N} (hz : ∀ i, 0 ≤ z i) (hz1 : ∑ i, z i = 1) : ∃ i, 0 < z i := by
  by_contra hc
  push Not at hc
  have : ∑ i, z i = 0 := sum_eq_zero fun i _ => le_antisymm (hc i) (hz i)
  rw [hz1] at this
  exact one_ne_zero this

theorem ioP_sum_pos (hK : 0 < Kb0) (h0 : 0 ≤ R) (h1 : R ≤ 1) (hz : ∀ i, 0 ≤ z i) (hz1 : ∑ i, z i = 1) : 0 < ∑ i, ioP u Kb0 R z i := by
  obtain ⟨i, hi⟩ := exists_pos_of_sum hz hz1
  exact sum_pos' (fun i _ => ioP_nonneg hK h0 h1 hz i) ⟨i, mem_univ _, div_pos hi (ioden_pos u hK h0 h1 i)⟩

theorem ioEup_sum_pos (hK : 0 < Kb0) (h0 : 0 ≤ R) (h1 : R ≤ 1) (hz : ∀ i, 0 ≤ z i) (hz1 : ∑ i, z i = 1) : 0 < ∑ i, ioEup u Kb0 R z i := by
  obtain ⟨i, hi⟩ := exists_pos_of_sum hz hz1
  exact sum_pos' (fun i _ => mul_nonneg (Real.exp_pos _).le (ioP_nonneg hK h0 h1 hz i))
    ⟨i, mem_univ _, mul_pos (Real.exp_pos _) (div_pos hi (ioden_pos u hK h0 h1 i))⟩

/-- The component balance of the inside-out flash, with its exact error. -/
theorem io_balance (beta : ℝ) (hK : 0 < Kb0) (h0 : 0 ≤ R) (h1 : R ≤ 1) (hz : ∀ i, 0 ≤ z i) (hz1 : ∑ i, z i = 1) (i : Fin N) :
    (1 - beta) * normalize (ioP u Kb0 R z) i + beta * normalize (ioEup u Kb0 R z) i - z i =
      rloop u Kb0 beta z R * (normalize (ioP u Kb0 R z) i - normalize (ioEup u Kb0 R z) i) := by
  have hS := (ioP_sum_pos (u := u) hK h0 h1 hz hz1).ne'
  have hE := (ioEup_sum_pos (u := u) hK h0 h1 hz hz1).ne'
  have hsplit : ∀ j, z j = (1 - R) * ioP u Kb0 R z j + Kb0 * R * ioEup u Kb0 R z j := by
    intro j
    have := (ioden_pos u hK h0 h1 j).ne'
    simp only [ioEup, ioP]
    rw [← mul_assoc, ← add_mul, mul_div_cancel₀ _ this]
  have hsum : (1 - R) * (∑ j, ioP u Kb0 R z j) + Kb0 * R * (∑ j, ioEup u Kb0 R z j) = 1 := by
    rw [mul_sum, mul_sum, ← sum_add_distrib]
    exact (sum_congr rfl fun j _ => (hsplit j).symm).trans hz1
  have hr : rloop u Kb0 beta z R = 1 - beta - (1 - R) * ∑ j, ioP u Kb0 R z j := rfl
  have hx : ioP u Kb0 R z i = normalize (ioP u Kb0 R z) i * ∑ j, ioP u Kb0 R z j := by
    simp only [normalize]; rw [div_mul_cancel₀ _ hS]
  have hy : ioEup u Kb0 R z i = normalize (ioEup u Kb0 R z) i * ∑ j, ioEup u Kb0 R z j := by
    simp only [normalize]; rw [div_mul_cancel₀ _ hE]
  rw [hsplit i, hr, hx, hy]
  generalize normalize (ioP u Kb0 R z) i = x at *
  generalize normalize (ioEup u Kb0 R z) i = y at *
  generalize ∑ j, ioP u Kb0 R z j = S at *
  generalize ∑ j, ioEup u Kb0 R z j = E at *
  linear_combination -y * hsum

theorem io_ratio (hK : 0 < Kb0) (h0 : 0 ≤ R) (h1 : R ≤ 1) (hz : ∀ i, 0 ≤ z i) (hz1 : ∑ i, z i = 1) (i : Fin N) :
    normalize (ioEup u Kb0 R z) i = ioKb u Kb0 R z * Real.exp (u i) * normalize (ioP u Kb0 R z) i := by
  have hS := (ioP_sum_pos (u := u) hK h0 h1 hz hz1).ne'
  have hE := (ioEup_sum_pos (u := u) hK h0 h1 hz hz1).ne'
  simp only [normalize, ioKb]
  rw [show ioEup u Kb0 R z i = Real.exp (u i) * ioP u Kb0 R z i from rfl]
  field_simp

theorem ioKb_pos (hK : 0 < Kb0) (h0 : 0 ≤ R) (h1 : R ≤ 1) (hz : ∀ i, 0 ≤ z i) (hz1 : ∑ i, z i = 1) : 0 < ioKb u Kb0 R z :=
  div_pos (ioP_sum_pos hK h0 h1 hz hz1) (ioEup_sum_pos hK h0 h1 hz hz1)

theorem rloop_lipschitz (beta : ℝ) (hK : 0 < Kb0) (hz : ∀ i, 0 ≤ z i) {a b : ℝ} (ha : 0 ≤ a) (ha1 : a ≤ 1) (hb : 0 ≤ b) (hb1 : b ≤ 1) :
    |rloop u Kb0 beta z a - rloop u Kb0 beta z b| ≤ |a - b| * ∑ i, z i * max (Kb0 * Real.exp (u i)) (1 / (Kb0 * Real.exp (u i))) := by
  have e : rloop u Kb0 beta z a - rloop u Kb0 beta z b =
      ∑ i, (a - b) * (z i * (Kb0 * Real.exp (u i)) / ((1 - a + Kb0 * a * Real.exp (u i)) * (1 - b + Kb0 * b * Real.exp (u i)))) := by
    have : rloop u Kb0 beta z a - rloop u Kb0 beta z b =
        ∑ i, ((1 - b) * (z i / (1 - b + Kb0 * b * Real.exp (u i))) - (1 - a) * (z i / (1 - a + Kb0 * a * Real.exp (u i)))) := by
      rw [sum_sub_distrib, ← mul_sum, ← mul_sum]
      simp only [rloop]; ring
    rw [this]
    refine sum_congr rfl fun i _ => ?_
    have d1 := (ioden_pos u hK hb hb1 i).ne'
    have d2 := (ioden_pos u hK ha ha1 i).ne'
    rw [← mul_div_assoc, ← mul_div_assoc, ← mul_div_assoc, div_sub_div _ _ d1 d2, div_eq_div_iff (mul_ne_zero d1 d2) (mul_ne_zero d2 d1)]
    ring
  rw [e, mul_sum]
  refine (abs_sum_le_sum_abs _ _).trans (sum_le_sum fun i _ => ?_)
  rw [abs_mul]
  refine mul_le_mul_of_nonneg_left ?_ (abs_nonneg _)
  have hc : 0 < Kb0 * Real.exp (u i) := mul_pos hK (Real.exp_pos _)
  have d1 := ioden_pos u hK hb hb1 i
  have d2 := ioden_pos u hK ha ha1 i
  have b1 : min 1 (Kb0 * Real.exp (u i)) ≤ 1 - b + Kb0 * b * Real.exp (u i) := by
    have := (den_bounds (k := Kb0 * Real.exp (u i)) hb hb1).1
    linarith
  have b2 : min 1 (Kb0 * Real.exp (u i)) ≤ 1 - a + Kb0 * a * Real.exp (u i) := by
    have := (den_bounds (k := Kb0 * Real.exp (u i)) ha ha1).1
    linarith
  rw [abs_of_nonneg (div_nonneg (mul_nonneg (hz i) hc.le) (mul_pos d2 d1).le), mul_div_assoc]
  refine mul_le_mul_of_nonneg_left ?_ (hz i)
  rw [div_le_iff₀ (mul_pos d2 d1)]
  generalize Kb0 * Real.exp (u i) = c at *
  have hm : 0 < min 1 c := lt_min one_pos hc
  have hprod : min 1 c * min 1 c ≤ (1 - a + Kb0 * a * Real.exp (u i)) * (1 - b + Kb0 * b * Real.exp (u i)) := mul_le_mul b2 b1 hm.le d2.le
  have hmax : 0 < max c (1 / c) := lt_max_of_lt_left hc
  refine le_trans ?_ (mul_le_mul_of_nonneg_left hprod hmax.le)
  rcases le_total 1 c with h | h
  · rw [min_eq_left h, mul_one, mul_one]
    exact le_max_left _ _
  · rw [min_eq_right h]
    calc c = 1 / c * (c * c) := by field_simp
      _ ≤ max c (1 / c) * (c * c) := mul_le_mul_of_nonneg_right (le_max_right _ _) (mul_pos hc hc).le

/-- The accuracy of the inner loop. -/
theorem innerR_spec {beta atol : ℝ} {maxiter : ℕ} (hK : 0 < Kb0) (hz : ∀ i, 0 ≤ z i) (hz1 : ∑ i, z i = 1) (hat : 0 ≤ atol)
    (h : innerR u Kb0 beta z maxiter atol = .ok (some R)) :
    0 ≤ R ∧ R ≤ 1 ∧ |rloop u Kb0 beta z R| ≤
      max eps (max atol ((4 * eps + atol) * ∑ i, z i * max (Kb0 * Real.exp (u i)) (1 / (Kb0 * Real.exp (u i))))) := by
  obtain ⟨s0, s1⟩ := C58_signs u Kb0 beta z hz1
  unfold innerR at h
  split_ifs at h with c0 c1
  · simp only [Except.ok.injEq, Option.some.injEq] at h
    subst h
    refine ⟨le_rfl, zero_le_one, ?_⟩
    rw [s0, abs_neg]
    rw [sub_zero] at c0
    exact c0.trans (le_max_left _ _)
  · simp only [Except.ok.injEq, Option.some.injEq] at h
    subst h
    refine ⟨zero_le_one, le_rfl, ?_⟩
    rw [s1, abs_sub_comm]
    exact c1.trans (le_max_left _ _)
  · obtain ⟨p, hp, h⟩ := bind_ok h
    have h' : (if p.1.success = true then some p.1.x else none) = some R := by injection h
    split_ifs at h' with hs
    simp only [Option.some.injEq] at h'
    have hmem := (C03_brent_stays_in_bracket _ _ _ _ _ _ hat hat p.1 p.2 hp).2.1
    obtain ⟨-, hacc, -⟩ := C04_brent_accuracy _ _ _ _ _ _ hat hat p.1 p.2 hp
    rw [h'] at hmem hacc
    rw [Set.uIcc_of_le zero_le_one] at hmem
    refine ⟨hmem.1, hmem.2, ?_⟩
    rcases hacc hs with h2 | ⟨y, hy, hsgn, hd⟩
    · exact h2.trans ((le_max_left _ _).trans (le_max_right _ _))
    · rw [Set.uIcc_of_le zero_le_one] at hy
      have hl := rloop_lipschitz (u := u) beta hK hz hmem.1 hmem.2 hy.1 hy.2
      have hle : |rloop u Kb0 beta z R| ≤ |rloop u Kb0 beta z R - rloop u Kb0 beta z y| := by
        rw [← sq_le_sq]
        nlinarith [sq_nonneg (rloop u Kb0 beta z y)]
      have hR : |R - y| ≤ 4 * eps + atol := by
        rw [abs_sub_comm]
        refine hd.trans ?_
        rw [abs_of_nonneg hmem.1]
        have he : (0 : ℝ) < eps := eps_pos
        nlinarith [hmem.2]
      have hS : 0 ≤ ∑ i, z i * max (Kb0 * Real.exp (u i)) (1 / (Kb0 * Real.exp (u i))) :=
        sum_nonneg fun i _ => mul_nonneg (hz i) (le_max_of_le_left (mul_pos hK (Real.exp_pos _)).le)
      exact (hle.trans (hl.trans (mul_le_mul_of_nonneg_right hR hS))).trans ((le_max_right _ _).trans (le_max_right _ _))

end IO

/-! ### Outer loops -/

theorem pvLoop_spec (Kcalc : KFun N) (z : Vec N) (P beta Tref B Kb0 : ℝ) (maxiter : ℕ) (atol rtol : ℝ) :
    ∀ (n : ℕ) (s r : IOState N), s.success = false → pvLoop Kcalc z P beta Tref B Kb0 maxiter atol rtol n s = .ok r →
      r.success = true → ∃ (u : Vec N) (A R v0 : ℝ), innerR u Kb0 beta z maxiter atol = .ok (some R) ∧ r.x = normalize (ioP u Kb0 R z) ∧
        r.y = normalize (ioEup u Kb0 R z) ∧ r.Q = 1 / (1 / Tref + (Real.log (ioKb u Kb0 R z) - A) / B) ∧
        (r.u, r.A, r.K) = paramsPV r.Q P r.x r.y beta Kcalc Tref B ∧ minPos (List.ofFn r.u ++ [r.A]) = .ok v0 ∧
        AllClose (concat r.u r.A) (concat u A) (v0 * rtol) := by
  intro n
  induction n with
  | zero =>
    intro s r hs h hr
    simp only [pvLoop, Except.ok.injEq] at h
    rw [← h] at hr
    simp [hs] at hr
  | succ n ih =>
    intro s r hs h hr
    simp only [pvLoop] at h
    obtain ⟨o, e1, h⟩ := bind_ok h
    cases o with
    | none =>
      injection h with h
      rw [← h] at hr
      simp [hs] at hr
    | some R =>
      simp only at h
      obtain ⟨v0, e2, h⟩ := bind_ok h
      split_ifs at h with hc
      · injection h with h
        subst h
        exact ⟨s.u, s.A, R, v0, e1, rfl, rfl, rfl, rfl, e2, hc⟩
      · refine (fun q => q hs hr) (fun h1 h2 => ih _ r h1 h h2)

theorem tvLoop_spec (Kcalc : KFun N) (z : Vec N) (T beta Pref B Kb0 : ℝ) (maxiter : ℕ) (atol rtol : ℝ) :
    ∀ (n : ℕ) (s r : IOState N), s.success = false → tvLoop Kcalc z T beta Pref B Kb0 maxiter atol rtol n s = .ok r →
      r.success = true → ∃ (u : Vec N) (A R v0 : ℝ) (sol : RootResult ℝ × List (ℝ × ℝ)), innerR u Kb0 beta z maxiter atol = .ok (some R) ∧
        r.x = normalize (ioP u Kb0 R z) ∧
        r.y = normalize (ioEup u Kb0 R z) ∧ rootNewton (pressureEq (ioKb u Kb0 R z) A B Pref) (Real.exp A / ioKb u Kb0 R z) 0 1e-10 50 = .ok sol ∧
        sol.1.success = true ∧ r.Q = sol.1.x ∧
        (r.u, r.A, r.K) = paramsTV T r.Q r.x r.y beta Kcalc Pref B ∧ minPos (List.ofFn r.u ++ [r.A]) = .ok v0 ∧
        AllClose (concat r.u r.A) (concat u A) (v0 * rtol) := by
  intro n
  induction n with
  | zero =>
    intro s r hs h hr
    simp only [tvLoop, Except.ok.injEq] at h
    rw [← h] at hr
    simp [hs] at hr
  | succ n ih =>
    intro s r hs h hr
    simp only [tvLoop] at h
    obtain ⟨o, e1, h⟩ := bind_ok h
    cases o with
    | none =>
      injection h with h
      rw [← h] at hr
      simp [hs] at hr
    | some R =>
      simp only at h
      obtain ⟨sol, e3, h⟩ := bind_ok h
      cases hsol : sol.1.success with
      | false =>
        rw [hsol] at h
        simp only [Bool.not_false, if_true] at h
        injection h with h
        rw [← h] at hr
        simp [hs] at hr
      | true =>
        rw [hsol] at h
        simp only [Bool.not_true, Bool.false_eq_true, if_false] at h
        obtain ⟨v0, e2, h⟩ := bind_ok h
        split_ifs at h with hc
        · injection h with h
          subst h
          exact ⟨s.u, s.A, R, v0, sol, e1, rfl, rfl, e3, hsol, rfl, rfl, e2, hc⟩
        · refine (fun q => q hs hr) (fun h1 h2 => ih _ r h1 h h2)

end Verif.Flash
