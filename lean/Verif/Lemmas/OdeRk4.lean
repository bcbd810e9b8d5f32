import Verif.Lemmas.Ode
import Mathlib.Analysis.Calculus.ContDiff.Basic
import Mathlib.Analysis.Calculus.ContDiff.Operations
import Mathlib.Analysis.Calculus.IteratedDeriv.Defs
import Mathlib.Analysis.Calculus.MeanValue
import Mathlib.Analysis.Calculus.Deriv.Pow

/-! # Local error of the classical Runge-Kutta step -/

namespace Verif.Ode

open Set

/-- `g t s` is of order `s ^ n`, uniformly in the steps `[t, t + s]` inside `[t0, tf]`. -/
def Big (t0 tf : ℝ) (n : ℕ) (g : ℝ → ℝ → ℝ) : Prop :=
  ∃ C, 0 ≤ C ∧ ∀ t s, t0 ≤ t → 0 ≤ s → t + s ≤ tf → |g t s| ≤ C * s ^ n

namespace Big

variable {t0 tf : ℝ} {m n : ℕ} {g k : ℝ → ℝ → ℝ}

theorem congr (h : Big t0 tf n g) (e : ∀ t s, t0 ≤ t → 0 ≤ s → t + s ≤ tf → k t s = g t s) : Big t0 tf n k := by
  obtain ⟨C, h0, hC⟩ := h
  exact ⟨C, h0, fun t s a b c => by rw [e t s a b c]; exact hC t s a b c⟩

theorem le (h : Big t0 tf n g) (e : ∀ t s, t0 ≤ t → 0 ≤ s → t + s ≤ tf → |k t s| ≤ |g t s|) : Big t0 tf n k := by
  obtain ⟨C, h0, hC⟩ := h
  exact ⟨C, h0, fun t s a b c => (e t s a b c).trans (hC t s a b c)⟩

theorem add (h : Big t0 tf n g) (h' : Big t0 tf n k) : Big t0 tf n fun t s => g t s + k t s := by
  obtain ⟨C, h0, hC⟩ := h
  obtain ⟨D, h1, hD⟩ := h'
  refine ⟨C + D, by positivity, fun t s a b c => (abs_add_le _ _).trans ?_⟩
  rw [add_mul]; exact add_le_add (hC t s a b c) (hD t s a b c)

theorem neg (h : Big t0 tf n g) : Big t0 tf n fun t s => -g t s := h.le fun t s _ _ _ => by rw [abs_neg]

theorem sub (h : Big t0 tf n g) (h' : Big t0 tf n k) : Big t0 tf n fun t s => g t s - k t s :=
  (h.add h'.neg).congr fun t s _ _ _ => sub_eq_add_neg _ _

theorem mul (h : Big t0 tf m g) (h' : Big t0 tf n k) : Big t0 tf (m + n) fun t s => g t s * k t s := by
  obtain ⟨C, h0, hC⟩ := h
  obtain ⟨D, h1, hD⟩ := h'
  refine ⟨C * D, by positivity, fun t s a b c => ?_⟩
  rw [abs_mul, pow_add]
  have := mul_le_mul (hC t s a b c) (hD t s a b c) (abs_nonneg _) (by positivity)
  refine this.trans (le_of_eq (by ring))

theorem step : Big t0 tf 1 fun _ s => s := ⟨1, one_pos.le, fun t s _ b _ => by rw [abs_of_nonneg b]; simp⟩

theorem pow (n : ℕ) : Big t0 tf n fun _ s => s ^ n := ⟨1, one_pos.le, fun t s _ b _ => by rw [abs_of_nonneg (by positivity)]; simp⟩

theorem const (c : ℝ) : Big t0 tf 0 fun _ _ => c := ⟨|c|, abs_nonneg _, fun t s _ b _ => by simp⟩

theorem cmul (c : ℝ) (h : Big t0 tf n g) : Big t0 tf n fun t s => c * g t s := by
  have := (const (t0 := t0) (tf := tf) c).mul h
  rwa [zero_add] at this

theorem mono (h : Big t0 tf m g) (hn : n ≤ m) : Big t0 tf n g := by
  obtain ⟨C, h0, hC⟩ := h
  refine ⟨C * |tf - t0| ^ (m - n), by positivity, fun t s a b c => (hC t s a b c).trans ?_⟩
  rw [mul_assoc]
  refine mul_le_mul_of_nonneg_left ?_ h0
  obtain ⟨d, rfl⟩ := Nat.exists_eq_add_of_le hn
  rw [Nat.add_sub_cancel_left, pow_add, mul_comm]
  exact mul_le_mul_of_nonneg_right (pow_le_pow_left₀ b (by rw [abs_of_nonneg (by linarith)]; linarith) d) (by positivity)

theorem bdd {a : ℝ → ℝ} (ha : ContinuousOn a (Icc t0 tf)) : Big t0 tf 0 fun t _ => a t := by
  obtain ⟨C, hC⟩ := isCompact_Icc.exists_bound_of_continuousOn ha
  refine ⟨|C|, abs_nonneg _, fun t s h1 h2 h3 => ?_⟩
  simpa using (hC t ⟨h1, by linarith⟩).trans (le_abs_self C)

theorem bdd_at {a : ℝ → ℝ} (ha : ContinuousOn a (Icc t0 tf)) {θ : ℝ} (h0 : 0 ≤ θ) (h1 : θ ≤ 1) : Big t0 tf 0 fun t s => a (t + θ * s) := by
  obtain ⟨C, hC⟩ := isCompact_Icc.exists_bound_of_continuousOn ha
  refine ⟨|C|, abs_nonneg _, fun t s h2 h3 h4 => ?_⟩
  have : θ * s ≤ s := mul_le_of_le_one_left h3 h1
  have := mul_nonneg h0 h3
  simpa using (hC (t + θ * s) ⟨by linarith, by linarith⟩).trans (le_abs_self C)

end Big

/-- Taylor's formula for a chain of derivatives. -/
theorem taylor_chain (n : ℕ) (G : ℕ → ℝ → ℝ) (a b M : ℝ) (hG : ∀ k < n, ∀ t, HasDerivAt (G k) (G (k + 1) t) t) (hM : ∀ t ∈ Icc a b, |G n t| ≤ M)
    (x : ℝ) (hx : x ∈ Icc a b) : |G 0 x - ∑ k ∈ Finset.range n, G k a * ((x - a) ^ k / k.factorial)| ≤ M * ((x - a) ^ n / n.factorial) := by
  induction n generalizing G x with
  | zero => simpa using hM x hx
  | succ n ih =>
    have ih := fun x hx => ih (fun k => G (k + 1)) (fun k hk t => hG (k + 1) (by omega) t) hM x hx
    have hd : ∀ x, HasDerivAt (fun x => G 0 x - ∑ k ∈ Finset.range (n + 1), G k a * ((x - a) ^ k / k.factorial))
        (G 1 x - ∑ k ∈ Finset.range n, G (k + 1) a * ((x - a) ^ k / k.factorial)) x := by
      intro x
      refine (hG 0 (by omega) x).sub ?_
      have hs : HasDerivAt (fun x => ∑ k ∈ Finset.range n, G (k + 1) a * ((x - a) ^ (k + 1) / (k + 1).factorial))
          (∑ k ∈ Finset.range n, G (k + 1) a * ((x - a) ^ k / k.factorial)) x := by
        refine HasDerivAt.fun_sum fun k _ => ?_
        refine ((((hasDerivAt_id x).sub_const a).pow (k + 1)).div_const _).const_mul _ |>.congr_deriv ?_
        simp only [id, Nat.factorial_succ, Nat.cast_mul, Nat.cast_add, Nat.cast_one, Nat.add_sub_cancel, mul_one]
        congr 1
        have h1 : (k : ℝ) + 1 ≠ 0 := by positivity
        have h2 : (k.factorial : ℝ) ≠ 0 := by positivity
        field_simp
      have := hs.add_const (G 0 a * ((1 : ℝ) / (Nat.factorial 0)))
      refine this.congr_of_eventuallyEq (Filter.Eventually.of_forall fun z => ?_)
      dsimp only
      rw [Finset.sum_range_succ']
      simp
    have hb : ∀ x, HasDerivAt (fun x => M * ((x - a) ^ (n + 1) / (n + 1).factorial)) (M * ((x - a) ^ n / n.factorial)) x := by
      intro x
      refine ((((hasDerivAt_id x).sub_const a).pow (n + 1)).div_const _).const_mul _ |>.congr_deriv ?_
      simp only [id, Nat.factorial_succ, Nat.cast_mul, Nat.cast_add, Nat.cast_one, Nat.add_sub_cancel, mul_one]
      congr 1
      have h1 : (n : ℝ) + 1 ≠ 0 := by positivity
      have h2 : (n.factorial : ℝ) ≠ 0 := by positivity
      field_simp
    have := image_norm_le_of_norm_deriv_right_le_deriv_boundary' (a := a) (b := b)
      (f := fun x => G 0 x - ∑ k ∈ Finset.range (n + 1), G k a * ((x - a) ^ k / k.factorial))
      (f' := fun x => G 1 x - ∑ k ∈ Finset.range n, G (k + 1) a * ((x - a) ^ k / k.factorial))
      (fun x _ => (hd x).continuousAt.continuousWithinAt) (fun x _ => (hd x).hasDerivWithinAt)
      (B := fun x => M * ((x - a) ^ (n + 1) / (n + 1).factorial)) (B' := fun x => M * ((x - a) ^ n / n.factorial))
      (by rw [Finset.sum_range_succ']; simp)
      (fun x _ => (hb x).continuousAt.continuousWithinAt) (fun x _ => (hb x).hasDerivWithinAt)
      (fun x hx => ih x ⟨hx.1, hx.2.le⟩) hx
    exact this

theorem taylor_big {t0 tf : ℝ} (n : ℕ) (G : ℕ → ℝ → ℝ) (hG : ∀ k < n, ∀ t, HasDerivAt (G k) (G (k + 1) t) t) (hc : ContinuousOn (G n) (Icc t0 tf))
    {θ : ℝ} (h0 : 0 ≤ θ) (h1 : θ ≤ 1) :
    Big t0 tf n fun t s => G 0 (t + θ * s) - ∑ k ∈ Finset.range n, G k t * ((θ * s) ^ k / k.factorial) := by
  obtain ⟨C, hC⟩ := isCompact_Icc.exists_bound_of_continuousOn hc
  refine ⟨|C|, abs_nonneg _, fun t s h2 h3 h4 => ?_⟩
  have h5 : θ * s ≤ s := mul_le_of_le_one_left h3 h1
  have h6 := mul_nonneg h0 h3
  have := taylor_chain n G t tf |C| hG (fun u hu => (hC u ⟨by linarith [hu.1], hu.2⟩).trans (le_abs_self C)) (t + θ * s) ⟨by linarith, by linarith⟩
  rw [add_sub_cancel_left] at this
  refine this.trans (mul_le_mul_of_nonneg_left ?_ (abs_nonneg _))
  refine (div_le_self (by positivity) (by exact_mod_cast Nat.one_le_iff_ne_zero.2 (Nat.factorial_ne_zero n))).trans (pow_le_pow_left₀ h6 h5 n)

/-- Local error of the classical Runge-Kutta step: `G` is the solution and its derivatives, `j` the derivative of the right-hand side along the solution. -/
theorem rk4_local {t0 tf : ℝ} (f : ℝ → ℝ → ℝ) (G : ℕ → ℝ → ℝ) (hG : ∀ k < 5, ∀ t, HasDerivAt (G k) (G (k + 1) t) t) (hc : Continuous (G 5))
    (hy : ∀ t, G 1 t = f t (G 0 t)) (j : ℝ → ℝ) (hj : ContinuousOn j (Icc t0 tf)) (hjl : ∃ Lj, ∀ a ∈ Icc t0 tf, ∀ b ∈ Icc t0 tf, |j a - j b| ≤ Lj * |a - b|)
    (hq : ∀ R, ∃ K, 0 ≤ K ∧ ∀ t ∈ Icc t0 tf, ∀ d, |d| ≤ R → |f t (G 0 t + d) - G 1 t - j t * d| ≤ K * d ^ 2) :
    Big t0 tf 5 fun t s => G 0 (t + s) - stepRk4 f t (G 0 t) s := by
  have hcG : ∀ k ≤ 5, Continuous (G k) := by
    intro k hk
    rcases hk.lt_or_eq with h | rfl
    · exact continuous_iff_continuousAt.2 fun t => (hG k h t).continuousAt
    · exact hc
  have gb : ∀ k ≤ 5, Big t0 tf 0 fun t _ => G k t := fun k hk => Big.bdd (hcG k hk).continuousOn
  -- evaluation of the right-hand side next to the solution
  have feval : ∀ (n : ℕ) (θ : ℝ), 0 ≤ θ → θ ≤ 1 → ∀ D : ℝ → ℝ → ℝ, Big t0 tf n D →
      Big t0 tf (n + n) fun t s => f (t + θ * s) (G 0 (t + θ * s) + D t s) - (G 1 (t + θ * s) + j (t + θ * s) * D t s) := by
    intro n θ h0 h1 D hD
    obtain ⟨R, hR0, hR⟩ := hD.mono (Nat.zero_le n)
    obtain ⟨K, hK0, hK⟩ := hq R
    refine ((hD.mul hD).cmul K).le fun t s h2 h3 h4 => ?_
    have h5 : θ * s ≤ s := mul_le_of_le_one_left h3 h1
    have h6 := mul_nonneg h0 h3
    have := hK (t + θ * s) ⟨by linarith, by linarith⟩ (D t s) (by simpa using hR t s h2 h3 h4)
    rw [show f (t + θ * s) (G 0 (t + θ * s) + D t s) - (G 1 (t + θ * s) + j (t + θ * s) * D t s) =
      f (t + θ * s) (G 0 (t + θ * s) + D t s) - G 1 (t + θ * s) - j (t + θ * s) * D t s by ring]
    rw [abs_of_nonneg (mul_nonneg hK0 (mul_self_nonneg (D t s))), ← pow_two]
    exact this
  have hJ : Big t0 tf 0 fun t s => j (t + 1 / 2 * s) := Big.bdd_at hj (by norm_num) (by norm_num)
  -- Taylor expansions of the solution
  have hA : Big t0 tf 4 fun t s => G 0 (t + 1 / 2 * s) - (G 0 t + s / 2 * G 1 t + s ^ 2 / 8 * G 2 t + s ^ 3 / 48 * G 3 t) := by
    refine (taylor_big 4 G (fun k hk => hG k (by omega)) (hcG 4 (by norm_num)).continuousOn (θ := 1 / 2) (by norm_num) (by norm_num)).congr fun t s _ _ _ => ?_
    simp only [Finset.sum_range_succ, Finset.sum_range_zero, Nat.factorial]; push_cast; ring
  have hB : Big t0 tf 3 fun t s => G 1 (t + 1 / 2 * s) - (G 1 t + s / 2 * G 2 t + s ^ 2 / 8 * G 3 t) := by
    refine (taylor_big 3 (fun k => G (k + 1)) (fun k hk => hG (k + 1) (by omega)) (hcG 4 (by norm_num)).continuousOn (θ := 1 / 2) (by norm_num) (by norm_num)).congr fun t s _ _ _ => ?_
    simp only [Finset.sum_range_succ, Finset.sum_range_zero, Nat.factorial]; push_cast; ring_nf
  have hC : Big t0 tf 4 fun t s => G 0 (t + 1 * s) - (G 0 t + s * G 1 t + s ^ 2 / 2 * G 2 t + s ^ 3 / 6 * G 3 t) := by
    refine (taylor_big 4 G (fun k hk => hG k (by omega)) (hcG 4 (by norm_num)).continuousOn (θ := 1) (by norm_num) (by norm_num)).congr fun t s _ _ _ => ?_
    simp only [Finset.sum_range_succ, Finset.sum_range_zero, Nat.factorial]; push_cast; ring
  have hS : Big t0 tf 5 fun t s => G 0 (t + 1 * s) - G 0 t - s / 6 * (G 1 t + 4 * G 1 (t + 1 / 2 * s) + G 1 (t + 1 * s)) := by
    have p := taylor_big 5 G hG hc.continuousOn (t0 := t0) (tf := tf) (θ := 1) (by norm_num) (by norm_num)
    have q1 := taylor_big 4 (fun k => G (k + 1)) (fun k hk => hG (k + 1) (by omega)) hc.continuousOn (t0 := t0) (tf := tf) (θ := 1 / 2) (by norm_num) (by norm_num)
    have q2 := taylor_big 4 (fun k => G (k + 1)) (fun k hk => hG (k + 1) (by omega)) hc.continuousOn (t0 := t0) (tf := tf) (θ := 1) (by norm_num) (by norm_num)
    refine (p.sub ((Big.step.mul (q1.cmul 4)).cmul (1 / 6)) |>.sub ((Big.step.mul q2).cmul (1 / 6))).congr fun t s _ _ _ => ?_
    simp only [Finset.sum_range_succ, Finset.sum_range_zero, Nat.factorial]; push_cast; ring_nf
  have hdJ : Big t0 tf 1 fun t s => j (t + 1 * s) - j (t + 1 / 2 * s) := by
    obtain ⟨Lj, hLj⟩ := hjl
    refine ⟨|Lj|, abs_nonneg _, fun t s h2 h3 h4 => ?_⟩
    refine (hLj _ ⟨by linarith, by linarith⟩ _ ⟨by linarith, by linarith⟩).trans ?_
    rw [show t + 1 * s - (t + 1 / 2 * s) = s / 2 by ring, abs_of_nonneg (by positivity : 0 ≤ s / 2), pow_one]
    exact mul_le_mul (le_abs_self _) (by linarith) (by positivity) (abs_nonneg _)
  generalize hAe : (fun t s : ℝ => G 0 (t + 1 / 2 * s) - (G 0 t + s / 2 * G 1 t + s ^ 2 / 8 * G 2 t + s ^ 3 / 48 * G 3 t)) = A at hA
  generalize hBe : (fun t s : ℝ => G 1 (t + 1 / 2 * s) - (G 1 t + s / 2 * G 2 t + s ^ 2 / 8 * G 3 t)) = B at hB
  generalize hCe : (fun t s : ℝ => G 0 (t + 1 * s) - (G 0 t + s * G 1 t + s ^ 2 / 2 * G 2 t + s ^ 3 / 6 * G 3 t)) = C at hC
  have eA : ∀ t s, G 0 (t + 1 / 2 * s) = G 0 t + s / 2 * G 1 t + s ^ 2 / 8 * G 2 t + s ^ 3 / 48 * G 3 t + A t s := fun t s => by rw [← hAe]; ring
  have eB : ∀ t s, G 1 (t + 1 / 2 * s) = G 1 t + s / 2 * G 2 t + s ^ 2 / 8 * G 3 t + B t s := fun t s => by rw [← hBe]; ring
  have eC : ∀ t s, G 0 (t + 1 * s) = G 0 t + s * G 1 t + s ^ 2 / 2 * G 2 t + s ^ 3 / 6 * G 3 t + C t s := fun t s => by rw [← hCe]; ring
  have g2 := gb 2 (by norm_num)
  have g3 := gb 3 (by norm_num)
  have s3g3 := (Big.pow (t0 := t0) (tf := tf) 3).mul g3
  have s2g2 := (Big.pow (t0 := t0) (tf := tf) 2).mul g2
  have s3g2 := (Big.pow (t0 := t0) (tf := tf) 3).mul g2
  have s4g3 := (Big.pow (t0 := t0) (tf := tf) 4).mul g3
  -- second stage
  set D2 : ℝ → ℝ → ℝ := fun t s => -(s ^ 2 / 8 * G 2 t + s ^ 3 / 48 * G 3 t) - A t s with hD2e
  have hD2 : Big t0 tf 2 D2 := by
    refine ((s2g2.cmul (-1 / 8)).add ((s3g3.mono (by norm_num : 2 ≤ 3)).cmul (-1 / 48)) |>.sub (hA.mono (by norm_num))).congr fun t s _ _ _ => ?_
    rw [hD2e]; ring
  have hE2 := feval 2 (1 / 2) (by norm_num) (by norm_num) D2 hD2
  set k2 : ℝ → ℝ → ℝ := fun t s => f (t + 1 / 2 * s) (G 0 (t + 1 / 2 * s) + D2 t s) with hk2
  generalize hE2e : (fun t s : ℝ => k2 t s - (G 1 (t + 1 / 2 * s) + j (t + 1 / 2 * s) * D2 t s)) = E2 at hE2
  have ek2 : ∀ t s, k2 t s = G 1 (t + 1 / 2 * s) + j (t + 1 / 2 * s) * D2 t s + E2 t s := fun t s => by rw [← hE2e]; ring
  -- third stage
  set R3 : ℝ → ℝ → ℝ := fun t s => s / 2 * B t s - A t s - s ^ 4 / 96 * (j (t + 1 / 2 * s) * G 3 t) - s / 2 * (j (t + 1 / 2 * s) * A t s) + s / 2 * E2 t s with hR3e
  have hR3 : Big t0 tf 4 R3 := by
    refine (((((Big.step.mul hB).cmul (1 / 2)).sub hA).sub ((hJ.mul s4g3).cmul (1 / 96))).sub ((((Big.step.mul (hJ.mul hA)).mono (by norm_num : 4 ≤ 5)).cmul (1 / 2))) |>.add
      (((Big.step.mul hE2).mono (by norm_num : 4 ≤ 5)).cmul (1 / 2))).congr fun t s _ _ _ => ?_
    rw [hR3e]; ring
  set D3 : ℝ → ℝ → ℝ := fun t s => s ^ 2 / 8 * G 2 t + s ^ 3 / 24 * G 3 t - s ^ 3 / 16 * (j (t + 1 / 2 * s) * G 2 t) + R3 t s with hD3e
  have hD3 : Big t0 tf 2 D3 := by
    refine (((s2g2.cmul (1 / 8)).add ((s3g3.mono (by norm_num : 2 ≤ 3)).cmul (1 / 24))).sub (((hJ.mul s3g2).mono (by norm_num : 2 ≤ 3)).cmul (1 / 16)) |>.add
      (hR3.mono (by norm_num))).congr fun t s _ _ _ => ?_
    rw [hD3e]; ring
  have hE3 := feval 2 (1 / 2) (by norm_num) (by norm_num) D3 hD3
  set k3 : ℝ → ℝ → ℝ := fun t s => f (t + 1 / 2 * s) (G 0 (t + 1 / 2 * s) + D3 t s) with hk3
  generalize hE3e : (fun t s : ℝ => k3 t s - (G 1 (t + 1 / 2 * s) + j (t + 1 / 2 * s) * D3 t s)) = E3 at hE3
  have ek3 : ∀ t s, k3 t s = G 1 (t + 1 / 2 * s) + j (t + 1 / 2 * s) * D3 t s + E3 t s := fun t s => by rw [← hE3e]; ring
  -- fourth stage
  set R4 : ℝ → ℝ → ℝ := fun t s => s * B t s + s * (j (t + 1 / 2 * s) * (s ^ 3 / 24 * G 3 t - s ^ 3 / 16 * (j (t + 1 / 2 * s) * G 2 t) + R3 t s)) + s * E3 t s - C t s with hR4e
  have hR4 : Big t0 tf 4 R4 := by
    have u1 : Big t0 tf 3 fun t s => s ^ 3 / 24 * G 3 t - s ^ 3 / 16 * (j (t + 1 / 2 * s) * G 2 t) + R3 t s :=
      (((s3g3.cmul (1 / 24)).sub (((hJ.mul s3g2)).cmul (1 / 16))).add (hR3.mono (by norm_num : 3 ≤ 4))).congr fun t s _ _ _ => by ring
    refine ((((Big.step.mul hB)).add (Big.step.mul (hJ.mul u1))).add ((Big.step.mul hE3).mono (by norm_num : 4 ≤ 5)) |>.sub hC).congr fun t s _ _ _ => ?_
    rw [hR4e]
  set D4 : ℝ → ℝ → ℝ := fun t s => -(s ^ 3 / 24 * G 3 t) + s ^ 3 / 8 * (j (t + 1 / 2 * s) * G 2 t) + R4 t s with hD4e
  have hD4 : Big t0 tf 3 D4 := by
    refine ((s3g3.cmul (-1 / 24)).add ((hJ.mul s3g2).cmul (1 / 8)) |>.add (hR4.mono (by norm_num))).congr fun t s _ _ _ => ?_
    rw [hD4e]; ring
  have hE4 := (feval 3 1 (by norm_num) (by norm_num) D4 hD4).mono (by norm_num : 4 ≤ 6)
  set k4 : ℝ → ℝ → ℝ := fun t s => f (t + 1 * s) (G 0 (t + 1 * s) + D4 t s) with hk4
  generalize hE4e : (fun t s : ℝ => k4 t s - (G 1 (t + 1 * s) + j (t + 1 * s) * D4 t s)) = E4 at hE4
  have ek4 : ∀ t s, k4 t s = G 1 (t + 1 * s) + j (t + 1 * s) * D4 t s + E4 t s := fun t s => by rw [← hE4e]; ring
  -- the stages of the code are these
  have c2 : ∀ t s, f (t + s / 2) (G 0 t + f t (G 0 t) * s / 2) = k2 t s := by
    intro t s
    rw [hk2]; dsimp only
    rw [show t + s / 2 = t + 1 / 2 * s by ring]
    congr 1
    rw [← hy, eA, hD2e]; ring
  have c3 : ∀ t s, f (t + s / 2) (G 0 t + k2 t s * s / 2) = k3 t s := by
    intro t s
    rw [hk3]; dsimp only
    rw [show t + s / 2 = t + 1 / 2 * s by ring]
    congr 1
    rw [ek2, eA, eB, hD3e, hR3e, hD2e]; ring
  have c4 : ∀ t s, f (t + s) (G 0 t + k3 t s * s) = k4 t s := by
    intro t s
    rw [hk4]; dsimp only
    rw [show t + s = t + 1 * s by ring]
    congr 1
    rw [ek3, eC, eB, hD4e, hR4e, hD3e]; ring
  -- total
  have hT : Big t0 tf 4 fun t s => 2 * (j (t + 1 / 2 * s) * (R3 t s - A t s)) + j (t + 1 / 2 * s) * R4 t s + (j (t + 1 * s) - j (t + 1 / 2 * s)) * D4 t s +
      2 * E2 t s + 2 * E3 t s + E4 t s := by
    have a1 := (hJ.mul (hR3.sub hA)).cmul 2
    have a2 := hJ.mul hR4
    have a3 := hdJ.mul hD4
    rw [Nat.zero_add] at a1 a2
    exact ((((a1.add a2).add a3).add (hE2.cmul 2)).add (hE3.cmul 2)).add hE4
  refine (hS.sub ((Big.step.mul hT).cmul (1 / 6))).congr fun t s _ _ _ => ?_
  unfold stepRk4
  dsimp only
  rw [c2, c3, c4, ← hy, ek2, ek3, ek4]
  rw [show t + s = t + 1 * s by ring]
  rw [hD2e, hD3e, hD4e]
  ring

/-- The solution of an equation with a four times differentiable right-hand side is five times differentiable. -/
theorem solution_smooth (f : ℝ → ℝ → ℝ) (y : ℝ → ℝ) (hf : ContDiff ℝ 4 fun p : ℝ × ℝ => f p.1 p.2) (hy : ∀ t, HasDerivAt y (f t (y t)) t) : ContDiff ℝ 5 y := by
  have hd : deriv y = fun t => (fun p : ℝ × ℝ => f p.1 p.2) (t, y t) := funext fun t => (hy t).deriv
  have hdiff : Differentiable ℝ y := fun t => (hy t).differentiableAt
  have key : ∀ n : ℕ, n ≤ 4 → ContDiff ℝ n y → ContDiff ℝ ((n + 1 : ℕ) : WithTop ℕ∞) y := by
    intro n hn h
    rw [Nat.cast_add, Nat.cast_one, contDiff_succ_iff_deriv]
    refine ⟨hdiff, by simp, ?_⟩
    rw [hd]
    exact (hf.of_le (by exact_mod_cast hn)).comp (contDiff_id.prodMk h)
  have h0 : ContDiff ℝ ((0 : ℕ) : WithTop ℕ∞) y := by
    rw [Nat.cast_zero]; exact contDiff_zero.2 hdiff.continuous
  have := key 4 le_rfl (key 3 (by norm_num) (key 2 (by norm_num) (key 1 (by norm_num) (key 0 (by norm_num) h0))))
  exact_mod_cast this

/-- Local error of the Runge-Kutta step for a four times continuously differentiable right-hand side. -/
theorem rk4_smooth (f : ℝ → ℝ → ℝ) (y : ℝ → ℝ) (t0 tf : ℝ) (hf : ContDiff ℝ 4 fun p : ℝ × ℝ => f p.1 p.2) (hy : ∀ t, HasDerivAt y (f t (y t)) t) :
    Big t0 tf 5 fun t s => y (t + s) - stepRk4 f t (y t) s := by
  have hy5 := solution_smooth f y hf hy
  set F : ℝ × ℝ → ℝ := fun p => f p.1 p.2 with hF
  -- derivative in the second argument
  set jj : ℝ × ℝ → ℝ := fun p => fderiv ℝ F p (0, 1) with hjj
  have hjc : ContDiff ℝ 3 jj := (hf.fderiv_right (m := 3) (by norm_num)).clm_apply contDiff_const
  have hpart : ∀ t u, HasDerivAt (fun u => f t u) (jj (t, u)) u := by
    intro t u
    have h1 : HasFDerivAt F (fderiv ℝ F (t, u)) (t, u) := ((hf.differentiable (by norm_num)) (t, u)).hasFDerivAt
    have h2 : HasDerivAt (fun u : ℝ => (t, u)) ((0 : ℝ), (1 : ℝ)) u := (hasDerivAt_const u t).prodMk (hasDerivAt_id u)
    exact h1.comp_hasDerivAt u h2
  have hycont : Continuous y := hy5.continuous
  have hjy : ContDiff ℝ 3 fun t => jj (t, y t) := hjc.comp (contDiff_id.prodMk (hy5.of_le (by norm_num)))
  have h0 : ∀ t, iteratedDeriv 0 y t = y t := fun t => by rw [iteratedDeriv_zero]
  have := rk4_local (t0 := t0) (tf := tf) f (fun k => iteratedDeriv k y) (fun k hk t => ?_) (hy5.continuous_iteratedDeriv 5 le_rfl) (fun t => ?_)
    (fun t => jj (t, y t)) hjy.continuous.continuousOn ?_ ?_
  · simpa only [h0] using this
  · have hd : DifferentiableAt ℝ (iteratedDeriv k y) t := hy5.differentiable_iteratedDeriv k (by exact_mod_cast hk) t
    rw [iteratedDeriv_succ]
    exact hd.hasDerivAt
  · rw [iteratedDeriv_one, h0]; exact (hy t).deriv
  · obtain ⟨C, hC⟩ := isCompact_Icc.exists_bound_of_continuousOn (s := Icc t0 tf) (hjy.continuous_deriv (by norm_num)).continuousOn
    refine ⟨C, fun a ha b hb => ?_⟩
    have := (convex_Icc t0 tf).norm_image_sub_le_of_norm_deriv_le (𝕜 := ℝ) (f := fun t => jj (t, y t)) (C := C)
      (fun x _ => (hjy.differentiable (by norm_num)) x) hC hb ha
    simpa only [Real.norm_eq_abs] using this
  · intro R
    obtain ⟨Y, hY⟩ := isCompact_Icc.exists_bound_of_continuousOn (s := Icc t0 tf) hycont.continuousOn
    set S : Set (ℝ × ℝ) := Icc t0 tf ×ˢ Icc (-(Y + |R|)) (Y + |R|) with hS
    have hSc : IsCompact S := isCompact_Icc.prod isCompact_Icc
    obtain ⟨K, hK⟩ := hSc.exists_bound_of_continuousOn (hjc.continuous_fderiv (by norm_num)).continuousOn
    refine ⟨|K|, abs_nonneg _, fun t ht d hd => ?_⟩
    have hyt : |y t| ≤ Y := hY t ht
    rw [h0, iteratedDeriv_one, (hy t).deriv]
    have hR : |d| ≤ |R| := hd.trans (le_abs_self R)
    have hmem : ∀ v ∈ segment ℝ (y t) (y t + d), (t, v) ∈ S := by
      intro v hv
      obtain ⟨θ, h1, h2⟩ : ∃ θ : ℝ, θ ∈ Icc (0 : ℝ) 1 ∧ y t + θ * d = v := by
        rw [segment_eq_image'] at hv
        obtain ⟨θ, hθ, he⟩ := hv
        exact ⟨θ, hθ, by rw [← he]; simp⟩
      refine ⟨ht, ?_⟩
      have h3 : |θ * d| ≤ |R| := by
        rw [abs_mul, abs_of_nonneg h1.1]
        exact (mul_le_of_le_one_left (abs_nonneg d) h1.2).trans hR
      have := (abs_add_le (y t) (θ * d)).trans (add_le_add hyt h3)
      rw [h2] at this
      exact abs_le.1 this
    have hbound : ∀ v ∈ segment ℝ (y t) (y t + d), ‖jj (t, v) - jj (t, y t)‖ ≤ |K| * |d| := by
      intro v hv
      have h1 := ((convex_Icc t0 tf).prod (convex_Icc (-(Y + |R|)) (Y + |R|))).norm_image_sub_le_of_norm_fderiv_le (𝕜 := ℝ) (f := jj) (C := K)
        (fun x _ => (hjc.differentiable (by norm_num)) x) hK (hmem (y t) (left_mem_segment ℝ _ _)) (hmem v hv)
      refine h1.trans ?_
      have h2 : ‖((t, v) : ℝ × ℝ) - (t, y t)‖ ≤ |d| := by
        rw [Prod.mk_sub_mk, sub_self, Prod.norm_mk]
        have h3 : |v - y t| ≤ |d| := by
          rw [segment_eq_image'] at hv
          obtain ⟨θ, hθ, he⟩ := hv
          rw [← he]
          simp only [add_sub_cancel_left, smul_eq_mul, abs_mul, abs_of_nonneg hθ.1]
          exact mul_le_of_le_one_left (abs_nonneg d) hθ.2
        simpa using h3
      exact mul_le_mul (le_abs_self K) h2 (norm_nonneg _) (abs_nonneg _)
    have hφ := (convex_segment (𝕜 := ℝ) (y t) (y t + d)).norm_image_sub_le_of_norm_hasDerivWithin_le (f := fun v => f t v - jj (t, y t) * v)
      (f' := fun v => jj (t, v) - jj (t, y t)) (C := |K| * |d|)
      (fun v _ => (((hpart t v).sub ((hasDerivAt_id v).const_mul (jj (t, y t)))).congr_deriv (by simp)).hasDerivWithinAt)
      hbound (left_mem_segment ℝ _ _) (right_mem_segment ℝ _ _)
    rw [add_sub_cancel_left, Real.norm_eq_abs, Real.norm_eq_abs] at hφ
    rw [show f t (y t + d) - f t (y t) - jj (t, y t) * d = f t (y t + d) - jj (t, y t) * (y t + d) - (f t (y t) - jj (t, y t) * y t) by ring]
    refine hφ.trans (le_of_eq ?_)
    rw [mul_assoc, ← pow_two, sq_abs]

end Verif.Ode
