import Verif.Lemmas.NDiffAcc
import Verif.Lemmas.NDiffComplex
import Mathlib.Analysis.SpecialFunctions.ExpDeriv

/-!
# C131: accuracy of the numerical derivatives
-/

namespace Verif.NDiff

open Function

/-- Relative size of the unreliable part of a number with `ndigit` reliable decimal digits; a double if not given. -/
noncomputable def unreliable : Option ℕ → ℝ
  | none => 2⁻¹ ^ 52
  | some d => 10⁻¹ ^ d

theorem unreliable_eq (d : Option ℕ) : unreliable d = noise d := by
  cases d with
  | none => simp only [unreliable, noise, eps]; norm_num
  | some d => simp only [unreliable, noise]; norm_num

/-- **C131.** Half of the digits of the Jacobian are right. Let `s = max |x_c| |1/sclx_c|` be the magnitude of the variable, `F` that of the
function (`f` is `g` up to the unreliable digits of numbers of size `F`), and let the partial derivative `D` change by at most `M` per unit.
Then the error of the entry is at most `√η (M s/2 + 2 F/s)`, where `η = 10^(-ndigit)`. -/
theorem C131_jacobian {n m : ℕ} (f g : (Fin n → ℝ) → (Fin m → ℝ)) (x : Fin n → ℝ) (fx : Fin m → ℝ) (sclx : Fin n → ℝ) (ndigit : Option ℕ)
    (J0 : Fin m → Fin n → ℝ) (r : Fin m) (c : Fin n) (D : ℝ → ℝ) (F M s : ℝ) (hscl : sclx c ≠ 0) (hs : s = max |x c| |1 / sclx c|)
    (hf : ∀ z, |f z r - g z r| ≤ unreliable ndigit * F) (hfx : |fx r - g x r| ≤ unreliable ndigit * F)
    (hD : ∀ u, x c ≤ u → u ≤ x c + s → HasDerivAt (fun u => g (update x c u) r) (D u) u)
    (hM : ∀ u, x c ≤ u → u ≤ x c + s → |D u - D (x c)| ≤ M * (u - x c)) :
    |jacobianForward f x fx sclx ndigit J0 r c - D (x c)| ≤ √(unreliable ndigit) * (M * s / 2 + 2 * F / s) := by
  rw [unreliable_eq] at *
  have hη := noise_pos ndigit
  have hq : 0 < √(noise ndigit) := Real.sqrt_pos.2 hη
  have hq1 : √(noise ndigit) ≤ 1 := Real.sqrt_le_one.2 (noise_le_one _)
  have hs0 : 0 < s := by rw [hs]; exact lt_max_of_lt_right (abs_pos.2 (one_div_ne_zero hscl))
  have hsq : √(noise ndigit) ^ 2 = noise ndigit := Real.sq_sqrt hη.le
  rw [jacobianForward_eq, show stepSize (√(noise ndigit)) x sclx c = √(noise ndigit) * s by rw [hs]; rfl, bump]
  generalize √(noise ndigit) = q at *
  have hh : q * s ≤ s := mul_le_of_le_one_left hs0.le hq1
  have hh0 : 0 < q * s := by positivity
  have key := pow_bound (k := fun t => g (update x c (x c + t)) r - g x r - t * D (x c)) (k' := fun t => D (x c + t) - D (x c)) (C := M) 1 hh0.le
    (by simp) (fun t h0 h1 => ?_) (fun t h0 h1 => by
      have := hM (x c + t) (by linarith) (by linarith)
      rw [pow_one]
      linarith)
  · have e : (f (update x c (x c + q * s)) r - fx r) / (q * s) - D (x c) =
        ((f (update x c (x c + q * s)) r - g (update x c (x c + q * s)) r) - (fx r - g x r) +
          (g (update x c (x c + q * s)) r - g x r - q * s * D (x c))) / (q * s) := by
      field_simp
      ring
    rw [e, abs_div, abs_of_pos hh0, div_le_iff₀ hh0]
    have h1 := hf (update x c (x c + q * s))
    refine ((abs_add_le _ _).trans (add_le_add (abs_sub _ _) le_rfl)).trans ?_
    have e2 : q * (M * s / 2 + 2 * F / s) * (q * s) = M * (q * s) ^ 2 / 2 + 2 * (q ^ 2 * F) := by
      field_simp
    rw [e2, hsq]
    norm_num at key
    linarith
  · have h2 := ((HasDerivAt.comp_const_add (x c) t (hD (x c + t) (by linarith) (by linarith))).sub_const (g x r)).sub
      ((hasDerivAt_id t).mul_const (D (x c)))
    refine h2.congr_deriv ?_
    simp

/-- **C131.** A third of the digits of the Hessian are right. With `s k = max |x_k| |1/sclx_k|`, values of size `F` with `ndigit` reliable
digits, and second derivatives `DD` that change by at most `M` per unit, the error of every entry is at most
`η^(1/3) (M (s_i + s_j) + 4 F/(s_i s_j))`. -/
theorem C131_hessian {n : ℕ} (f g : (Fin n → ℝ) → ℝ) (x : Fin n → ℝ) (fx : ℝ) (sclx : Fin n → ℝ) (ndigit : Option ℕ)
    (H0 : Fin n → Fin n → ℝ) (h00 fh0 : Fin n → ℝ) (D : Fin n → (Fin n → ℝ) → ℝ) (DD : Fin n → Fin n → (Fin n → ℝ) → ℝ) (F M : ℝ)
    (s : Fin n → ℝ) (hscl : ∀ k, sclx k ≠ 0) (hs : ∀ k, s k = max |x k| |1 / sclx k|)
    (hf : ∀ z, |f z - g z| ≤ unreliable ndigit * F) (hfx : |fx - g x| ≤ unreliable ndigit * F)
    (hD : ∀ z i, (∀ k, |z k - x k| ≤ 2 * s k) → HasDerivAt (fun u => g (z + Pi.single i u)) (D i z) 0)
    (hDD : ∀ z i j, (∀ k, |z k - x k| ≤ 2 * s k) → HasDerivAt (fun u => D i (z + Pi.single j u)) (DD i j z) 0)
    (hsym : ∀ i j, DD i j x = DD j i x)
    (hM : ∀ z i j, (∀ k, |z k - x k| ≤ 2 * s k) → |DD i j z - DD i j x| ≤ M * ∑ k, |z k - x k|) (hM0 : 0 ≤ M) (i j : Fin n) :
    |hessianForward f x fx sclx ndigit H0 h00 fh0 i j - DD i j x| ≤
      unreliable ndigit ^ ((1 : ℝ) / 3) * (M * (s i + s j) + 4 * F / (s i * s j)) := by
  rw [unreliable_eq] at *
  have hη := noise_pos ndigit
  have hq : 0 < noise ndigit ^ ((1 : ℝ) / 3) := Real.rpow_pos_of_pos hη _
  have hq1 : noise ndigit ^ ((1 : ℝ) / 3) ≤ 1 := Real.rpow_le_one hη.le (noise_le_one _) (by norm_num)
  have hs0 : ∀ k, 0 < s k := fun k => by rw [hs]; exact lt_max_of_lt_right (abs_pos.2 (one_div_ne_zero (hscl k)))
  have hq3 : (noise ndigit ^ ((1 : ℝ) / 3)) ^ 3 = noise ndigit := by
    rw [← Real.rpow_natCast, ← Real.rpow_mul hη.le]; norm_num
  have hst : ∀ k, stepSize (noise ndigit ^ ((1 : ℝ) / 3)) x sclx k = noise ndigit ^ ((1 : ℝ) / 3) * s k := fun k => by rw [hs]; rfl
  have hF : 0 ≤ noise ndigit * F := (abs_nonneg _).trans hfx
  unfold hessianForward
  simp only [hessianLoop1_eq, hessianLoop2_eq, diag, offDiag, hst]
  generalize noise ndigit ^ ((1 : ℝ) / 3) = q at *
  have hh : ∀ k, q * s k ≤ s k := fun k => mul_le_of_le_one_left (hs0 k).le hq1
  have hh0 : ∀ k, 0 < q * s k := fun k => mul_pos hq (hs0 k)
  have box : ∀ i j a b, 0 ≤ a → a ≤ q * s i → 0 ≤ b → b ≤ q * s j → ∀ k, |(x + Pi.single i a + Pi.single j b : Fin n → ℝ) k - x k| ≤ 2 * s k := by
    intro i j a b ha ha' hb hb' k
    have e : (x + Pi.single i a + Pi.single j b : Fin n → ℝ) k - x k = (Pi.single i a : Fin n → ℝ) k + (Pi.single j b : Fin n → ℝ) k := by
      simp only [Pi.add_apply]; ring
    have one : ∀ (i : Fin n) (a : ℝ), 0 ≤ a → a ≤ q * s i → |(Pi.single i a : Fin n → ℝ) k| ≤ s k := by
      intro i a ha ha'
      rw [Pi.single_apply]
      split_ifs with h
      · rw [abs_of_nonneg ha, h]; exact ha'.trans (hh i)
      · simpa using (hs0 k).le
    rw [e]
    refine (abs_add_le _ _).trans ?_
    linarith [one i a ha ha', one j b hb hb']
  have second : ∀ i j, |g (x + Pi.single i (q * s i) + Pi.single j (q * s j)) - g (x + Pi.single i (q * s i)) - g (x + Pi.single j (q * s j)) +
      g x - q * s i * (q * s j) * DD i j x| ≤ M * (q * s i + q * s j) * (q * s i * (q * s j)) := by
    intro i j
    refine second_acc (D := D i) (hh0 i).le (hh0 j).le (fun a b ha ha' hb hb' => hD _ i (box i j a b ha ha' hb hb'))
      (fun a b ha ha' hb hb' => hDD _ i j (box i j a b ha ha' hb hb')) (fun a b ha ha' hb hb' => ?_) hM0
    refine (hM _ i j (box i j a b ha ha' hb hb')).trans (mul_le_mul_of_nonneg_left ?_ hM0)
    refine (dist_single_le x i j a b).trans (le_of_eq ?_)
    rw [abs_of_nonneg ha, abs_of_nonneg hb]
  have quot : ∀ i j (v0 v1 v2 v3 : ℝ), |v0 - g x| ≤ noise ndigit * F → |v1 - g (x + Pi.single i (q * s i))| ≤ noise ndigit * F →
      |v2 - g (x + Pi.single j (q * s j))| ≤ noise ndigit * F →
      |v3 - g (x + Pi.single i (q * s i) + Pi.single j (q * s j))| ≤ noise ndigit * F →
      |((v0 - v1) + (v3 - v2)) / (q * s i * (q * s j)) - DD i j x| ≤ q * (M * (s i + s j) + 4 * F / (s i * s j)) := by
    intro i j v0 v1 v2 v3 e0 e1 e2 e3
    have hp : 0 < q * s i * (q * s j) := mul_pos (hh0 i) (hh0 j)
    have e : ((v0 - v1) + (v3 - v2)) / (q * s i * (q * s j)) - DD i j x =
        ((v0 - v1) + (v3 - v2) - q * s i * (q * s j) * DD i j x) / (q * s i * (q * s j)) := by
      rw [sub_div _ (q * s i * (q * s j) * DD i j x), mul_div_cancel_left₀ _ hp.ne']
    rw [e, abs_div, abs_of_pos hp, div_le_iff₀ hp]
    have hi := hs0 i
    have hj := hs0 j
    have e4 : q * (M * (s i + s j) + 4 * F / (s i * s j)) * (q * s i * (q * s j)) =
        M * (q * s i + q * s j) * (q * s i * (q * s j)) + 4 * (q ^ 3 * F) := by
      field_simp
    rw [e4, hq3]
    have h := second i j
    rw [abs_le] at *
    constructor <;> linarith [h.1, h.2, e0.1, e0.2, e1.1, e1.2, e2.1, e2.2, e3.1, e3.2]
  split_ifs with h1 h2
  · subst h1
    have := quot i i fx (f (bump x i (q * s i))) (f (bump x i (q * s i))) (f (bump x i (2 * (q * s i)))) hfx
      (by rw [bump_eq]; exact hf _) (by rw [bump_eq]; exact hf _)
      (by rw [bump_eq, two_mul, Pi.single_add, ← add_assoc]; exact hf _)
    rw [← pow_two] at this
    exact this
  · refine quot i j _ _ _ _ hfx (by rw [bump_eq]; exact hf _) (by rw [bump_eq]; exact hf _)
      (by rw [bump_eq, bump_eq]; exact hf _)
  · have := quot j i fx (f (bump x j (q * s j))) (f (bump x i (q * s i))) (f (bump (bump x j (q * s j)) i (q * s i))) hfx
      (by rw [bump_eq]; exact hf _) (by rw [bump_eq]; exact hf _) (by rw [bump_eq, bump_eq]; exact hf _)
    rw [hsym i j, add_comm (s i), mul_comm (s i)]
    exact this

/-- **C131.** The centred quotient is of second order: with values of size `F` and the third derivative bounded by `M`, the error is at most
`M s²/6 + eps F/s`, where `s` is the step. -/
theorem C131_centered (f g g1 g2 g3 : ℝ → ℝ) (x h F M s : ℝ) (hh : 0 ≤ h) (hs : s = (if h = 0 then (3 * 2⁻¹ ^ 52) ^ ((1 : ℝ) / 3) else h) * (1 + |x|))
    (hf : ∀ t, |f t - g t| ≤ 2⁻¹ ^ 52 * F) (h1 : ∀ t, |t - x| ≤ s → HasDerivAt g (g1 t) t) (h2 : ∀ t, |t - x| ≤ s → HasDerivAt g1 (g2 t) t)
    (h3 : ∀ t, |t - x| ≤ s → HasDerivAt g2 (g3 t) t) (hM : ∀ t, |t - x| ≤ s → |g3 t| ≤ M) :
    |(derivativeCentered f x h).1 - g1 x| ≤ M * s ^ 2 / 6 + 2⁻¹ ^ 52 * F / s := by
  have e0 : (if h = 0 then hDefault else h) * (1 + |x|) = s := by
    rw [hs, hDefault, eps]; norm_num
  have hpos : 0 < s := by
    rw [← e0]
    refine mul_pos ?_ (by positivity)
    split_ifs with h0
    · exact hDefault_pos
    · exact lt_of_le_of_ne hh (Ne.symm h0)
  have key := centered_acc hpos.le h1 h2 h3 hM
  simp only [derivativeCentered, e0]
  have e : (f (x + s) - f (x - s)) / (2 * s) - g1 x = (f (x + s) - f (x - s) - 2 * s * g1 x) / (2 * s) := by field_simp
  rw [e, abs_div, abs_of_pos (show 0 < 2 * s by positivity), div_le_iff₀ (by positivity)]
  have e2 : (M * s ^ 2 / 6 + 2⁻¹ ^ 52 * F / s) * (2 * s) = M * s ^ 3 / 3 + 2 * (2⁻¹ ^ 52 * F) := by field_simp; ring
  rw [e2]
  have a := hf (x + s)
  have b := hf (x - s)
  generalize (2⁻¹ ^ 52 * F : ℝ) = N at *
  rw [abs_le] at *
  constructor <;> linarith [a.1, a.2, b.1, b.2, key.1, key.2]

/-- **C131.** The default step is the documented optimum: it minimises that error bound when the third derivative is as large as the function. -/
theorem C131_optimal_step (h : ℝ) (hh : 0 < h) :
    hDefault ^ 2 / 6 + 2⁻¹ ^ 52 / hDefault ≤ h ^ 2 / 6 + 2⁻¹ ^ 52 / h := by
  have h0 := hDefault_pos
  have e : hDefault ^ 3 = 3 * 2⁻¹ ^ 52 := by
    rw [hDefault, ← Real.rpow_natCast, ← Real.rpow_mul (by have := eps_pos; positivity)]
    norm_num [eps]
  rw [show (2⁻¹ ^ 52 : ℝ) = hDefault ^ 3 / 3 by linarith]
  generalize hDefault = d at *
  have e2 : d ^ 2 / 6 + d ^ 3 / 3 / d = d ^ 2 / 2 := by field_simp; ring
  have e3 : h ^ 2 / 6 + d ^ 3 / 3 / h - d ^ 2 / 2 = (h - d) ^ 2 * (h + 2 * d) / (6 * h) := by field_simp; ring
  rw [e2]
  have : 0 ≤ (h - d) ^ 2 * (h + 2 * d) / (6 * h) := by positivity
  linarith

/-- **C131.** The diagonal of `hessian2_centered` is of second order: with values of size `F` and the fourth derivative along an axis bounded by
`M`, the error is at most `M s²/3 + eps F/s²`, where `s` is the step along the axis. -/
theorem C131_hessian2_diagonal (f g : ℝ × ℝ → ℝ) (x : ℝ × ℝ) (h F : ℝ) (hh : 0 ≤ h) (s : ℝ × ℝ)
    (hs : s = ((if h = 0 then (3 * 2⁻¹ ^ 52) ^ ((1 : ℝ) / 3) else h) * (1 + |x.1|), (if h = 0 then (3 * 2⁻¹ ^ 52) ^ ((1 : ℝ) / 3) else h) * (1 + |x.2|)))
    (hf : ∀ z, |f z - g z| ≤ 2⁻¹ ^ 52 * F) :
    (∀ (g1 g2 g3 g4 : ℝ → ℝ) (M : ℝ), (∀ t, |t - x.1| ≤ 2 * s.1 → HasDerivAt (fun t => g (t, x.2)) (g1 t) t ∧ HasDerivAt g1 (g2 t) t ∧
      HasDerivAt g2 (g3 t) t ∧ HasDerivAt g3 (g4 t) t ∧ |g4 t| ≤ M) →
      |(hessian2Centered f x h).1 - g2 x.1| ≤ M * s.1 ^ 2 / 3 + 2⁻¹ ^ 52 * F / s.1 ^ 2) ∧
    (∀ (g1 g2 g3 g4 : ℝ → ℝ) (M : ℝ), (∀ t, |t - x.2| ≤ 2 * s.2 → HasDerivAt (fun t => g (x.1, t)) (g1 t) t ∧ HasDerivAt g1 (g2 t) t ∧
      HasDerivAt g2 (g3 t) t ∧ HasDerivAt g3 (g4 t) t ∧ |g4 t| ≤ M) →
      |(hessian2Centered f x h).2.1 - g2 x.2| ≤ M * s.2 ^ 2 / 3 + 2⁻¹ ^ 52 * F / s.2 ^ 2) := by
  have e0 : ((if h = 0 then hDefault else h) * (1 + |x.1|), (if h = 0 then hDefault else h) * (1 + |x.2|)) = s := by
    rw [hs, hDefault, eps]; norm_num
  have hpos : 0 < (if h = 0 then hDefault else h) := by
    split_ifs with h0
    · exact hDefault_pos
    · exact lt_of_le_of_ne hh (Ne.symm h0)
  have p1 : 0 < s.1 := by rw [← e0]; positivity
  have p2 : 0 < s.2 := by rw [← e0]; positivity
  have i1 : (if h = 0 then hDefault else h) * (1 + |x.1|) = s.1 := by rw [← e0]
  have i2 : (if h = 0 then hDefault else h) * (1 + |x.2|) = s.2 := by rw [← e0]
  have main : ∀ (φ g g1 g2 g3 g4 : ℝ → ℝ) (x s M N : ℝ), 0 < s → (∀ t, |φ t - g t| ≤ N) →
      (∀ t, |t - x| ≤ 2 * s → HasDerivAt g (g1 t) t ∧ HasDerivAt g1 (g2 t) t ∧ HasDerivAt g2 (g3 t) t ∧ HasDerivAt g3 (g4 t) t ∧ |g4 t| ≤ M) →
      |(φ (x + 2 * s) - 2 * φ x + φ (x - 2 * s)) / (4 * s ^ 2) - g2 x| ≤ M * s ^ 2 / 3 + N / s ^ 2 := by
    intro φ g g1 g2 g3 g4 x s M N p hφ H
    have key := second_sym (x := x) (s := 2 * s) (by linarith) (fun t ht => (H t ht).1) (fun t ht => (H t ht).2.1) (fun t ht => (H t ht).2.2.1)
      (fun t ht => (H t ht).2.2.2.1) (fun t ht => (H t ht).2.2.2.2)
    have e : (φ (x + 2 * s) - 2 * φ x + φ (x - 2 * s)) / (4 * s ^ 2) - g2 x =
        (φ (x + 2 * s) - 2 * φ x + φ (x - 2 * s) - (2 * s) ^ 2 * g2 x) / (4 * s ^ 2) := by field_simp; ring
    rw [e, abs_div, abs_of_pos (show 0 < 4 * s ^ 2 by positivity), div_le_iff₀ (by positivity)]
    have e2 : (M * s ^ 2 / 3 + N / s ^ 2) * (4 * s ^ 2) = M * (2 * s) ^ 4 / 12 + 4 * N := by field_simp; ring
    rw [e2]
    have a := hφ (x + 2 * s)
    have b := hφ x
    have c := hφ (x - 2 * s)
    rw [abs_le] at *
    constructor <;> linarith [a.1, a.2, b.1, b.2, c.1, c.2, key.1, key.2]
  refine ⟨fun g1 g2 g3 g4 M H => ?_, fun g1 g2 g3 g4 M H => ?_⟩
  · simp only [hessian2Centered, i1]
    exact main (fun t => f (t, x.2)) (fun t => g (t, x.2)) g1 g2 g3 g4 x.1 s.1 M _ p1 (fun t => hf _) H
  · simp only [hessian2Centered, i2]
    exact main (fun t => f (x.1, t)) (fun t => g (x.1, t)) g1 g2 g3 g4 x.2 s.2 M _ p2 (fun t => hf _) H

/-- **C131.** So are the other two entries: the error is at most `M (s₁² + s₂²)/2 + eps F/(s₁ s₂)`. -/
theorem C131_hessian2_mixed (f : ℝ × ℝ → ℝ) (g g1 g12 g122 g1222 g121 g1211 : ℝ → ℝ → ℝ) (x : ℝ × ℝ) (h F M : ℝ) (hh : 0 ≤ h) (s : ℝ × ℝ)
    (hs : s = ((if h = 0 then (3 * 2⁻¹ ^ 52) ^ ((1 : ℝ) / 3) else h) * (1 + |x.1|), (if h = 0 then (3 * 2⁻¹ ^ 52) ^ ((1 : ℝ) / 3) else h) * (1 + |x.2|)))
    (hf : ∀ z, |f z - g z.1 z.2| ≤ 2⁻¹ ^ 52 * F)
    (h1 : ∀ u v, |u - x.1| ≤ s.1 → |v - x.2| ≤ s.2 → HasDerivAt (fun u => g u v) (g1 u v) u ∧ HasDerivAt (fun v => g1 u v) (g12 u v) v ∧
      HasDerivAt (fun v => g12 u v) (g122 u v) v ∧ HasDerivAt (fun v => g122 u v) (g1222 u v) v ∧ HasDerivAt (fun u => g12 u v) (g121 u v) u ∧
      HasDerivAt (fun u => g121 u v) (g1211 u v) u)
    (hM : ∀ u v, |u - x.1| ≤ s.1 → |v - x.2| ≤ s.2 → |g1222 u v| ≤ M ∧ |g1211 u v| ≤ M) :
    (hessian2Centered f x h).2.2.1 = (hessian2Centered f x h).2.2.2 ∧
    |(hessian2Centered f x h).2.2.1 - g12 x.1 x.2| ≤ M * (s.1 ^ 2 + s.2 ^ 2) / 2 + 2⁻¹ ^ 52 * F / (s.1 * s.2) := by
  have e0 : ((if h = 0 then hDefault else h) * (1 + |x.1|), (if h = 0 then hDefault else h) * (1 + |x.2|)) = s := by
    rw [hs, hDefault, eps]; norm_num
  have hpos : 0 < (if h = 0 then hDefault else h) := by
    split_ifs with h0
    · exact hDefault_pos
    · exact lt_of_le_of_ne hh (Ne.symm h0)
  have p1 : 0 < s.1 := by rw [← e0]; positivity
  have p2 : 0 < s.2 := by rw [← e0]; positivity
  have i1 : (if h = 0 then hDefault else h) * (1 + |x.1|) = s.1 := by rw [← e0]
  have i2 : (if h = 0 then hDefault else h) * (1 + |x.2|) = s.2 := by rw [← e0]
  refine ⟨rfl, ?_⟩
  have key := mixed_acc p1.le p2.le (fun u v hu hv => (h1 u v hu hv).1) (fun u v hu hv => (h1 u v hu hv).2.1) (fun u v hu hv => (h1 u v hu hv).2.2.1)
    (fun u v hu hv => (h1 u v hu hv).2.2.2.1) (fun u v hu hv => (h1 u v hu hv).2.2.2.2.1) (fun u v hu hv => (h1 u v hu hv).2.2.2.2.2) hM
  simp only [hessian2Centered, i1, i2]
  obtain ⟨x, y⟩ := x
  obtain ⟨a, b⟩ := s
  simp only at *
  have d1 := hf (x + a, y + b)
  have d2 := hf (x + a, y - b)
  have d3 := hf (x - a, y + b)
  have d4 := hf (x - a, y - b)
  generalize (2⁻¹ ^ 52 * F : ℝ) = N at *
  generalize f (x + a, y + b) = f1 at *
  generalize f (x + a, y - b) = f2 at *
  generalize f (x - a, y + b) = f3 at *
  generalize f (x - a, y - b) = f4 at *
  have hp : 0 < 4 * a * b := by positivity
  have e : (f1 - f2 - f3 + f4) / (4 * a * b) - g12 x y = (f1 - f2 - f3 + f4 - 4 * a * b * g12 x y) / (4 * a * b) := by
    rw [sub_div _ (4 * a * b * g12 x y), mul_div_cancel_left₀ _ hp.ne']
  rw [e, abs_div, abs_of_pos hp, div_le_iff₀ hp]
  have e2 : (M * (a ^ 2 + b ^ 2) / 2 + N / (a * b)) * (4 * a * b) = 2 * M * a * b * (a ^ 2 + b ^ 2) + 4 * N := by field_simp; ring
  rw [e2]
  clear h1 hM hs e0 hf i1 i2 e e2
  rw [abs_le] at *
  constructor <;> linarith [d1.1, d1.2, d2.1, d2.2, d3.1, d3.2, d4.1, d4.2, key.1, key.2]

/-- **C131.** The complex step is very accurate for every analytic function, not only for polynomials: if `f` is analytic in the disc of radius
`R` around `x` (`R ≥ 2 eps`), real on the real axis and bounded by `B` on the circle, the derivative is right to `2 B eps²/R³` and the
value to `2 B (eps/R)²`. -/
theorem C131_complex (f : ℂ → ℂ) (x R B d : ℝ) (hR : 2⁻¹ ^ 51 ≤ R) (hf : DiffContOnCl ℂ f (Metric.ball (x : ℂ) R))
    (hB : ∀ z ∈ Metric.sphere (x : ℂ) R, ‖f z‖ ≤ B) (hr : ∀ t : ℝ, |t - x| < R → (f t).im = 0)
    (hd : HasDerivAt (fun t : ℝ => (f t).re) d x) :
    |(derivativeComplex f x).1 - d| ≤ 2 * B * (2⁻¹ ^ 52) ^ 2 / R ^ 3 ∧
    |(derivativeComplex f x).2 - (f x).re| ≤ 2 * B * (2⁻¹ ^ 52 / R) ^ 2 := by
  have e0 : (eps : ℝ) = 2⁻¹ ^ 52 := by unfold eps; norm_num
  have hR0 : 0 < R := lt_of_lt_of_le (by positivity) hR
  rw [← e0]
  have he := eps_pos
  obtain ⟨h1, h2⟩ := complex_analytic he (by rw [e0]; exact le_trans (by norm_num) hR) hf hB hr
  have hx : (x : ℂ) ∈ Metric.ball (x : ℂ) R := Metric.mem_ball_self hR0
  have hd' := (hf.differentiableAt Metric.isOpen_ball hx).hasDerivAt.real_of_complex
  rw [hd'.unique hd] at h1
  refine ⟨?_, h2⟩
  simp only [derivativeComplex]
  have e1 : (f ⟨x, eps⟩).im / eps - d = ((f ⟨x, eps⟩).im - eps * d) / eps := by field_simp
  rw [e1, abs_div, abs_of_pos he, div_le_iff₀ he]
  refine h1.trans (le_of_eq ?_)
  rw [div_pow]
  ring

-- the hypotheses can be met: `exp t`, `u v`
example : (∀ t : ℝ, HasDerivAt (fun t : ℝ => (fun z : ℝ × ℝ => Real.exp z.1 + z.2) (t, 2)) (Real.exp t) t ∧ HasDerivAt Real.exp (Real.exp t) t) ∧
    ∀ u v : ℝ, HasDerivAt (fun u => u * v) v u ∧ HasDerivAt (fun v : ℝ => v) 1 v ∧ HasDerivAt (fun _ : ℝ => (1 : ℝ)) 0 v := by
  refine ⟨fun t => ⟨?_, Real.hasDerivAt_exp t⟩, fun u v => ⟨?_, hasDerivAt_id v, hasDerivAt_const v 1⟩⟩
  · exact (Real.hasDerivAt_exp t).add_const 2
  · simpa using (hasDerivAt_id u).mul_const v

-- the hypotheses can be met: the exponential in the unit disc; `z²` of one variable for the real quotients
example : DiffContOnCl ℂ Complex.exp (Metric.ball ((0 : ℝ) : ℂ) 1) ∧ (∀ z ∈ Metric.sphere ((0 : ℝ) : ℂ) 1, ‖Complex.exp z‖ ≤ Real.exp 1) ∧
    (∀ t : ℝ, |t - 0| < 1 → (Complex.exp t).im = 0) ∧ HasDerivAt (fun t : ℝ => (Complex.exp t).re) 1 0 := by
  refine ⟨Complex.differentiable_exp.diffContOnCl, fun z hz => ?_, fun t _ => Complex.exp_ofReal_im t, ?_⟩
  · rw [Complex.norm_exp]
    have h1 : ‖z‖ = 1 := by simpa using hz
    exact Real.exp_le_exp.2 ((Complex.re_le_norm z).trans h1.le)
  · simpa [Complex.exp_ofReal_re] using Real.hasDerivAt_exp 0

example : (∀ u : ℝ, HasDerivAt (fun u => (fun z : Fin 1 → ℝ => fun _ : Fin 1 => z 0 ^ 2) (update (fun _ => 3) 0 u) 0) (2 * u) u) ∧
    ∀ u : ℝ, 3 ≤ u → |2 * u - 2 * 3| ≤ 2 * (u - 3) := by
  refine ⟨fun u => ?_, fun u hu => ?_⟩
  · simpa using hasDerivAt_pow 2 u
  · rw [abs_of_nonneg (by linarith)]; linarith

example : (∀ (z : Fin 1 → ℝ) (i : Fin 1), HasDerivAt (fun u => (fun z : Fin 1 → ℝ => z 0 ^ 2) (z + Pi.single i u)) (2 * z i) 0) ∧
    ∀ (z : Fin 1 → ℝ) (i j : Fin 1), HasDerivAt (fun u => 2 * (z + Pi.single j u : Fin 1 → ℝ) i) 2 0 := by
  have e : ∀ (i : Fin 1) (u : ℝ), (Pi.single i u : Fin 1 → ℝ) 0 = u := fun i u => by rw [Subsingleton.elim i 0]; simp
  refine ⟨fun z i => ?_, fun z i j => ?_⟩
  · simp only [Pi.add_apply, e]
    rw [Subsingleton.elim i 0]
    have := ((hasDerivAt_id (0 : ℝ)).const_add (z 0)).fun_pow 2
    simpa using this
  · rw [Subsingleton.elim i 0]
    simp only [Pi.add_apply, e]
    simpa using ((hasDerivAt_id (0 : ℝ)).const_add (z 0)).const_mul 2

example : (∀ t : ℝ, HasDerivAt Real.exp (Real.exp t) t) ∧ ∀ t : ℝ, |t - 0| ≤ 1 → |Real.exp t| ≤ Real.exp 1 := by
  refine ⟨Real.hasDerivAt_exp, fun t ht => ?_⟩
  rw [abs_of_pos (Real.exp_pos t)]
  exact Real.exp_le_exp.2 (by have := (abs_le.1 ht).2; linarith)

end Verif.NDiff
