import Verif.Lemmas.NDiff
import Mathlib.Analysis.Calculus.MeanValue
import Mathlib.Analysis.Calculus.Deriv.Pow
import Mathlib.Analysis.Calculus.Deriv.Shift

/-!
# Truncation and noise of difference quotients
-/

namespace Verif.NDiff

open Function

/-- Integrating a bound on the derivative. -/
theorem pow_bound {k k' : ℝ → ℝ} {T C : ℝ} (n : ℕ) (hT : 0 ≤ T) (h0 : k 0 = 0)
    (hd : ∀ t, 0 ≤ t → t ≤ T → HasDerivAt k (k' t) t) (hb : ∀ t, 0 ≤ t → t ≤ T → |k' t| ≤ C * t ^ n) :
    |k T| ≤ C * T ^ (n + 1) / (n + 1) := by
  have hn : (n : ℝ) + 1 ≠ 0 := by positivity
  refine image_norm_le_of_norm_deriv_right_le_deriv_boundary (a := 0) (b := T) (f := k) (f' := k')
    (B := fun t => C * t ^ (n + 1) / (n + 1)) (B' := fun t => C * t ^ n)
    (fun t ht => (hd t ht.1 ht.2).continuousAt.continuousWithinAt)
    (fun t ht => (hd t ht.1 ht.2.le).hasDerivWithinAt) (by simp [h0]) ?_ (fun t ht => hb t ht.1 ht.2.le)
    (Set.right_mem_Icc.2 hT)
  intro t
  refine (((hasDerivAt_pow (n + 1) t).const_mul C).div_const _).congr_deriv ?_
  push_cast
  field_simp

/-- `x + a e_i`. -/
theorem bump_eq {n : ℕ} (x : Fin n → ℝ) (i : Fin n) (d : ℝ) : bump x i d = x + Pi.single i d := by
  funext k
  rw [bump_apply, Pi.add_apply, Pi.single_apply]

theorem dist_single {n : ℕ} (i : Fin n) (d : ℝ) : ∑ k, |(Pi.single i d : Fin n → ℝ) k| = |d| := by
  simp_rw [Pi.single_apply, apply_ite abs, abs_zero]
  simp

theorem dist_single_le {n : ℕ} (x : Fin n → ℝ) (i j : Fin n) (a b : ℝ) :
    ∑ k, |(x + Pi.single i a + Pi.single j b : Fin n → ℝ) k - x k| ≤ |a| + |b| := by
  rw [← dist_single i a, ← dist_single j b, ← Finset.sum_add_distrib]
  refine Finset.sum_le_sum fun k _ => ?_
  have : (x + Pi.single i a + Pi.single j b : Fin n → ℝ) k - x k = (Pi.single i a : Fin n → ℝ) k + (Pi.single j b : Fin n → ℝ) k := by
    simp only [Pi.add_apply]; ring
  rw [this]
  exact abs_add_le _ _

/-- Moving the base point of a directional derivative. -/
theorem dir_deriv {n : ℕ} {g : (Fin n → ℝ) → ℝ} {z : Fin n → ℝ} {i : Fin n} {a d : ℝ}
    (h : HasDerivAt (fun t => g (z + Pi.single i a + Pi.single i t)) d 0) :
    HasDerivAt (fun t => g (z + Pi.single i t)) d a := by
  have e : (fun t => g (z + Pi.single i t)) = fun t => (fun t => g (z + Pi.single i a + Pi.single i t)) (t - a) := by
    funext t
    simp only
    rw [add_assoc, ← Pi.single_add, add_sub_cancel]
  rw [e]
  have h' : HasDerivAt (fun t => g (z + Pi.single i a + Pi.single i t)) d (a - a) := by rwa [sub_self]
  exact h'.comp_sub_const a a

/-- The forward quotient. -/
theorem forward_acc {n : ℕ} {g : (Fin n → ℝ) → ℝ} {D : (Fin n → ℝ) → ℝ} {x : Fin n → ℝ} {i : Fin n} {h M : ℝ} (hh : 0 ≤ h)
    (hd : ∀ t, 0 ≤ t → t ≤ h → HasDerivAt (fun u => g (x + Pi.single i t + Pi.single i u)) (D (x + Pi.single i t)) 0)
    (hM : ∀ t, 0 ≤ t → t ≤ h → |D (x + Pi.single i t) - D x| ≤ M * t) :
    |g (x + Pi.single i h) - g x - h * D x| ≤ M * h ^ 2 / 2 := by
  have := pow_bound (k := fun t => g (x + Pi.single i t) - g x - t * D x) (k' := fun t => D (x + Pi.single i t) - D x) (C := M) 1 hh
    (by simp) (fun t h0 h1 => ?_) (fun t h0 h1 => by simpa using hM t h0 h1)
  · refine this.trans (le_of_eq ?_)
    norm_num
  · have h2 := ((dir_deriv (hd t h0 h1)).sub_const (g x)).sub ((hasDerivAt_id t).mul_const (D x))
    refine h2.congr_deriv ?_
    simp

/-- The second difference. -/
theorem second_acc {n : ℕ} {g : (Fin n → ℝ) → ℝ} {D DD : (Fin n → ℝ) → ℝ} {x : Fin n → ℝ} {i j : Fin n} {hi hj M : ℝ}
    (h0 : 0 ≤ hi) (h1 : 0 ≤ hj)
    (hd : ∀ a b, 0 ≤ a → a ≤ hi → 0 ≤ b → b ≤ hj →
      HasDerivAt (fun u => g (x + Pi.single i a + Pi.single j b + Pi.single i u)) (D (x + Pi.single i a + Pi.single j b)) 0)
    (hdd : ∀ a b, 0 ≤ a → a ≤ hi → 0 ≤ b → b ≤ hj →
      HasDerivAt (fun u => D (x + Pi.single i a + Pi.single j b + Pi.single j u)) (DD (x + Pi.single i a + Pi.single j b)) 0)
    (hM : ∀ a b, 0 ≤ a → a ≤ hi → 0 ≤ b → b ≤ hj → |DD (x + Pi.single i a + Pi.single j b) - DD x| ≤ M * (a + b)) (hM0 : 0 ≤ M) :
    |g (x + Pi.single i hi + Pi.single j hj) - g (x + Pi.single i hi) - g (x + Pi.single j hj) + g x - hi * hj * DD x| ≤
      M * (hi + hj) * (hi * hj) := by
  have inner : ∀ a, 0 ≤ a → a ≤ hi → |D (x + Pi.single i a + Pi.single j hj) - D (x + Pi.single i a) - hj * DD x| ≤ M * (hi + hj) * hj := by
    intro a ha ha'
    have := pow_bound (k := fun b => D (x + Pi.single i a + Pi.single j b) - D (x + Pi.single i a) - b * DD x)
      (k' := fun b => DD (x + Pi.single i a + Pi.single j b) - DD x) (C := M * (hi + hj)) 0 h1 (by simp) (fun b hb hb' => ?_)
      (fun b hb hb' => ?_)
    · refine this.trans (le_of_eq ?_)
      norm_num
    · have h2 := ((dir_deriv (g := D) (hdd a b ha ha' hb hb')).sub_const (D (x + Pi.single i a))).sub ((hasDerivAt_id b).mul_const (DD x))
      refine h2.congr_deriv ?_
      simp
    · refine (hM a b ha ha' hb hb').trans ?_
      rw [pow_zero, mul_one]
      exact mul_le_mul_of_nonneg_left (by linarith) hM0
  have := pow_bound (k := fun a => g (x + Pi.single i a + Pi.single j hj) - g (x + Pi.single i a) - (g (x + Pi.single j hj) - g x) - a * (hj * DD x))
      (k' := fun a => D (x + Pi.single i a + Pi.single j hj) - D (x + Pi.single i a) - hj * DD x) (C := M * (hi + hj) * hj) 0 h0
      (by simp) (fun a ha ha' => ?_) (fun a ha ha' => by simpa using inner a ha ha')
  · refine le_trans (le_of_eq ?_) (this.trans (le_of_eq ?_))
    · congr 1; ring
    · norm_num; ring
  · have e : ∀ u, x + Pi.single i u + Pi.single j hj = x + Pi.single j hj + Pi.single i u := fun u => add_right_comm _ _ _
    have d1 : HasDerivAt (fun u => g (x + Pi.single i u + Pi.single j hj)) (D (x + Pi.single i a + Pi.single j hj)) a := by
      simp_rw [e]
      refine dir_deriv ?_
      have := hd a hj ha ha' h1 le_rfl
      rw [e] at this
      exact this
    have d2 : HasDerivAt (fun u => g (x + Pi.single i u)) (D (x + Pi.single i a)) a := by
      refine dir_deriv ?_
      have := hd a 0 ha ha' le_rfl h1
      rw [Pi.single_zero, add_zero] at this
      exact this
    have h2 := ((d1.sub d2).sub_const (g (x + Pi.single j hj) - g x)).sub ((hasDerivAt_id a).mul_const (hj * DD x))
    refine h2.congr_deriv ?_
    simp

/-- The centred quotient. -/
theorem centered_acc {g g1 g2 g3 : ℝ → ℝ} {x s M : ℝ} (hs : 0 ≤ s)
    (h1 : ∀ t, |t - x| ≤ s → HasDerivAt g (g1 t) t) (h2 : ∀ t, |t - x| ≤ s → HasDerivAt g1 (g2 t) t)
    (h3 : ∀ t, |t - x| ≤ s → HasDerivAt g2 (g3 t) t) (hM : ∀ t, |t - x| ≤ s → |g3 t| ≤ M) :
    |g (x + s) - g (x - s) - 2 * s * g1 x| ≤ M * s ^ 3 / 3 := by
  have pl : ∀ t, 0 ≤ t → t ≤ s → |x + t - x| ≤ s := fun t h h' => by rw [add_sub_cancel_left, abs_of_nonneg h]; exact h'
  have mi : ∀ t, 0 ≤ t → t ≤ s → |x - t - x| ≤ s := fun t h h' => by
    rw [show x - t - x = -t by ring, abs_neg, abs_of_nonneg h]; exact h'
  have dp : ∀ {f f' : ℝ → ℝ}, (∀ t, |t - x| ≤ s → HasDerivAt f (f' t) t) → ∀ t, 0 ≤ t → t ≤ s → HasDerivAt (fun t => f (x + t)) (f' (x + t)) t :=
    fun H t h h' => HasDerivAt.comp_const_add x t (H _ (pl t h h'))
  have dm : ∀ {f f' : ℝ → ℝ}, (∀ t, |t - x| ≤ s → HasDerivAt f (f' t) t) → ∀ t, 0 ≤ t → t ≤ s → HasDerivAt (fun t => f (x - t)) (-f' (x - t)) t :=
    fun H t h h' => HasDerivAt.comp_const_sub x t (H _ (mi t h h'))
  have b2 : ∀ t, 0 ≤ t → t ≤ s → |g2 (x + t) - g2 (x - t)| ≤ 2 * M * t := by
    intro t ht ht'
    have := pow_bound (k := fun t => g2 (x + t) - g2 (x - t)) (k' := fun t => g3 (x + t) - -g3 (x - t)) (C := 2 * M) 0 ht (by simp)
      (fun u hu hu' => (dp h3 u hu (hu'.trans ht')).sub (dm h3 u hu (hu'.trans ht'))) (fun u hu hu' => by
        rw [pow_zero, mul_one, sub_neg_eq_add]
        refine (abs_add_le _ _).trans ?_
        linarith [hM _ (pl u hu (hu'.trans ht')), hM _ (mi u hu (hu'.trans ht'))])
    refine this.trans (le_of_eq ?_)
    norm_num
  have b1 : ∀ t, 0 ≤ t → t ≤ s → |g1 (x + t) + g1 (x - t) - 2 * g1 x| ≤ M * t ^ 2 := by
    intro t ht ht'
    have := pow_bound (k := fun t => g1 (x + t) + g1 (x - t) - 2 * g1 x) (k' := fun t => g2 (x + t) + -g2 (x - t)) (C := 2 * M) 1 ht
      (by simp; ring)
      (fun u hu hu' => ((dp h2 u hu (hu'.trans ht')).add (dm h2 u hu (hu'.trans ht'))).sub_const _) (fun u hu hu' => by
        rw [pow_one, ← sub_eq_add_neg]
        exact b2 u hu (hu'.trans ht'))
    refine this.trans (le_of_eq ?_)
    norm_num
    ring
  have := pow_bound (k := fun t => g (x + t) - g (x - t) - 2 * t * g1 x) (k' := fun t => g1 (x + t) - -g1 (x - t) - 2 * g1 x) (C := M) 2 hs
    (by simp)
    (fun u hu hu' => ?_) (fun u hu hu' => by
      rw [sub_neg_eq_add]
      exact b1 u hu hu')
  · refine this.trans (le_of_eq ?_)
    norm_num
  · have h4 := ((dp h1 u hu hu').sub (dm h1 u hu hu')).sub (((hasDerivAt_id u).const_mul 2).mul_const (g1 x))
    refine h4.congr_deriv ?_
    simp

/-- The symmetric second difference, crude. -/
theorem sym_acc {q q1 q2 : ℝ → ℝ} {x s M : ℝ} (hs : 0 ≤ s)
    (h1 : ∀ t, |t - x| ≤ s → HasDerivAt q (q1 t) t) (h2 : ∀ t, |t - x| ≤ s → HasDerivAt q1 (q2 t) t) (hM : ∀ t, |t - x| ≤ s → |q2 t| ≤ M) :
    |q (x + s) + q (x - s) - 2 * q x| ≤ M * s ^ 2 := by
  have pl : ∀ t, 0 ≤ t → t ≤ s → |x + t - x| ≤ s := fun t h h' => by rw [add_sub_cancel_left, abs_of_nonneg h]; exact h'
  have mi : ∀ t, 0 ≤ t → t ≤ s → |x - t - x| ≤ s := fun t h h' => by
    rw [show x - t - x = -t by ring, abs_neg, abs_of_nonneg h]; exact h'
  have dp : ∀ {f f' : ℝ → ℝ}, (∀ t, |t - x| ≤ s → HasDerivAt f (f' t) t) → ∀ t, 0 ≤ t → t ≤ s → HasDerivAt (fun t => f (x + t)) (f' (x + t)) t :=
    fun H t h h' => HasDerivAt.comp_const_add x t (H _ (pl t h h'))
  have dm : ∀ {f f' : ℝ → ℝ}, (∀ t, |t - x| ≤ s → HasDerivAt f (f' t) t) → ∀ t, 0 ≤ t → t ≤ s → HasDerivAt (fun t => f (x - t)) (-f' (x - t)) t :=
    fun H t h h' => HasDerivAt.comp_const_sub x t (H _ (mi t h h'))
  have b2 : ∀ t, 0 ≤ t → t ≤ s → |q1 (x + t) - q1 (x - t)| ≤ 2 * M * t := by
    intro t ht ht'
    have := pow_bound (k := fun t => q1 (x + t) - q1 (x - t)) (k' := fun t => q2 (x + t) - -q2 (x - t)) (C := 2 * M) 0 ht (by simp)
      (fun u hu hu' => (dp h2 u hu (hu'.trans ht')).sub (dm h2 u hu (hu'.trans ht'))) (fun u hu hu' => by
        rw [pow_zero, mul_one, sub_neg_eq_add]
        refine (abs_add_le _ _).trans ?_
        linarith [hM _ (pl u hu (hu'.trans ht')), hM _ (mi u hu (hu'.trans ht'))])
    refine this.trans (le_of_eq ?_)
    norm_num
  have := pow_bound (k := fun t => q (x + t) + q (x - t) - 2 * q x) (k' := fun t => q1 (x + t) + -q1 (x - t)) (C := 2 * M) 1 hs
    (by simp; ring)
    (fun u hu hu' => ((dp h1 u hu hu').add (dm h1 u hu hu')).sub_const _) (fun u hu hu' => by
      rw [pow_one, ← sub_eq_add_neg]
      exact b2 u hu hu')
  refine this.trans (le_of_eq ?_)
  norm_num
  ring

/-- The symmetric second difference. -/
theorem second_sym {g g1 g2 g3 g4 : ℝ → ℝ} {x s M : ℝ} (hs : 0 ≤ s)
    (h1 : ∀ t, |t - x| ≤ s → HasDerivAt g (g1 t) t) (h2 : ∀ t, |t - x| ≤ s → HasDerivAt g1 (g2 t) t)
    (h3 : ∀ t, |t - x| ≤ s → HasDerivAt g2 (g3 t) t) (h4 : ∀ t, |t - x| ≤ s → HasDerivAt g3 (g4 t) t)
    (hM : ∀ t, |t - x| ≤ s → |g4 t| ≤ M) :
    |g (x + s) - 2 * g x + g (x - s) - s ^ 2 * g2 x| ≤ M * s ^ 4 / 12 := by
  have pl : ∀ t, 0 ≤ t → t ≤ s → |x + t - x| ≤ s := fun t h h' => by rw [add_sub_cancel_left, abs_of_nonneg h]; exact h'
  have mi : ∀ t, 0 ≤ t → t ≤ s → |x - t - x| ≤ s := fun t h h' => by
    rw [show x - t - x = -t by ring, abs_neg, abs_of_nonneg h]; exact h'
  have := pow_bound (k := fun t => g (x + t) - 2 * g x + g (x - t) - t ^ 2 * g2 x) (k' := fun t => g1 (x + t) - g1 (x - t) - 2 * t * g2 x)
    (C := M / 3) 3 hs (by simp; ring) (fun t ht ht' => ?_) (fun t ht ht' => ?_)
  · refine this.trans (le_of_eq ?_)
    norm_num
    ring
  · have d := (((HasDerivAt.comp_const_add x t (h1 _ (pl t ht ht'))).sub_const (2 * g x)).add
      (HasDerivAt.comp_const_sub x t (h1 _ (mi t ht ht')))).sub ((hasDerivAt_pow 2 t).mul_const (g2 x))
    refine d.congr_deriv ?_
    norm_num
    ring
  · have := centered_acc (g := g1) (g1 := g2) (g2 := g3) (g3 := g4) (x := x) (M := M) ht (fun u hu => h2 u (hu.trans ht')) (fun u hu => h3 u (hu.trans ht'))
      (fun u hu => h4 u (hu.trans ht')) (fun u hu => hM u (hu.trans ht'))
    refine this.trans (le_of_eq ?_)
    ring

/-- The centred mixed difference. -/
theorem mixed_acc {g g1 g12 g122 g1222 g121 g1211 : ℝ → ℝ → ℝ} {x y a b M : ℝ} (ha : 0 ≤ a) (hb : 0 ≤ b)
    (h1 : ∀ u v, |u - x| ≤ a → |v - y| ≤ b → HasDerivAt (fun u => g u v) (g1 u v) u)
    (h12 : ∀ u v, |u - x| ≤ a → |v - y| ≤ b → HasDerivAt (fun v => g1 u v) (g12 u v) v)
    (h122 : ∀ u v, |u - x| ≤ a → |v - y| ≤ b → HasDerivAt (fun v => g12 u v) (g122 u v) v)
    (h1222 : ∀ u v, |u - x| ≤ a → |v - y| ≤ b → HasDerivAt (fun v => g122 u v) (g1222 u v) v)
    (h121 : ∀ u v, |u - x| ≤ a → |v - y| ≤ b → HasDerivAt (fun u => g12 u v) (g121 u v) u)
    (h1211 : ∀ u v, |u - x| ≤ a → |v - y| ≤ b → HasDerivAt (fun u => g121 u v) (g1211 u v) u)
    (hM : ∀ u v, |u - x| ≤ a → |v - y| ≤ b → |g1222 u v| ≤ M ∧ |g1211 u v| ≤ M) :
    |g (x + a) (y + b) - g (x + a) (y - b) - g (x - a) (y + b) + g (x - a) (y - b) - 4 * a * b * g12 x y| ≤
      2 * M * a * b * (a ^ 2 + b ^ 2) := by
  have pl : ∀ t, 0 ≤ t → t ≤ a → |x + t - x| ≤ a := fun t h h' => by rw [add_sub_cancel_left, abs_of_nonneg h]; exact h'
  have mi : ∀ t, 0 ≤ t → t ≤ a → |x - t - x| ≤ a := fun t h h' => by
    rw [show x - t - x = -t by ring, abs_neg, abs_of_nonneg h]; exact h'
  have yb : |y + b - y| ≤ b := by rw [add_sub_cancel_left, abs_of_nonneg hb]
  have yb' : |y - b - y| ≤ b := by rw [show y - b - y = -b by ring, abs_neg, abs_of_nonneg hb]
  have y0 : |y - y| ≤ b := by rw [sub_self, abs_zero]; exact hb
  have hM0 : 0 ≤ M := (abs_nonneg _).trans (hM x y (by rw [sub_self, abs_zero]; exact ha) y0).1
  have P : ∀ u, |u - x| ≤ a → |g1 u (y + b) - g1 u (y - b) - 2 * b * g12 u y| ≤ M * b ^ 3 / 3 := fun u hu =>
    centered_acc (g := g1 u) (g1 := g12 u) (g2 := g122 u) (g3 := g1222 u) hb (fun v hv => h12 u v hu hv) (fun v hv => h122 u v hu hv)
      (fun v hv => h1222 u v hu hv) (fun v hv => (hM u v hu hv).1)
  have Q : ∀ t, 0 ≤ t → t ≤ a → |g12 (x + t) y + g12 (x - t) y - 2 * g12 x y| ≤ M * a ^ 2 := by
    intro t ht ht'
    refine (sym_acc (q := fun u => g12 u y) (q1 := fun u => g121 u y) (q2 := fun u => g1211 u y) (x := x) ht
      (fun u hu => h121 u y (hu.trans ht') y0) (fun u hu => h1211 u y (hu.trans ht') y0) (fun u hu => (hM u y (hu.trans ht') y0).2)).trans ?_
    exact mul_le_mul_of_nonneg_left (pow_le_pow_left₀ ht ht' 2) hM0
  have := pow_bound (k := fun t => g (x + t) (y + b) - g (x + t) (y - b) - g (x - t) (y + b) + g (x - t) (y - b) - t * (4 * b * g12 x y))
    (k' := fun t => g1 (x + t) (y + b) - g1 (x + t) (y - b) + g1 (x - t) (y + b) - g1 (x - t) (y - b) - 4 * b * g12 x y)
    (C := 2 * M * b * (a ^ 2 + b ^ 2)) 0 ha (by simp) (fun t ht ht' => ?_) (fun t ht ht' => ?_)
  · refine le_trans (le_of_eq ?_) (this.trans (le_of_eq ?_))
    · congr 1; ring
    · norm_num; ring
  · have d := ((((HasDerivAt.comp_const_add x t (h1 _ (y + b) (pl t ht ht') yb)).sub (HasDerivAt.comp_const_add x t (h1 _ (y - b) (pl t ht ht') yb'))).sub
      (HasDerivAt.comp_const_sub x t (h1 _ (y + b) (mi t ht ht') yb))).add (HasDerivAt.comp_const_sub x t (h1 _ (y - b) (mi t ht ht') yb'))).sub
      ((hasDerivAt_id t).mul_const (4 * b * g12 x y))
    refine d.congr_deriv ?_
    ring
  · have p1 := P _ (pl t ht ht')
    have p2 := P _ (mi t ht ht')
    have q := Q t ht ht'
    have q' : |2 * b * (g12 (x + t) y + g12 (x - t) y - 2 * g12 x y)| ≤ 2 * b * (M * a ^ 2) := by
      rw [abs_mul, abs_of_nonneg (show 0 ≤ 2 * b by linarith)]
      exact mul_le_mul_of_nonneg_left q (by linarith)
    have h0 : 0 ≤ M * b ^ 3 := by positivity
    rw [pow_zero, mul_one]
    rw [abs_le] at *
    constructor <;> nlinarith [p1.1, p1.2, p2.1, p2.2, q'.1, q'.2]

theorem noise_le_one (d : Option ℕ) : noise d ≤ 1 := by
  cases d with
  | none => exact eps_le_one
  | some d => exact pow_le_one₀ (by norm_num) (by norm_num)

end Verif.NDiff
