import Verif.Lemmas.RootsScalar
import Mathlib.Analysis.Calculus.Deriv.MeanValue
import Mathlib.Data.Nat.Fib.Basic

/-!
# Local convergence of Newton's and the secant method
-/

namespace Verif.RootsConv

/-- Mean value theorem without an order between the points. -/
theorem chord {F F' : ℝ → ℝ} {r ρ : ℝ} (hF : ∀ t, |t - r| ≤ ρ → HasDerivAt F (F' t) t) {a b : ℝ} (ha : |a - r| ≤ ρ) (hb : |b - r| ≤ ρ) :
    ∃ ξ, |ξ - r| ≤ ρ ∧ |ξ - r| ≤ max |a - r| |b - r| ∧ |ξ - b| ≤ |a - b| ∧ F b - F a = F' ξ * (b - a) := by
  have mem : ∀ u v t : ℝ, |u - r| ≤ ρ → |v - r| ≤ ρ → u ≤ t → t ≤ v → |t - r| ≤ ρ := by
    intro u v t hu hv h1 h2
    rw [abs_le] at *
    constructor <;> linarith [hu.1, hv.2]
  rcases lt_trichotomy a b with h | h | h
  · obtain ⟨ξ, ⟨h1, h2⟩, h3⟩ := exists_hasDerivAt_eq_slope F F' h
      (fun t ht => (hF t (mem a b t ha hb ht.1 ht.2)).continuousAt.continuousWithinAt)
      (fun t ht => hF t (mem a b t ha hb ht.1.le ht.2.le))
    refine ⟨ξ, mem a b ξ ha hb h1.le h2.le, ?_, ?_, ?_⟩
    · rw [abs_le]
      have := neg_abs_le (a - r)
      have := le_abs_self (b - r)
      have := le_max_left |a - r| |b - r|
      have := le_max_right |a - r| |b - r|
      constructor <;> linarith
    · rw [abs_of_neg (by linarith), abs_of_neg (by linarith)]; linarith
    · rw [h3]; field_simp [sub_ne_zero.2 h.ne']
  · subst h
    exact ⟨a, ha, le_max_left _ _, by simp, by simp⟩
  · obtain ⟨ξ, ⟨h1, h2⟩, h3⟩ := exists_hasDerivAt_eq_slope F F' h
      (fun t ht => (hF t (mem b a t hb ha ht.1 ht.2)).continuousAt.continuousWithinAt)
      (fun t ht => hF t (mem b a t hb ha ht.1.le ht.2.le))
    refine ⟨ξ, mem b a ξ hb ha h1.le h2.le, ?_, ?_, ?_⟩
    · rw [abs_le]
      have := neg_abs_le (b - r)
      have := le_abs_self (a - r)
      have := le_max_left |a - r| |b - r|
      have := le_max_right |a - r| |b - r|
      constructor <;> linarith
    · rw [abs_of_pos (by linarith), abs_of_pos (by linarith)]; linarith
    · rw [h3]
      have : a - b ≠ 0 := sub_ne_zero.2 h.ne'
      field_simp
      ring

/-- One Newton step with slope `d` and value `v` known up to `δ`. -/
theorem newton_step {F F' : ℝ → ℝ} {r ρ m K δ x v d : ℝ} (hm : 0 < m) (hδ0 : 0 ≤ δ) (hδm : δ ≤ m / 2)
    (hF : ∀ t, |t - r| ≤ ρ → HasDerivAt F (F' t) t) (hr : F r = 0) (hl : ∀ t, |t - r| ≤ ρ → m ≤ |F' t|)
    (hK : ∀ s t, |s - r| ≤ ρ → |t - r| ≤ ρ → |F' s - F' t| ≤ K * |s - t|) (hx : |x - r| ≤ ρ) (hv : |v - F x| ≤ δ) (hd : |d - F' x| ≤ δ) :
    m / 2 ≤ |d| ∧ |x + -v / d - r| ≤ 2 * K / m * |x - r| ^ 2 + 2 * δ * (1 + ρ) / m := by
  have hd1 : m / 2 ≤ |d| := by
    have := hl x hx
    have := abs_sub_abs_le_abs_sub (F' x) d
    rw [abs_sub_comm] at this
    linarith
  refine ⟨hd1, ?_⟩
  have hd0 : 0 < |d| := by linarith
  have hdne : d ≠ 0 := abs_pos.1 hd0
  obtain ⟨ξ, h1, _, h3, h4⟩ := chord hF (a := r) (b := x) (by simpa using (abs_nonneg _).trans hx) hx
  rw [hr, sub_zero] at h4
  have e1 : x + -v / d - r = ((d - F' x) * (x - r) + (F' x - F' ξ) * (x - r) - (v - F x)) / d := by
    field_simp
    linear_combination -h4
  have hK' := hK x ξ hx h1
  have h3' : |x - ξ| ≤ |x - r| := by rw [abs_sub_comm x ξ, abs_sub_comm x r]; exact h3
  have hKn : K * |x - ξ| ≤ K * |x - r| ∨ |x - ξ| = 0 := by
    rcases le_or_gt 0 K with h | h
    · exact Or.inl (mul_le_mul_of_nonneg_left h3' h)
    · right
      have := (abs_nonneg _).trans hK'
      by_contra h0
      have h0' : 0 < |x - ξ| := lt_of_le_of_ne (abs_nonneg _) (Ne.symm h0)
      nlinarith
  have e2 : |F' x - F' ξ| * |x - r| ≤ K * |x - r| ^ 2 := by
    rcases hKn with h | h
    · have := mul_le_mul_of_nonneg_right (hK'.trans h) (abs_nonneg (x - r))
      linarith [this]
    · have hξ : x = ξ := by linarith [abs_eq_zero.1 h]
      by_cases hxr : x = r
      · simp [hxr]
      · have hK0 : 0 ≤ K := by
          have := (abs_nonneg _).trans (hK x r hx (by simpa using (abs_nonneg _).trans hx))
          have h0 : 0 < |x - r| := abs_pos.2 (sub_ne_zero.2 hxr)
          by_contra hn
          push Not at hn
          nlinarith
        rw [← hξ]; simp; positivity
  have e3 : |(d - F' x) * (x - r) + (F' x - F' ξ) * (x - r) - (v - F x)| ≤ K * |x - r| ^ 2 + δ * (1 + ρ) := by
    have t1 := abs_sub ((d - F' x) * (x - r) + (F' x - F' ξ) * (x - r)) (v - F x)
    have t2 := abs_add_le ((d - F' x) * (x - r)) ((F' x - F' ξ) * (x - r))
    rw [abs_mul, abs_mul] at t2
    have t3 : |d - F' x| * |x - r| ≤ δ * ρ := mul_le_mul hd hx (abs_nonneg _) hδ0
    linarith
  rw [e1, abs_div, div_le_iff₀ hd0]
  refine e3.trans ?_
  have e4 : 0 ≤ K * |x - r| ^ 2 + δ * (1 + ρ) := (abs_nonneg _).trans e3
  have e5 : 2 * K / m * |x - r| ^ 2 + 2 * δ * (1 + ρ) / m = (K * |x - r| ^ 2 + δ * (1 + ρ)) / (m / 2) := by field_simp
  rw [e5, div_mul_eq_mul_div, le_div_iff₀ (by linarith)]
  exact mul_le_mul_of_nonneg_left hd1 e4

theorem quad_step {q ρ c E e e' : ℝ} (hρ : 0 < ρ) (hq0 : 0 ≤ q) (hq : q * ρ ≤ 1 / 2) (hc0 : 0 ≤ c) (hc : 2 * c ≤ ρ) (hE0 : 0 ≤ E) (hE : 2 * E ≤ ρ)
    (he0 : 0 ≤ e) (he : e ≤ E + c) (h : e' ≤ q * e ^ 2 + c / 4) : e' ≤ E ^ 2 / (2 * ρ) + c := by
  have h1 : q ≤ 1 / (2 * ρ) := by rw [le_div_iff₀ (by positivity)]; linarith
  have h2 : q * e ^ 2 ≤ q * (E + c) ^ 2 := by gcongr
  have h3 : q * E ^ 2 ≤ E ^ 2 / (2 * ρ) := by
    have := mul_le_mul_of_nonneg_right h1 (sq_nonneg E)
    rw [one_div, inv_mul_eq_div] at this
    exact this
  have h4 : q * E ≤ 1 / 4 := by nlinarith
  have h5 : q * c ≤ 1 / 4 := by nlinarith
  nlinarith [mul_le_mul_of_nonneg_right h4 hc0, mul_le_mul_of_nonneg_right h5 hc0]

/-- The loop of `root_newton` near a simple root. -/
theorem newton_loop {f : ℝ × ℝ → ℝ × ℝ} {F F' : ℝ → ℝ} {r ρ m L K δ tolx tolf : ℝ} {maxiter N : ℕ} (hρ : 0 < ρ) (hm : 0 < m) (hδ0 : 0 ≤ δ)
    (hF : ∀ t, |t - r| ≤ ρ → HasDerivAt F (F' t) t) (hr : F r = 0) (hl : ∀ t, |t - r| ≤ ρ → m ≤ |F' t| ∧ |F' t| ≤ L)
    (hK0 : 0 ≤ K) (hK : ∀ s t, |s - r| ≤ ρ → |t - r| ≤ ρ → |F' s - F' t| ≤ K * |s - t|) (hq : 4 * K * ρ ≤ m)
    (hδ : 16 * δ * (1 + ρ) ≤ m * ρ) (hδm : δ ≤ m / 2) (hm2 : 2 * eps < m)
    (hs : ∀ t, |t - r| ≤ ρ → |(derivativeComplex f t).1 - F' t| ≤ δ ∧ |(derivativeComplex f t).2 - F t| ≤ δ)
    (hN : N < maxiter) (htol : L * (2 * ρ * (1 / 2) ^ 2 ^ N + 8 * δ * (1 + ρ) / m) + δ ≤ tolf) :
    ∀ n k x fx nf calls, n + k = maxiter → k ≤ N → |x - r| ≤ ρ → |x - r| ≤ 2 * ρ * (1 / 2) ^ 2 ^ k + 8 * δ * (1 + ρ) / m →
      ∃ res tr, newtonLoop f tolx tolf maxiter n k x fx nf calls = .ok (res, tr) ∧ res.success = true ∧ res.niter ≤ N + 1 ∧
        |res.x - r| ≤ ρ ∧ |res.x - r| ≤ max ((tolf + δ) / m) (2 * tolx + 4 * δ * (1 + ρ) / m) := by
  have hL : 0 < L := by have := hl r (by simpa using hρ.le); linarith
  have hc0 : 0 ≤ 8 * δ * (1 + ρ) / m := by positivity
  have hc2 : 2 * (8 * δ * (1 + ρ) / m) ≤ ρ := by
    rw [← mul_div_assoc, div_le_iff₀ hm]; linarith
  intro n
  induction n with
  | zero => intro k x fx nf calls hn hk; omega
  | succ n ih =>
    intro k x fx nf calls hn hk hx hxe
    obtain ⟨hd, hv⟩ := hs x hx
    obtain ⟨hd1, hstep⟩ := newton_step hm hδ0 hδm hF hr (fun t ht => (hl t ht).1) hK hx hv hd
    obtain ⟨ξ, g1, _, _, g4⟩ := chord hF (a := r) (b := x) (by simpa using hρ.le) hx
    rw [hr, sub_zero] at g4
    have hFx : |F x| = |F' ξ| * |x - r| := by rw [g4, abs_mul]
    have hxm : m * |x - r| ≤ |F x| := by rw [hFx]; exact mul_le_mul_of_nonneg_right (hl ξ g1).1 (abs_nonneg _)
    have hxL : |F x| ≤ L * |x - r| := by rw [hFx]; exact mul_le_mul_of_nonneg_right (hl ξ g1).2 (abs_nonneg _)
    rw [newtonLoop]
    dsimp only
    generalize (derivativeComplex f x).1 = d at *
    generalize (derivativeComplex f x).2 = v at *
    have hvx : |v| ≤ |F x| + δ := by have := abs_sub_abs_le_abs_sub v (F x); linarith
    have hxv : |F x| ≤ |v| + δ := by have := abs_sub_abs_le_abs_sub (F x) v; rw [abs_sub_comm] at this; linarith
    have hkN : ¬|v| ≤ tolf → k < N := by
      intro c1
      rcases lt_or_eq_of_le hk with h | h
      · exact h
      · exfalso
        subst h
        have := mul_le_mul_of_nonneg_left hxe hL.le
        exact c1 (by linarith)
    split_ifs with c1 c2 c3 c4
    · refine ⟨_, _, rfl, rfl, by simpa using hk, hx, le_max_of_le_left ?_⟩
      rw [le_div_iff₀ hm]
      simp only
      linarith
    · exfalso; linarith
    · refine ⟨_, _, rfl, rfl, by simpa using hk, hx, le_max_of_le_right ?_⟩
      simp only
      have h1 : 2 * K / m * |x - r| ^ 2 ≤ 1 / 2 * |x - r| := by
        have : 2 * K / m * |x - r| ≤ 1 / 2 := by
          rw [div_mul_eq_mul_div, div_le_iff₀ hm]
          have := mul_le_mul_of_nonneg_left hx hK0
          linarith
        have := mul_le_mul_of_nonneg_right this (abs_nonneg (x - r))
        linarith
      have h2 := abs_sub_abs_le_abs_sub (x - r) (x + -v / d - r)
      have e1 : x - r - (x + -v / d - r) = -(-v / d) := by ring
      rw [e1, abs_neg] at h2
      have e2 : 4 * δ * (1 + ρ) / m = 2 * (2 * δ * (1 + ρ) / m) := by ring
      linarith
    · -- another step
      have hkN := hkN c1
      have e8 : 2 * δ * (1 + ρ) / m = 8 * δ * (1 + ρ) / m / 4 := by ring
      have hq' : 2 * K / m * ρ ≤ 1 / 2 := by rw [div_mul_eq_mul_div, div_le_iff₀ hm]; linarith
      rw [e8] at hstep
      have hnew : |x + -v / d - r| ≤ 2 * ρ * (1 / 2) ^ 2 ^ (k + 1) + 8 * δ * (1 + ρ) / m := by
        rcases Nat.eq_zero_or_pos k with h0 | h0
        · subst h0
          have : 2 * K / m * |x - r| ^ 2 ≤ 1 / 2 * ρ := by
            calc 2 * K / m * |x - r| ^ 2 ≤ 2 * K / m * ρ ^ 2 := by gcongr
              _ = 2 * K / m * ρ * ρ := by ring
              _ ≤ 1 / 2 * ρ := by gcongr
          norm_num
          linarith
        · have hE : 2 * (2 * ρ * (1 / 2) ^ 2 ^ k) ≤ ρ := by
            have h2 : (2 : ℕ) ≤ 2 ^ k := by calc 2 = 2 ^ 1 := by norm_num
                  _ ≤ 2 ^ k := Nat.pow_le_pow_right (by norm_num) h0
            have : ((1 : ℝ) / 2) ^ 2 ^ k ≤ (1 / 2) ^ 2 := pow_le_pow_of_le_one (by norm_num) (by norm_num) h2
            have := mul_le_mul_of_nonneg_left this hρ.le
            linarith
          have := quad_step hρ (by positivity) hq' hc0 hc2 (by positivity) hE (abs_nonneg _) hxe hstep
          refine this.trans (le_of_eq ?_)
          congr 1
          rw [pow_succ 2 k, pow_mul]
          field_simp
      refine ih (k + 1) _ _ _ _ (by omega) hkN ?_ hnew
      refine hnew.trans ?_
      have : ((1 : ℝ) / 2) ^ 2 ^ (k + 1) ≤ (1 / 2) ^ 2 := pow_le_pow_of_le_one (by norm_num) (by norm_num)
        (by calc 2 = 2 ^ 1 := by norm_num
              _ ≤ 2 ^ (k + 1) := Nat.pow_le_pow_right (by norm_num) (by omega))
      have := mul_le_mul_of_nonneg_left this hρ.le
      linarith
    · exfalso; have := hkN c1; omega

/-- One secant step. -/
theorem secant_step {F F' : ℝ → ℝ} {r ρ m K x0 x1 b0 b1 : ℝ} (hm : 0 < m) (hK0 : 0 ≤ K)
    (hF : ∀ t, |t - r| ≤ ρ → HasDerivAt F (F' t) t) (hr : F r = 0) (hl : ∀ t, |t - r| ≤ ρ → m ≤ |F' t|)
    (hK : ∀ s t, |s - r| ≤ ρ → |t - r| ≤ ρ → |F' s - F' t| ≤ K * |s - t|) (hx0 : |x0 - r| ≤ ρ) (hx1 : |x1 - r| ≤ ρ)
    (hb0 : |x0 - r| ≤ b0) (hb1 : |x1 - r| ≤ b1) (hb : b1 ≤ b0) (hne : x1 ≠ x0) :
    m * |x1 - x0| ≤ |F x1 - F x0| ∧ |x1 - F x1 * (x1 - x0) / (F x1 - F x0) - r| ≤ 2 * K / m * b0 * |x1 - r| := by
  obtain ⟨ξ, g1, g2, _, g4⟩ := chord hF (a := r) (b := x1) (by simpa using (abs_nonneg _).trans hx1) hx1
  obtain ⟨η, k1, k2, _, k4⟩ := chord hF (a := x0) (b := x1) hx0 hx1
  have hη := hl η k1
  have hη0 : F' η ≠ 0 := abs_pos.1 (by linarith)
  have hx : x1 - x0 ≠ 0 := sub_ne_zero.2 hne
  refine ⟨by rw [k4, abs_mul]; exact mul_le_mul_of_nonneg_right hη (abs_nonneg _), ?_⟩
  rw [hr, sub_zero] at g4
  have e1 : x1 - F x1 * (x1 - x0) / (F x1 - F x0) - r = (F' η - F' ξ) / F' η * (x1 - r) := by
    rw [k4, g4]; field_simp; ring
  rw [e1, abs_mul, abs_div]
  refine mul_le_mul_of_nonneg_right ?_ (abs_nonneg _)
  have h1 : |η - ξ| ≤ 2 * b0 := by
    have h2 : |η - r| ≤ b0 := k2.trans (max_le hb0 (hb1.trans hb))
    have h3 : |ξ - r| ≤ b0 := g2.trans (max_le (by simpa using (abs_nonneg _).trans hb0) (hb1.trans hb))
    have := abs_sub (η - r) (ξ - r)
    rw [sub_sub_sub_cancel_right] at this
    linarith
  have h2 := (hK η ξ k1 g1).trans (mul_le_mul_of_nonneg_left h1 hK0)
  have hb00 : 0 ≤ b0 := (abs_nonneg _).trans hb0
  rw [div_le_iff₀ (by linarith)]
  have e2 : K * (2 * b0) = 2 * K / m * b0 * m := by field_simp
  rw [e2] at h2
  exact h2.trans (mul_le_mul_of_nonneg_left hη (by positivity))

/-- The loop of `root_secant` near a simple root. -/
theorem secant_loop {F F' : ℝ → ℝ} {r ρ m L K tolx tolf : ℝ} {maxiter N : ℕ} (hρ : 0 < ρ) (hm : 0 < m)
    (hF : ∀ t, |t - r| ≤ ρ → HasDerivAt F (F' t) t) (hr : F r = 0) (hl : ∀ t, |t - r| ≤ ρ → m ≤ |F' t| ∧ |F' t| ≤ L)
    (hK0 : 0 ≤ K) (hK : ∀ s t, |s - r| ≤ ρ → |t - r| ≤ ρ → |F' s - F' t| ≤ K * |s - t|) (hq : 4 * K * ρ ≤ m)
    (htx : 0 ≤ tolx) (heps : eps * max (L * ρ) 1 ≤ m * tolx) (hN : N < maxiter) (htol : L * (2 * ρ * (1 / 2) ^ Nat.fib (N + 3)) ≤ tolf) :
    ∀ n k x0 x1 x2 f2 nf calls, n + k = maxiter → k ≤ N → |x0 - r| ≤ ρ → |x1 - r| ≤ ρ → |x0 - r| ≤ 2 * ρ * (1 / 2) ^ Nat.fib (k + 1) →
      |x1 - r| ≤ 2 * ρ * (1 / 2) ^ Nat.fib (k + 2) → tolx < |x1 - x0| →
      ∃ res tr x, secantLoop F tolx tolf n k x0 (F x0) x1 (F x1) x2 f2 nf calls = .ok (res, tr) ∧ res.success = true ∧ res.niter ≤ N + 1 ∧
        res.x = some x ∧ |x - r| ≤ ρ ∧ |x - r| ≤ max tolx (tolf / m) := by
  have hL : 0 < L := by have := hl r (by simpa using hρ.le); linarith
  have bound : ∀ x, |x - r| ≤ ρ → m * |x - r| ≤ |F x| ∧ |F x| ≤ L * |x - r| := by
    intro x hx
    obtain ⟨ξ, g1, _, _, g4⟩ := chord hF (a := r) (b := x) (by simpa using hρ.le) hx
    rw [hr, sub_zero] at g4
    rw [g4, abs_mul]
    exact ⟨mul_le_mul_of_nonneg_right (hl ξ g1).1 (abs_nonneg _), mul_le_mul_of_nonneg_right (hl ξ g1).2 (abs_nonneg _)⟩
  have bρ : ∀ x, |x - r| ≤ ρ → |F x| ≤ L * ρ := fun x hx => (bound x hx).2.trans (mul_le_mul_of_nonneg_left hx hL.le)
  intro n
  induction n with
  | zero => intro k x0 x1 x2 f2 nf calls hn hk; omega
  | succ n ih =>
    intro k x0 x1 x2 f2 nf calls hn hk hx0 hx1 hb0 hb1 hne
    have hfib : ((1 : ℝ) / 2) ^ Nat.fib (k + 2) ≤ (1 / 2) ^ Nat.fib (k + 1) := pow_le_pow_of_le_one (by norm_num) (by norm_num) Nat.fib_le_fib_succ
    have hx10 : x1 ≠ x0 := by
      rintro rfl
      rw [sub_self, abs_zero] at hne
      linarith
    have hb : 2 * ρ * (1 / 2) ^ Nat.fib (k + 2) ≤ 2 * ρ * (1 / 2) ^ Nat.fib (k + 1) := mul_le_mul_of_nonneg_left hfib (by linarith)
    obtain ⟨s1, s2⟩ := secant_step hm hK0 hF hr (fun t ht => (hl t ht).1) hK hx0 hx1 hb0 hb1 hb hx10
    have hq' : 2 * K / m ≤ 1 / (2 * ρ) := by rw [div_le_div_iff₀ hm (by positivity)]; linarith
    have s3 : |x1 - F x1 * (x1 - x0) / (F x1 - F x0) - r| ≤ 2 * ρ * (1 / 2) ^ Nat.fib (k + 3) := by
      refine s2.trans ?_
      calc 2 * K / m * (2 * ρ * (1 / 2) ^ Nat.fib (k + 1)) * |x1 - r|
          ≤ 1 / (2 * ρ) * (2 * ρ * (1 / 2) ^ Nat.fib (k + 1)) * (2 * ρ * (1 / 2) ^ Nat.fib (k + 2)) := by gcongr
        _ = 2 * ρ * (1 / 2) ^ Nat.fib (k + 3) := by
            rw [Nat.fib_add_two (n := k + 1), pow_add]; field_simp
    have hh : |x1 - F x1 * (x1 - x0) / (F x1 - F x0) - r| ≤ 1 / 2 * |x1 - r| := by
      refine s2.trans (mul_le_mul_of_nonneg_right ?_ (abs_nonneg _))
      have hf1 : ((1 : ℝ) / 2) ^ Nat.fib (k + 1) ≤ (1 / 2) ^ 1 :=
        pow_le_pow_of_le_one (by norm_num) (by norm_num) (Nat.fib_pos.2 (by omega))
      calc 2 * K / m * (2 * ρ * (1 / 2) ^ Nat.fib (k + 1)) ≤ 1 / (2 * ρ) * (2 * ρ * (1 / 2) ^ 1) := by gcongr
        _ = 1 / 2 := by field_simp
    have hx2 : |x1 - F x1 * (x1 - x0) / (F x1 - F x0) - r| ≤ ρ := hh.trans (by linarith [abs_nonneg (x1 - r)])
    rw [secantLoop]
    dsimp only
    have c0 : ¬|F x1 - F x0| ≤ eps * max (max |F x0| |F x1|) 1 := by
      have h1 : max (max |F x0| |F x1|) 1 ≤ max (L * ρ) 1 := max_le_max (max_le (bρ _ hx0) (bρ _ hx1)) le_rfl
      have h2 := mul_le_mul_of_nonneg_left h1 (eps_pos (α := ℝ)).le
      have h3 := mul_lt_mul_of_pos_left hne hm
      linarith
    rw [if_neg c0]
    generalize x1 - F x1 * (x1 - x0) / (F x1 - F x0) = y at *
    split_ifs with c1 c2
    · refine ⟨_, _, y, rfl, rfl, by simpa using hk, rfl, hx2, le_max_of_le_left ?_⟩
      have := abs_sub_abs_le_abs_sub (x1 - r) (y - r)
      rw [sub_sub_sub_cancel_right, abs_sub_comm x1 y] at this
      linarith
    · refine ⟨_, _, y, rfl, rfl, by simpa using hk, rfl, hx2, le_max_of_le_right ?_⟩
      rw [le_div_iff₀ hm]
      linarith [(bound y hx2).1]
    · have hkN : k < N := by
        rcases lt_or_eq_of_le hk with h | h
        · exact h
        · exfalso
          subst h
          have := mul_le_mul_of_nonneg_left s3 hL.le
          exact c2 (by linarith [(bound y hx2).2])
      exact ih (k + 1) x1 y _ _ _ _ (by omega) hkN hx1 hx2 hb1 s3 (not_le.1 c1)

end Verif.RootsConv
