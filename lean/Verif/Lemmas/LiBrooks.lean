import Verif.Lemmas.Bessel
import Mathlib.Analysis.Calculus.SmoothSeries
import Mathlib.Analysis.Calculus.Deriv.MeanValue
import Mathlib.Analysis.SpecialFunctions.Sqrt

/-!
# The Li-Brooks formula as a supersolution of the Riccati equation of the exact number

With `x = 2α` the exact number is `(x/2) g/G`, where `G' = g` and `x g' = G - m g`.
-/

namespace Verif.Kin.LiBrooks

open Real

/-- Term of the entire function `g_m`. -/
noncomputable def gT (m x : ℝ) (k : ℕ) : ℝ := x ^ k / ((k.factorial : ℝ) * Gamma (k + m + 1))

/-- `g_m(x) = ∑ x^k/(k! Γ(k + m + 1))`. -/
noncomputable def g (m x : ℝ) : ℝ := ∑' k, gT m x k

theorem ivT_eq {m x : ℝ} (hx : 0 < x) (k : ℕ) : ivT m (2 * √x) k = √x ^ m * gT m x k := by
  have h : 0 < √x := sqrt_pos.2 hx
  unfold ivT gT
  rw [show 2 * √x / 2 = √x by ring, rpow_add h, rpow_mul h.le, rpow_two, sq_sqrt hx.le, rpow_natCast]
  ring

theorem gT_summable {m x : ℝ} (hm : -1 < m) (hx : 0 < x) : Summable (gT m x) := by
  have h : 0 < √x := sqrt_pos.2 hx
  have s := ivT_summable hm (show 0 < 2 * √x by positivity)
  have e : gT m x = fun k => (√x ^ m)⁻¹ * ivT m (2 * √x) k := by
    funext k
    rw [ivT_eq hx]
    have : √x ^ m ≠ 0 := by positivity
    field_simp
  rw [e]
  exact s.mul_left _

theorem iv_eq_g {m x : ℝ} (hx : 0 < x) : iv m (2 * √x) = √x ^ m * g m x := by
  rw [iv_eq, g, ← tsum_mul_left]
  exact tsum_congr fun k => ivT_eq hx k

theorem g_pos {m x : ℝ} (hm : -1 < m) (hx : 0 < x) : 0 < g m x := by
  have h := iv_pos hm (show 0 < 2 * √x from mul_pos two_pos (sqrt_pos.2 hx))
  rw [iv_eq_g hx] at h
  exact pos_of_mul_pos_right h (by positivity)

/-- The recurrence `g_m = (m + 1) g_{m+1} + x g_{m+2}`. -/
theorem g_rec {m x : ℝ} (hm : -1 < m) (hx : 0 < x) : g m x = (m + 1) * g (m + 1) x + x * g (m + 2) x := by
  have h : 0 < √x := sqrt_pos.2 hx
  have r := iv_rec (m := m + 1) (by linarith) (show 0 < 2 * √x by positivity)
  rw [iv_eq_g hx, iv_eq_g hx, iv_eq_g hx, add_sub_cancel_right, rpow_add_one h.ne', rpow_add_one h.ne',
    rpow_add_one h.ne', show m + 1 + 1 = m + 2 by ring] at r
  have hp : √x ^ m ≠ 0 := by positivity
  have e : √x ^ 2 = x := sq_sqrt hx.le
  have : √x ^ m * g m x = √x ^ m * ((m + 1) * g (m + 1) x + √x ^ 2 * g (m + 2) x) := by
    rw [r]; field_simp
  rw [e] at this
  exact mul_left_cancel₀ hp this

/-- Term of the derivative. -/
theorem gT_deriv {m : ℝ} (x : ℝ) (k : ℕ) (hm : -1 < m) :
    HasDerivAt (fun x => gT m x (k + 1)) (gT (m + 1) x k) x := by
  have hk : (0 : ℝ) ≤ k := k.cast_nonneg
  have h := (hasDerivAt_pow (k + 1) x).div_const (((k + 1).factorial : ℝ) * Gamma ((k + 1 : ℕ) + m + 1))
  refine h.congr_deriv ?_
  have h3 : (k.factorial : ℝ) ≠ 0 := by exact_mod_cast k.factorial_ne_zero
  have e : Gamma ((k + 1 : ℕ) + m + 1) = Gamma (k + (m + 1) + 1) := by congr 1; push_cast; ring
  have h4 : Gamma (k + (m + 1) + 1) ≠ 0 := (Gamma_pos_of_pos (by linarith)).ne'
  unfold gT
  rw [e, Nat.factorial_succ]
  push_cast
  have : (k : ℝ) + 1 ≠ 0 := by positivity
  field_simp

theorem g_deriv {m x : ℝ} (hm : -1 < m) (hx : 0 < x) : HasDerivAt (g m) (g (m + 1) x) x := by
  have s0 : Summable (gT (m + 1) (x + 1)) := gT_summable (by linarith) (by linarith)
  have sx : ∀ y, 0 < y → Summable fun k => gT m y (k + 1) := fun y hy => (summable_nat_add_iff 1).2 (gT_summable hm hy)
  have d : HasDerivAt (fun y => ∑' k, gT m y (k + 1)) (∑' k, gT (m + 1) x k) x := by
    refine hasDerivAt_tsum_of_isPreconnected (t := Set.Ioo 0 (x + 1)) (y₀ := x) s0 isOpen_Ioo isPreconnected_Ioo
      (fun k y _ => gT_deriv y k hm) ?_ ⟨hx, by linarith⟩ (sx x hx) ⟨hx, by linarith⟩
    rintro k y ⟨hy, hy'⟩
    have hG : 0 < Gamma ((k : ℝ) + (m + 1) + 1) := Gamma_pos_of_pos (by
      have hk : (0 : ℝ) ≤ k := k.cast_nonneg
      linarith)
    have h3 : (0 : ℝ) < k.factorial := by exact_mod_cast k.factorial_pos
    unfold gT
    rw [norm_of_nonneg (by positivity)]
    gcongr
  have e : ∀ y ∈ Set.Ioi (0 : ℝ), g m y = gT m 0 0 + ∑' k, gT m y (k + 1) := by
    intro y hy
    rw [g, (gT_summable hm hy).tsum_eq_zero_add]
    simp [gT]
  exact (d.const_add _).congr_of_eventuallyEq (by
    filter_upwards [isOpen_Ioi.mem_nhds hx] with y hy
    exact e y hy)

/-- `G = g_{m-1}`, written so that it makes sense for `m = 0`. -/
noncomputable def G (m x : ℝ) : ℝ := m * g m x + x * g (m + 1) x

theorem G_pos {m x : ℝ} (hm : 0 ≤ m) (hx : 0 < x) : 0 < G m x := by
  have h1 := g_pos (m := m) (by linarith) hx
  have h2 := g_pos (m := m + 1) (by linarith) hx
  unfold G
  positivity

theorem G_deriv {m x : ℝ} (hm : 0 ≤ m) (hx : 0 < x) : HasDerivAt (G m) (g m x) x := by
  have h1 := g_deriv (m := m) (by linarith) hx
  have h2 := g_deriv (m := m + 1) (by linarith) hx
  have h := (h1.const_mul m).add ((hasDerivAt_id x).mul h2)
  refine h.congr_deriv ?_
  rw [g_rec (m := m) (by linarith) hx, show m + 1 + 1 = m + 2 by ring]
  simp only [id]
  ring

/-- The exact number in terms of `g` and `G`. -/
theorem otoole_eq {α m : ℝ} (hα : 0 < α) (hm : 0 ≤ m) : nbarOToole α m = α * g m (2 * α) / G m (2 * α) := by
  have hx : 0 < 2 * α := by linarith
  have h : 0 < √(2 * α) := sqrt_pos.2 hx
  have e : √(8 * α) = 2 * √(2 * α) := by
    rw [show 8 * α = 2 ^ 2 * (2 * α) by ring, sqrt_mul (by norm_num), sqrt_sq (by norm_num)]
  have e2 : √(2 * α) ^ 2 = 2 * α := sq_sqrt hx.le
  have hG := G_pos hm hx
  unfold nbarOToole
  rw [e, iv_rec' hm (by positivity), iv_eq_g hx, iv_eq_g hx, rpow_add_one h.ne']
  have hp : √(2 * α) ^ m ≠ 0 := by positivity
  have eG : 2 * m / (2 * √(2 * α)) * (√(2 * α) ^ m * g m (2 * α)) + √(2 * α) ^ m * √(2 * α) * g (m + 1) (2 * α) =
      √(2 * α) ^ m / √(2 * α) * G m (2 * α) := by
    unfold G
    field_simp
    rw [e2]
  rw [eG]
  field_simp
  rw [e2]
  ring

/-- A function that starts nonnegative and does not decrease where it is negative stays nonnegative. -/
theorem stays_nonneg {f f' : ℝ → ℝ} {a b : ℝ} (hab : a ≤ b) (hd : ∀ x, a ≤ x → HasDerivAt f (f' x) x)
    (h0 : 0 ≤ f a) (hf : ∀ x, a < x → f x < 0 → 0 ≤ f' x) : 0 ≤ f b := by
  by_contra hb
  push Not at hb
  have hc : ContinuousOn f (Set.Icc a b) := fun x hx => (hd x hx.1).continuousAt.continuousWithinAt
  have hcl : IsClosed (Set.Icc a b ∩ f ⁻¹' Set.Ici 0) := hc.preimage_isClosed_of_isClosed isClosed_Icc isClosed_Ici
  have hne : (Set.Icc a b ∩ f ⁻¹' Set.Ici 0).Nonempty := ⟨a, ⟨le_refl _, hab⟩, h0⟩
  have hbd : BddAbove (Set.Icc a b ∩ f ⁻¹' Set.Ici 0) := ⟨b, fun x hx => hx.1.2⟩
  obtain ⟨⟨hs1, hs2⟩, hs3⟩ := hcl.csSup_mem hne hbd
  set s := sSup (Set.Icc a b ∩ f ⁻¹' Set.Ici 0) with hs
  have hlt : ∀ x, s < x → x ≤ b → f x < 0 := by
    intro x hx hxb
    by_contra h
    push Not at h
    exact absurd (le_csSup hbd ⟨⟨hs1.trans hx.le, hxb⟩, h⟩) (not_le.2 hx)
  have hmono : MonotoneOn f (Set.Icc s b) := by
    refine monotoneOn_of_deriv_nonneg (convex_Icc s b) (hc.mono (Set.Icc_subset_Icc_left hs1)) ?_ ?_
    · intro x hx
      rw [interior_Icc] at hx
      exact (hd x (hs1.trans hx.1.le)).differentiableAt.differentiableWithinAt
    · intro x hx
      rw [interior_Icc] at hx
      rw [(hd x (hs1.trans hx.1.le)).deriv]
      exact hf x (hs1.trans_lt hx.1) (hlt x hx.1 hx.2.le)
  have := hmono ⟨le_refl _, hs2⟩ ⟨hs2, le_refl _⟩ hs2
  have h3 : 0 ≤ f s := hs3
  linarith

/-- The discriminant of the certificate (`x ≥ 3/5`). -/
theorem cert_disc {x : ℝ} (hx : 3 / 5 ≤ x) :
    (130200 * x ^ 4 + 122500 * x ^ 3 - 503388 * x ^ 5 + 96016 * x ^ 6) ^ 2 ≤
      4 * (122500 * x ^ 4 + 367500 * x ^ 5 - 105396 * x ^ 6 + 9604 * x ^ 7) *
        (30625 * x ^ 2 + 2800 * x ^ 3 - 297462 * x ^ 4 + 418876 * x ^ 5 + 4801 * x ^ 6) := by
  have key : 0 ≤ 14491750000 - 48173370000 * x - 124465530000 * x ^ 2 + 465210949664 * x ^ 3 - 84294645360 * x ^ 4 +
      4848443376 * x ^ 5 + 184435216 * x ^ 6 := by
    obtain ⟨y, rfl⟩ : ∃ y, x = 3 / 5 + y := ⟨x - 3 / 5, by ring⟩
    have hy : 0 ≤ y := by linarith
    have h : 0 ≤ y ^ 3 * (281154957086 - 68753365066 * y + 5512410153 * y ^ 2) := by
      refine mul_nonneg (by positivity) ?_
      nlinarith [sq_nonneg (y - 6.2)]
    nlinarith [pow_nonneg hy 2, pow_nonneg hy 3, pow_nonneg hy 4, pow_nonneg hy 5, pow_nonneg hy 6]
  have h0 : 0 ≤ x ^ 7 := pow_nonneg (by linarith) 7
  linarith [mul_nonneg h0 key]

/-- The polynomial certificate. -/
theorem cert {x m : ℝ} (hx : 0 ≤ x) (hm : 0 ≤ m) :
    0 ≤ 122500 * x ^ 4 + 367500 * x ^ 5 - 105396 * x ^ 6 + 9604 * x ^ 7 +
      (130200 * x ^ 4 + 122500 * x ^ 3 - 503388 * x ^ 5 + 96016 * x ^ 6) * m +
      (30625 * x ^ 2 + 2800 * x ^ 3 - 297462 * x ^ 4 + 418876 * x ^ 5 + 4801 * x ^ 6) * m ^ 2 := by
  have hA : 0 ≤ 122500 + 367500 * x - 105396 * x ^ 2 + 9604 * x ^ 3 := by
    nlinarith [mul_nonneg hx (sq_nonneg (x - 5.4))]
  have hC : 0 ≤ 30625 + 2800 * x - 297462 * x ^ 2 + 418876 * x ^ 3 + 4801 * x ^ 4 := by
    nlinarith [mul_nonneg hx (sq_nonneg (x - 0.48)), sq_nonneg (x - 0.48), sq_nonneg (x ^ 2)]
  rcases le_total x (3 / 5) with h | h
  · have hB : 0 ≤ 130200 * x + 122500 - 503388 * x ^ 2 + 96016 * x ^ 3 := by
      nlinarith [pow_nonneg hx 3, mul_nonneg hx (sub_nonneg.2 h)]
    have e : 122500 * x ^ 4 + 367500 * x ^ 5 - 105396 * x ^ 6 + 9604 * x ^ 7 +
      (130200 * x ^ 4 + 122500 * x ^ 3 - 503388 * x ^ 5 + 96016 * x ^ 6) * m +
      (30625 * x ^ 2 + 2800 * x ^ 3 - 297462 * x ^ 4 + 418876 * x ^ 5 + 4801 * x ^ 6) * m ^ 2 =
      x ^ 4 * (122500 + 367500 * x - 105396 * x ^ 2 + 9604 * x ^ 3) +
        x ^ 3 * m * (130200 * x + 122500 - 503388 * x ^ 2 + 96016 * x ^ 3) +
        x ^ 2 * m ^ 2 * (30625 + 2800 * x - 297462 * x ^ 2 + 418876 * x ^ 3 + 4801 * x ^ 4) := by ring
    rw [e]
    positivity
  · have hd := cert_disc h
    have hA' : 0 < 122500 * x ^ 4 + 367500 * x ^ 5 - 105396 * x ^ 6 + 9604 * x ^ 7 := by
      have : 0 < 122500 + 367500 * x - 105396 * x ^ 2 + 9604 * x ^ 3 := by
        nlinarith [mul_nonneg hx (sq_nonneg (x - 5.4))]
      have e : 122500 * x ^ 4 + 367500 * x ^ 5 - 105396 * x ^ 6 + 9604 * x ^ 7 =
        x ^ 4 * (122500 + 367500 * x - 105396 * x ^ 2 + 9604 * x ^ 3) := by ring
      rw [e]
      positivity
    revert hA' hd
    generalize 122500 * x ^ 4 + 367500 * x ^ 5 - 105396 * x ^ 6 + 9604 * x ^ 7 = A
    generalize 130200 * x ^ 4 + 122500 * x ^ 3 - 503388 * x ^ 5 + 96016 * x ^ 6 = B
    generalize 30625 * x ^ 2 + 2800 * x ^ 3 - 297462 * x ^ 4 + 418876 * x ^ 5 + 4801 * x ^ 6 = C
    intro hd hA'
    have h1 : 0 ≤ 4 * A * (A + B * m + C * m ^ 2) := by
      have e : 4 * A * (A + B * m + C * m ^ 2) = (2 * A + B * m) ^ 2 + (4 * A * C - B ^ 2) * m ^ 2 := by ring
      rw [e]
      have : 0 ≤ 4 * A * C - B ^ 2 := by linarith
      positivity
    exact nonneg_of_mul_nonneg_right h1 (by linarith)

/-- The certificate in terms of the bound on `p`. -/
theorem cert_bound {x m : ℝ} (hx : 0 < x) (hm : 0 ≤ m) :
    x * (m * ((25 / 24 * (x + m + 1) - (x + m)) ^ 2 + (x + m)) + 25 / 24 * ((x + m) * (x + m + 1) + x)) ^ 2 ≤
      (x + m) * (2 * x * (625 / 576 * (x + m + 1) - (x + m)) + 1 / 24 * m ^ 2 * (x + m + 1)) ^ 2 * (x + m + 1) +
      m * (2 * x * (625 / 576 * (x + m + 1) - (x + m)) + 1 / 24 * m ^ 2 * (x + m + 1)) * (x + m + 1) *
        (m * ((25 / 24 * (x + m + 1) - (x + m)) ^ 2 + (x + m)) + 25 / 24 * ((x + m) * (x + m + 1) + x)) := by
  have h := cert hx.le hm
  have e : 331776 * x * ((x + m) * (2 * x * (625 / 576 * (x + m + 1) - (x + m)) + 1 / 24 * m ^ 2 * (x + m + 1)) ^ 2 * (x + m + 1) +
      m * (2 * x * (625 / 576 * (x + m + 1) - (x + m)) + 1 / 24 * m ^ 2 * (x + m + 1)) * (x + m + 1) *
        (m * ((25 / 24 * (x + m + 1) - (x + m)) ^ 2 + (x + m)) + 25 / 24 * ((x + m) * (x + m + 1) + x)) -
      x * (m * ((25 / 24 * (x + m + 1) - (x + m)) ^ 2 + (x + m)) + 25 / 24 * ((x + m) * (x + m + 1) + x)) ^ 2) =
      122500 * x ^ 4 + 367500 * x ^ 5 - 105396 * x ^ 6 + 9604 * x ^ 7 +
      (130200 * x ^ 4 + 122500 * x ^ 3 - 503388 * x ^ 5 + 96016 * x ^ 6) * m +
      (30625 * x ^ 2 + 2800 * x ^ 3 - 297462 * x ^ 4 + 418876 * x ^ 5 + 4801 * x ^ 6) * m ^ 2 +
      (33604 * x ^ 5 * m ^ 3 + 103206 * x ^ 4 * m ^ 4 + 834172 * x ^ 4 * m ^ 3 + 156004 * x ^ 3 * m ^ 5 +
       837760 * x ^ 3 * m ^ 4 + 565656 * x ^ 3 * m ^ 3 + 600 * x ^ 5 * m ^ 4 + 2400 * x ^ 4 * m ^ 5 +
       3600 * x ^ 3 * m ^ 6 + 2400 * x ^ 2 * m ^ 7 + 112801 * x ^ 2 * m ^ 6 + 426052 * x ^ 2 * m ^ 5 +
       553926 * x ^ 2 * m ^ 4 + 268900 * x ^ 2 * m ^ 3 + 600 * x * m ^ 8 + 31200 * x * m ^ 7 + 90000 * x * m ^ 6 +
       88800 * x * m ^ 5 + 29400 * x * m ^ 4) := by ring
  have hr : 0 ≤ 33604 * x ^ 5 * m ^ 3 + 103206 * x ^ 4 * m ^ 4 + 834172 * x ^ 4 * m ^ 3 + 156004 * x ^ 3 * m ^ 5 +
       837760 * x ^ 3 * m ^ 4 + 565656 * x ^ 3 * m ^ 3 + 600 * x ^ 5 * m ^ 4 + 2400 * x ^ 4 * m ^ 5 +
       3600 * x ^ 3 * m ^ 6 + 2400 * x ^ 2 * m ^ 7 + 112801 * x ^ 2 * m ^ 6 + 426052 * x ^ 2 * m ^ 5 +
       553926 * x ^ 2 * m ^ 4 + 268900 * x ^ 2 * m ^ 3 + 600 * x * m ^ 8 + 31200 * x * m ^ 7 + 90000 * x * m ^ 6 +
       88800 * x * m ^ 5 + 29400 * x * m ^ 4 := by positivity
  have h2 := h.trans (le_add_of_nonneg_right hr)
  rw [← e] at h2
  have := nonneg_of_mul_nonneg_right h2 (by positivity)
  linarith

/-- `p ≤ N t/(x K)`. -/
theorem p_bound {x n m t K N p : ℝ} (hx : 0 < x) (hn : 0 < n) (hm : 0 ≤ m) (ht : 0 < t) (hK : 0 < K) (hN : 0 ≤ N) (hp : 0 < p)
    (e : x * n * p ^ 2 + m * t * p = t) (h : x * K ^ 2 ≤ n * N ^ 2 * t + m * N * t * K) : x * K * p ≤ N * t := by
  by_contra hc
  push Not at hc
  have h1 : (N * t) ^ 2 < (x * K * p) ^ 2 := pow_lt_pow_left₀ hc (by positivity) two_ne_zero
  have h2 : n * (N * t) ^ 2 < n * (x * K * p) ^ 2 := mul_lt_mul_of_pos_left h1 hn
  have h3 : m * t * K * (N * t) ≤ m * t * K * (x * K * p) := mul_le_mul_of_nonneg_left hc.le (by positivity)
  have h4 : x * K ^ 2 * t ≤ (n * N ^ 2 * t + m * N * t * K) * t := mul_le_mul_of_nonneg_right h ht.le
  have e2 : n * (x * K * p) ^ 2 + m * t * K * (x * K * p) = x * K ^ 2 * t := by
    calc n * (x * K * p) ^ 2 + m * t * K * (x * K * p) = x * K ^ 2 * (x * n * p ^ 2 + m * t * p) := by ring
      _ = _ := by rw [e]
  linarith

/-- `p` of the Li-Brooks formula, `n_LB = (x/2) p`. -/
noncomputable def s (m x : ℝ) : ℝ := √(m ^ 2 + 4 * (x * (x + m) / (x + m + 1)))

noncomputable def p (m x : ℝ) : ℝ := 2 / (m + s m x)

theorem s_pos {m x : ℝ} (hm : 0 ≤ m) (hx : 0 < x) : 0 < s m x := sqrt_pos.2 (by positivity)

theorem s_sq {m x : ℝ} (hm : 0 ≤ m) (hx : 0 < x) : s m x ^ 2 = m ^ 2 + 4 * (x * (x + m) / (x + m + 1)) := sq_sqrt (by positivity)

theorem p_pos {m x : ℝ} (hm : 0 ≤ m) (hx : 0 < x) : 0 < p m x := div_pos two_pos (by linarith [s_pos hm hx])

theorem p_eq {m x : ℝ} (hm : 0 ≤ m) (hx : 0 < x) : x * (x + m) * p m x ^ 2 + m * (x + m + 1) * p m x = x + m + 1 := by
  have hs := s_pos hm hx
  have e := s_sq hm hx
  have ht : 0 < x + m + 1 := by positivity
  unfold p
  generalize s m x = r at *
  have : m + r ≠ 0 := by positivity
  field_simp at e ⊢
  linarith

theorem s_eq {m x : ℝ} (hm : 0 ≤ m) (hx : 0 < x) : s m x * (x + m + 1) = m * (x + m + 1) + 2 * x * (x + m) * p m x := by
  have hs := s_pos hm hx
  have e := s_sq hm hx
  have ht : 0 < x + m + 1 := by positivity
  unfold p
  generalize s m x = r at *
  have : m + r ≠ 0 := by positivity
  field_simp at e ⊢
  linarith

theorem p_deriv {m x : ℝ} (hm : 0 ≤ m) (hx : 0 < x) :
    HasDerivAt (p m) (-(p m x ^ 2 * ((x + m) * (x + m + 1) + x) / ((x + m + 1) ^ 2 * s m x))) x := by
  have hs := s_pos hm hx
  have ht : x + m + 1 ≠ 0 := by positivity
  have h1 : HasDerivAt (fun x => x * (x + m) / (x + m + 1))
      (((1 * (x + m) + x * 1) * (x + m + 1) - x * (x + m) * 1) / (x + m + 1) ^ 2) x :=
    ((hasDerivAt_id' x).mul ((hasDerivAt_id' x).add_const m)).div (((hasDerivAt_id' x).add_const m).add_const 1) ht
  have h2 := ((h1.const_mul 4).const_add (m ^ 2)).sqrt (by positivity)
  have h3 : HasDerivAt (s m) _ x := h2
  have hne : m + s m x ≠ 0 := by positivity
  have h4 := (hasDerivAt_const x (2 : ℝ)).div (h3.const_add m) hne
  refine h4.congr_deriv ?_
  change (0 * (m + s m x) - 2 * (4 * (((1 * (x + m) + x * 1) * (x + m + 1) - x * (x + m) * 1) / (x + m + 1) ^ 2) / (2 * s m x))) / (m + s m x) ^ 2 = _
  unfold p
  generalize s m x = r at *
  field_simp
  ring

/-- `25/24 p` is a supersolution of `x h' = 1 - m h - x h²`. -/
theorem super {m x : ℝ} (hm : 0 ≤ m) (hx : 0 < x) :
    0 ≤ x * (25 / 24 * -(p m x ^ 2 * ((x + m) * (x + m + 1) + x) / ((x + m + 1) ^ 2 * s m x))) - 1 +
      x * (25 / 24 * p m x) ^ 2 + m * (25 / 24 * p m x) := by
  have hs := s_pos hm hx
  have hp := p_pos hm hx
  have e := p_eq hm hx
  have es := s_eq hm hx
  have ht : 0 < x + m + 1 := by positivity
  have hN : 0 ≤ 2 * x * (625 / 576 * (x + m + 1) - (x + m)) + 1 / 24 * m ^ 2 * (x + m + 1) := by
    have : 0 ≤ 625 / 576 * (x + m + 1) - (x + m) := by linarith
    positivity
  have b := p_bound hx (show 0 < x + m by positivity) hm ht (by positivity) hN hp e (cert_bound hx hm)
  generalize p m x = y at *
  generalize s m x = r at *
  have key : x * (25 / 24 * -(y ^ 2 * ((x + m) * (x + m + 1) + x) / ((x + m + 1) ^ 2 * r))) - 1 +
      x * (25 / 24 * y) ^ 2 + m * (25 / 24 * y) =
      y * ((2 * x * (625 / 576 * (x + m + 1) - (x + m)) + 1 / 24 * m ^ 2 * (x + m + 1)) * (x + m + 1) -
        x * (m * ((25 / 24 * (x + m + 1) - (x + m)) ^ 2 + (x + m)) + 25 / 24 * ((x + m) * (x + m + 1) + x)) * y) /
        ((x + m + 1) ^ 2 * r) := by
    rw [eq_div_iff (by positivity)]
    have : (x * (25 / 24 * -(y ^ 2 * ((x + m) * (x + m + 1) + x) / ((x + m + 1) ^ 2 * r))) - 1 +
      x * (25 / 24 * y) ^ 2 + m * (25 / 24 * y)) * ((x + m + 1) ^ 2 * r) =
      -(25 / 24 * x * y ^ 2 * ((x + m) * (x + m + 1) + x)) + (-1 + x * (25 / 24 * y) ^ 2 + m * (25 / 24 * y)) * ((x + m + 1) ^ 2 * r) := by
      field_simp
      ring
    rw [this]
    linear_combination ((x + m + 1) * r + y * 2 * x * (625 / 576 * (x + m + 1) - (x + m))) * e +
      y * (x * y * (625 / 576 * (x + m + 1) - (x + m)) + 1 / 24 * m * (x + m + 1)) * es
  rw [key]
  exact div_nonneg (mul_nonneg hp.le (by linarith)) (by positivity)

/-- Near zero. -/
theorem start {m x : ℝ} (hm : 0 ≤ m) (hx : 0 < x) (h : m = 0 ∧ x ≤ 1 / 12 ∨ 0 < m ∧ 25 * x ≤ m ^ 2) :
    g m x ≤ 25 / 24 * p m x * G m x := by
  have g0 := g_pos (m := m) (by linarith) hx
  have g1 := g_pos (m := m + 1) (by linarith) hx
  have hp := p_pos hm hx
  have e := p_eq hm hx
  unfold G
  rcases h with ⟨rfl, h⟩ | ⟨h0, h⟩
  · have g2 := g_pos (m := 0 + 1 + 1) (by norm_num) hx
    have g3 := g_pos (m := 0 + 1 + 2) (by norm_num) hx
    have r0 := g_rec (m := 0) (by norm_num) hx
    have r1 := g_rec (m := 0 + 1) (by norm_num) hx
    norm_num at *
    generalize p 0 x = y at *
    have hy : 1 ≤ x * y := by
      by_contra hc
      push Not at hc
      have : (x * y) ^ 2 < 1 := pow_lt_one₀ (by positivity) hc two_ne_zero
      linarith [show (x * y) ^ 2 = x * x * y ^ 2 by ring]
    have hg : g 0 x ≤ 25 / 24 * g 1 x := by nlinarith
    nlinarith
  · generalize p m x = y at *
    have hy : m * y ≤ 1 := by
      have : x * (x + m) * y ^ 2 ≥ 0 := by positivity
      by_contra hc
      push Not at hc
      nlinarith
    have hy2 : 24 / 25 ≤ m * y := by
      have h1 : x * (x + m) * y ^ 2 ≤ (x + m + 1) * (1 / 25) := by
        have h2 : x * y ^ 2 ≤ 1 / 25 := by
          have : (m * y) ^ 2 ≤ 1 := pow_le_one₀ (by positivity) hy
          nlinarith [sq_nonneg y]
        nlinarith
      by_contra hc
      push Not at hc
      nlinarith
    have : 0 < x * g (m + 1) x * y := by positivity
    nlinarith

theorem le_aux {m x : ℝ} (hm : 0 ≤ m) (hx : 0 < x) : g m x ≤ 25 / 24 * p m x * G m x := by
  obtain ⟨a, ha, hax, hs⟩ : ∃ a, 0 < a ∧ a ≤ x ∧ (m = 0 ∧ a ≤ 1 / 12 ∨ 0 < m ∧ 25 * a ≤ m ^ 2) := by
    rcases hm.eq_or_lt with h | h
    · exact ⟨min x (1 / 12), lt_min hx (by norm_num), min_le_left _ _, Or.inl ⟨h.symm, min_le_right _ _⟩⟩
    · refine ⟨min x (m ^ 2 / 25), lt_min hx (by positivity), min_le_left _ _, Or.inr ⟨h, ?_⟩⟩
      linarith [min_le_right x (m ^ 2 / 25)]
  have main := stays_nonneg (f := fun z => 25 / 24 * p m z * G m z - g m z)
    (f' := fun z => 25 / 24 * -(p m z ^ 2 * ((z + m) * (z + m + 1) + z) / ((z + m + 1) ^ 2 * s m z)) * G m z +
      25 / 24 * p m z * g m z - g (m + 1) z) hax ?_ (by linarith [start hm ha hs]) ?_
  · linarith
  · intro z hz
    have hz0 := ha.trans_le hz
    exact (((p_deriv hm hz0).const_mul _).mul (G_deriv hm hz0)).sub (g_deriv (by linarith) hz0)
  · intro z hz hf
    have hz0 := ha.trans hz
    have sup := super hm hz0
    have hG := G_pos hm hz0
    have hp := p_pos hm hz0
    have eG : G m z = m * g m z + z * g (m + 1) z := rfl
    generalize p m z ^ 2 * ((z + m) * (z + m + 1) + z) / ((z + m + 1) ^ 2 * s m z) = d at *
    generalize p m z = y at *
    generalize G m z = G at *
    generalize g (m + 1) z = g1 at *
    generalize g m z = g0 at *
    have h1 := mul_nonneg hG.le sup
    have h2 : 0 ≤ (z * (25 / 24 * y) + m) * (g0 - 25 / 24 * y * G) := mul_nonneg (by positivity) (by linarith)
    have h3 : 0 ≤ z * (25 / 24 * -d * G + 25 / 24 * y * g0 - g1) := by nlinarith
    exact nonneg_of_mul_nonneg_right h3 hz0

theorem upper {α m : ℝ} (hα : 0 < α) (hm : 0 ≤ m) : nbarOToole α m ≤ 25 / 24 * nbarLiBrooks α m := by
  have hx : 0 < 2 * α := by linarith
  have hG := G_pos hm hx
  rw [otoole_eq hα hm, div_le_iff₀ hG]
  have e : nbarLiBrooks α m = α * p m (2 * α) := by
    unfold nbarLiBrooks p s
    rw [show 4 * (2 * α * (2 * α + m) / (2 * α + m + 1)) = 8 * α * (2 * α + m) / (2 * α + m + 1) by ring]
    ring
  rw [e]
  have := mul_le_mul_of_nonneg_left (le_aux hm hx) hα.le
  linarith

end Verif.Kin.LiBrooks
