import Verif.Lemmas.RootsConv
import Verif.Lemmas.FixConv
import Verif.Lemmas.NDiffComplex
import Mathlib.Analysis.SpecialFunctions.ExpDeriv

/-!
# C132: the open solvers converge near a simple root

A simple root `r` of `F`: in the interval of radius `ρ` around it the slope lies between `m > 0` and `L` in magnitude, it is Lipschitz with constant `K`,
and `4 K ρ ≤ m`.
-/

namespace Verif

open RootsConv FixPoint

/-- **C132.** `root_newton` converges quadratically. Let `f` be analytic in the discs of radius `R` around the points of the interval, real on the
real axis and bounded by `B` there. From every starting point of the interval the call succeeds within `N + 1` iterations as soon as `tolf` covers
the error `2ρ/2^(2^N)` of the `N`-th iterate; the result lies within `max (tolf/m) (2 tolx)` of the root. Here `δ` is the error of the complex step,
`2 B eps²/R³` or `2 B eps²/R²`. -/
theorem C132_newton (f : ℂ → ℂ) (F' : ℝ → ℝ) (x0 r ρ m L K R B δ tolx tolf : ℝ) (maxiter N : ℕ) (hρ : 0 < ρ) (hm : 2⁻¹ ^ 51 < m) (hR : 2⁻¹ ^ 51 ≤ R)
    (hf : ∀ t : ℝ, |t - r| ≤ ρ → DiffContOnCl ℂ f (Metric.ball (t : ℂ) R)) (hB : ∀ t : ℝ, |t - r| ≤ ρ → ∀ z ∈ Metric.sphere (t : ℂ) R, ‖f z‖ ≤ B)
    (hreal : ∀ t : ℝ, (f t).im = 0) (hF : ∀ t, |t - r| ≤ ρ → HasDerivAt (fun t : ℝ => (f t).re) (F' t) t) (hr : f r = 0)
    (hl : ∀ t, |t - r| ≤ ρ → m ≤ |F' t| ∧ |F' t| ≤ L) (hK : ∀ s t, |s - r| ≤ ρ → |t - r| ≤ ρ → |F' s - F' t| ≤ K * |s - t|) (hK0 : 0 ≤ K)
    (hq : 4 * K * ρ ≤ m) (hδ3 : 2 * B * (2⁻¹ ^ 52) ^ 2 / R ^ 3 ≤ δ) (hδ2 : 2 * B * (2⁻¹ ^ 52 / R) ^ 2 ≤ δ) (hδ : 16 * δ * (1 + ρ) ≤ m * ρ) (hδm : 2 * δ ≤ m)
    (hx0 : |x0 - r| ≤ ρ) (hN : N < maxiter) (htol : L * (2 * ρ * (1 / 2) ^ 2 ^ N + 8 * δ * (1 + ρ) / m) + δ ≤ tolf) :
    ∃ res calls, rootNewton (fun z : ℝ × ℝ => ((f ⟨z.1, z.2⟩).re, (f ⟨z.1, z.2⟩).im)) x0 tolx tolf maxiter = .ok (res, calls) ∧
      res.success = true ∧ calls.length ≤ N + 1 ∧ |res.x - r| ≤ ρ ∧ |res.x - r| ≤ max ((tolf + δ) / m) (2 * tolx + 4 * δ * (1 + ρ) / m) := by
  have e0 : (eps : ℝ) = 2⁻¹ ^ 52 := by unfold eps; norm_num
  have hR0 : 0 < R := lt_of_lt_of_le (by positivity) hR
  have hm0 : 0 < m := lt_trans (by positivity) hm
  have hδ0 : 0 ≤ δ := by
    have : 0 ≤ B := (norm_nonneg _).trans (hB r (by simpa using hρ.le) (r + R) (by simp [abs_of_pos hR0]))
    exact le_trans (by positivity) hδ2
  have hs : ∀ t, |t - r| ≤ ρ → |(derivativeComplex (fun z : ℝ × ℝ => ((f ⟨z.1, z.2⟩).re, (f ⟨z.1, z.2⟩).im)) t).1 - F' t| ≤ δ ∧
      |(derivativeComplex (fun z : ℝ × ℝ => ((f ⟨z.1, z.2⟩).re, (f ⟨z.1, z.2⟩).im)) t).2 - (f t).re| ≤ δ := by
    intro t ht
    have he := eps_pos (α := ℝ)
    obtain ⟨h1, h2⟩ := NDiff.complex_analytic he (by rw [e0]; exact le_trans (by norm_num) hR) (hf t ht) (hB t ht) (fun s _ => hreal s)
    have hx : (t : ℂ) ∈ Metric.ball (t : ℂ) R := Metric.mem_ball_self hR0
    have hd' := ((hf t ht).differentiableAt Metric.isOpen_ball hx).hasDerivAt.real_of_complex
    rw [hd'.unique (hF t ht)] at h1
    refine ⟨le_trans ?_ hδ3, le_trans (by rw [← e0]; exact h2) hδ2⟩
    simp only [derivativeComplex]
    rw [← e0]
    have e1 : (f ⟨t, eps⟩).im / eps - F' t = ((f ⟨t, eps⟩).im - eps * F' t) / eps := by field_simp
    rw [e1, abs_div, abs_of_pos he, div_le_iff₀ he]
    refine h1.trans (le_of_eq ?_)
    rw [div_pow]
    ring
  obtain ⟨res, tr, h1, h2, h3, h4, h5⟩ := newton_loop (tolx := tolx) hρ hm0 hδ0 hF (by rw [hr]; rfl) hl hK0 hK hq hδ (by linarith)
    (by rw [e0]; linarith [show (2 : ℝ) * 2⁻¹ ^ 52 = 2⁻¹ ^ 51 by norm_num]) hs hN htol maxiter 0 x0 none 0 [] (by simp) (Nat.zero_le _) hx0
    (by have : 0 ≤ 8 * δ * (1 + ρ) / m := by positivity
        norm_num; linarith)
  refine ⟨res, tr, h1, h2, ?_, h4, h5⟩
  have := newtonLoop_spec _ x0 tolx tolf maxiter maxiter 0 x0 none [] res tr (by simp) (by simp) (by simp) (by simp) (by simp) h1
  rw [this.2.2.2.1]
  simpa using h3

/-- **C132.** `root_secant` converges with the order of the golden ratio: from two starting points of the interval more than `tolx` apart, the
call succeeds within `N + 1` iterations as soon as `tolf` covers the error `2ρ/2^fib(N+3)`, and the result lies within
`max tolx (tolf/m)` of the root. (`tolx` must not be below the rounding threshold `eps·max(Lρ,1)/m` under which a difference of values counts as zero.) -/
theorem C132_secant (F F' : ℝ → ℝ) (x0 x1 r ρ m L K tolx tolf : ℝ) (maxiter N : ℕ) (hρ : 0 < ρ) (hm : 0 < m)
    (hF : ∀ t, |t - r| ≤ ρ → HasDerivAt F (F' t) t) (hr : F r = 0) (hl : ∀ t, |t - r| ≤ ρ → m ≤ |F' t| ∧ |F' t| ≤ L)
    (hK : ∀ s t, |s - r| ≤ ρ → |t - r| ≤ ρ → |F' s - F' t| ≤ K * |s - t|) (hK0 : 0 ≤ K) (hq : 4 * K * ρ ≤ m)
    (heps : 2⁻¹ ^ 52 * max (L * ρ) 1 ≤ m * tolx) (hx0 : |x0 - r| ≤ ρ) (hx1 : |x1 - r| ≤ ρ) (hx : tolx < |x1 - x0|)
    (hN : N < maxiter) (htol : L * (2 * ρ * (1 / 2) ^ Nat.fib (N + 3)) ≤ tolf) :
    ∃ res calls x, rootSecant F x0 x1 tolx tolf maxiter = .ok (res, calls) ∧ res.success = true ∧ res.niter ≤ N + 1 ∧ calls.length ≤ N + 3 ∧
      res.x = some x ∧ |x - r| ≤ ρ ∧ |x - r| ≤ max tolx (tolf / m) := by
  have e0 : (eps : ℝ) = 2⁻¹ ^ 52 := by unfold eps; norm_num
  have htx : 0 ≤ tolx := by
    have h1 : 0 < 2⁻¹ ^ 52 * max (L * ρ) 1 := mul_pos (by positivity) (lt_of_lt_of_le one_pos (le_max_right _ _))
    by_contra h
    push Not at h
    have := mul_neg_of_pos_of_neg hm h
    linarith
  have acc : ∀ x, |x - r| ≤ ρ → |F x| ≤ tolf → |x - r| ≤ max tolx (tolf / m) := by
    intro x hx h
    obtain ⟨ξ, g1, _, _, g4⟩ := chord hF (a := r) (b := x) (by simpa using hρ.le) hx
    rw [hr, sub_zero] at g4
    refine le_max_of_le_right ?_
    rw [le_div_iff₀ hm]
    have := mul_le_mul_of_nonneg_right (hl ξ g1).1 (abs_nonneg (x - r))
    rw [← abs_mul, ← g4] at this
    linarith
  by_cases c1 : |F x0| ≤ tolf
  · refine ⟨⟨true, .tolf, 1, 0, some x0, some (F x0)⟩, [x0], x0, ?_, rfl, by simp, by simp, rfl, hx0, acc x0 hx0 c1⟩
    unfold rootSecant
    dsimp only
    rw [if_pos c1]
  by_cases c2 : |F x1| ≤ tolf
  · refine ⟨⟨true, .tolf, 2, 0, some x1, some (F x1)⟩, [x0, x1], x1, ?_, rfl, by simp, by simp, rfl, hx1, acc x1 hx1 c2⟩
    unfold rootSecant
    dsimp only
    rw [if_neg c1, if_pos c2]
  obtain ⟨res, tr, x, h1, h2, h3, h4, h5, h6⟩ := secant_loop (tolf := tolf) hρ hm hF hr hl hK0 hK hq htx (by rw [e0]; exact heps) hN htol maxiter 0 x0 x1
    none none 2 [x0, x1] (by simp) (Nat.zero_le _) hx0 hx1 (by norm_num; linarith) (by norm_num; linarith) hx
  have sp := secantLoop_spec F x0 x1 tolx tolf maxiter maxiter 0 none none res tr (by simp) (by simp) (by simp) (by simpa [secantSeq] using c2)
    (by simpa [secantSeq, List.range_succ] using h1)
  refine ⟨res, tr, x, ?_, h2, h3, ?_, h4, h5, h6⟩
  · unfold rootSecant
    dsimp only
    rw [if_neg c1, if_neg c2]
    exact h1
  · rw [sp.1, List.length_map, List.length_range, (sp.2.2.2.2.2.2.1 h2).1]
    omega

/-- **C132.** `fixpoint_wegstein` converges for every start and every bounds with `qmin ≤ 0 ≤ qmax` (the defaults are -5 and 0) when the components are
uncoupled, `g(x)_i = h_i(x_i)`, and the slope of each `h_i` is at most `lam < 1/3` in magnitude: the error shrinks by `2 lam/(1 - lam)` per iteration. -/
theorem C132_wegstein {α : Type*} [Field α] [LinearOrder α] [IsStrictOrderedRing α] {n : ℕ} (h : Fin n → α → α) (p x0 sclx : Fin n → α)
    (lam tolx qmin qmax : α) (wait maxiter N : ℕ) (hl0 : 0 ≤ lam) (hl : lam < 1 / 3) (hh : ∀ i u v, |h i u - h i v| ≤ lam * |u - v|)
    (hp : ∀ i, h i (p i) = p i) (hq1 : qmin ≤ 0) (hq2 : 0 ≤ qmax) (hN : N < maxiter)
    (htol : ∀ i, |sclx i| * ((1 + lam) * ((2 * lam / (1 - lam)) ^ N * |x0 i - p i|)) ≤ tolx) :
    ∃ r calls, fixpointWegstein (fun x i => h i (x i)) x0 sclx tolx qmin qmax wait maxiter = .ok (r, calls) ∧ r.success = true ∧ calls.length ≤ N + 1 ∧
      ∀ i, |sclx i| * |r.x i - p i| ≤ tolx / (1 - lam) := by
  have hd : 0 < 1 - lam := by linarith
  have hκ : lam ≤ 2 * lam / (1 - lam) := by
    rw [le_div_iff₀ hd]
    have := mul_nonneg hl0 (by linarith : 0 ≤ 1 + lam)
    linarith
  have hκ0 : 0 ≤ 2 * lam / (1 - lam) := hl0.trans hκ
  have lip : ∀ i u, |h i u - p i| ≤ lam * |u - p i| := fun i u => by simpa [hp i] using hh i u (p i)
  obtain ⟨r, tr, h1, h2, h3, h4⟩ := wegstein_loop (g := fun x i => h i (x i)) (sclx := sclx) (tolx := tolx) (qmin := qmin) (qmax := qmax) (wait := max wait 1)
    (maxiter := maxiter) (N := N) (fun k x => ∀ i, |x i - p i| ≤ (2 * lam / (1 - lam)) ^ k * |x0 i - p i|)
    (by
      intro k x hx i
      refine (lip i (x i)).trans ?_
      rw [pow_succ', mul_assoc]
      exact mul_le_mul hκ (hx i) (abs_nonneg _) hκ0)
    (by
      intro k x xm hx i
      have hQ := wegsteinQ_le hl0 (by linarith) hq1 hq2 (hh i (x i) (xm i))
      simp only
      generalize wegsteinQ qmin qmax (x i - xm i) (h i (x i) - h i (xm i)) = q at *
      have e1 : q * x i + (1 - q) * h i (x i) - p i = q * (x i - p i) + (1 - q) * (h i (x i) - p i) := by ring
      rw [e1]
      have t1 := abs_add_le (q * (x i - p i)) ((1 - q) * (h i (x i) - p i))
      rw [abs_mul, abs_mul] at t1
      have t2 : |1 - q| ≤ 1 + lam / (1 - lam) := by have := abs_sub 1 q; rw [abs_one] at this; linarith
      have t3 : |q| * |x i - p i| ≤ lam / (1 - lam) * |x i - p i| := mul_le_mul_of_nonneg_right hQ (abs_nonneg _)
      have t4 : |1 - q| * |h i (x i) - p i| ≤ (1 + lam / (1 - lam)) * (lam * |x i - p i|) :=
        mul_le_mul t2 (lip i (x i)) (abs_nonneg _) (by positivity)
      have e2 : lam / (1 - lam) * |x i - p i| + (1 + lam / (1 - lam)) * (lam * |x i - p i|) = 2 * lam / (1 - lam) * |x i - p i| := by
        field_simp; ring
      rw [pow_succ', mul_assoc]
      have := mul_le_mul_of_nonneg_left (hx i) hκ0
      linarith)
    hN
    (by
      intro x hx i
      rw [abs_mul]
      refine le_trans (mul_le_mul_of_nonneg_left ?_ (abs_nonneg _)) (htol i)
      have t1 := abs_sub (h i (x i) - p i) (x i - p i)
      rw [sub_sub_sub_cancel_right] at t1
      have := mul_le_mul_of_nonneg_left (hx i) (by linarith : 0 ≤ 1 + lam)
      linarith [lip i (x i)])
    maxiter 0 x0 none 0 [] (by simp) (Nat.zero_le _) (by intro i; simp) (by simp)
  refine ⟨r, tr, h1, h2, ?_, fun i => ?_⟩
  · have := wegsteinLoop_spec _ x0 sclx tolx qmin qmax (max wait 1) maxiter maxiter 0 x0 none [] r tr (by simp) (by simp) (by split_ifs <;> rfl) (by simp)
      (by simp) (by simp) h1
    rw [this.2.2.2.1]
    simpa using h3
  · rw [le_div_iff₀ hd]
    have := h4 i
    rw [abs_mul] at this
    refine le_trans ?_ this
    rw [mul_assoc]
    refine mul_le_mul_of_nonneg_left ?_ (abs_nonneg _)
    have t1 := abs_sub_abs_le_abs_sub (r.x i - p i) (h i (r.x i) - p i)
    rw [sub_sub_sub_cancel_right, abs_sub_comm (r.x i) (h i (r.x i))] at t1
    linarith [lip i (r.x i)]

/-- **C132.** Without acceleration (`qmin = qmax = 0`) `fixpoint_wegstein` is direct substitution, and it converges for every `g`, coupled or not, that
contracts the weighted maximum norm towards the fixed point. -/
theorem C132_substitution {α : Type*} [Field α] [LinearOrder α] [IsStrictOrderedRing α] {n : ℕ} (g : (Fin n → α) → Fin n → α) (p x0 w sclx : Fin n → α)
    (lam tolx D : α) (wait maxiter N : ℕ) (hl0 : 0 ≤ lam) (hl : lam < 1) (hg : ∀ x E, (∀ i, |x i - p i| ≤ E * w i) → ∀ i, |g x i - p i| ≤ lam * E * w i)
    (hx0 : ∀ i, |x0 i - p i| ≤ D * w i) (hN : N < maxiter) (htol : ∀ i, |sclx i| * ((1 + lam) * lam ^ N * D * w i) ≤ tolx) :
    ∃ r calls, fixpointWegstein g x0 sclx tolx 0 0 wait maxiter = .ok (r, calls) ∧ r.success = true ∧ calls.length ≤ N + 1 ∧
      ∀ i, |sclx i * (g r.x i - r.x i)| ≤ tolx := by
  have q0 : ∀ a b : α, wegsteinQ 0 0 a b = 0 := by
    intro a b
    unfold wegsteinQ clip
    dsimp only
    split_ifs <;> simp
  have next : ∀ k x, (∀ i, |x i - p i| ≤ lam ^ k * D * w i) → ∀ i, |g x i - p i| ≤ lam ^ (k + 1) * D * w i := by
    intro k x hx i
    have := hg x (lam ^ k * D) hx i
    rw [pow_succ']
    linarith
  obtain ⟨r, tr, h1, h2, h3, h4⟩ := wegstein_loop (g := g) (sclx := sclx) (tolx := tolx) (qmin := 0) (qmax := 0) (wait := max wait 1)
    (maxiter := maxiter) (N := N) (fun k x => ∀ i, |x i - p i| ≤ lam ^ k * D * w i) next
    (by intro k x xm hx i; simp only [q0]; simpa using next k x hx i) hN
    (by
      intro x hx i
      rw [abs_mul]
      refine le_trans (mul_le_mul_of_nonneg_left ?_ (abs_nonneg _)) (htol i)
      have t1 := abs_sub (g x i - p i) (x i - p i)
      rw [sub_sub_sub_cancel_right] at t1
      have h5 := next N x hx i
      rw [pow_succ'] at h5
      linarith [hx i])
    maxiter 0 x0 none 0 [] (by simp) (Nat.zero_le _) (by intro i; simpa using hx0 i) (by simp)
  refine ⟨r, tr, h1, h2, ?_, h4⟩
  have := wegsteinLoop_spec _ x0 sclx tolx 0 0 (max wait 1) maxiter maxiter 0 x0 none [] r tr (by simp) (by simp) (by split_ifs <;> rfl) (by simp)
    (by simp) (by simp) h1
  rw [this.2.2.2.1]
  simpa using h3

/-- A contraction of the real line: two straight pieces, slopes -145/204 and 12/17, through (-1, 16), (11, 127/17) and (16, 11). -/
noncomputable def bent (u : ℝ) : ℝ := if u ≤ 11 then 127 / 17 - 145 / 204 * (u - 11) else 127 / 17 + 12 / 17 * (u - 11)

/-- **C132.** The acceleration can destroy convergence: with its default parameters `fixpoint_wegstein` does not converge for every contraction. `bent`
contracts distances by 145/204 < 0.72, so direct substitution converges from everywhere, but from 16 the accelerated iterates run through
16, 11, -1, 16, … for ever: whatever the iteration limit, the call reports failure. -/
theorem C132_wegstein_contraction_false : (∀ u v, |bent u - bent v| ≤ 145 / 204 * |u - v|) ∧
    ∀ (tolx : ℝ) (maxiter : ℕ), tolx < 60 / 17 → maxiter ≠ 0 →
      ∃ r calls, fixpointWegstein (n := 1) (fun x i => bent (x i)) (fun _ => 16) (fun _ => 1) tolx (-5) 0 1 maxiter = .ok (r, calls) ∧ r.success = false ∧
        r.nfeval = maxiter := by
  have b16 : bent 16 = 11 := by unfold bent; norm_num
  have b11 : bent 11 = 127 / 17 := by unfold bent; norm_num
  have b1 : bent (-1) = 16 := by unfold bent; norm_num
  constructor
  · intro u v
    unfold bent
    split_ifs with h1 h2 h2
    · rw [show 127 / 17 - 145 / 204 * (u - 11) - (127 / 17 - 145 / 204 * (v - 11)) = -(145 / 204 * (u - v)) by ring, abs_neg, abs_mul, abs_of_pos (by norm_num : (0 : ℝ) < 145 / 204)]
    · push Not at h2
      rw [abs_of_neg (by linarith : u - v < 0), abs_le]
      constructor <;> linarith
    · push Not at h1
      rw [abs_of_pos (by linarith : 0 < u - v), abs_le]
      constructor <;> linarith
    · rw [show 127 / 17 + 12 / 17 * (u - 11) - (127 / 17 + 12 / 17 * (v - 11)) = 12 / 17 * (u - v) by ring, abs_mul, abs_of_pos (by norm_num : (0 : ℝ) < 12 / 17)]
      exact mul_le_mul_of_nonneg_right (by norm_num) (abs_nonneg _)
  intro tolx maxiter ht hm
  have e1 : (eps : ℝ) < 1 := by unfold eps; norm_num
  have q1 : wegsteinQ (-5) 0 ((11 : ℝ) - 16) (127 / 17 - 11) = -12 / 5 := by
    unfold wegsteinQ clip
    dsimp only
    rw [if_pos (show |(11 : ℝ) - 16| > eps by norm_num [abs_of_neg]; linarith)]
    norm_num
  have q2 : wegsteinQ (-5) 0 ((-1 : ℝ) - 11) (16 - 127 / 17) = 0 := by
    unfold wegsteinQ clip
    dsimp only
    rw [if_pos (show |(-1 : ℝ) - 11| > eps by norm_num [abs_of_neg]; linarith)]
    norm_num
  have q3 : wegsteinQ (-5) 0 ((16 : ℝ) - -1) (11 - 16) = 0 := by
    unfold wegsteinQ clip
    dsimp only
    rw [if_pos (show |(16 : ℝ) - -1| > eps by norm_num [abs_of_pos]; linarith)]
    norm_num
  -- the state of the loop is one of three
  have key : ∀ m k x st calls, m + k = maxiter → (1 ≤ k → st ≠ none) → m ≠ 0 →
      ((x = (fun _ : Fin 1 => (16 : ℝ)) ∧ (k = 0 ∧ st = none ∨ 1 ≤ k ∧ ∃ fx, st = some (fun _ => -1, fun _ => 16, fx))) ∨
        (1 ≤ k ∧ x = (fun _ => 11) ∧ ∃ fx, st = some (fun _ => 16, fun _ => 11, fx)) ∨
        (1 ≤ k ∧ x = (fun _ => -1) ∧ ∃ fx, st = some (fun _ => 11, fun _ => 127 / 17, fx))) →
      ∃ r tr, wegsteinLoop (n := 1) (fun x i => bent (x i)) (fun _ => 1) tolx (-5) 0 1 maxiter m k x st k calls = .ok (r, tr) ∧ r.success = false ∧
        r.nfeval = maxiter := by
    intro m
    induction m with
    | zero => intro k x st calls _ _ h; exact absurd rfl h
    | succ m ih =>
      intro k x st calls hk hst _ hx
      unfold wegsteinLoop
      dsimp only
      have hno : ¬scaledNormLe (fun _ : Fin 1 => (1 : ℝ)) (fun i => bent (x i) - x i) tolx := by
        intro h
        have := h 0
        rcases hx with ⟨rfl, _⟩ | ⟨_, rfl, _⟩ | ⟨_, rfl, _⟩
        · simp only [b16] at this; norm_num at this; linarith
        · simp only [b11] at this; norm_num [abs_of_neg] at this; linarith
        · simp only [b1] at this; norm_num [abs_of_pos] at this; linarith
      rw [if_neg hno]
      rcases Nat.eq_zero_or_pos m with h0 | h0
      · subst h0
        unfold wegsteinLoop
        exact ⟨_, _, rfl, rfl, by simp only; omega⟩
      rw [if_pos (by omega)]
      refine ih (k + 1) _ _ _ (by omega) (by simp) h0.ne' ?_
      rcases hx with ⟨rfl, hh⟩ | ⟨h1, rfl, fx, rfl⟩ | ⟨h1, rfl, fx, rfl⟩
      · refine Or.inr (Or.inl ⟨by omega, ?_, ?_⟩)
        · rcases hh with ⟨_, rfl⟩ | ⟨h1, fx, rfl⟩
          · simp only [b16]
          · simp only [wegsteinNext, if_neg (by omega : ¬k < 1), b16, q3]
            funext i; norm_num
        · exact ⟨_, by simp only [b16]; rfl⟩
      · refine Or.inr (Or.inr ⟨by omega, ?_, ⟨_, by simp only [b11]; rfl⟩⟩)
        simp only [wegsteinNext, if_neg (by omega : ¬k < 1), b11, q1]
        funext i; norm_num
      · refine Or.inl ⟨?_, Or.inr ⟨by omega, _, by simp only [b1]; rfl⟩⟩
        simp only [wegsteinNext, if_neg (by omega : ¬k < 1), b1, q2]
        funext i; norm_num
  exact key maxiter 0 _ none [] (by simp) (by simp) hm (Or.inl ⟨rfl, Or.inl ⟨rfl, rfl⟩⟩)

-- the hypotheses can be met: `z² + z` near its root 0, with the default tolerances
example : ∃ res calls, rootNewton (fun z : ℝ × ℝ => (((⟨z.1, z.2⟩ : ℂ) ^ 2 + (⟨z.1, z.2⟩ : ℂ)).re, ((⟨z.1, z.2⟩ : ℂ) ^ 2 + (⟨z.1, z.2⟩ : ℂ)).im)) (1 / 20) 1e-6 1e-6 50 =
    .ok (res, calls) ∧ res.success = true ∧ calls.length ≤ 6 ∧ |res.x| ≤ 3e-6 := by
  obtain ⟨res, calls, h1, h2, h3, _, h5⟩ := C132_newton (fun z => z ^ 2 + z) (fun t => 2 * t + 1) (1 / 20) 0 (1 / 16) (7 / 8) (9 / 8) 2 1 3 (1 / 10 ^ 20)
    1e-6 1e-6 50 5 (by norm_num) (by norm_num) (by norm_num) (fun t _ => (by fun_prop : Differentiable ℂ fun z : ℂ => z ^ 2 + z).diffContOnCl)
    (by
      intro t ht z hz
      have h1 : ‖z - t‖ = 1 := by simpa [Complex.dist_eq] using hz
      have h2 : ‖z‖ ≤ 17 / 16 := by
        have := norm_add_le (z - t) t
        rw [sub_add_cancel, h1, Complex.norm_real, Real.norm_eq_abs] at this
        rw [sub_zero] at ht
        linarith
      calc ‖z ^ 2 + z‖ ≤ ‖z‖ ^ 2 + ‖z‖ := by rw [← norm_pow]; exact norm_add_le _ _
        _ ≤ (17 / 16) ^ 2 + 17 / 16 := by gcongr
        _ ≤ 3 := by norm_num)
    (by intro t; rw [← Complex.ofReal_pow, ← Complex.ofReal_add, Complex.ofReal_im])
    (by
      intro t _
      have e : (fun t : ℝ => ((t : ℂ) ^ 2 + t).re) = fun t => t ^ 2 + t := by
        funext t; rw [← Complex.ofReal_pow, ← Complex.ofReal_add, Complex.ofReal_re]
      rw [e]
      simpa using (hasDerivAt_pow 2 t).fun_add (hasDerivAt_id' t))
    (by simp)
    (by
      intro t ht
      rw [sub_zero, abs_le] at ht
      rw [abs_of_nonneg (by linarith [ht.1])]
      constructor <;> linarith [ht.1, ht.2])
    (by intro s t _ _; rw [show 2 * s + 1 - (2 * t + 1) = 2 * (s - t) by ring, abs_mul, abs_of_pos (by norm_num : (0 : ℝ) < 2)])
    (by norm_num) (by norm_num) (by norm_num) (by norm_num) (by norm_num) (by norm_num) (by norm_num [abs_of_pos]) (by norm_num) (by norm_num)
  refine ⟨res, calls, h1, h2, h3, ?_⟩
  rw [sub_zero] at h5
  refine h5.trans (max_le ?_ ?_) <;> norm_num

-- the hypotheses can be met: the same function from 1/20 and 1/25
example : ∃ res calls x, rootSecant (fun t : ℝ => t ^ 2 + t) (1 / 20) (1 / 25) 1e-6 1e-6 50 = .ok (res, calls) ∧ res.success = true ∧ res.niter ≤ 6 ∧
    calls.length ≤ 8 ∧ res.x = some x ∧ |x| ≤ 2e-6 := by
  obtain ⟨res, calls, x, h1, h2, h3, h4, h5, _, h6⟩ := C132_secant (fun t => t ^ 2 + t) (fun t => 2 * t + 1) (1 / 20) (1 / 25) 0 (1 / 16) (7 / 8) (9 / 8) 2
    1e-6 1e-6 50 5 (by norm_num) (by norm_num)
    (fun t _ => by simpa using (hasDerivAt_pow 2 t).fun_add (hasDerivAt_id' t)) (by norm_num)
    (by
      intro t ht
      rw [sub_zero, abs_le] at ht
      rw [abs_of_nonneg (by linarith [ht.1])]
      constructor <;> linarith [ht.1, ht.2])
    (by intro s t _ _; rw [show 2 * s + 1 - (2 * t + 1) = 2 * (s - t) by ring, abs_mul, abs_of_pos (by norm_num : (0 : ℝ) < 2)])
    (by norm_num) (by norm_num) (by norm_num) (by norm_num [abs_of_pos]) (by norm_num [abs_of_pos]) (by norm_num [abs_of_neg]) (by norm_num)
    (by norm_num [show Nat.fib (5 + 3) = 21 by decide])
  refine ⟨res, calls, x, h1, h2, h3, h4, h5, ?_⟩
  rw [sub_zero] at h6
  refine h6.trans (max_le ?_ ?_) <;> norm_num

-- the hypotheses can be met: slopes 1/4 and -1/4; a coupled contraction
example : ∃ r calls, fixpointWegstein (n := 2) (fun x i => if i = 0 then x i / 4 + 3 else -x i / 4 + 5) (fun _ => (0 : ℚ)) (fun _ => 1) (1 / 1000) (-5) 0 1 50 =
    .ok (r, calls) ∧ r.success = true := by
  obtain ⟨r, calls, h1, h2, _⟩ := C132_wegstein (n := 2) (fun i u => if i = 0 then u / 4 + 3 else -u / 4 + 5) (fun _ => (4 : ℚ)) (fun _ => 0) (fun _ => 1)
    (1 / 4) (1 / 1000) (-5) 0 1 50 25 (by norm_num) (by norm_num)
    (by
      intro i u v
      split_ifs
      · rw [show u / 4 + 3 - (v / 4 + 3) = 1 / 4 * (u - v) by ring, abs_mul, abs_of_pos (by norm_num : (0 : ℚ) < 1 / 4)]
      · rw [show -u / 4 + 5 - (-v / 4 + 5) = -(1 / 4) * (u - v) by ring, abs_mul, abs_neg, abs_of_pos (by norm_num : (0 : ℚ) < 1 / 4)])
    (by intro i; split_ifs <;> norm_num) (by norm_num) (by norm_num) (by norm_num) (by intro i; norm_num)
  exact ⟨r, calls, h1, h2⟩

example : ∃ r calls, fixpointWegstein (n := 2) (fun x i => x (1 - i) / 2 + 1) (fun _ => (0 : ℚ)) (fun _ => 1) (1 / 1000) 0 0 1 50 = .ok (r, calls) ∧
    r.success = true := by
  obtain ⟨r, calls, h1, h2, _⟩ := C132_substitution (n := 2) (fun x i => x (1 - i) / 2 + 1) (fun _ => (2 : ℚ)) (fun _ => 0) (fun _ => 1) (fun _ => 1) (1 / 2)
    (1 / 1000) 2 1 50 20 (by norm_num) (by norm_num)
    (by
      intro x E hx i
      rw [show x (1 - i) / 2 + 1 - 2 = 1 / 2 * (x (1 - i) - 2) by ring, abs_mul, abs_of_pos (by norm_num : (0 : ℚ) < 1 / 2), mul_assoc]
      exact mul_le_mul_of_nonneg_left (hx (1 - i)) (by norm_num))
    (by intro i; norm_num) (by norm_num) (by intro i; norm_num)
  exact ⟨r, calls, h1, h2⟩

end Verif
