import Verif.Lemmas.DiffusionPde

/-! # C89: the concentration profiles solve the diffusion equation -/

namespace Verif.Diffusion

open Real Finset Filter Topology

/-- Specification: at the point `(t, x)`, `u` satisfies `∂u/∂t = D (∂²u/∂x² + (k/x) ∂u/∂x)`, with `k = 0` for plane and `k = 2` for spherical geometry. -/
def Diffuses (k D : ℝ) (u : ℝ → ℝ → ℝ) (t x : ℝ) : Prop :=
  ∃ (ux : ℝ → ℝ) (uxx : ℝ), (∀ᶠ y in 𝓝 x, HasDerivAt (u t) (ux y) y) ∧ HasDerivAt ux uxx x ∧
    HasDerivAt (fun s => u s x) (D * (uxx + k / x * ux x)) t

theorem Diffuses.add {D t x : ℝ} {u v : ℝ → ℝ → ℝ} (hu : Diffuses 0 D u t x) (hv : Diffuses 0 D v t x) :
    Diffuses 0 D (fun t x => u t x + v t x) t x := by
  obtain ⟨ux, uxx, h1, h2, h3⟩ := hu
  obtain ⟨vx, vxx, k1, k2, k3⟩ := hv
  refine ⟨fun y => ux y + vx y, uxx + vxx, ?_, h2.add k2, (h3.add k3).congr_deriv (by ring)⟩
  filter_upwards [h1, k1] with y a b using a.add b

theorem Diffuses.smul {D t x : ℝ} {u : ℝ → ℝ → ℝ} (hu : Diffuses 0 D u t x) (c : ℝ) :
    Diffuses 0 D (fun t x => c * u t x) t x := by
  obtain ⟨ux, uxx, h1, h2, h3⟩ := hu
  refine ⟨fun y => c * ux y, c * uxx, ?_, h2.const_mul c, (h3.const_mul c).congr_deriv (by ring)⟩
  filter_upwards [h1] with y a using a.const_mul c

theorem Diffuses.sub {D t x : ℝ} {u v : ℝ → ℝ → ℝ} (hu : Diffuses 0 D u t x) (hv : Diffuses 0 D v t x) :
    Diffuses 0 D (fun t x => u t x - v t x) t x := by
  have := hu.add (hv.smul (-1))
  simpa only [neg_one_mul, ← sub_eq_add_neg] using this

theorem Diffuses.congr {k D t x : ℝ} {u v : ℝ → ℝ → ℝ} (hu : Diffuses k D u t x) (h1 : ∀ᶠ y in 𝓝 x, v t y = u t y)
    (h2 : ∀ᶠ s in 𝓝 t, v s x = u s x) : Diffuses k D v t x := by
  obtain ⟨ux, uxx, a1, a2, a3⟩ := hu
  refine ⟨ux, uxx, ?_, a2, a3.congr_of_eventuallyEq h2⟩
  have := h1.eventually_nhds
  filter_upwards [a1, this] with y hy hv
  exact hy.congr_of_eventuallyEq hv

theorem diffuses_const (D c t x : ℝ) : Diffuses 0 D (fun _ _ => c) t x :=
  ⟨fun _ => 0, 0, Eventually.of_forall fun y => hasDerivAt_const y c, hasDerivAt_const x 0, (hasDerivAt_const t c).congr_deriv (by simp)⟩

/-- A solution in plane geometry divided by the radius solves the equation in spherical geometry. -/
theorem Diffuses.radial {D t r : ℝ} {v : ℝ → ℝ → ℝ} (hv : Diffuses 0 D v t r) (hr : r ≠ 0) :
    Diffuses 2 D (fun t r => v t r / r) t r := by
  obtain ⟨vx, vxx, h1, h2, h3⟩ := hv
  have h0 := h1.self_of_nhds
  refine ⟨fun y => (vx y * y - v t y * 1) / y ^ 2, ((vxx * r + vx r * 1 - vx r * 1) * r ^ 2 - (vx r * r - v t r * 1) * (2 * r)) / (r ^ 2) ^ 2, ?_, ?_, ?_⟩
  · filter_upwards [h1, eventually_ne_nhds hr] with y a b
    exact a.div (hasDerivAt_id y) b
  · have hp : HasDerivAt (fun y : ℝ => y ^ 2) (2 * r) r := by simpa using hasDerivAt_pow 2 r
    exact ((h2.mul (hasDerivAt_id r)).sub (h0.mul_const 1)).div hp (by positivity)
  · refine (h3.div_const r).congr_deriv ?_
    simp only [zero_div, zero_mul, add_zero, mul_one]
    field_simp
    ring

/-- `erfc((m + σ x)/(2√(D t)))` with `σ = ±1`. -/
theorem diffuses_erfc {D t : ℝ} (hD : 0 < D) (ht : 0 < t) {σ : ℝ} (hσ : σ ^ 2 = 1) (m x : ℝ) :
    Diffuses 0 D (fun t x => erfc ((m + σ * x) / (2 * √(D * t)))) t x := by
  have hs : 0 < √(D * t) := sqrt_pos.2 (by positivity)
  have hsp : 0 < √π := sqrt_pos.2 pi_pos
  have hx : ∀ y, HasDerivAt (fun y => (m + σ * y) / (2 * √(D * t))) (σ / (2 * √(D * t))) y := fun y => by
    have := (((hasDerivAt_id y).const_mul σ).const_add m).div_const (2 * √(D * t))
    simpa using this
  have hsq : √(D * t) ^ 2 = D * t := sq_sqrt (by positivity)
  refine ⟨fun y => -(2 / √π * exp (-((m + σ * y) / (2 * √(D * t))) ^ 2)) * (σ / (2 * √(D * t))),
    -(2 / √π * (-(2 * ((m + σ * x) / (2 * √(D * t))) * exp (-((m + σ * x) / (2 * √(D * t))) ^ 2)) * (σ / (2 * √(D * t))))) * (σ / (2 * √(D * t))),
    Eventually.of_forall fun y => (erfc_hasDerivAt _).comp y (hx y), ?_, ?_⟩
  · exact ((((exp_sq_hasDerivAt _).comp x (hx x)).const_mul (2 / √π)).neg).mul_const _
  · have h1 : HasDerivAt (fun s => √(D * s)) (D / (2 * √(D * t))) t := by
      have := ((hasDerivAt_id t).const_mul D).sqrt (by simp only [id]; positivity)
      simpa using this
    have h2 : HasDerivAt (fun s => (m + σ * x) / (2 * √(D * s))) (-((m + σ * x) * (2 * (D / (2 * √(D * t))))) / (2 * √(D * t)) ^ 2) t := by
      have := (hasDerivAt_const t (m + σ * x)).div (h1.const_mul 2) (by positivity)
      exact this.congr_deriv (by ring)
    refine ((erfc_hasDerivAt _).comp t h2).congr_deriv ?_
    simp only [zero_div, zero_mul, add_zero]
    generalize exp (-((m + σ * x) / (2 * √(D * t))) ^ 2) = e
    field_simp
    rw [hσ]
    ring

theorem diffuses_cos (l t x : ℝ) : Diffuses 0 1 (fun t x => exp (-l ^ 2 * t) * cos (l * x)) t x := by
  have hx : ∀ y, HasDerivAt (fun y => l * y) l y := fun y => by simpa using (hasDerivAt_id y).const_mul l
  refine ⟨fun y => exp (-l ^ 2 * t) * (-sin (l * y) * l), exp (-l ^ 2 * t) * (-(cos (l * x) * l) * l), Eventually.of_forall fun y => ?_, ?_, ?_⟩
  · exact ((hasDerivAt_cos _).comp y (hx y)).const_mul _
  · exact ((((hasDerivAt_sin _).comp x (hx x)).neg).mul_const l).const_mul _
  · have h : HasDerivAt (fun s => -l ^ 2 * s) (-l ^ 2) t := by simpa using (hasDerivAt_id t).const_mul (-l ^ 2)
    refine (h.exp.mul_const _).congr_deriv ?_
    ring

theorem diffuses_sin (l t x : ℝ) : Diffuses 0 1 (fun t x => exp (-l ^ 2 * t) * sin (l * x)) t x := by
  have hx : ∀ y, HasDerivAt (fun y => l * y) l y := fun y => by simpa using (hasDerivAt_id y).const_mul l
  refine ⟨fun y => exp (-l ^ 2 * t) * (cos (l * y) * l), exp (-l ^ 2 * t) * (-sin (l * x) * l * l), Eventually.of_forall fun y => ?_, ?_, ?_⟩
  · exact ((hasDerivAt_sin _).comp y (hx y)).const_mul _
  · exact ((((hasDerivAt_cos _).comp x (hx x))).mul_const l).const_mul _
  · have h : HasDerivAt (fun s => -l ^ 2 * s) (-l ^ 2) t := by simpa using (hasDerivAt_id t).const_mul (-l ^ 2)
    refine (h.exp.mul_const _).congr_deriv ?_
    ring

/-- C89. The semi-infinite profile solves the diffusion equation with diffusivity `D`. -/
theorem C89_semiinf {t D : ℝ} (x : ℝ) (ht : 0 < t) (hD : 0 < D) : Diffuses 0 D (fun t x => (profileSemiinf t x D).getD 0) t x := by
  refine (diffuses_erfc hD ht (one_pow 2) 0 x).congr (Eventually.of_forall fun y => ?_) ?_
  · simp only [profileSemiinf]
    rw [if_neg (by positivity)]
    simp
  · filter_upwards [eventually_gt_nhds ht] with s hs
    simp only [profileSemiinf]
    rw [if_neg (by positivity)]
    simp

example : Diffuses 0 3 (fun t x => (profileSemiinf t x 3).getD 0) 2 1 := C89_semiinf 1 (by norm_num) (by norm_num)

theorem sheetS_diffuses {Fo : ℝ} (hF : 0 < Fo) (x : ℝ) : Diffuses 0 1 (fun t x => sheetS (2 * √t) x) Fo x := by
  have p : ∀ m : ℝ, Diffuses 0 1 (fun t x => erfc ((m + x) / (2 * √t))) Fo x := fun m => by
    have := diffuses_erfc one_pos hF (σ := 1) (by norm_num) m x
    simpa only [one_mul] using this
  have n : ∀ m : ℝ, Diffuses 0 1 (fun t x => erfc ((m - x) / (2 * √t))) Fo x := fun m => by
    have := diffuses_erfc one_pos hF (σ := -1) (by norm_num) m x
    simpa only [one_mul, neg_one_mul, ← sub_eq_add_neg] using this
  exact ((((n 1).add (p 1)).sub ((n 3).add (p 3))).add ((n 5).add (p 5))).sub ((n 7).add (p 7))

theorem sphereS_diffuses {Fo : ℝ} (hF : 0 < Fo) (x : ℝ) : Diffuses 0 1 (fun t x => sphereS (2 * √t) x) Fo x := by
  have p : ∀ m : ℝ, Diffuses 0 1 (fun t x => erfc ((m + x) / (2 * √t))) Fo x := fun m => by
    have := diffuses_erfc one_pos hF (σ := 1) (by norm_num) m x
    simpa only [one_mul] using this
  have n : ∀ m : ℝ, Diffuses 0 1 (fun t x => erfc ((m - x) / (2 * √t))) Fo x := fun m => by
    have := diffuses_erfc one_pos hF (σ := -1) (by norm_num) m x
    simpa only [one_mul, neg_one_mul, ← sub_eq_add_neg] using this
  exact ((((n 1).sub (p 1)).add ((n 3).sub (p 3))).add ((n 5).sub (p 5))).add ((n 7).sub (p 7))

/-- C89. The sheet profile solves the dimensionless diffusion equation on both sides of the switch between series. -/
theorem C89_sheet {Fo : ℝ} (x : ℝ) (hF : 0 < Fo) (h4 : Fo ≠ 1 / 4) : Diffuses 0 1 profileSheet Fo x := by
  rcases lt_or_gt_of_ne h4 with h | h
  · refine (sheetS_diffuses hF x).congr (Eventually.of_forall fun y => profileSheet_small hF h) ?_
    filter_upwards [eventually_gt_nhds hF, eventually_lt_nhds h] with s h1 h2 using profileSheet_small h1 h2
  · have t : ∀ k : ℝ, Diffuses 0 1 (fun t x => exp (-(k * (π / 2)) ^ 2 * t) * cos (k * (π / 2) * x)) Fo x := fun k => diffuses_cos _ _ _
    have key := (diffuses_const 1 1 Fo x).sub ((((t 1).sub ((t 3).smul (1 / 3))).add ((t 5).smul (1 / 5))).sub ((t 7).smul (1 / 7)) |>.smul (4 / π))
    have e : ∀ s y, 1 / 4 ≤ s → profileSheet s y = 1 - 4 / π * (exp (-(1 * (π / 2)) ^ 2 * s) * cos (1 * (π / 2) * y) -
        1 / 3 * (exp (-(3 * (π / 2)) ^ 2 * s) * cos (3 * (π / 2) * y)) + 1 / 5 * (exp (-(5 * (π / 2)) ^ 2 * s) * cos (5 * (π / 2) * y)) -
        1 / 7 * (exp (-(7 * (π / 2)) ^ 2 * s) * cos (7 * (π / 2) * y))) := by
      intro s y hs
      rw [profileSheet_large hs, ← exp_nat_mul, ← exp_nat_mul, ← exp_nat_mul]
      push_cast
      ring_nf
    refine key.congr (Eventually.of_forall fun y => e Fo y h.le) ?_
    filter_upwards [eventually_gt_nhds h] with s hs using e s x (le_of_lt hs)

example : Diffuses 0 1 profileSheet 0.1 0.5 := C89_sheet _ (by norm_num) (by norm_num)

/-- C89. The sphere profile solves the dimensionless diffusion equation in spherical coordinates on both sides of the switch between series. -/
theorem C89_sphere {Fo r : ℝ} (hr : eps < r) (hF : 0 < Fo) (h4 : Fo ≠ 1 / 4) : Diffuses 2 1 profileSphere Fo r := by
  have he : (0 : ℝ) < eps := by norm_num [eps]
  have hr0 : 0 < r := he.trans hr
  have ha : ∀ y : ℝ, eps < y → eps ≤ |y| := fun y hy => hy.le.trans (le_abs_self y)
  rcases lt_or_gt_of_ne h4 with h | h
  · refine ((sphereS_diffuses hF r).radial hr0.ne').congr ?_ ?_
    · filter_upwards [eventually_gt_nhds hr] with y hy using profileSphere_small hF h (ha y hy)
    · filter_upwards [eventually_gt_nhds hF, eventually_lt_nhds h] with s h1 h2 using profileSphere_small h1 h2 (ha r hr)
  · have t : ∀ k : ℝ, Diffuses 0 1 (fun t x => exp (-(k * π) ^ 2 * t) * sin (k * π * x)) Fo r := fun k => diffuses_sin _ _ _
    have hid : Diffuses 0 1 (fun _ x => x) Fo r :=
      ⟨fun _ => 1, 0, Eventually.of_forall fun y => hasDerivAt_id y, hasDerivAt_const r 1, (hasDerivAt_const Fo r).congr_deriv (by simp)⟩
    have key := (hid.add ((((t 1).smul (-1)).add ((t 2).smul (1 / 2))).sub ((t 3).smul (1 / 3)) |>.smul (2 / π))).radial hr0.ne'
    have e : ∀ s y, 1 / 4 ≤ s → eps < y → profileSphere s y = (y + 2 / π * (-1 * (exp (-(1 * π) ^ 2 * s) * sin (1 * π * y)) +
        1 / 2 * (exp (-(2 * π) ^ 2 * s) * sin (2 * π * y)) - 1 / 3 * (exp (-(3 * π) ^ 2 * s) * sin (3 * π * y)))) / y := by
      intro s y hs hy
      have hy0 : y ≠ 0 := (he.trans hy).ne'
      rw [profileSphere_large hs (ha y hy), ← exp_nat_mul, ← exp_nat_mul]
      push_cast
      rw [add_div, div_self hy0]
      ring_nf
    refine key.congr ?_ ?_
    · filter_upwards [eventually_gt_nhds hr] with y hy using e Fo y h.le hy
    · filter_upwards [eventually_gt_nhds h] with s hs using e s r (le_of_lt hs) hr

example : Diffuses 2 1 profileSphere 0.1 0.5 := C89_sphere (by norm_num [eps]) (by norm_num) (by norm_num)

/-- C89. Initial condition: at every interior point the profile starts from zero. -/
theorem C89_initial {x : ℝ} (h0 : 0 ≤ x) (h1 : x < 1) : Tendsto (fun Fo => profileSheet Fo x) (𝓝[>] 0) (𝓝 0) ∧
    (eps ≤ x → Tendsto (fun Fo => profileSphere Fo x) (𝓝[>] 0) (𝓝 0)) := by
  have n : ∀ m : ℝ, 1 ≤ m → Tendsto (fun Fo : ℝ => erfc ((m - x) / (2 * √Fo))) (𝓝[>] 0) (𝓝 0) := fun m hm => erfc_initial (by linarith)
  have p : ∀ m : ℝ, 1 ≤ m → Tendsto (fun Fo : ℝ => erfc ((m + x) / (2 * √Fo))) (𝓝[>] 0) (𝓝 0) := fun m hm => erfc_initial (by linarith)
  have n1 := n 1 le_rfl
  have n3 := n 3 (by norm_num)
  have n5 := n 5 (by norm_num)
  have n7 := n 7 (by norm_num)
  have p1 := p 1 le_rfl
  have p3 := p 3 (by norm_num)
  have p5 := p 5 (by norm_num)
  have p7 := p 7 (by norm_num)
  have hsmall : ∀ᶠ Fo : ℝ in 𝓝[>] 0, 0 < Fo ∧ Fo < 1 / 4 := by
    filter_upwards [self_mem_nhdsWithin, nhdsWithin_le_nhds (eventually_lt_nhds (show (0 : ℝ) < 1 / 4 by norm_num))] with s h1 h2 using ⟨h1, h2⟩
  refine ⟨?_, fun hx => ?_⟩
  · have := (((n1.add p1).sub (n3.add p3)).add (n5.add p5)).sub (n7.add p7)
    norm_num at this
    refine this.congr' ?_
    filter_upwards [hsmall] with s hs
    rw [profileSheet_small hs.1 hs.2, sheetS]
  · have := ((((n1.sub p1).add (n3.sub p3)).add (n5.sub p5)).add (n7.sub p7)).div_const x
    norm_num at this
    refine this.congr' ?_
    filter_upwards [hsmall] with s hs
    rw [profileSphere_small hs.1 hs.2 (hx.trans (le_abs_self x)), sphereS]

example : Tendsto (fun Fo => profileSheet Fo 0.9) (𝓝[>] 0) (𝓝 0) := (C89_initial (by norm_num) (by norm_num)).1

end Verif.Diffusion
