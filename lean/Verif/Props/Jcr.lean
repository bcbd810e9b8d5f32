import Verif.Lemmas.Jcr

/-! # C100: joint confidence regions -/

namespace Verif.Jcr

open Real

/-! ## The ellipse -/

/-- The curve matplotlib draws for an `Ellipse` patch: semi-axes `width/2`, `height/2`, rotated by `angle` degrees. -/
def onPatch (e : Drawn) (p : ℝ × ℝ) : Prop :=
  ∃ t, p.1 = e.center.1 + e.width / 2 * cos t * cos (e.angle * (π / 180)) - e.height / 2 * sin t * sin (e.angle * (π / 180))
    ∧ p.2 = e.center.2 + e.width / 2 * cos t * sin (e.angle * (π / 180)) + e.height / 2 * sin t * cos (e.angle * (π / 180))

/-- The boundary of the documented region: `(β - c)ᵀ V⁻¹ (β - c) = 2 F`, with `u = V⁻¹ (β - c)`. -/
def onRegion (c : ℝ × ℝ) (cov : M2) (F : ℝ) (p : ℝ × ℝ) : Prop :=
  ∃ u : ℝ × ℝ, cov.a00 * u.1 + cov.a01 * u.2 = p.1 - c.1 ∧ cov.a10 * u.1 + cov.a11 * u.2 = p.2 - c.2 ∧ u.1 * (p.1 - c.1) + u.2 * (p.2 - c.2) = 2 * F

/-- What `np.linalg.eigh` documents: ascending eigenvalues, and a matrix whose columns are the orthonormal eigenvectors. -/
structure IsEigh (A : M2) (e : Eigen) : Prop where
  asc : e.l0 ≤ e.l1
  norm0 : e.V.a00 ^ 2 + e.V.a10 ^ 2 = 1
  norm1 : e.V.a01 ^ 2 + e.V.a11 ^ 2 = 1
  orth : e.V.a00 * e.V.a01 + e.V.a10 * e.V.a11 = 0
  eig00 : A.a00 * e.V.a00 + A.a01 * e.V.a10 = e.l0 * e.V.a00
  eig01 : A.a10 * e.V.a00 + A.a11 * e.V.a10 = e.l0 * e.V.a10
  eig10 : A.a00 * e.V.a01 + A.a01 * e.V.a11 = e.l1 * e.V.a01
  eig11 : A.a10 * e.V.a01 + A.a11 * e.V.a11 = e.l1 * e.V.a11

/-- C100. If the matrix of eigenvectors happens to be symmetric, the drawn curve is exactly the boundary of the documented region. -/
theorem C100_ellipse (eigh : M2 → Eigen) (Fppf : ℝ → ℕ → ℕ → ℝ) (tppf : ℝ → ℕ → ℝ) (center : ℝ × ℝ) (cov : M2) (ndata : ℕ) (alpha : ℝ) (confint : Bool) (d : Drawn)
    (h : confidenceEllipse eigh Fppf tppf center cov ndata alpha confint = .ok d) (he : IsEigh cov (eigh cov)) (hpos : 0 < (eigh cov).l0) (hF : 0 < Fppf (1 - alpha) 2 (ndata - 2))
    (hsym : (eigh cov).V.a01 = (eigh cov).V.a10) (p : ℝ × ℝ) : onPatch d p ↔ onRegion center cov (Fppf (1 - alpha) 2 (ndata - 2)) p := by
  unfold confidenceEllipse check at h
  by_cases hc : (0.001 : ℝ) ≤ alpha ∧ alpha ≤ 0.90
  swap
  · rw [if_neg hc] at h; cases h
  rw [if_pos hc] at h
  simp only [bind, Except.bind] at h
  split_ifs at h with hn
  all_goals cases h
  all_goals
    have hl1 : 0 < (eigh cov).l1 := hpos.trans_le he.asc
    generalize Fppf (1 - alpha) 2 (ndata - 2) = F at *
    generalize eigh cov = e at *
    obtain ⟨l0, l1, ⟨x, y', y, z⟩⟩ := e
    obtain ⟨-, n0, n1, o, e00, e01, e10, e11⟩ := he
    obtain ⟨A, B, C, D⟩ := cov
    dsimp only at *
    subst hsym
    obtain ⟨σ, hσ, hcos, hsin⟩ := angle_cos_sin n0
    -- the second axis
    obtain ⟨τ, hτ, t1, t2⟩ : ∃ τ : ℝ, τ ^ 2 = 1 ∧ -(σ * y') = τ * y' ∧ σ * x = τ * z := by
      rcases eq_or_ne y' 0 with hy | hy
      · subst hy
        have hx : x ^ 2 = 1 := by linarith
        have hz : z ^ 2 = 1 := by linarith
        exact ⟨σ * x * z, by rw [mul_pow, mul_pow, hσ, hx, hz]; norm_num, by simp, by linear_combination (-σ * x) * hz⟩
      · have hz : z = -x := by
          have : y' * (x + z) = 0 := by linarith
          rcases mul_eq_zero.1 this with h | h
          · exact absurd h hy
          · linarith
        exact ⟨-σ, by linarith, by ring, by rw [hz]; ring⟩
    have s0 : 0 < 2 * F * l0 := by positivity
    have s1 : 0 < 2 * F * l1 := by positivity
    have q0 : √(2 * F * l0) ^ 2 = 2 * F * l0 := sq_sqrt s0.le
    have q1 : √(2 * F * l1) ^ 2 = 2 * F * l1 := sq_sqrt s1.le
    have r0 : 0 < √(2 * F * l0) := sqrt_pos.2 s0
    have r1 : 0 < √(2 * F * l1) := sqrt_pos.2 s1
    unfold onPatch onRegion
    dsimp only
    rw [hcos, hsin]
    generalize √(2 * F * l0) = a at *
    generalize √(2 * F * l1) = b at *
    constructor
    · rintro ⟨t, h1, h2⟩
      have d1 : p.1 - center.1 = a * cos t * σ * x + b * sin t * τ * y' := by
        rw [h1]; linear_combination (b * sin t) * t1
      have d2 : p.2 - center.2 = a * cos t * σ * y' + b * sin t * τ * z := by
        rw [h2]; linear_combination (b * sin t) * t2
      refine ⟨(a * cos t * σ / l0 * x + b * sin t * τ / l1 * y', a * cos t * σ / l0 * y' + b * sin t * τ / l1 * z), ?_, ?_, ?_⟩
      · rw [d1]
        have : A * (a * cos t * σ / l0 * x + b * sin t * τ / l1 * y') + B * (a * cos t * σ / l0 * y' + b * sin t * τ / l1 * z)
          = a * cos t * σ / l0 * (A * x + B * y') + b * sin t * τ / l1 * (A * y' + B * z) := by ring
        simp only
        rw [this, e00, e10]; field_simp
      · rw [d2]
        have : C * (a * cos t * σ / l0 * x + b * sin t * τ / l1 * y') + D * (a * cos t * σ / l0 * y' + b * sin t * τ / l1 * z)
          = a * cos t * σ / l0 * (C * x + D * y') + b * sin t * τ / l1 * (C * y' + D * z) := by ring
        simp only
        rw [this, e01, e11]; field_simp
      · rw [d1, d2]
        have : (a * cos t * σ / l0 * x + b * sin t * τ / l1 * y') * (a * cos t * σ * x + b * sin t * τ * y')
            + (a * cos t * σ / l0 * y' + b * sin t * τ / l1 * z) * (a * cos t * σ * y' + b * sin t * τ * z)
          = a ^ 2 * cos t ^ 2 * σ ^ 2 / l0 * (x ^ 2 + y' ^ 2) + b ^ 2 * sin t ^ 2 * τ ^ 2 / l1 * (y' ^ 2 + z ^ 2)
            + a * b * cos t * sin t * σ * τ * (1 / l0 + 1 / l1) * (x * y' + y' * z) := by field_simp; ring
        simp only
        rw [this, n0, n1, o, q0, q1, hσ, hτ]
        have := sin_sq_add_cos_sq t
        field_simp
        linear_combination (2 * F * l0 * l1) * this
    · rintro ⟨⟨u1, u2⟩, h1, h2, h3⟩
      dsimp only at h1 h2 h3
      -- components along the eigenvectors
      set α := u1 * x + u2 * y' with hα
      set β := u1 * y' + u2 * z with hβ
      have w1 : u1 = α * x + β * y' := by
        have hxz : x ^ 2 = z ^ 2 := by linarith
        have : y' * (x + z) = 0 := by linarith
        rw [hα, hβ]; linear_combination (-u1) * n0 - u2 * this
      have w2 : u2 = α * y' + β * z := by
        have : y' * (x + z) = 0 := by linarith
        rw [hα, hβ]; linear_combination (-u2) * n1 - u1 * this
      clear_value α β
      have d1 : p.1 - center.1 = l0 * α * x + l1 * β * y' := by
        rw [← h1, w1, w2]; linear_combination α * e00 + β * e10
      have d2 : p.2 - center.2 = l0 * α * y' + l1 * β * z := by
        rw [← h2, w1, w2]; linear_combination α * e01 + β * e11
      have hs : l0 * α ^ 2 + l1 * β ^ 2 = 2 * F := by
        rw [← h3, d1, d2, w1, w2]
        linear_combination (-(l0 * α ^ 2)) * n0 - (l1 * β ^ 2) * n1 - (α * β * (l0 + l1)) * o
      obtain ⟨t, ht1, ht2⟩ := exists_angle (c := σ * (l0 * α) / a) (s := τ * (l1 * β) / b) (by
        rw [div_pow, div_pow, mul_pow σ, mul_pow τ, hσ, hτ, q0, q1]
        field_simp
        linarith)
      refine ⟨t, ?_, ?_⟩
      · rw [ht1, ht2]
        have : a ≠ 0 := r0.ne'
        have : b ≠ 0 := r1.ne'
        have e1 : 2 * a / 2 * (σ * (l0 * α) / a) * (σ * x) = σ ^ 2 * (l0 * α * x) := by field_simp
        have e2 : 2 * b / 2 * (τ * (l1 * β) / b) * (σ * y') = -(τ ^ 2 * (l1 * β * y')) := by
          have : σ * y' = -(τ * y') := by linarith
          rw [this]; field_simp
        rw [e1, e2, hσ, hτ]; linarith
      · rw [ht1, ht2]
        have : a ≠ 0 := r0.ne'
        have : b ≠ 0 := r1.ne'
        have e1 : 2 * a / 2 * (σ * (l0 * α) / a) * (σ * y') = σ ^ 2 * (l0 * α * y') := by field_simp
        have e2 : 2 * b / 2 * (τ * (l1 * β) / b) * (σ * x) = τ ^ 2 * (l1 * β * z) := by
          rw [t2]; field_simp
        rw [e1, e2, hσ, hτ]; linarith

/-- A covariance matrix with correlated parameters, and two decompositions that both satisfy the contract of `eigh`. -/
noncomputable def covEx : M2 := ⟨5, 4, 4, 5⟩

noncomputable def eigSym : Eigen := ⟨1, 9, ⟨-(√2 / 2), √2 / 2, √2 / 2, √2 / 2⟩⟩

noncomputable def eigRot : Eigen := ⟨1, 9, ⟨√2 / 2, √2 / 2, -(√2 / 2), √2 / 2⟩⟩

theorem eigSym_ok : IsEigh covEx eigSym := by
  have h : (√2 / 2) ^ 2 = (1 / 2 : ℝ) := by rw [div_pow, sq_sqrt (by norm_num)]; norm_num
  constructor <;> simp only [covEx, eigSym] <;> nlinarith

theorem eigRot_ok : IsEigh covEx eigRot := by
  have h : (√2 / 2) ^ 2 = (1 / 2 : ℝ) := by rw [div_pow, sq_sqrt (by norm_num)]; norm_num
  constructor <;> simp only [covEx, eigRot] <;> nlinarith

example : eigSym.V.a01 = eigSym.V.a10 ∧ 0 < eigSym.l0 := by simp [eigSym]

/-- The curve is right for every decomposition allowed by the contract of `eigh`: false. The code reads the first row instead of the first column of the eigenvector matrix,
so with eigenvectors that form a rotation the ellipse is the mirror image of the right one. -/
theorem C100_ellipse_false : ∃ d p, confidenceEllipse (fun _ => eigRot) (fun _ _ _ => 1 / 2) (fun _ _ => 1) (0, 0) covEx 10 0.05 false = .ok d
    ∧ IsEigh covEx eigRot ∧ onPatch d p ∧ ¬ onRegion (0, 0) covEx (1 / 2) p := by
  have hd : confidenceEllipse (fun _ => eigRot) (fun _ _ _ => 1 / 2) (fun _ _ => 1) (0, 0) covEx 10 0.05 false
      = .ok ⟨(0, 0), 2 * √(2 * (1 / 2) * 1), 2 * √(2 * (1 / 2) * 9), angleOf (√2 / 2) (√2 / 2), none⟩ := by
    unfold confidenceEllipse check
    rw [if_pos (by norm_num)]
    rfl
  have h2 : (√2 / 2) ^ 2 = (1 / 2 : ℝ) := by rw [div_pow, sq_sqrt (by norm_num)]; norm_num
  have hq : 0 < √2 / 2 := by positivity
  have ha : angleOf (√2 / 2) (√2 / 2) * (π / 180) = π / 4 := by
    unfold angleOf
    rw [if_neg hq.ne', div_self hq.ne', arctan_one]
    have := pi_pos
    field_simp
  refine ⟨_, (√2 / 2, √2 / 2), hd, eigRot_ok, ⟨0, ?_⟩, ?_⟩
  · simp only [ha, cos_zero, sin_zero, cos_pi_div_four, sin_pi_div_four]
    norm_num
  · rintro ⟨⟨u1, u2⟩, h1, h3, h4⟩
    simp only [covEx, sub_zero] at h1 h3 h4
    have e1 : u1 = u2 := by linarith
    subst e1
    have : u1 = √2 / 2 / 9 := by linarith
    rw [this] at h4
    nlinarith

/-- C100. Arguments out of range raise RangeError; the half-widths of the individual intervals are the standard deviations times the t quantile. -/
theorem C100_ellipse_checks (eigh : M2 → Eigen) (Fppf : ℝ → ℕ → ℕ → ℝ) (tppf : ℝ → ℕ → ℝ) (center : ℝ × ℝ) (cov : M2) (ndata : ℕ) (alpha : ℝ) (confint : Bool) :
    ((∃ d, confidenceEllipse eigh Fppf tppf center cov ndata alpha confint = .ok d) ↔ 0.001 ≤ alpha ∧ alpha ≤ 0.90 ∧ 3 ≤ ndata)
      ∧ (∀ e, confidenceEllipse eigh Fppf tppf center cov ndata alpha confint = .error e → e = .RangeError)
      ∧ ∀ d, confidenceEllipse eigh Fppf tppf center cov ndata alpha true = .ok d →
        d.center = center ∧ d.errors = some (√cov.a00 * tppf (1 - alpha / 2) (ndata - 2), √cov.a11 * tppf (1 - alpha / 2) (ndata - 2)) := by
  unfold confidenceEllipse check
  by_cases hc : (0.001 : ℝ) ≤ alpha ∧ alpha ≤ 0.90
  · simp only [if_pos hc, bind, Except.bind]
    by_cases hn : ndata < 3
    · simp only [if_pos hn]
      refine ⟨⟨fun ⟨d, h⟩ => (by cases h), fun ⟨_, _, h⟩ => by omega⟩, fun e h => (by cases h; rfl), fun d h => (by cases h)⟩
    · simp only [if_neg hn]
      refine ⟨⟨fun _ => ⟨hc.1, hc.2, by omega⟩, fun _ => ⟨_, rfl⟩⟩, fun e h => (by cases h), fun d h => (by cases h; exact ⟨rfl, rfl⟩)⟩
  · simp only [if_neg hc, bind, Except.bind]
    exact ⟨⟨fun ⟨d, h⟩ => (by cases h), fun ⟨h1, h2, _⟩ => absurd ⟨h1, h2⟩ hc⟩, fun e h => (by cases h; rfl), fun d h => (by cases h)⟩

/-! ## The rigorous region -/

/-- C100. `npoints` points are returned; the `i`-th lies on the ray of the `i`-th of `npoints` equally spaced angles, at a positive distance from the centre; it satisfies the boundary equation to a relative
`1e-4`, or the solver moved the radius by no more than the factor `1 + rtol` in its last step. -/
theorem C100_region (Fppf : ℝ → ℕ → ℕ → ℝ) (center : ℝ × ℝ) (sse : ℝ × ℝ → ℝ) (ndata : ℕ) (alpha width : ℝ) (npoints : ℕ) (rtol : ℝ) (l : List (Option (ℝ × ℝ)))
    (h : confidenceRegion Fppf center sse ndata alpha width npoints rtol = .ok l) :
    l.length = npoints ∧ ∀ (i : ℕ) p, l[i]? = some (some p) → ∃ θ r, (θ = if npoints = 1 then 0 else 2 * π * i / (npoints - 1)) ∧ 0 < r ∧ p = (center.1 + r * cos θ, center.2 + r * sin θ)
      ∧ (|sse p / (sse center * (1 + 2 / ((ndata : ℝ) - 2) * Fppf (1 - alpha) 2 (ndata - 2))) - 1| ≤ 1e-4 ∨ ∃ r', 0 < r' ∧ r' ≤ r * (1 + rtol) ∧ r ≤ r' * (1 + rtol)) := by
  unfold confidenceRegion check at h
  simp only [bind, Except.bind] at h
  generalize (if 0 < width then |width / 2| else 0.25 * center.1) = g0 at h
  split_ifs at h with c1 c2 c3 c4 c5
  simp only [pure, Except.pure] at h
  injection h with h
  subst h
  obtain ⟨hlen, hget⟩ := radii_spec (fun x θ => sse (center.1 + exp x * cos θ, center.2 + exp x * sin θ) / sse center / (1 + 2 / ((ndata : ℝ) - 2) * Fppf (1 - alpha) 2 (ndata - 2)) - 1) rtol
    g0 (angles npoints) g0
  have hal : (angles npoints).length = npoints := by
    unfold angles; split_ifs with h1
    · simp [h1]
    · simp
  refine ⟨by rw [List.length_zipWith, hlen, hal, min_self], fun i p hp => ?_⟩
  rw [List.getElem?_zipWith] at hp
  cases hr : (radii (fun x θ => sse (center.1 + exp x * cos θ, center.2 + exp x * sin θ) / sse center / (1 + 2 / ((ndata : ℝ) - 2) * Fppf (1 - alpha) 2 (ndata - 2)) - 1) rtol
    g0 g0 (angles npoints))[i]? with
  | none => rw [hr] at hp; simp at hp
  | some o =>
    rw [hr] at hp
    cases ha : (angles npoints)[i]? with
    | none => rw [ha] at hp; simp at hp
    | some θ =>
      rw [ha] at hp
      cases o with
      | none => simp at hp
      | some r =>
        simp only [Option.map_some, Option.some.injEq] at hp
        obtain ⟨θ', r0, hθ, hf⟩ := hget i r hr
        rw [ha] at hθ
        injection hθ with hθ
        subst hθ
        obtain ⟨hr0, hcert⟩ := findRadius_spec (le_trans (by norm_num) c4.1) hf
        refine ⟨θ, r, ?_, hr0, hp.symm, ?_⟩
        · unfold angles at ha
          split_ifs at ha ⊢ with h1
          · cases i with
            | zero => simpa using ha.symm
            | succ i => simp at ha
          · rw [List.getElem?_map] at ha
            rw [List.getElem?_eq_some_iff.2 ⟨by simpa using (List.getElem?_eq_some_iff.1 hr).1.trans_le (by rw [hlen, hal]), rfl⟩] at ha
            simp at ha
            rw [← ha]
        · rw [exp_log hr0, div_div] at hcert
          rw [← hp]
          exact hcert

/-- C100. When the call succeeds and which error it raises otherwise. -/
theorem C100_region_checks (Fppf : ℝ → ℕ → ℕ → ℝ) (center : ℝ × ℝ) (sse : ℝ × ℝ → ℝ) (ndata : ℕ) (alpha width : ℝ) (npoints : ℕ) (rtol : ℝ) :
    let ranges := 0.001 ≤ alpha ∧ alpha ≤ 0.99 ∧ 3 ≤ ndata ∧ 1 ≤ npoints ∧ npoints ≤ 500 ∧ 1e-4 ≤ rtol ∧ rtol ≤ 1e-1
    ((∃ l, confidenceRegion Fppf center sse ndata alpha width npoints rtol = .ok l) ↔ ranges ∧ eps ≤ |sse center|)
      ∧ (¬ ranges → confidenceRegion Fppf center sse ndata alpha width npoints rtol = .error .RangeError)
      ∧ (ranges → |sse center| < eps → confidenceRegion Fppf center sse ndata alpha width npoints rtol = .error .ValueError) := by
  intro ranges
  unfold confidenceRegion check
  simp only [bind, Except.bind]
  by_cases c1 : (0.001 : ℝ) ≤ alpha ∧ alpha ≤ 0.99
  swap
  · simp only [if_neg c1]
    exact ⟨⟨fun ⟨l, h⟩ => (by cases h), fun h => absurd ⟨h.1.1, h.1.2.1⟩ c1⟩, fun _ => trivial, fun h => absurd ⟨h.1, h.2.1⟩ c1⟩
  by_cases c2 : ndata < 3
  · simp only [if_pos c1, if_pos c2]
    exact ⟨⟨fun ⟨l, h⟩ => (by cases h), fun h => by have := h.1.2.2.1; omega⟩, fun _ => trivial, fun h => by have := h.2.2.1; omega⟩
  by_cases c3 : npoints < 1 ∨ 500 < npoints
  · simp only [if_pos c1, if_neg c2, if_pos c3]
    exact ⟨⟨fun ⟨l, h⟩ => (by cases h), fun h => by have := h.1.2.2.2; omega⟩, fun _ => trivial, fun h => by have := h.2.2.2; omega⟩
  by_cases c4 : (1e-4 : ℝ) ≤ rtol ∧ rtol ≤ 1e-1
  swap
  · simp only [if_pos c1, if_neg c2, if_neg c3, if_neg c4]
    exact ⟨⟨fun ⟨l, h⟩ => (by cases h), fun h => absurd h.1.2.2.2.2.2 c4⟩, fun _ => trivial, fun h => absurd h.2.2.2.2.2 c4⟩
  have hr : ranges := ⟨c1.1, c1.2, by omega, by omega, by omega, c4.1, c4.2⟩
  by_cases c5 : |sse center| < eps
  · simp only [if_pos c1, if_neg c2, if_neg c3, if_pos c4, if_pos c5]
    exact ⟨⟨fun ⟨l, h⟩ => (by cases h), fun h => absurd c5 (not_lt.2 h.2)⟩, fun h => absurd hr h, fun _ _ => trivial⟩
  · simp only [if_pos c1, if_neg c2, if_neg c3, if_pos c4, if_neg c5]
    exact ⟨⟨fun _ => ⟨hr, not_lt.1 c5⟩, fun _ => ⟨_, rfl⟩⟩, fun h => absurd hr h, fun _ h => absurd h c5⟩

/-- With the default width the region is found for well-behaved sums of squares: false. The first guess is then a quarter of the first coordinate of the centre, and for a centre with a nonpositive first
coordinate all points are NaN, whatever the function. -/
theorem C100_default_width_false (Fppf : ℝ → ℕ → ℕ → ℝ) (center : ℝ × ℝ) (sse : ℝ × ℝ → ℝ) (ndata : ℕ) (alpha : ℝ) (npoints : ℕ) (rtol : ℝ) (hc : center.1 ≤ 0) (l : List (Option (ℝ × ℝ)))
    (h : confidenceRegion Fppf center sse ndata alpha 0 npoints rtol = .ok l) : ∀ p ∈ l, p = none := by
  have key : ∀ (g : ℝ → ℝ → ℝ) (g0 : ℝ), g0 ≤ 0 → ∀ as : List ℝ, radii g rtol g0 g0 as = as.map fun _ => none := by
    intro g g0 hg as
    induction as with
    | nil => rfl
    | cons θ as ih =>
      unfold radii
      have : findRadius (fun x => g x θ) rtol g0 = none := by unfold findRadius; rw [if_pos hg]
      rw [this]
      simp only [List.map_cons, ih]
  unfold confidenceRegion check at h
  simp only [bind, Except.bind, lt_irrefl, if_false] at h
  split_ifs at h with c1 c2 c3 c4 c5
  simp only [pure, Except.pure] at h
  injection h with h
  subst h
  rw [key _ _ (by linarith)]
  intro p hp
  obtain ⟨i, hi, rfl⟩ := List.mem_iff_getElem.1 hp
  simp

example : ∃ l, confidenceRegion (fun _ _ _ => 1) (-1, 2) (fun p => 1 + (p.1 + 1) ^ 2 + (p.2 - 2) ^ 2) 10 0.05 0 200 0.01 = .ok l := by
  refine ((C100_region_checks _ _ _ _ _ _ _ _).1).2 ⟨by norm_num, ?_⟩
  norm_num [eps]

end Verif.Jcr
