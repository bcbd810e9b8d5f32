import Verif.Lemmas.FlowStep
import Verif.Props.Haaland

/-! # Helper lemmas: the Newton iteration of `fD_Colebrook` -/

namespace Verif.Flow

open Real

/-- Slope of the Colebrook residual in `u = 1/√f`. -/
noncomputable def cslope (a b u : ℝ) : ℝ := 1 + 2 / log 10 * (b / (a + b * u))

/-- The Colebrook residual in `u = 1/√f`. -/
noncomputable def cres (a b u : ℝ) : ℝ := u + 2 / log 10 * log (a + b * u)

theorem arctan_ge {t : ℝ} (h : 0 ≤ t) : t - t ^ 3 ≤ arctan t := by
  have hd : ∀ x, HasDerivAt (fun x => arctan x - (x - x ^ 3)) (1 / (1 + x ^ 2) - (1 - 3 * x ^ 2)) x := by
    intro x
    have h1 := hasDerivAt_arctan x
    have h2 : HasDerivAt (fun x : ℝ => x - x ^ 3) (1 - 3 * x ^ 2) x := by
      have := (hasDerivAt_id' x).fun_sub (hasDerivAt_pow 3 x)
      simpa using this
    exact h1.fun_sub h2
  have hm : MonotoneOn (fun x => arctan x - (x - x ^ 3)) (Set.Ici 0) := by
    refine monotoneOn_of_deriv_nonneg (convex_Ici 0) (fun x _ => (hd x).continuousAt.continuousWithinAt) (fun x _ => (hd x).differentiableAt.differentiableWithinAt) fun x _ => ?_
    rw [(hd x).deriv]
    have : 1 - 3 * x ^ 2 ≤ 1 / (1 + x ^ 2) := by
      rw [le_div_iff₀ (by positivity)]
      nlinarith [sq_nonneg x, sq_nonneg (x ^ 2)]
    linarith
  have := hm (Set.mem_Ici.2 le_rfl) (Set.mem_Ici.2 h) h
  simp at this
  linarith

/-- Square root of `x + i e`. -/
theorem sqrt_offset {x e : ℝ} (hx : 0 < x) (he : 0 < e) (hex : e ≤ x) :
    ∃ A B, (⟨x, e⟩ : ℂ) ^ (1 / 2 : ℂ) = ⟨A, B⟩ ∧ 0 < A ∧ 0 < B ∧ A ^ 2 - B ^ 2 = x ∧ 2 * A * B = e ∧ B ≤ e / x / 2 * A := by
  obtain ⟨h1, h2, h3, -⟩ := sqrt_cone (w := ⟨x, e⟩) (d := e / x) hx he.le (by rw [div_mul_cancel₀ _ hx.ne'])
  have e2 : ((⟨x, e⟩ : ℂ) ^ (1 / 2 : ℂ)) ^ 2 = ⟨x, e⟩ := by simp
  refine ⟨((⟨x, e⟩ : ℂ) ^ (1 / 2 : ℂ)).re, ((⟨x, e⟩ : ℂ) ^ (1 / 2 : ℂ)).im, rfl, h1, ?_, ?_, ?_, h3⟩
  · rcases h2.lt_or_eq with h | h
    · exact h
    · have := congrArg Complex.im e2
      generalize (⟨x, e⟩ : ℂ) ^ (1 / 2 : ℂ) = z at *
      simp [sq, ← h] at this
      linarith
  · have := congrArg Complex.re e2
    generalize (⟨x, e⟩ : ℂ) ^ (1 / 2 : ℂ) = z at *
    simp [sq] at this
    linarith
  · have := congrArg Complex.im e2
    generalize (⟨x, e⟩ : ℂ) ^ (1 / 2 : ℂ) = z at *
    simp [sq] at this
    linarith

/-- Real and imaginary part of the equation at `x + i eps`, from the reciprocal of the square root `p - i q`. -/
theorem colebrook_parts {Re er x : ℝ} (hRe : 0 < Re) (h0 : 0 ≤ er) (hx : 0 < x) (hex : (eps : ℝ) ≤ x) :
    ∃ p q, 0 < p ∧ 0 < q ∧ q ≤ eps / x / 2 * p ∧ p ^ 2 ≤ 1 / x ∧ 1 / x ≤ p ^ 2 * (1 + (eps / x) ^ 2) ^ 2 ∧ p * q * x ^ 2 * 2 ≤ eps ∧ eps ≤ p * q * (x ^ 2 * (1 + (eps / x) ^ 2)) * 2 ∧
      colebrookEq Re er (x, eps) = (p + 2 / log 10 * (log (er / 3.7 + 2.51 / Re * p) + log √(1 + (2.51 / Re * q / (er / 3.7 + 2.51 / Re * p)) ^ 2)),
        -(q + 2 / log 10 * arctan (2.51 / Re * q / (er / 3.7 + 2.51 / Re * p)))) := by
  have he : (0 : ℝ) < eps := by norm_num [eps]
  obtain ⟨A, B, e, hA, hB, e1, e2, hBA⟩ := sqrt_offset hx he hex
  have hn : 0 < A ^ 2 + B ^ 2 := by positivity
  have hn2 : (A ^ 2 + B ^ 2) ^ 2 = x ^ 2 * (1 + (eps / x) ^ 2) := by
    have : x ^ 2 * (1 + (eps / x) ^ 2) = x ^ 2 + eps ^ 2 := by field_simp
    rw [this, ← e1, ← e2]
    ring
  have einv : 1 / (⟨A, B⟩ : ℂ) = ⟨A / (A ^ 2 + B ^ 2), -(B / (A ^ 2 + B ^ 2))⟩ := by
    rw [div_eq_iff (by intro h; have := congrArg Complex.re h; simp at this; linarith)]
    apply Complex.ext <;> simp <;> field_simp <;> ring_nf
  have hp : 0 < A / (A ^ 2 + B ^ 2) := by positivity
  have hq : 0 < B / (A ^ 2 + B ^ 2) := by positivity
  refine ⟨A / (A ^ 2 + B ^ 2), B / (A ^ 2 + B ^ 2), hp, hq, ?_, ?_, ?_, ?_, ?_, ?_⟩
  · rw [mul_div_assoc', div_le_div_iff_of_pos_right hn]; exact hBA
  · rw [div_pow, div_le_div_iff₀ (by positivity) hx, ← e1]
    nlinarith [sq_nonneg B, sq_nonneg A, mul_nonneg (sq_nonneg A) (sq_nonneg B)]
  · have h1 : (A / (A ^ 2 + B ^ 2)) ^ 2 * (1 + (eps / x) ^ 2) ^ 2 = A ^ 2 * (A ^ 2 + B ^ 2) ^ 2 / x ^ 4 := by
      have h2 : (1 + (eps / x) ^ 2) = (A ^ 2 + B ^ 2) ^ 2 / x ^ 2 := by rw [hn2]; field_simp
      rw [h2]
      field_simp
    rw [h1, div_le_div_iff₀ hx (by positivity)]
    have h3 : x ≤ A ^ 2 := by nlinarith [sq_nonneg B]
    have h4 : x ^ 2 ≤ (A ^ 2 + B ^ 2) ^ 2 := pow_le_pow_left₀ hx.le (by nlinarith [sq_nonneg B]) 2
    have h5 : x * x ^ 2 ≤ A ^ 2 * (A ^ 2 + B ^ 2) ^ 2 := mul_le_mul h3 h4 (by positivity) (by positivity)
    nlinarith
  · have h1 : A / (A ^ 2 + B ^ 2) * (B / (A ^ 2 + B ^ 2)) * x ^ 2 * 2 = (2 * A * B) * x ^ 2 / (A ^ 2 + B ^ 2) ^ 2 := by field_simp
    rw [h1, e2, div_le_iff₀ (by positivity), hn2]
    have : 0 ≤ eps * x ^ 2 * (eps / x) ^ 2 := by positivity
    nlinarith
  · have h1 : A / (A ^ 2 + B ^ 2) * (B / (A ^ 2 + B ^ 2)) * (x ^ 2 * (1 + (eps / x) ^ 2)) * 2 = 2 * A * B := by
      rw [← hn2]; field_simp
    rw [h1, e2]
  · generalize A / (A ^ 2 + B ^ 2) = p at *
    generalize B / (A ^ 2 + B ^ 2) = q at *
    have hR : 0 < er / 3.7 + 2.51 / Re * p := by positivity
    unfold colebrookEq
    have e3 : toC (x, eps) = ⟨x, eps⟩ := rfl
    have e4 : (2.51 : ℂ) / (Re * (⟨A, B⟩ : ℂ)) = ((2.51 / Re : ℝ) : ℂ) * (1 / (⟨A, B⟩ : ℂ)) := by
      push_cast
      have : (Re : ℂ) ≠ 0 := by exact_mod_cast hRe.ne'
      field_simp
    have e5 : ((er / 3.7 : ℝ) : ℂ) + ((2.51 / Re : ℝ) : ℂ) * ⟨p, -q⟩ =
        ⟨er / 3.7 + 2.51 / Re * p, (er / 3.7 + 2.51 / Re * p) * -(2.51 / Re * q / (er / 3.7 + 2.51 / Re * p))⟩ := by
      generalize 2.51 / Re = b at *
      generalize er / 3.7 = a at *
      apply Complex.ext
      · simp
      · simp
        field_simp
    simp only [e3, e, e4, einv, e5]
    generalize er / 3.7 + 2.51 / Re * p = R at *
    generalize 2.51 / Re * q / R = t at *
    have hlog : Complex.log ⟨R, R * -t⟩ = ⟨log R + log √(1 + t ^ 2), -arctan t⟩ := by
      apply Complex.ext
      · rw [Complex.log_re, norm_offset hR, neg_sq, log_mul hR.ne' (by positivity)]
      · rw [Complex.log_im, arg_offset hR, arctan_neg]
    rw [hlog]
    have h10 := log10_pos
    have e6 : 2 * ((⟨log R + log √(1 + t ^ 2), -arctan t⟩ : ℂ) / (log 10 : ℝ)) + ⟨p, -q⟩ =
        ⟨p + 2 / log 10 * (log R + log √(1 + t ^ 2)), -(q + 2 / log 10 * arctan t)⟩ := by
      have : (2 : ℂ) * ((⟨log R + log √(1 + t ^ 2), -arctan t⟩ : ℂ) / (log 10 : ℝ)) = ((2 / log 10 : ℝ) : ℂ) * ⟨log R + log √(1 + t ^ 2), -arctan t⟩ := by push_cast; ring
      rw [this]
      apply Complex.ext
      · rw [Complex.add_re, Complex.re_ofReal_mul]
        ring
      · rw [Complex.add_im, Complex.im_ofReal_mul]
        ring
    rw [e6]

theorem step_aux {a b u p q t D e δ L : ℝ} (ha : 0 ≤ a) (hb : 0 < b) (hu : 0 < u) (hp : 0 < p) (hq : 0 < q) (he : 0 < e) (hδ : 0 ≤ δ) (hδ1 : δ ≤ 1e-26) (hL : 0 < L)
    (hpu : p ≤ u) (hup : u ≤ p * (1 + δ)) (h1 : p * q * 2 ≤ e * u ^ 4) (h2 : e * u ^ 4 ≤ p * q * (1 + δ) * 2) (ht : t = b * q / (a + b * p)) (ht1 : t ^ 2 ≤ δ)
    (hD : D * e = q + L * arctan t) :
    (1 - 1e-20) * (u ^ 3 / 2 * (1 + L * (b / (a + b * u)))) ≤ D ∧ D ≤ (1 + 1e-20) * (u ^ 3 / 2 * (1 + L * (b / (a + b * u)))) := by
  have hap : 0 < a + b * p := by positivity
  have hau : 0 < a + b * u := by positivity
  have ht0 : 0 < t := by rw [ht]; positivity
  have hq1 : q ≤ e * u ^ 3 / 2 * (1 + δ) := by
    have : p * (q * 2) ≤ p * (e * u ^ 3 * (1 + δ)) := by
      calc p * (q * 2) ≤ e * u ^ 3 * u := by nlinarith
        _ ≤ e * u ^ 3 * (p * (1 + δ)) := mul_le_mul_of_nonneg_left hup (by positivity)
        _ = _ := by ring
    have := le_of_mul_le_mul_left this hp
    linarith
  have hq2 : e * u ^ 3 / 2 ≤ q * (1 + δ) := by
    have : u * (e * u ^ 3) ≤ u * (q * (1 + δ) * 2) := by
      calc u * (e * u ^ 3) ≤ p * (q * (1 + δ) * 2) := by nlinarith
        _ ≤ _ := mul_le_mul_of_nonneg_right hpu (by positivity)
    have := le_of_mul_le_mul_left this hu
    linarith
  have ht2 : t ≤ b / (a + b * u) * (e * u ^ 3 / 2) * (1 + δ) ^ 2 := by
    rw [ht, div_mul_eq_mul_div, div_mul_eq_mul_div, div_le_div_iff₀ hap hau]
    have h3 : a + b * u ≤ (a + b * p) * (1 + δ) := by nlinarith [mul_le_mul_of_nonneg_left hup hb.le, mul_nonneg ha hδ]
    calc b * q * (a + b * u) ≤ b * (e * u ^ 3 / 2 * (1 + δ)) * ((a + b * p) * (1 + δ)) := by gcongr
      _ = _ := by ring
  have ht3 : b / (a + b * u) * (e * u ^ 3 / 2) ≤ t * (1 + δ) := by
    rw [ht, div_mul_eq_mul_div, div_mul_eq_mul_div, div_le_div_iff₀ hau hap]
    have h3 : a + b * p ≤ a + b * u := by nlinarith
    calc b * (e * u ^ 3 / 2) * (a + b * p) ≤ b * (q * (1 + δ)) * (a + b * u) := by gcongr
      _ = _ := by ring
  have hat1 : arctan t ≤ t := by
    have h := le_tan (x := arctan t) (by rw [← arctan_zero]; exact (arctan_strictMono ht0).le) (arctan_lt_pi_div_two t)
    rwa [tan_arctan] at h
  have hat2 : t * (1 - δ) ≤ arctan t := by
    have := arctan_ge ht0.le
    nlinarith
  generalize b / (a + b * u) = c at *
  have hw : 0 < u ^ 3 / 2 := by positivity
  have e3 : e * u ^ 3 / 2 = e * (u ^ 3 / 2) := by ring
  rw [e3] at hq1 hq2 ht2 ht3
  generalize u ^ 3 / 2 = w at *
  have hcw : 0 < c * (e * w) := by
    by_contra hc
    have : t ≤ 0 := ht2.trans (mul_nonpos_of_nonpos_of_nonneg (not_lt.1 hc) (by positivity))
    linarith
  have hc : 0 < c := pos_of_mul_pos_left hcw (by positivity)
  constructor
  · have h4 : (e * w) * (1 - 2 * δ) ≤ q := by nlinarith [mul_pos he hw]
    have h5 : (c * (e * w)) * (1 - 4 * δ) ≤ arctan t := by nlinarith
    have h6 := mul_le_mul_of_nonneg_left h5 hL.le
    have h7 : e * ((1 - 1e-20) * (w * (1 + L * c))) ≤ e * D := by
      have h8 : 0 < e * w := by positivity
      have h9 : 0 < L * (c * (e * w)) := by positivity
      nlinarith
    exact le_of_mul_le_mul_left h7 he
  · have h5 : arctan t ≤ c * (e * w) * (1 + 3 * δ) := by nlinarith
    have h6 := mul_le_mul_of_nonneg_left h5 hL.le
    have h7 : e * D ≤ e * ((1 + 1e-20) * (w * (1 + L * c))) := by
      have h8 : 0 < e * w := by positivity
      have h9 : 0 < L * (c * (e * w)) := by positivity
      nlinarith
    exact le_of_mul_le_mul_left h7 he

end Verif.Flow
