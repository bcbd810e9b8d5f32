import Verif.Lemmas.Equations
import Verif.Model.Rackett
import Verif.Props.Eos

/-! # Corresponding states -/

namespace Verif.Corresponding

open Finset Verif.Eos Verif.Mixing

variable {N : ℕ} {τ ϖ : ℝ}

/-- A fluid with other critical constants and everything else equal. -/
def other (τ ϖ : ℝ) (e : Cubic N) : Cubic N := ⟨e.kind, fun i => τ * e.Tc i, fun i => ϖ * e.Pc i, e.w, e.k⟩

/-- Likewise for the virial equation. -/
def vother (τ ϖ : ℝ) (e : Virial N) : Virial N := ⟨fun i => τ * e.Tc i, fun i => ϖ * e.Pc i, e.Zc, e.w⟩

theorem alpha_other (hτ : 0 < τ) (e : Cubic N) (T : ℝ) (i : Fin N) : alpha (other τ ϖ e) (τ * T) i = alpha e T i := by
  unfold alpha other
  dsimp only
  rw [mul_div_mul_left _ _ hτ.ne', mul_div_mul_left _ _ hτ.ne']

theorem a_other (hτ : 0 < τ) (R : ℝ) (e : Cubic N) (T : ℝ) (i : Fin N) : a R (other τ ϖ e) (τ * T) i = τ ^ 2 / ϖ * a R e T i := by
  unfold a
  rw [alpha_other hτ]
  simp only [other]
  rw [show e.kind.Ωa * (R * (τ * e.Tc i)) ^ 2 = τ ^ 2 * (e.kind.Ωa * (R * e.Tc i) ^ 2) by ring, mul_div_mul_comm, mul_assoc]

theorem b_other (R : ℝ) (e : Cubic N) (i : Fin N) : b R (other τ ϖ e) i = τ / ϖ * b R e i := by
  simp only [b, other]
  rw [show e.kind.Ωb * R * (τ * e.Tc i) = τ * (e.kind.Ωb * R * e.Tc i) by ring, mul_div_mul_comm]

theorem geometric_scale {c : ℝ} (hc : 0 ≤ c) (y Q : Fin N → ℝ) (k : Option (Fin N → Fin N → ℝ)) : geometric y (fun i => c * Q i) k = c * geometric y Q k := by
  cases k with
  | none =>
    simp only [geometric]
    have : ∀ i, y i * √(c * Q i) = √c * (y i * √(Q i)) := fun i => by rw [Real.sqrt_mul hc]; ring
    simp only [this]
    rw [← mul_sum, mul_pow, Real.sq_sqrt hc]
  | some k =>
    simp only [geometric]
    rw [mul_sum]
    refine sum_congr rfl fun i _ => ?_
    rw [mul_add, mul_sum]
    congr 1
    · ring
    · refine sum_congr rfl fun j _ => ?_
      rw [show c * Q i * (c * Q j) = c ^ 2 * (Q i * Q j) by ring, Real.sqrt_mul (by positivity), Real.sqrt_sq hc]
      ring

theorem am_other (hτ : 0 < τ) (hϖ : 0 < ϖ) (R : ℝ) (e : Cubic N) (T : ℝ) (z : Fin N → ℝ) : am R (other τ ϖ e) (τ * T) z = τ ^ 2 / ϖ * am R e T z := by
  unfold am
  rw [← geometric_scale (by positivity)]
  congr 1
  funext i
  exact a_other hτ R e T i

theorem bm_other (R : ℝ) (e : Cubic N) (z : Fin N → ℝ) : bm R (other τ ϖ e) z = τ / ϖ * bm R e z := by
  simp only [bm, b_other]
  rw [mul_sum]
  exact sum_congr rfl fun i _ => by ring

theorem A_other (hτ : 0 < τ) (hϖ : 0 < ϖ) (R : ℝ) (e : Cubic N) (T P : ℝ) (z : Fin N → ℝ) :
    am R (other τ ϖ e) (τ * T) z * (ϖ * P) / (R * (τ * T)) ^ 2 = am R e T z * P / (R * T) ^ 2 := by
  rw [am_other hτ hϖ, show τ ^ 2 / ϖ * am R e T z * (ϖ * P) = τ ^ 2 * (am R e T z * P) by field_simp, show (R * (τ * T)) ^ 2 = τ ^ 2 * (R * T) ^ 2 by ring,
    mul_div_mul_left _ _ (by positivity)]

theorem B_other (hτ : 0 < τ) (hϖ : 0 < ϖ) (R : ℝ) (e : Cubic N) (T P : ℝ) (z : Fin N → ℝ) :
    bm R (other τ ϖ e) z * (ϖ * P) / (R * (τ * T)) = bm R e z * P / (R * T) := by
  rw [bm_other, show τ / ϖ * bm R e z * (ϖ * P) = τ * (bm R e z * P) by field_simp, show R * (τ * T) = τ * (R * T) by ring, mul_div_mul_left _ _ hτ.ne']

/-- C123: two fluids that differ in their critical constants only have, at the same reduced temperature and pressure, the same compressibility factors; pressures at
corresponding volumes are in the ratio of the critical pressures, second virial coefficients in that of the critical volumes. -/
theorem C123_cubic (hτ : 0 < τ) (hϖ : 0 < ϖ) (npRoots : ℝ → ℝ → ℝ → List (ℝ × ℝ)) (R : ℝ) (e : Cubic N) (T P v : ℝ) (z : Fin N → ℝ) :
    cubicZ npRoots R (other τ ϖ e) (τ * T) (ϖ * P) z = cubicZ npRoots R e T P z ∧
    cubicP R (other τ ϖ e) (τ * T) (τ / ϖ * v) z = ϖ * cubicP R e T v z ∧
    cubicBm R (other τ ϖ e) (τ * T) z = τ / ϖ * cubicBm R e T z := by
  refine ⟨?_, ?_, ?_⟩
  · simp only [cubicZ]
    rw [A_other hτ hϖ, B_other hτ hϖ]
    rfl
  · simp only [cubicP]
    rw [am_other hτ hϖ, bm_other]
    have hu : (other τ ϖ e).kind = e.kind := rfl
    rw [hu]
    generalize am R e T z = A
    generalize bm R e z = B
    have hk : τ / ϖ ≠ 0 := by positivity
    rw [show τ / ϖ * v - τ / ϖ * B = τ / ϖ * (v - B) by ring, show R * (τ * T) = τ / ϖ * (ϖ * (R * T)) by field_simp, mul_div_mul_left _ _ hk,
      show (τ / ϖ * v) ^ 2 + e.kind.u * (τ / ϖ * v) * (τ / ϖ * B) + e.kind.w * (τ / ϖ * B) ^ 2 = (τ / ϖ) ^ 2 * (v ^ 2 + e.kind.u * v * B + e.kind.w * B ^ 2) by ring,
      show τ ^ 2 / ϖ * A = (τ / ϖ) ^ 2 * (ϖ * A) by field_simp, mul_div_mul_left _ _ (by positivity)]
    ring
  · simp only [cubicBm]
    rw [am_other hτ hϖ, bm_other, show τ ^ 2 / ϖ * am R e T z = τ * (τ / ϖ * am R e T z) by field_simp, show R * (τ * T) = τ * (R * T) by ring, mul_div_mul_left _ _ hτ.ne']
    ring

theorem lnPhi_other (hτ : 0 < τ) (hϖ : 0 < ϖ) (R : ℝ) (e : Cubic N) (hk : e.k = none) (T P : ℝ) (z : Fin N → ℝ) (Z : ℝ) (i : Fin N) :
    lnPhi R (other τ ϖ e) (τ * T) (ϖ * P) z Z i = lnPhi R e T P z Z i := by
  have hd : delta R (other τ ϖ e) (τ * T) z i = delta R e T z i := by
    have hk' : (other τ ϖ e).k = none := hk
    simp only [delta, hk, hk']
    rw [a_other hτ, am_other hτ hϖ, mul_div_mul_left _ _ (by positivity)]
  have hb : b R (other τ ϖ e) i / bm R (other τ ϖ e) z = b R e i / bm R e z := by
    rw [b_other, bm_other, mul_div_mul_left _ _ (by positivity)]
  simp only [lnPhi]
  rw [hd, A_other hτ hϖ, B_other hτ hϖ, hb]
  rfl

/-- C123: without interaction parameters, fugacity coefficients and K-values are the same. -/
theorem C123_fugacity_partial (hτ : 0 < τ) (hϖ : 0 < ϖ) (npRoots : ℝ → ℝ → ℝ → List (ℝ × ℝ)) (R : ℝ) (e : Cubic N) (hk : e.k = none) (T P : ℝ) (x y : Fin N → ℝ) (ph : Phase) :
    cubicPhi npRoots R (other τ ϖ e) (τ * T) (ϖ * P) y ph = cubicPhi npRoots R e T P y ph ∧
    cubicK npRoots R (other τ ϖ e) (τ * T) (ϖ * P) x y = cubicK npRoots R e T P x y := by
  have h : ∀ y ph, cubicPhi npRoots R (other τ ϖ e) (τ * T) (ϖ * P) y ph = cubicPhi npRoots R e T P y ph := by
    intro y ph
    simp only [cubicPhi, (C123_cubic hτ hϖ npRoots R e T P 0 y).1, lnPhi_other hτ hϖ R e hk]
  exact ⟨h y ph, by simp only [cubicK, h]⟩

/-- A fluid with twice the critical temperature and three times the critical pressure of the example fluid. -/
example (npRoots : ℝ → ℝ → ℝ → List (ℝ × ℝ)) (ph : Phase) : cubicPhi npRoots 8 (other 2 3 demo) (2 * 400) (3 * 100000) (fun _ => 1) ph =
    cubicPhi npRoots 8 demo 400 100000 (fun _ => 1) ph :=
  (C123_fugacity_partial (by norm_num) (by norm_num) npRoots 8 demo rfl 400 100000 (fun _ => 1) (fun _ => 1) ph).1

/-- C123: with interaction parameters (even zero ones) the fugacity coefficients do not obey the principle: the fugacity coefficients of a pure gas change when temperature and pressure units
change, unless the change of units leaves `T²/P` alone. -/
theorem C123_interaction_false (npRoots : ℝ → ℝ → ℝ → List (ℝ × ℝ)) (hx : ExactRoots npRoots) {R T P : ℝ} (e : Cubic 1) (hk : e.k = some fun _ _ => 0)
    (h : Pos R e T (fun _ => 1)) (ha : 0 < a R e T 0) (hP : 0 < P) (hτ : 0 < τ) (hϖ : 0 < ϖ) (hne : τ ^ 2 ≠ ϖ) :
    ∃ f g, cubicPhi npRoots R e T P (fun _ => 1) .V = .ok f ∧ cubicPhi npRoots R (other τ ϖ e) (τ * T) (ϖ * P) (fun _ => 1) .V = .ok g ∧ f 0 ≠ g 0 := by
  obtain ⟨lo, hi, Z, h1, h2, h3, h4, -⟩ := C47_roots npRoots hx e (fun _ => 1) h hP
  have hlast : Z.getLastD 0 = hi := by rcases h2 with rfl | ⟨rfl, rfl⟩ <;> simp
  have h1' := (C123_cubic hτ hϖ npRoots R e T P 0 fun _ => 1).1.trans h1
  refine ⟨fun i => Real.exp (lnPhi R e T P (fun _ => 1) hi i), fun i => Real.exp (lnPhi R (other τ ϖ e) (τ * T) (ϖ * P) (fun _ => 1) hi i), ?_, ?_, ?_⟩
  · rw [cubicPhi, h1]
    simp only [bind, Except.bind, pure, Except.pure, hlast]
  · rw [cubicPhi, h1']
    simp only [bind, Except.bind, pure, Except.pure, hlast]
  · intro hc
    have h0 := Real.exp_injective hc
    have hb : b R (other τ ϖ e) 0 / bm R (other τ ϖ e) (fun _ => 1) = b R e 0 / bm R e (fun _ => 1) := by
      rw [b_other, bm_other, mul_div_mul_left _ _ (by positivity)]
    have hk' : (other τ ϖ e).k = some fun _ _ => 0 := hk
    have hd : delta R e T (fun _ => 1) 0 = √(a R e T 0) := by
      simp only [delta, hk]; simp
    have hd' : delta R (other τ ϖ e) (τ * T) (fun _ => 1) 0 = √(τ ^ 2 / ϖ) * √(a R e T 0) := by
      simp only [delta, hk']; simp [a_other hτ, Real.sqrt_mul (show (0 : ℝ) ≤ τ ^ 2 / ϖ by positivity)]
    simp only [lnPhi] at h0
    rw [A_other hτ hϖ, B_other hτ hϖ, hb, hd, hd'] at h0
    have hkind : (other τ ϖ e).kind = e.kind := rfl
    rw [hkind] at h0
    have hT := h.T
    have hR := h.R
    have hbm : 0 < bm R e (fun _ => 1) := by
      have : 0 < b R e 0 := by
        have h5 := h.Tc 0
        have h6 := h.Pc 0
        have h7 : 0 < e.kind.Ωb := by cases e.kind <;> norm_num [Kind.Ωb]
        unfold b; positivity
      simpa [bm] using this
    have ham : 0 < am R e T (fun _ => 1) := by
      simp only [am, hk, geometric]
      have hf : (({0} : Finset (Fin 1)).filter fun j => (0 : Fin 1) < j) = ∅ := by decide
      rw [univ_unique, sum_singleton]
      simp only [Fin.default_eq_zero, Fin.isValue]
      rw [hf]
      simpa using ha
    have hB : 0 < bm R e (fun _ => 1) * P / (R * T) := by positivity
    have hA : 0 < am R e T (fun _ => 1) * P / (R * T) ^ 2 := by positivity
    have hZ : bm R e (fun _ => 1) * P / (R * T) < hi := h4.trans_le h3
    generalize bm R e (fun _ => 1) * P / (R * T) = B at *
    generalize am R e T (fun _ => 1) * P / (R * T) ^ 2 = A at *
    have hdd : 0 < √(e.kind.u ^ 2 - 4 * e.kind.w) ∧ √(e.kind.u ^ 2 - 4 * e.kind.w) < e.kind.u + 2 := by
      cases e.kind
      · norm_num [Kind.u, Kind.w]
      · norm_num [Kind.u, Kind.w]
      · refine ⟨by norm_num [Kind.u, Kind.w], ?_⟩
        rw [Real.sqrt_lt' (by norm_num [Kind.u])]
        norm_num [Kind.u, Kind.w]
    generalize √(e.kind.u ^ 2 - 4 * e.kind.w) = d at *
    have hu : 0 < e.kind.u := by cases e.kind <;> norm_num [Kind.u]
    have hlog : 0 < Real.log ((2 * hi + B * (e.kind.u + d)) / (2 * hi + B * (e.kind.u - d))) := by
      have : 0 < 2 * hi + B * (e.kind.u - d) := by nlinarith [mul_lt_mul_of_pos_left hdd.2 hB]
      refine Real.log_pos ((one_lt_div this).2 ?_)
      nlinarith [mul_pos hB hdd.1]
    have hc : 0 < A / (B * d) := div_pos hA (mul_pos hB hdd.1)
    have hs : √(a R e T 0) ≠ 0 := (Real.sqrt_pos.2 ha).ne'
    have hq : √(τ ^ 2 / ϖ) ≠ 1 := by
      rw [Ne, Real.sqrt_eq_one, div_eq_one_iff_eq hϖ.ne']
      exact hne
    have e1 : A / (B * d) * Real.log ((2 * hi + B * (e.kind.u + d)) / (2 * hi + B * (e.kind.u - d))) * (√(a R e T 0) * (√(τ ^ 2 / ϖ) - 1)) = 0 := by
      linear_combination h0
    rcases mul_eq_zero.1 e1 with h8 | h8
    · exact (mul_pos hc hlog).ne' h8
    · rcases mul_eq_zero.1 h8 with h9 | h9
      · exact hs h9
      · exact hq (sub_eq_zero.1 h9)

/-- The hypotheses hold for the example fluid with a zero interaction matrix when pressures are given in bar. -/
example : ∃ e : Cubic 1, e.k = some (fun _ _ => 0) ∧ Pos 8 e 400 (fun _ => 1) ∧ 0 < a 8 e 400 0 ∧ (1 : ℝ) ^ 2 ≠ 1 / 100000 := by
  refine ⟨⟨.RK, fun _ => 500, fun _ => 4000000, fun _ => 1 / 3, some fun _ _ => 0⟩, rfl,
    ⟨by norm_num, by intro i; norm_num, by intro i; norm_num, by norm_num, by simp, by intro i; norm_num⟩, ?_, by norm_num⟩
  simp only [a, alpha, Kind.Ωa]
  positivity

/-! ## Departure functions -/

theorem cubicDA_other (hτ : 0 < τ) (hϖ : 0 < ϖ) (R : ℝ) (e : Cubic N) (T V : ℝ) (n : Fin N → ℝ) (v0 : ℝ) :
    cubicDA R (other τ ϖ e) (τ * T) (τ / ϖ * V) n (τ / ϖ * v0) = τ * cubicDA R e T V n v0 := by
  have hk : τ / ϖ ≠ 0 := by positivity
  simp only [cubicDA]
  rw [am_other hτ hϖ, bm_other]
  have hu : (other τ ϖ e).kind = e.kind := rfl
  rw [hu]
  generalize (∑ i, n i) = s
  generalize am R e T (fun i => n i / s) = A
  generalize bm R e (fun i => n i / s) = B
  generalize √(e.kind.u ^ 2 - 4 * e.kind.w) = d
  rw [show 2 * (τ / ϖ * V) + s * (τ / ϖ * B) * (e.kind.u - d) = τ / ϖ * (2 * V + s * B * (e.kind.u - d)) by ring,
    show 2 * (τ / ϖ * V) + s * (τ / ϖ * B) * (e.kind.u + d) = τ / ϖ * (2 * V + s * B * (e.kind.u + d)) by ring, mul_div_mul_left _ _ hk,
    show τ / ϖ * V - s * (τ / ϖ * B) = τ / ϖ * (V - s * B) by ring, show s * (τ / ϖ * v0) = τ / ϖ * (s * v0) by ring, mul_div_mul_left _ _ hk,
    show s * (τ ^ 2 / ϖ * A) = τ / ϖ * (τ * (s * A)) by field_simp, mul_assoc (τ / ϖ) B d, mul_div_mul_left _ _ hk]
  ring

/-- Departure functions of another fluid. -/
def scaled (τ : ℝ) (d : Departure) : Departure := ⟨τ * d.A, τ * d.G, τ * d.H, d.S, τ * d.U⟩

theorem DX_other (hτ : 0 < τ) (hϖ : 0 < ϖ) (R : ℝ) (DA DA' : ℝ → ℝ → (Fin N → ℝ) → ℝ → ℝ)
    (h : ∀ T V n v0, DA' (τ * T) (τ / ϖ * V) n (τ / ϖ * v0) = τ * DA T V n v0) (Z T P : ℝ) (y : Fin N → ℝ) (P0 : ℝ) :
    DX R DA' Z (τ * T) (ϖ * P) y (ϖ * P0) = scaled τ (DX R DA Z T P y P0) := by
  have e1 : R * (τ * T) / (ϖ * P0) = τ / ϖ * (R * T / P0) := by rw [show R * (τ * T) = τ * (R * T) by ring, mul_div_mul_comm]
  have e2 : 1 * Z * R * (τ * T) / (ϖ * P) = τ / ϖ * (1 * Z * R * T / P) := by rw [show 1 * Z * R * (τ * T) = τ * (1 * Z * R * T) by ring, mul_div_mul_comm]
  have e3 : 2 * √Eos.eps * (τ * T) = τ * (2 * √Eos.eps * T) := by ring
  simp only [DX, scaled, e1, e2, e3, ← mul_sub τ T, ← mul_add τ T, h]
  generalize DA (T - 2 * √Eos.eps * T) _ _ _ = p
  generalize DA (T + 2 * √Eos.eps * T) _ _ _ = q
  have e4 : -(τ * q - τ * p) / (2 * (τ * (2 * √Eos.eps * T))) = -(q - p) / (2 * (2 * √Eos.eps * T)) := by
    rw [show -(τ * q - τ * p) = τ * -(q - p) by ring, show 2 * (τ * (2 * √Eos.eps * T)) = τ * (2 * (2 * √Eos.eps * T)) by ring, mul_div_mul_left _ _ hτ.ne']
  rw [e4]
  congr 1 <;> ring

/-- C123: departure functions (at corresponding reference pressures): energies are in the ratio of the critical temperatures, entropies are equal. -/
theorem C123_departures (hτ : 0 < τ) (hϖ : 0 < ϖ) (R : ℝ) (e : Cubic N) (Z T P : ℝ) (y : Fin N → ℝ) (P0 : ℝ) :
    DX R (cubicDA R (other τ ϖ e)) Z (τ * T) (ϖ * P) y (ϖ * P0) = scaled τ (DX R (cubicDA R e) Z T P y P0) :=
  DX_other hτ hϖ R _ _ (cubicDA_other hτ hϖ R e) Z T P y P0

example (P0 : ℝ) : DX 8 (cubicDA 8 (other 2 3 demo)) 0.9 (2 * 400) (3 * 100000) (fun _ => 1) (3 * P0) = scaled 2 (DX 8 (cubicDA 8 demo) 0.9 400 100000 (fun _ => 1) P0) :=
  C123_departures (by norm_num) (by norm_num) 8 demo _ _ _ _ P0

/-! ## Virial equation -/

theorem bPure_other (hτ : 0 < τ) (R T Tc Pc w : ℝ) : bPure R (τ * T) (τ * Tc) (ϖ * Pc) w = τ / ϖ * bPure R T Tc Pc w := by
  simp only [bPure]
  rw [mul_div_mul_left _ _ hτ.ne', show R * (τ * Tc) = τ * (R * Tc) by ring, mul_div_mul_comm, mul_assoc]

theorem bCross_other (hτ : 0 < τ) (hϖ : 0 < ϖ) {R : ℝ} (T : ℝ) (hR : 0 ≤ R) (Tc Pc Zc w : Fin N → ℝ) (hTc : ∀ i, 0 ≤ Tc i) (hPc : ∀ i, 0 ≤ Pc i) (hZc : ∀ i, 0 ≤ Zc i)
    (i j : Fin N) :
    bCross R (τ * T) (fun i => τ * Tc i) (fun i => ϖ * Pc i) Zc w i j = τ / ϖ * bCross R T Tc Pc Zc w i j := by
  have hc : 0 < τ / ϖ := by positivity
  have hv : ∀ i, Zc i * R * (τ * Tc i) / (ϖ * Pc i) = τ / ϖ * (Zc i * R * Tc i / Pc i) := fun i => by
    rw [show Zc i * R * (τ * Tc i) = τ * (Zc i * R * Tc i) by ring, mul_div_mul_comm]
  have hv0 : ∀ i, 0 ≤ Zc i * R * Tc i / Pc i := fun i => div_nonneg (mul_nonneg (mul_nonneg (hZc i) hR) (hTc i)) (hPc i)
  simp only [bCross, hv]
  rw [Real.mul_rpow hc.le (hv0 i), Real.mul_rpow hc.le (hv0 j)]
  generalize Zc i * R * Tc i / Pc i = vi at *
  generalize Zc j * R * Tc j / Pc j = vj at *
  have hc3 : ((τ / ϖ) ^ (1 / 3 : ℝ)) ^ 3 = τ / ϖ := by
    rw [← Real.rpow_natCast, ← Real.rpow_mul hc.le]; norm_num
  have e1 : ((τ / ϖ) ^ (1 / 3 : ℝ) * vi ^ (1 / 3 : ℝ) + (τ / ϖ) ^ (1 / 3 : ℝ) * vj ^ (1 / 3 : ℝ)) ^ 3 / 8 = τ / ϖ * ((vi ^ (1 / 3 : ℝ) + vj ^ (1 / 3 : ℝ)) ^ 3 / 8) := by
    rw [← mul_add, mul_pow, hc3]; ring
  rw [e1]
  generalize (vi ^ (1 / 3 : ℝ) + vj ^ (1 / 3 : ℝ)) ^ 3 / 8 = vm
  have e2 : √(τ / ϖ * vi * (τ / ϖ * vj)) / (τ / ϖ * vm) = √(vi * vj) / vm := by
    rw [show τ / ϖ * vi * (τ / ϖ * vj) = (τ / ϖ) ^ 2 * (vi * vj) by ring, Real.sqrt_mul (by positivity), Real.sqrt_sq hc.le, mul_div_mul_left _ _ hc.ne']
  rw [e2]
  generalize 1 - (1 - √(vi * vj) / vm) = k
  have e3 : √(τ * Tc i * (τ * Tc j)) * k = τ * (√(Tc i * Tc j) * k) := by
    rw [show τ * Tc i * (τ * Tc j) = τ ^ 2 * (Tc i * Tc j) by ring, Real.sqrt_mul (by positivity), Real.sqrt_sq hτ.le]; ring
  rw [e3]
  generalize √(Tc i * Tc j) * k = tc
  have e4 : (Zc i + Zc j) / 2 * R * (τ * tc) / (τ / ϖ * vm) = ϖ * ((Zc i + Zc j) / 2 * R * tc / vm) := by
    rw [show (Zc i + Zc j) / 2 * R * (τ * tc) = τ / ϖ * (ϖ * ((Zc i + Zc j) / 2 * R * tc)) by field_simp, mul_div_mul_left _ _ hc.ne', mul_div_assoc]
  rw [e4]
  exact bPure_other hτ R T tc _ _

theorem virialB_other (hτ : 0 < τ) (hϖ : 0 < ϖ) {R : ℝ} (hR : 0 ≤ R) (e : Virial N) (hTc : ∀ i, 0 ≤ e.Tc i) (hPc : ∀ i, 0 ≤ e.Pc i) (hZc : ∀ i, 0 ≤ e.Zc i) (T : ℝ)
    (i j : Fin N) : virialB R (vother τ ϖ e) (τ * T) i j = τ / ϖ * virialB R e T i j := by
  simp only [virialB, bMixture, vother]
  split_ifs
  · exact bPure_other hτ R T _ _ _
  · exact bCross_other hτ hϖ T hR _ _ _ _ hTc hPc hZc i j
  · exact bCross_other hτ hϖ T hR _ _ _ _ hTc hPc hZc j i

/-- C123: the virial equation. -/
theorem C123_virial (hτ : 0 < τ) (hϖ : 0 < ϖ) {R : ℝ} (hR : 0 ≤ R) (e : Virial N) (hTc : ∀ i, 0 ≤ e.Tc i) (hPc : ∀ i, 0 ≤ e.Pc i) (hZc : ∀ i, 0 ≤ e.Zc i)
    (T P v : ℝ) (y : Fin N → ℝ) :
    (∀ i j, virialB R (vother τ ϖ e) (τ * T) i j = τ / ϖ * virialB R e T i j) ∧
    virialBm R (vother τ ϖ e) (τ * T) y = τ / ϖ * virialBm R e T y ∧
    virialZ R (vother τ ϖ e) (τ * T) (ϖ * P) y = virialZ R e T P y ∧
    virialP R (vother τ ϖ e) (τ * T) (τ / ϖ * v) y = ϖ * virialP R e T v y ∧
    ∀ i, virialPhi R (vother τ ϖ e) (τ * T) (ϖ * P) y i = virialPhi R e T P y i := by
  have hB := virialB_other hτ hϖ hR e hTc hPc hZc T
  have hBm : virialBm R (vother τ ϖ e) (τ * T) y = τ / ϖ * virialBm R e T y := by
    simp only [virialBm, quadratic, hB]
    rw [mul_sum]
    refine sum_congr rfl fun j _ => ?_
    have : ∑ i, y i * (τ / ϖ * virialB R e T i j) = τ / ϖ * ∑ i, y i * virialB R e T i j := by
      rw [mul_sum]; exact sum_congr rfl fun i _ => by ring
    rw [this]; ring
  refine ⟨hB, hBm, ?_, ?_, fun i => ?_⟩
  · simp only [virialZ, hBm]
    rw [show τ / ϖ * virialBm R e T y * (ϖ * P) = τ * (virialBm R e T y * P) by field_simp, show R * (τ * T) = τ * (R * T) by ring, mul_div_mul_left _ _ hτ.ne']
  · simp only [virialP, hBm]
    rw [← mul_sub, show R * (τ * T) = τ / ϖ * (ϖ * (R * T)) by field_simp, mul_div_mul_left _ _ (by positivity), mul_div_assoc]
  · simp only [virialPhi, hBm, hB]
    have hs : ∑ j, τ / ϖ * virialB R e T i j * y j = τ / ϖ * ∑ j, virialB R e T i j * y j := by
      rw [mul_sum]; exact sum_congr rfl fun j _ => by ring
    rw [hs]
    generalize (∑ j, virialB R e T i j * y j) = s
    generalize virialBm R e T y = B
    rw [show (2 * (τ / ϖ * s) - τ / ϖ * B) * (ϖ * P) = τ * ((2 * s - B) * P) by field_simp, show R * (τ * T) = τ * (R * T) by ring, mul_div_mul_left _ _ hτ.ne']

example (P : ℝ) (y : Fin 2 → ℝ) : virialZ 8 (vother 2 3 ⟨![300, 500], ![4000000, 3000000], ![0.28, 0.27], ![0.1, 0.3]⟩) (2 * 400) (3 * P) y =
    virialZ 8 ⟨![300, 500], ![4000000, 3000000], ![0.28, 0.27], ![0.1, 0.3]⟩ 400 P y :=
  (C123_virial (by norm_num) (by norm_num) (by norm_num) _ (by intro i; fin_cases i <;> norm_num) (by intro i; fin_cases i <;> norm_num)
    (by intro i; fin_cases i <;> norm_num) 400 P 1 y).2.2.1

/-- C123: pseudocritical constants of a mixture. -/
theorem C123_pseudocritical (hτ : 0 < τ) (hϖ : 0 < ϖ) (R : ℝ) (y Tc Pc Zc : Fin N → ℝ) (w : Option (Fin N → ℝ)) :
    pseudocritical R y (fun i => τ * Tc i) (fun i => ϖ * Pc i) Zc w =
      (τ * (pseudocritical R y Tc Pc Zc w).1, ϖ * (pseudocritical R y Tc Pc Zc w).2.1, τ / ϖ * (pseudocritical R y Tc Pc Zc w).2.2.1,
        (pseudocritical R y Tc Pc Zc w).2.2.2) := by
  have hv : ∀ i, Zc i * R * (τ * Tc i) / (ϖ * Pc i) = τ / ϖ * (Zc i * R * Tc i / Pc i) := fun i => by
    rw [show Zc i * R * (τ * Tc i) = τ * (Zc i * R * Tc i) by ring, mul_div_mul_comm]
  have h1 : ∑ i, y i * (τ * Tc i) = τ * ∑ i, y i * Tc i := by rw [mul_sum]; exact sum_congr rfl fun i _ => by ring
  have h2 : ∑ i, y i * (τ / ϖ * (Zc i * R * Tc i / Pc i)) = τ / ϖ * ∑ i, y i * (Zc i * R * Tc i / Pc i) := by
    rw [mul_sum]; exact sum_congr rfl fun i _ => by ring
  simp only [pseudocritical, hv, h1, h2]
  refine Prod.ext rfl (Prod.ext ?_ rfl)
  show _ / _ = ϖ * (_ / _)
  generalize (∑ i, y i * Zc i) = a
  generalize (∑ i, y i * Tc i) = b
  generalize (∑ i, y i * (Zc i * R * Tc i / Pc i)) = c
  rw [show R * a * (τ * b) = τ / ϖ * (ϖ * (R * a * b)) by field_simp, mul_div_mul_left _ _ (by positivity), mul_div_assoc]

/-! ## Saturated liquids -/

open Verif.Vaporization Verif.Equations

/-- C123: vapour pressures. -/
theorem C123_vapour_pressure (hτ : 0 < τ) (T Tc Pc w a b c d Tb : ℝ) :
    plWilson (τ * T) (τ * Tc) (ϖ * Pc) w = (plWilson T Tc Pc w).map (ϖ * ·) ∧
    plAmbroseWalton (τ * T) (τ * Tc) (ϖ * Pc) w = (plAmbroseWalton T Tc Pc w).map (ϖ * ·) ∧
    wagner25 (τ * T) a b c d (ϖ * Pc) (τ * Tc) = (wagner25 T a b c d Pc Tc).map (ϖ * ·) ∧
    wagner36 (τ * T) a b c d (ϖ * Pc) (τ * Tc) = (wagner36 T a b c d Pc Tc).map (ϖ * ·) ∧
    plLeeKesler (τ * T) (τ * Tb) (τ * Tc) Pc = plLeeKesler T Tb Tc Pc := by
  have mb : ∀ (x : Option ℝ) (f : ℝ → Option ℝ), (x >>= f).map (ϖ * ·) = x >>= fun v => (f v).map (ϖ * ·) := fun x f => by cases x <;> rfl
  refine ⟨?_, ?_, ?_, ?_, ?_⟩
  · unfold plWilson
    rw [odiv_scale hτ.ne', mb]
    congr 1; funext q
    show some _ = some _
    congr 1; ring
  · unfold plAmbroseWalton
    rw [odiv_scale hτ.ne', mb]
    congr 1; funext Tr
    dsimp only
    rw [mb]; congr 1; funext p
    rw [mb]; congr 1; funext q
    rw [mb]; congr 1; funext f
    rw [mb]; congr 1; funext g
    rw [mb]; congr 1; funext h
    show some _ = some _
    congr 1; ring
  · unfold wagner25
    rw [odiv_scale hτ.ne', mb]
    congr 1; funext Tr
    dsimp only
    rw [mb]; congr 1; funext p
    rw [mb]; congr 1; funext q
    rw [mb]; congr 1; funext f
    show some _ = some _
    congr 1; ring
  · unfold wagner36
    rw [odiv_scale hτ.ne', mb]
    congr 1; funext Tr
    dsimp only
    rw [mb]; congr 1; funext p
    rw [mb]; congr 1; funext q
    show some _ = some _
    congr 1; ring
  · unfold plLeeKesler
    rw [mul_div_mul_left _ _ hτ.ne', mul_div_mul_left _ _ hτ.ne']

/-- C123: enthalpies of vaporisation. -/
theorem C123_vaporization (hτ : 0 < τ) (R T Tc w Tb Pc h T1 : ℝ) :
    dhvlPitzer R (τ * T) (τ * Tc) w = (dhvlPitzer R T Tc w).map (τ * ·) ∧
    dhvlVetere R (τ * Tb) (τ * Tc) Pc = (dhvlVetere R Tb Tc Pc).map (τ * ·) ∧
    dhvlWatson h (τ * T1) (τ * T) (τ * Tc) = dhvlWatson h T1 T Tc := by
  have mb : ∀ (x : Option ℝ) (f : ℝ → Option ℝ), (x >>= f).map (τ * ·) = x >>= fun v => (f v).map (τ * ·) := fun x f => by cases x <;> rfl
  refine ⟨?_, ?_, ?_⟩
  · unfold dhvlPitzer
    rw [odiv_scale hτ.ne', mb]
    congr 1; funext Tr
    rw [mb]; congr 1; funext p
    rw [mb]; congr 1; funext q
    show some _ = some _
    congr 1; ring
  · unfold dhvlVetere
    rw [odiv_scale hτ.ne', mb]
    congr 1; funext Tr
    rw [mb]; congr 1; funext p
    unfold odiv
    split_ifs
    · rfl
    · show some _ = some _
      congr 1; ring
  · unfold dhvlWatson
    rw [odiv_scale hτ.ne', odiv_scale hτ.ne']

open Verif.Rackett in
/-- C123: saturated liquid volumes. -/
theorem C123_rackett (hτ : 0 < τ) (T Tc Pc : ℝ) (Z w : Option ℝ) :
    vlRackett (τ * T) (τ * Tc) (ϖ * Pc) Z w = (vlRackett T Tc Pc Z w).map (Option.map (τ / ϖ * ·)) := by
  have mb : ∀ (x : Option ℝ) (f : ℝ → Option ℝ), (x >>= f).map (τ / ϖ * ·) = x >>= fun v => (f v).map (τ / ϖ * ·) := fun x f => by cases x <;> rfl
  have hb : ∀ z, vlRackett.body (τ * T) (τ * Tc) (ϖ * Pc) z = (vlRackett.body T Tc Pc z).map (τ / ϖ * ·) := fun z => by
    unfold vlRackett.body
    dsimp only
    rw [mul_div_mul_left _ _ hτ.ne', mb]
    congr 1; funext p
    rw [mb]; congr 1; funext q
    show some _ = some _
    congr 1
    rw [show Rackett.R * (τ * Tc) = τ * (Rackett.R * Tc) by ring, mul_div_mul_comm, mul_assoc]
  cases Z <;> cases w <;> simp [vlRackett, Except.map, hb]

/-- A substance twice as hot and under three times the pressure. -/
example (w : ℝ) : plWilson (2 * 350) (2 * 500) (3 * 4000000) w = (plWilson 350 500 4000000 w).map (3 * ·) :=
  (C123_vapour_pressure (by norm_num) 350 500 4000000 w 0 0 0 0 1).1

end Verif.Corresponding
