import Verif.Lemmas.EosAux
import Verif.Props.Mixing

/-!
# C47-C50, C81: equations of state

Specifications: the pressure equation itself, volume and composition derivatives of the Helmholtz energy, and sums over components. `np.roots` is an oracle
which is assumed exact (`ExactRoots`).
-/

namespace Verif.Eos

open Finset Verif.Mixing

variable {N : ℕ}

/-- The oracle for `np.roots` returns exactly the complex roots of the monic cubic. -/
def ExactRoots (npRoots : ℝ → ℝ → ℝ → List (ℝ × ℝ)) : Prop :=
  ∀ c2 c1 c0 x y : ℝ, (x, y) ∈ npRoots c2 c1 c0 ↔
    ((x : ℂ) + y * Complex.I) ^ 3 + c2 * ((x : ℂ) + y * Complex.I) ^ 2 + c1 * ((x : ℂ) + y * Complex.I) + c0 = 0

/-- Such an oracle exists. -/
theorem exactRoots_exists : ∃ npRoots, ExactRoots npRoots := by
  classical
  let p : ℝ → ℝ → ℝ → Polynomial ℂ := fun c2 c1 c0 =>
    Polynomial.X ^ 3 + Polynomial.C (c2 : ℂ) * Polynomial.X ^ 2 + Polynomial.C (c1 : ℂ) * Polynomial.X + Polynomial.C (c0 : ℂ)
  have hp : ∀ c2 c1 c0, p c2 c1 c0 ≠ 0 := by
    intro c2 c1 c0 h
    have := congrArg (fun q => Polynomial.coeff q 3) h
    simp [p, Polynomial.coeff_X, Polynomial.coeff_C] at this
  refine ⟨fun c2 c1 c0 => (p c2 c1 c0).roots.toList.map fun z => (z.re, z.im), ?_⟩
  intro c2 c1 c0 x y
  simp only [List.mem_map, Multiset.mem_toList, Polynomial.mem_roots (hp c2 c1 c0), Prod.mk.injEq]
  constructor
  · rintro ⟨z, hz, rfl, rfl⟩
    rw [Complex.re_add_im]
    simpa [p, Polynomial.IsRoot] using hz
  · intro h
    exact ⟨x + y * Complex.I, by simpa [p, Polynomial.IsRoot] using h, by simp, by simp⟩

/-- Positive data for a cubic equation of state. -/
structure Pos (R : ℝ) (e : Cubic N) (T : ℝ) (z : Fin N → ℝ) : Prop where
  R : 0 < R
  Tc : ∀ i, 0 < e.Tc i
  Pc : ∀ i, 0 < e.Pc i
  T : 0 < T
  sum : ∑ i, z i = 1
  nonneg : ∀ i, 0 ≤ z i

/-- C47: with exact roots `Z` never fails; it returns one or two values in increasing order, all greater than `B = bm P/(R T)`, and every real solution
greater than `B` lies between them. -/
theorem C47_roots (npRoots : ℝ → ℝ → ℝ → List (ℝ × ℝ)) (hx : ExactRoots npRoots) {R T P : ℝ} (e : Cubic N) (z : Fin N → ℝ) (h : Pos R e T z)
    (hP : 0 < P) :
    ∃ lo hi Z, cubicZ npRoots R e T P z = .ok Z ∧ (Z = [lo, hi] ∨ Z = [lo] ∧ lo = hi) ∧ lo ≤ hi ∧ bm R e z * P / (R * T) < lo ∧
      ∀ v, bm R e z < v → cubicP R e T v z = P → lo ≤ P * v / (R * T) ∧ P * v / (R * T) ≤ hi := by
  have hb := bm_pos h.R e h.Tc h.Pc z (by rw [h.sum]; exact one_pos) h.nonneg
  have hT := h.T
  have hR := h.R
  have hRT : 0 < R * T := mul_pos hR hT
  set A := am R e T z * P / (R * T) ^ 2 with hA
  set B := bm R e z * P / (R * T) with hB
  have hB0 : 0 < B := by positivity
  have hneg : cub (cubicCoefs e.kind.u e.kind.w A B).1 (cubicCoefs e.kind.u e.kind.w A B).2.1 (cubicCoefs e.kind.u e.kind.w A B).2.2 B < 0 := by
    rw [cub_at_B]
    have := mul_pos e.kind.sum_pos (pow_pos hB0 2)
    linarith
  have hreal : ∀ x, cub (cubicCoefs e.kind.u e.kind.w A B).1 (cubicCoefs e.kind.u e.kind.w A B).2.1 (cubicCoefs e.kind.u e.kind.w A B).2.2 x = 0 →
      (x, (0 : ℝ)) ∈ npRoots (cubicCoefs e.kind.u e.kind.w A B).1 (cubicCoefs e.kind.u e.kind.w A B).2.1 (cubicCoefs e.kind.u e.kind.w A B).2.2 := by
    intro x hx0
    rw [hx]
    simp only [Complex.ofReal_zero, zero_mul, add_zero]
    unfold cub at hx0
    exact_mod_cast hx0
  have heps : |(0 : ℝ)| < eps := by rw [abs_zero, eps]; positivity
  obtain ⟨x, hxB, hx0⟩ := cub_root _ _ _ B hneg
  obtain ⟨lo, hi, Z, h1, h2, h3, ⟨_, _, _, h4⟩, _, h6⟩ := selectRoots_spec _ B ⟨(x, 0), hreal x hx0, heps, hxB⟩
  refine ⟨lo, hi, Z, h1, h2, h3, h4, ?_⟩
  intro v hv hPv
  have hvz : 0 < v - bm R e z := sub_pos.2 hv
  have hq := e.kind.den_pos hb hv
  have hBv : B < P * v / (R * T) := by
    rw [hB, mul_comm P v]
    exact (div_lt_div_iff_of_pos_right hRT).2 (mul_lt_mul_of_pos_right hv hP)
  refine h6 (P * v / (R * T), 0) (hreal _ ?_) heps hBv
  rw [cub_factor]
  have hPe : R * T * (v ^ 2 + e.kind.u * v * bm R e z + e.kind.w * bm R e z ^ 2) - am R e T z * (v - bm R e z) =
      P * ((v - bm R e z) * (v ^ 2 + e.kind.u * v * bm R e z + e.kind.w * bm R e z ^ 2)) := by
    rw [← hPv]
    simp only [cubicP]
    generalize v ^ 2 + e.kind.u * v * bm R e z + e.kind.w * bm R e z ^ 2 = q at *
    generalize v - bm R e z = x at *
    field_simp
  rw [hA, hB]
  have : (P * v / (R * T) - bm R e z * P / (R * T)) *
        ((P * v / (R * T)) ^ 2 + e.kind.u * (P * v / (R * T)) * (bm R e z * P / (R * T)) + e.kind.w * (bm R e z * P / (R * T)) ^ 2) -
        ((P * v / (R * T)) ^ 2 + e.kind.u * (P * v / (R * T)) * (bm R e z * P / (R * T)) + e.kind.w * (bm R e z * P / (R * T)) ^ 2) +
        am R e T z * P / (R * T) ^ 2 * (P * v / (R * T) - bm R e z * P / (R * T)) =
      P ^ 2 / (R * T) ^ 3 * (P * ((v - bm R e z) * (v ^ 2 + e.kind.u * v * bm R e z + e.kind.w * bm R e z ^ 2)) -
        (R * T * (v ^ 2 + e.kind.u * v * bm R e z + e.kind.w * bm R e z ^ 2) - am R e T z * (v - bm R e z))) := by
    field_simp
    ring
  rw [this, hPe, sub_self, mul_zero]

/-- C47: every returned `Z` gives a molar volume above the co-volume whose pressure misses `P` by at most
`P |3 Z - (1 + B - u B)| eps² / ((Z - B) (Z² + u Z B + w B²))`, and gives back `P` exactly if no complex pair of roots lies closer to the real axis than `eps`. -/
theorem C47_pressure (npRoots : ℝ → ℝ → ℝ → List (ℝ × ℝ)) (hx : ExactRoots npRoots) {R T P : ℝ} (e : Cubic N) (z : Fin N → ℝ) (h : Pos R e T z)
    (hP : 0 < P) (Z : List ℝ) (hZ : cubicZ npRoots R e T P z = .ok Z) (x : ℝ) (hxZ : x ∈ Z) :
    bm R e z < vol R x T P ∧
    |P - cubicP R e T (vol R x T P) z| ≤ P * |3 * x - (1 + bm R e z * P / (R * T) - e.kind.u * (bm R e z * P / (R * T)))| * eps ^ 2 /
      ((x - bm R e z * P / (R * T)) * (x ^ 2 + e.kind.u * x * (bm R e z * P / (R * T)) + e.kind.w * (bm R e z * P / (R * T)) ^ 2)) ∧
    ((∀ c2 c1 c0, ∀ x ∈ npRoots c2 c1 c0, (c2, c1, c0) = cubicCoefs e.kind.u e.kind.w (am R e T z * P / (R * T) ^ 2) (bm R e z * P / (R * T)) →
      |x.2| < eps → x.2 = 0) → cubicP R e T (vol R x T P) z = P) := by
  have hb := bm_pos h.R e h.Tc h.Pc z (by rw [h.sum]; exact one_pos) h.nonneg
  set A := am R e T z * P / (R * T) ^ 2 with hA
  set B := bm R e z * P / (R * T) with hB
  change selectRoots (npRoots (cubicCoefs e.kind.u e.kind.w A B).1 (cubicCoefs e.kind.u e.kind.w A B).2.1 (cubicCoefs e.kind.u e.kind.w A B).2.2) B = .ok Z at hZ
  have hex : ∃ x ∈ npRoots (cubicCoefs e.kind.u e.kind.w A B).1 (cubicCoefs e.kind.u e.kind.w A B).2.1 (cubicCoefs e.kind.u e.kind.w A B).2.2,
      |x.2| < eps ∧ x.1 > B := by
    by_contra hno
    push Not at hno
    unfold selectRoots at hZ
    rw [List.filter_eq_nil_iff.2] at hZ
    · simp at hZ
    · intro y hy
      simp only [decide_eq_true_eq, not_and, not_lt]
      exact fun h1 => hno y hy h1
  obtain ⟨lo, hi, Z', h1, h2, -, h4, h5, -⟩ := selectRoots_spec _ B hex
  rw [hZ] at h1
  cases h1
  have : ∃ y, (x, y) ∈ npRoots (cubicCoefs e.kind.u e.kind.w A B).1 (cubicCoefs e.kind.u e.kind.w A B).2.1 (cubicCoefs e.kind.u e.kind.w A B).2.2 ∧
      |y| < eps ∧ x > B := by
    rcases h2 with rfl | ⟨rfl, rfl⟩
    · rcases List.mem_cons.1 hxZ with rfl | hxZ
      · exact h4
      · rw [List.mem_singleton.1 hxZ]; exact h5
    · rw [List.mem_singleton.1 hxZ]; exact h4
  obtain ⟨y, hy, hye, hxB⟩ := this
  have hB0 : 0 < B := by have := h.R; have := h.T; positivity
  have hq := e.kind.den_pos hB0 hxB
  have hxB' : 0 < x - B := sub_pos.2 hxB
  have hres := P_residual h.R h.T hP e z hb hxB
  rw [← hA, ← hB] at hres
  have hvol : bm R e z < vol R x T P := by
    have hR := h.R
    have hT := h.T
    have e1 : bm R e z = B * (R * T) / P := by rw [hB]; field_simp
    rw [e1, vol, div_lt_div_iff_of_pos_right hP]
    have := mul_lt_mul_of_pos_right hxB (mul_pos hR hT)
    linarith
  have hyroot := hy
  rw [hx] at hyroot
  set c2 := (cubicCoefs e.kind.u e.kind.w A B).1 with hc2
  set c1 := (cubicCoefs e.kind.u e.kind.w A B).2.1 with hc1
  set c0 := (cubicCoefs e.kind.u e.kind.w A B).2.2 with hc0
  have hre := congrArg Complex.re hyroot
  have him' := congrArg Complex.im hyroot
  simp [pow_succ] at hre him'
  have hcub : cub c2 c1 c0 x = y ^ 2 * (3 * x + c2) := by
    unfold cub; linear_combination hre
  refine ⟨hvol, ?_, fun him => ?_⟩
  · rw [le_div_iff₀ (mul_pos hxB' hq), ← abs_of_pos (mul_pos hxB' hq), ← abs_mul, hres, hcub, abs_mul, abs_mul, abs_of_pos hP,
      abs_of_nonneg (sq_nonneg y), mul_assoc]
    refine mul_le_mul_of_nonneg_left ?_ hP.le
    have e2 : 3 * x + c2 = 3 * x - (1 + B - e.kind.u * B) := by rw [hc2]; simp only [cubicCoefs]; ring
    rw [e2, mul_comm]
    refine mul_le_mul_of_nonneg_left ?_ (abs_nonneg _)
    rw [← sq_abs]
    exact pow_le_pow_left₀ (abs_nonneg y) hye.le 2
  · obtain rfl : y = 0 := him _ _ _ _ hy rfl hye
    have h0 : P * cub c2 c1 c0 x = 0 := by rw [hcub]; ring
    rw [h0] at hres
    rcases mul_eq_zero.1 hres with h' | h'
    · linarith
    · exact absurd h' (mul_pos hxB' hq).ne'

/-- C47: the claim without the restriction is false. A complex pair whose imaginary part is below `eps` passes the filter, and its real part is returned
although it does not satisfy the cubic (Redlich-Kwong, `u = 1`, `w = 0`). -/
theorem C47_nearly_real_false (npRoots : ℝ → ℝ → ℝ → List (ℝ × ℝ)) (hx : ExactRoots npRoots) :
    ∃ A B x : ℝ, 0 < A ∧ 0 < B ∧ ∃ Z, zCubicRoots npRoots 1 0 A B = .ok Z ∧ x ∈ Z ∧
      x ^ 3 + -(1 + B - 1 * B) * x ^ 2 + (A + 0 * B ^ 2 - 1 * B - 1 * B ^ 2) * x + -(A * B + 0 * B ^ 2 + 0 * B ^ 3) ≠ 0 := by
  set ε : ℝ := eps / 2 with hε
  have heps : (0 : ℝ) < eps := by unfold eps; positivity
  have heps1 : eps < 1 / 10 := by unfold eps; norm_num
  have hε0 : 0 < ε := by positivity
  set s : ℝ := 17 / 50 with hs
  set r : ℝ := 8 / 25 with hr
  set q : ℝ := s ^ 2 + ε ^ 2 with hq
  have hq1 : 0 < q := by positivity
  have hq2 : q < 1 / 5 := by rw [hq, hs]; nlinarith
  obtain ⟨B, hB, hB0⟩ : ∃ B ∈ Set.Icc (0 : ℝ) (3 / 10), B ^ 3 + B ^ 2 + (q + 2 * r * s) * B - r * q = 0 := by
    have hc : ContinuousOn (fun B : ℝ => B ^ 3 + B ^ 2 + (q + 2 * r * s) * B - r * q) (Set.Icc 0 (3 / 10)) := by fun_prop
    refine intermediate_value_Icc (by norm_num) hc ⟨?_, ?_⟩
    · simp only [hr]; nlinarith
    · simp only [hr, hs]; nlinarith
  have hBpos : 0 < B := by
    refine lt_of_le_of_ne hB.1 fun h => ?_
    rw [← h, hr] at hB0
    nlinarith
  have hA1 : r * q / B * B = r * q := div_mul_cancel₀ _ hBpos.ne'
  have hA2 : r * q / B - B - B ^ 2 = q + 2 * r * s := by
    have : (r * q / B - B - B ^ 2) * B = (q + 2 * r * s) * B := by rw [sub_mul, sub_mul, hA1]; linarith
    exact mul_right_cancel₀ hBpos.ne' this
  refine ⟨r * q / B, B, s, by rw [hr]; positivity, hBpos, ?_⟩
  have hcoef : cubicCoefs 1 0 (r * q / B) B = (-1, q + 2 * r * s, -(r * q)) := by
    simp only [cubicCoefs]
    refine Prod.ext (by ring) (Prod.ext ?_ ?_)
    · simp only; rw [← hA2]; ring
    · change -(r * q / B * B + 0 * B ^ 2 + 0 * B ^ 3) = -(r * q)
      rw [hA1]; ring
  have hfac : ∀ x y : ℝ, (x, y) ∈ npRoots (-1) (q + 2 * r * s) (-(r * q)) ↔
      ((x : ℂ) + y * Complex.I - r) * ((x : ℂ) + y * Complex.I - (s + ε * Complex.I)) * ((x : ℂ) + y * Complex.I - (s - ε * Complex.I)) = 0 := by
    intro x y
    rw [hx]
    have h2 : (r : ℂ) + 2 * s = 1 := by rw [hr, hs]; push_cast; norm_num
    have hqc : (q : ℂ) = s ^ 2 + ε ^ 2 := by rw [hq]; push_cast; ring
    refine Eq.congr ?_ rfl
    push_cast
    rw [hqc]
    generalize (x : ℂ) + y * Complex.I = Z
    have hI : Complex.I ^ 2 = -1 := Complex.I_sq
    linear_combination (Z ^ 2) * h2 + (ε ^ 2 * (Z - r)) * hI
  have hsr : (s, ε) ∈ npRoots (-1) (q + 2 * r * s) (-(r * q)) := by
    rw [hfac]; simp
  have hεe : |ε| < eps := by rw [abs_of_pos hε0, hε]; linarith
  have hsB : s > B := by rw [hs]; linarith [hB.2]
  obtain ⟨lo, hi, Z, h1, h2, h3, h4, ⟨y, hy, hye, -⟩, h6⟩ := selectRoots_spec _ B ⟨(s, ε), hsr, hεe, hsB⟩
  have hhi : s ≤ hi := (h6 _ hsr hεe hsB).2
  have hhi' : hi = s := by
    rw [hfac] at hy
    rcases mul_eq_zero.1 hy with h | h
    · rcases mul_eq_zero.1 h with h | h
      · have := congrArg Complex.re h
        simp at this
        rw [hr] at this; rw [hs] at hhi; linarith
      · have := congrArg Complex.re h
        simp at this
        linarith
    · have := congrArg Complex.re h
      simp at this
      linarith
  refine ⟨Z, ?_, ?_, ?_⟩
  · simp only [zCubicRoots, hcoef]; exact h1
  · rcases h2 with rfl | ⟨rfl, rfl⟩
    · simp [hhi']
    · simp [hhi']
  · have hv : s ^ 3 + -(1 + B - 1 * B) * s ^ 2 + (r * q / B + 0 * B ^ 2 - 1 * B - 1 * B ^ 2) * s + -(r * q / B * B + 0 * B ^ 2 + 0 * B ^ 3) =
        (s - r) * ε ^ 2 := by
      rw [hA1]
      have : r * q / B + 0 * B ^ 2 - 1 * B - 1 * B ^ 2 = q + 2 * r * s := by rw [← hA2]; ring
      rw [this, hq, hr, hs]; ring
    rw [hv, hr, hs]
    positivity

/-- A concrete pure fluid. -/
noncomputable def demo : Cubic 1 := ⟨.PR, fun _ => 500, fun _ => 4000000, fun _ => 1 / 3, none⟩

theorem demo_pos : Pos 8 demo 400 (fun _ => 1) :=
  ⟨by norm_num, by intro i; norm_num [demo], by intro i; norm_num [demo], by norm_num, by simp, by intro i; norm_num⟩

example : ∃ npRoots, ExactRoots npRoots ∧ ∃ lo hi Z, cubicZ npRoots 8 demo 400 100000 (fun _ => 1) = .ok Z ∧ (Z = [lo, hi] ∨ Z = [lo] ∧ lo = hi) := by
  obtain ⟨r, hr⟩ := exactRoots_exists
  obtain ⟨lo, hi, Z, h1, h2, -⟩ := C47_roots r hr demo (fun _ => 1) demo_pos (P := 100000) (by norm_num)
  exact ⟨r, hr, lo, hi, Z, h1, h2⟩

example : ∃ npRoots, ExactRoots npRoots ∧ ∃ x Z, cubicZ npRoots 8 demo 400 100000 (fun _ => 1) = .ok Z ∧ x ∈ Z ∧ bm 8 demo (fun _ => 1) < vol 8 x 400 100000 := by
  obtain ⟨r, hr⟩ := exactRoots_exists
  obtain ⟨lo, hi, Z, h1, h2, -⟩ := C47_roots r hr demo (fun _ => 1) demo_pos (P := 100000) (by norm_num)
  have hm : lo ∈ Z := by rcases h2 with rfl | ⟨rfl, -⟩ <;> simp
  exact ⟨r, hr, lo, Z, h1, hm, (C47_pressure r hr demo _ demo_pos (by norm_num) Z h1 lo hm).1⟩

/-! ### C48 -/

/-- C48 (cubic): the pressure is minus the volume derivative of the Helmholtz function, at constant temperature and amounts. -/
theorem C48_cubic {R T V v0 : ℝ} (hR : 0 < R) (e : Cubic N) (n : Fin N → ℝ) (hTc : ∀ i, 0 < e.Tc i) (hPc : ∀ i, 0 < e.Pc i)
    (hn : ∀ i, 0 ≤ n i) (hn0 : 0 < ∑ i, n i) (hv0 : 0 < v0) (hV : ∑ i, n i * b R e i < V) :
    HasDerivAt (fun V => cubicDA R e T V n v0) (-cubicP R e T (V / ∑ i, n i) (fun i => n i / ∑ i, n i)) V := by
  set nT := ∑ i, n i with hnT
  have hD : 0 < ∑ i, n i * b R e i := sum_mul_pos n _ hn0 hn (b_pos hR e hTc hPc)
  have hbm : bm R e (fun i => n i / nT) = (∑ i, n i * b R e i) / nT := by
    rw [bm, sum_div]; exact sum_congr rfl fun i _ => by ring
  have := helmholtz_deriv e.kind (S := nT ^ 2 * am R e T (fun i => n i / nT)) (nRT := nT * R * T) hD hV (mul_pos hn0 hv0)
  have hd := e.kind.d_pos
  have hq := e.kind.den_pos hD hV
  have hV' : 0 < V - ∑ i, n i * b R e i := sub_pos.2 hV
  refine (this.congr_of_eventuallyEq (Filter.Eventually.of_forall fun V => ?_)).congr_deriv ?_
  · simp only [cubicDA]
    rw [← hnT, hbm, mul_div_cancel₀ _ hn0.ne']
    congr 2
    field_simp
  · simp only [cubicP]
    rw [hbm]
    generalize am R e T (fun i => n i / nT) = am
    generalize ∑ i, n i * b R e i = D at *
    have h1 : V / nT - D / nT = (V - D) / nT := by ring
    have h2 : (V / nT) ^ 2 + e.kind.u * (V / nT) * (D / nT) + e.kind.w * (D / nT) ^ 2 = (V ^ 2 + e.kind.u * V * D + e.kind.w * D ^ 2) / nT ^ 2 := by ring
    rw [h1, h2]
    generalize V ^ 2 + e.kind.u * V * D + e.kind.w * D ^ 2 = q at *
    generalize V - D = x at *
    field_simp

/-- C48 (virial). -/
theorem C48_virial {R T V v0 : ℝ} (e : Virial N) (n : Fin N → ℝ) (hn0 : 0 < ∑ i, n i) (hv0 : 0 < v0)
    (hV : (∑ i, n i) * virialBm R e T (fun i => n i / ∑ i, n i) < V) :
    HasDerivAt (fun V => virialDA R e T V n v0) (-virialP R e T (V / ∑ i, n i) (fun i => n i / ∑ i, n i)) V := by
  set nT := ∑ i, n i with hnT
  simp only [virialDA, virialP]
  rw [← hnT]
  generalize virialBm R e T (fun i => n i / nT) = Bm at *
  have hx : 0 < V - nT * Bm := sub_pos.2 hV
  have l : HasDerivAt (fun V : ℝ => (V - nT * Bm) / (nT * v0)) (1 / (nT * v0)) V := ((hasDerivAt_id V).sub_const _).div_const _
  refine ((l.log (div_pos hx (mul_pos hn0 hv0)).ne').const_mul (-nT * R * T)).congr_deriv ?_
  have h1 : V / nT - Bm = (V - nT * Bm) / nT := by field_simp
  rw [h1]
  generalize V - nT * Bm = x at *
  field_simp

/-- C48 (ideal gas). -/
theorem C48_ideal {R T V v0 : ℝ} (n : Fin N → ℝ) (hn0 : 0 < ∑ i, n i) (hv0 : 0 < v0) (hV : 0 < V) :
    HasDerivAt (fun V => idealDA R T V n v0) (-idealP R T (V / ∑ i, n i)) V := by
  set nT := ∑ i, n i with hnT
  simp only [idealDA, idealP]
  rw [← hnT]
  have l : HasDerivAt (fun V : ℝ => V / (nT * v0)) (1 / (nT * v0)) V := (hasDerivAt_id V).div_const _
  refine ((l.log (div_pos hV (mul_pos hn0 hv0)).ne').const_mul (-nT * R * T)).congr_deriv ?_
  field_simp

/-- C48: the departure functions returned by `DX` satisfy `G = H - T S` and `U = A + T S`; for the ideal gas `H = U = 0` and
`S = -R ln (P/P0)` exactly, in spite of the finite-difference temperature derivative. -/
theorem C48_departures {R : ℝ} (DA : ℝ → ℝ → (Fin N → ℝ) → ℝ → ℝ) (Z T P : ℝ) (y : Fin N → ℝ) (P0 : ℝ) :
    (DX R DA Z T P y P0).G = (DX R DA Z T P y P0).H - T * (DX R DA Z T P y P0).S ∧
      (DX R DA Z T P y P0).U = (DX R DA Z T P y P0).A + T * (DX R DA Z T P y P0).S ∧
      (DX R DA Z T P y P0).H = (DX R DA Z T P y P0).U + R * T * (Z - 1) := by
  refine ⟨?_, rfl, rfl⟩
  simp only [DX]
  ring

/-- C48. An ideal gas has no departure of enthalpy and internal energy; entropy and Gibbs energy depart by the pressure ratio alone. -/
theorem C48_departures_ideal {R T P P0 : ℝ} (hR : 0 < R) (hT : 0 < T) (hP : 0 < P) (hP0 : 0 < P0) (y : Fin N → ℝ) (hy : ∑ i, y i = 1) :
    (DX R (idealDA R) idealZ T P y P0).H = 0 ∧ (DX R (idealDA R) idealZ T P y P0).U = 0 ∧
      (DX R (idealDA R) idealZ T P y P0).S = -R * Real.log (P / P0) ∧ (DX R (idealDA R) idealZ T P y P0).G = R * T * Real.log (P / P0) := by
  have heps : 0 < √eps := Real.sqrt_pos.2 (by unfold eps; positivity)
  have h1 : ∀ T', idealDA R T' (1 * idealZ * R * T / P) (fun i => 1 * y i) (R * T / P0) = R * T' * Real.log (P / P0) := by
    intro T'
    simp only [idealDA, one_mul, hy, idealZ]
    have : R * T / P / (R * T / P0) = (P / P0)⁻¹ := by field_simp
    rw [this, Real.log_inv]; ring
  simp only [DX]
  rw [h1, h1]
  simp only [idealZ]
  refine ⟨?_, ?_, ?_, ?_⟩ <;> field_simp <;> ring

example : HasDerivAt (fun V => cubicDA 8 demo 400 V (fun _ => 2) 1) (-cubicP 8 demo 400 (10 / ∑ _i : Fin 1, 2) (fun _ => 2 / ∑ _i : Fin 1, 2)) 10 :=
  C48_cubic (by norm_num) demo (fun _ => 2) (by intro i; norm_num [demo]) (by intro i; norm_num [demo]) (by intro i; norm_num) (by simp) (by norm_num)
    (by norm_num [b, demo, Kind.Ωb])

example : HasDerivAt (fun V => idealDA 8 300 V ![1, 2] 1) (-idealP 8 300 (5 / ∑ i, ![1, 2] i)) 5 :=
  C48_ideal _ (by norm_num [Fin.sum_univ_two]) (by norm_num) (by norm_num)

example : (DX 8 (idealDA 8) idealZ 300 200 ![1 / 2, 1 / 2] 100).H = 0 :=
  (C48_departures_ideal (by norm_num) (by norm_num) (by norm_num) (by norm_num) _ (by norm_num [Fin.sum_univ_two])).1

/-! ### C49 -/

/-- C49 (partial: no interaction matrix): `Σ z_i ln φ_i` is the residual Gibbs energy over `R T`, computed from the Helmholtz function against the ideal gas
at the same temperature and pressure. -/
theorem C49_gibbs_partial {R T P Z : ℝ} (e : Cubic N) (hk : e.k = none) (z : Fin N → ℝ) (h : Pos R e T z) (hP : 0 < P) (ham : 0 < am R e T z)
    (hZ : bm R e z * P / (R * T) < Z) :
    ∑ i, z i * lnPhi R e T P z Z i = cubicDA R e T (vol R Z T P) z (R * T / P) / (R * T) + (Z - 1) := by
  have hb := bm_pos h.R e h.Tc h.Pc z (by rw [h.sum]; exact one_pos) h.nonneg
  have hR := h.R
  have hT := h.T
  have hδ : ∑ i, z i * delta R e T z i = 2 := by
    have h1 : ∀ i, z i * delta R e T z i = 2 / √(am R e T z) * (z i * √(a R e T i)) := by
      intro i
      rw [delta, hk]
      simp only
      rw [Real.sqrt_div (a_nonneg e h.Pc T i)]
      ring
    rw [sum_congr rfl fun i _ => h1 i, ← mul_sum]
    have h2 : am R e T z = (∑ i, z i * √(a R e T i)) ^ 2 := by rw [am, hk, geometric]
    have h3 : 0 ≤ ∑ i, z i * √(a R e T i) := sum_nonneg fun i _ => mul_nonneg (h.nonneg i) (Real.sqrt_nonneg _)
    rw [h2] at ham ⊢
    rw [Real.sqrt_sq h3]
    have : ∑ i, z i * √(a R e T i) ≠ 0 := by
      intro h0; rw [h0] at ham; norm_num at ham
    field_simp
  have hbs : ∑ i, z i * (b R e i / bm R e z) = 1 := by
    have : ∀ i, z i * (b R e i / bm R e z) = z i * b R e i / bm R e z := fun i => by ring
    rw [sum_congr rfl fun i _ => this i, ← sum_div]
    exact div_self hb.ne'
  set B := bm R e z * P / (R * T) with hB
  have hRT : 0 < R * T := mul_pos hR hT
  have hbm : bm R e z = B * (R * T) / P := by rw [hB]; field_simp
  have hB0 : 0 < B := by positivity
  have hd := e.kind.d_pos
  simp only [lnPhi]
  rw [← hB]
  set d := √(e.kind.u ^ 2 - 4 * e.kind.w) with hdd
  set L := Real.log ((2 * Z + B * (e.kind.u + d)) / (2 * Z + B * (e.kind.u - d))) with hL
  have hlhs : ∑ i, z i * (b R e i / bm R e z * (Z - 1) - Real.log (Z - B) +
      am R e T z * P / (R * T) ^ 2 / (B * d) * (b R e i / bm R e z - delta R e T z i) * L) =
      (Z - 1) - Real.log (Z - B) + am R e T z * P / (R * T) ^ 2 / (B * d) * (1 - 2) * L := by
    have : ∀ i, z i * (b R e i / bm R e z * (Z - 1) - Real.log (Z - B) +
      am R e T z * P / (R * T) ^ 2 / (B * d) * (b R e i / bm R e z - delta R e T z i) * L) =
      z i * (b R e i / bm R e z) * (Z - 1) - z i * Real.log (Z - B) +
        (z i * (b R e i / bm R e z) * (am R e T z * P / (R * T) ^ 2 / (B * d) * L) - z i * delta R e T z i * (am R e T z * P / (R * T) ^ 2 / (B * d) * L)) := by
      intro i; ring
    rw [sum_congr rfl fun i _ => this i, sum_add_distrib, sum_sub_distrib, sum_sub_distrib, ← sum_mul, ← sum_mul, ← sum_mul, ← sum_mul, hbs, hδ, h.sum]
    ring
  rw [hlhs]
  simp only [cubicDA, h.sum, div_one, one_mul]
  rw [← hdd]
  have e1 : 2 * vol R Z T P + bm R e z * (e.kind.u - d) = (2 * Z + B * (e.kind.u - d)) * (R * T / P) := by rw [hbm, vol]; field_simp
  have e2 : 2 * vol R Z T P + bm R e z * (e.kind.u + d) = (2 * Z + B * (e.kind.u + d)) * (R * T / P) := by rw [hbm, vol]; field_simp
  have e3 : (vol R Z T P - bm R e z) / (R * T / P) = Z - B := by rw [hbm, vol]; field_simp
  have e4 : (2 * Z + B * (e.kind.u - d)) * (R * T / P) / ((2 * Z + B * (e.kind.u + d)) * (R * T / P)) =
      ((2 * Z + B * (e.kind.u + d)) / (2 * Z + B * (e.kind.u - d)))⁻¹ := by
    rw [mul_div_mul_right _ _ (by positivity : R * T / P ≠ 0), inv_div]
  have e5 : (fun i => z i) = z := rfl
  rw [e1, e2, e3, e4, Real.log_inv, ← hL, hbm]
  field_simp
  ring

/-- C49 (partial: no interaction matrix): each `ln φ_i` is the composition derivative of the residual Helmholtz energy over `R T`, minus `ln Z`. Here
`DA + n R T ln (V/(n v0))` is the Helmholtz energy relative to the ideal gas at the same temperature and volume. -/
theorem C49_derivative_partial {R T V v0 : ℝ} (hR : 0 < R) (hT : 0 < T) (e : Cubic N) (hk : e.k = none) (n : Fin N → ℝ) (hTc : ∀ i, 0 < e.Tc i)
    (hPc : ∀ i, 0 < e.Pc i) (hn : ∀ i, 0 ≤ n i) (hn0 : 0 < ∑ i, n i) (hv0 : 0 < v0) (hV : ∑ i, n i * b R e i < V)
    (ham : 0 < am R e T (fun i => n i / ∑ i, n i)) (P : ℝ) (hP : P = cubicP R e T (V / ∑ i, n i) (fun i => n i / ∑ i, n i)) (hP0 : 0 < P) (i : Fin N) :
    HasDerivAt (fun t => cubicDA R e T V (n + Pi.single i t) v0 +
        (∑ j, (n + Pi.single i t : Fin N → ℝ) j) * R * T * Real.log (V / ((∑ j, (n + Pi.single i t : Fin N → ℝ) j) * v0)))
      (R * T * (lnPhi R e T P (fun i => n i / ∑ i, n i) (P * V / ((∑ i, n i) * R * T)) i + Real.log (P * V / ((∑ i, n i) * R * T)))) 0 := by
  set s := ∑ i, n i * √(a R e T i) with hs
  have hams : ∀ (m : Fin N → ℝ) (c : ℝ), am R e T (fun i => m i / c) = ((∑ i, m i * √(a R e T i)) / c) ^ 2 := by
    intro m c
    rw [am, hk, geometric, sum_div]
    congr 1
    exact sum_congr rfl fun i _ => by ring
  have hs0 : 0 < s := by
    have h1 : 0 ≤ s := sum_nonneg fun i _ => mul_nonneg (hn i) (Real.sqrt_nonneg _)
    refine lt_of_le_of_ne h1 fun h => ?_
    rw [hams, ← hs, ← h] at ham
    norm_num at ham
  refine (phi_derivative hR hT e n hTc hPc hn hn0 hv0 hV i (s ^ 2) (2 * s * √(a R e T i)) (√(a R e T i) ^ 2) (by positivity) ?_ P hP hP0).congr_deriv ?_
  · intro t
    rw [hams, sum_add_single, ← hs, div_pow]
    congr 1
    ring
  · have hδ : delta R e T (fun i => n i / ∑ i, n i) i - 2 * s * √(a R e T i) / s ^ 2 * ∑ i, n i = 0 := by
      simp only [delta, hk]
      rw [hams, ← hs, Real.sqrt_div (a_nonneg e hPc T i), Real.sqrt_sq (by positivity)]
      field_simp
      ring
    rw [hδ, mul_zero, zero_mul, add_zero]

/-- C49 (with an interaction matrix, symmetric and with zero diagonal): by how much `ln φ_i` misses the composition derivative of the residual Helmholtz energy.
The coefficient `δ_i` in the code lacks the factor `2 √a_i / am`, and nothing else is wrong. -/
theorem C49_interaction {R T V v0 : ℝ} (hR : 0 < R) (hT : 0 < T) (e : Cubic N) (k : Fin N → Fin N → ℝ) (hk : e.k = some k) (hsym : ∀ i j, k i j = k j i)
    (hdiag : ∀ i, k i i = 0) (n : Fin N → ℝ) (hTc : ∀ i, 0 < e.Tc i)
    (hPc : ∀ i, 0 < e.Pc i) (hn : ∀ i, 0 ≤ n i) (hn0 : 0 < ∑ i, n i) (hv0 : 0 < v0) (hV : ∑ i, n i * b R e i < V)
    (ham : 0 < am R e T (fun i => n i / ∑ i, n i)) (P : ℝ) (hP : P = cubicP R e T (V / ∑ i, n i) (fun i => n i / ∑ i, n i)) (hP0 : 0 < P) (i : Fin N) :
    HasDerivAt (fun t => cubicDA R e T V (n + Pi.single i t) v0 +
        (∑ j, (n + Pi.single i t : Fin N → ℝ) j) * R * T * Real.log (V / ((∑ j, (n + Pi.single i t : Fin N → ℝ) j) * v0)))
      (R * T * (lnPhi R e T P (fun i => n i / ∑ i, n i) (P * V / ((∑ i, n i) * R * T)) i +
        am R e T (fun i => n i / ∑ i, n i) / (bm R e (fun i => n i / ∑ i, n i) * √(e.kind.u ^ 2 - 4 * e.kind.w) * (R * T)) *
          ((1 - 2 * √(a R e T i) / am R e T (fun i => n i / ∑ i, n i)) * ∑ j, n j / (∑ i, n i) * √(a R e T j) * (1 - k i j)) *
          Real.log ((2 * V + (∑ i, n i * b R e i) * (e.kind.u + √(e.kind.u ^ 2 - 4 * e.kind.w))) /
            (2 * V + (∑ i, n i * b R e i) * (e.kind.u - √(e.kind.u ^ 2 - 4 * e.kind.w)))) +
        Real.log (P * V / ((∑ i, n i) * R * T)))) 0 := by
  set nT := ∑ i, n i with hnT
  have ha0 := a_nonneg (R := R) e hPc T
  set κ : Fin N → Fin N → ℝ := fun i j => √(a R e T i) * √(a R e T j) * (1 - k i j) with hκ
  have κsym : ∀ i j, κ i j = κ j i := fun i j => by simp only [hκ]; rw [hsym i j]; ring
  have hams : ∀ (m : Fin N → ℝ) (c : ℝ), am R e T (fun i => m i / c) = (∑ i, ∑ j, m i * m j * κ i j) / c ^ 2 := by
    intro m c
    rw [am, hk, C66_geometric_double_sum _ _ ha0 k hsym hdiag, sum_div]
    refine sum_congr rfl fun i _ => ?_
    rw [sum_div]
    refine sum_congr rfl fun j _ => ?_
    rw [Real.sqrt_mul (ha0 i)]
    simp only [hκ]
    ring
  set S := ∑ i, ∑ j, n i * n j * κ i j with hS
  have hS0 : 0 < S := by
    rw [hams, ← hS] at ham
    by_contra h
    push Not at h
    exact absurd ham (not_lt.2 (div_nonpos_of_nonpos_of_nonneg h (by positivity)))
  set g := ∑ j, n j * κ i j with hg
  have hquad : ∀ t, ∑ x, ∑ y, (n + Pi.single i t : Fin N → ℝ) x * (n + Pi.single i t : Fin N → ℝ) y * κ x y = S + t * (2 * g) + t ^ 2 * κ i i := by
    intro t
    have h1 : ∀ x, ∑ y, (n + Pi.single i t : Fin N → ℝ) x * (n + Pi.single i t : Fin N → ℝ) y * κ x y =
        (n + Pi.single i t : Fin N → ℝ) x * ((∑ y, n y * κ x y) + t * κ x i) := by
      intro x
      rw [← sum_add_single n (κ x) i t, mul_sum]
      exact sum_congr rfl fun y _ => by ring
    rw [sum_congr rfl fun x _ => h1 x, sum_add_single n (fun x => (∑ y, n y * κ x y) + t * κ x i) i t, ← hg]
    have h2 : ∑ x, n x * ((∑ y, n y * κ x y) + t * κ x i) = S + t * g := by
      simp only [mul_add, sum_add_distrib]
      congr 1
      · rw [hS]
        refine sum_congr rfl fun x _ => ?_
        rw [mul_sum]
        exact sum_congr rfl fun y _ => by ring
      · rw [hg, mul_sum]
        exact sum_congr rfl fun x _ => by rw [κsym x i]; ring
    rw [h2]; ring
  refine (phi_derivative hR hT e n hTc hPc hn hn0 hv0 hV i S (2 * g) (κ i i) hS0 ?_ P hP hP0).congr_deriv ?_
  · intro t
    rw [hams, hquad]
  · have hδ : delta R e T (fun i => n i / nT) i - 2 * g / S * nT =
        (1 - 2 * √(a R e T i) / am R e T (fun i => n i / nT)) * ∑ j, n j / nT * √(a R e T j) * (1 - k i j) := by
      have hd : ∑ j, n j / nT * √(a R e T j) * (1 - k i j) = delta R e T (fun i => n i / nT) i := by simp only [delta, hk]
      have hg2 : g = √(a R e T i) * nT * delta R e T (fun i => n i / nT) i := by
        rw [← hd, hg, mul_sum]
        refine sum_congr rfl fun j _ => ?_
        simp only [hκ]
        field_simp
      rw [hd, hg2, hams, ← hS]
      have := hS0.ne'
      field_simp
    rw [← hnT, hδ]

example : ∃ x, ∑ i, (fun _ : Fin 1 => (1 : ℝ)) i * lnPhi 8 ⟨.RK, fun _ => 2, fun _ => 3, fun _ => 0, none⟩ 1 1 (fun _ => 1) 100 i = x + (100 - 1) := by
  have h : Pos 8 (⟨.RK, fun _ => 2, fun _ => 3, fun _ => 0, none⟩ : Cubic 1) 1 (fun _ => 1) :=
    ⟨by norm_num, by intro i; norm_num, by intro i; norm_num, by norm_num, by simp, by intro i; norm_num⟩
  refine ⟨_, C49_gibbs_partial _ rfl _ h one_pos ?_ ?_⟩
  · simp only [am, geometric, a, alpha, Kind.Ωa]
    have : (0 : ℝ) < √2 := Real.sqrt_pos.2 (by norm_num)
    simp; positivity
  · simp [bm, b, Kind.Ωb]; norm_num

example : ∃ x, HasDerivAt (fun t => cubicDA 1 ⟨.RK, fun _ => 1, fun _ => 1, fun _ => 0, none⟩ 1 1 ((fun _ : Fin 1 => (1 : ℝ)) + Pi.single 0 t) 1 +
    (∑ j, ((fun _ : Fin 1 => (1 : ℝ)) + Pi.single 0 t : Fin 1 → ℝ) j) * 1 * 1 *
      Real.log (1 / ((∑ j, ((fun _ : Fin 1 => (1 : ℝ)) + Pi.single 0 t : Fin 1 → ℝ) j) * 1))) x 0 := by
  have ha : am 1 (⟨.RK, fun _ => 1, fun _ => 1, fun _ => 0, none⟩ : Cubic 1) 1 (fun _ => 1 / ∑ _i : Fin 1, (1 : ℝ)) = 0.42748 := by
    simp only [am, geometric, a, alpha, Kind.Ωa]
    rw [univ_unique, sum_singleton]
    simp
    exact Real.sq_sqrt (by norm_num)
  refine ⟨_, C49_derivative_partial (R := 1) (T := 1) one_pos one_pos _ rfl (fun _ => 1) (fun _ => one_pos) (fun _ => one_pos) (fun _ => zero_le_one) (by simp)
    one_pos ?_ ?_ _ rfl ?_ 0⟩
  · norm_num [b, Kind.Ωb]
  · rw [ha]; norm_num
  · simp only [cubicP, ha]
    norm_num [bm, b, Kind.Ωb, Kind.u, Kind.w]

example : ∃ x, HasDerivAt (fun t => cubicDA 1 ⟨.RK, fun _ => 1, fun _ => 1, fun _ => 0, some fun _ _ => 0⟩ 1 1 ((fun _ : Fin 1 => (1 : ℝ)) + Pi.single 0 t) 1 +
    (∑ j, ((fun _ : Fin 1 => (1 : ℝ)) + Pi.single 0 t : Fin 1 → ℝ) j) * 1 * 1 *
      Real.log (1 / ((∑ j, ((fun _ : Fin 1 => (1 : ℝ)) + Pi.single 0 t : Fin 1 → ℝ) j) * 1))) x 0 := by
  have ha : am 1 (⟨.RK, fun _ => 1, fun _ => 1, fun _ => 0, some fun _ _ => 0⟩ : Cubic 1) 1 (fun _ => 1 / ∑ _i : Fin 1, (1 : ℝ)) = 0.42748 := by
    simp only [am, geometric, a, alpha, Kind.Ωa]
    rw [univ_unique, sum_singleton]
    simp
  refine ⟨_, C49_interaction (R := 1) (T := 1) one_pos one_pos _ _ rfl (fun _ _ => rfl) (fun _ => rfl) (fun _ => 1) (fun _ => one_pos) (fun _ => one_pos)
    (fun _ => zero_le_one) (by simp) one_pos ?_ ?_ _ rfl ?_ 0⟩
  · norm_num [b, Kind.Ωb]
  · rw [ha]; norm_num
  · simp only [cubicP, ha]
    norm_num [bm, b, Kind.Ωb, Kind.u, Kind.w]

/-- C49: an explicit all-zero interaction matrix changes the fugacity coefficients (the coefficient `δ` lacks the factor `2 √a_i / am`), although it changes
neither the mixture parameters nor the compressibility factors. Already for a pure fluid. -/
theorem C49_zero_interaction_false (npRoots : ℝ → ℝ → ℝ → List (ℝ × ℝ)) (hx : ExactRoots npRoots) {R : ℝ} (hR : 0 < R) :
    ∃ (Tc Pc w : Fin 1 → ℝ) (T P : ℝ) (z : Fin 1 → ℝ) (f g : Fin 1 → ℝ), Pos R ⟨.RK, Tc, Pc, w, none⟩ T z ∧ 0 < P ∧
      cubicPhi npRoots R ⟨.RK, Tc, Pc, w, none⟩ T P z .V = .ok f ∧ cubicPhi npRoots R ⟨.RK, Tc, Pc, w, some fun _ _ => 0⟩ T P z .V = .ok g ∧
      cubicZ npRoots R ⟨.RK, Tc, Pc, w, none⟩ T P z = cubicZ npRoots R ⟨.RK, Tc, Pc, w, some fun _ _ => 0⟩ T P z ∧ f ≠ g := by
  set e : Cubic 1 := ⟨.RK, fun _ => 1, fun _ => R ^ 2, fun _ => 0, none⟩ with he
  set e' : Cubic 1 := ⟨.RK, fun _ => 1, fun _ => R ^ 2, fun _ => 0, some fun _ _ => 0⟩ with he'
  have hpos : Pos R e 1 (fun _ => 1) := ⟨hR, fun _ => one_pos, fun _ => by positivity, one_pos, by simp, fun _ => zero_le_one⟩
  have ha : ∀ i, a R e 1 i = 0.42748 := by
    intro i; simp only [a, he, Kind.Ωa, alpha]; simp; field_simp
  have hae : a R e' 1 = a R e 1 := rfl
  have hame : am R e' 1 (fun _ => 1) = am R e 1 (fun _ => 1) :=
    C66_zero_interaction _ _ (a_nonneg e hpos.Pc 1)
  have hbe : bm R e' (fun _ => 1) = bm R e (fun _ => 1) := rfl
  have ham : am R e 1 (fun _ => 1) = 0.42748 := by
    simp only [am, he, geometric]
    rw [← he]
    simp only [ha]
    rw [univ_unique, sum_singleton, one_mul]
    exact Real.sq_sqrt (by norm_num)
  have hZe : cubicZ npRoots R e 1 1 (fun _ => 1) = cubicZ npRoots R e' 1 1 (fun _ => 1) := by
    simp only [cubicZ, hame, hbe]; rfl
  obtain ⟨lo, hi, Z, h1, h2, h3, h4, -⟩ := C47_roots npRoots hx e (fun _ => 1) hpos (P := 1) one_pos
  have hlast : Z.getLastD 0 = hi := by rcases h2 with rfl | ⟨rfl, rfl⟩ <;> simp
  refine ⟨_, _, _, 1, 1, fun _ => 1, fun i => Real.exp (lnPhi R e 1 1 (fun _ => 1) hi i), fun i => Real.exp (lnPhi R e' 1 1 (fun _ => 1) hi i), hpos, one_pos,
    ?_, ?_, hZe, ?_⟩
  · change cubicPhi npRoots R e 1 1 _ _ = _
    rw [cubicPhi, h1]
    simp only [bind, Except.bind, pure, Except.pure, hlast]
  · change cubicPhi npRoots R e' 1 1 _ _ = _
    rw [cubicPhi, ← hZe, h1]
    simp only [bind, Except.bind, pure, Except.pure, hlast]
  · intro h
    have h0 := Real.exp_injective (congrFun h 0)
    simp only [lnPhi, hame, hbe, mul_one] at h0
    have hb : bm R e (fun _ => 1) = 0.08664 / R := by
      simp [bm, b, he, Kind.Ωb]; field_simp
    have hk : e.kind = .RK := rfl
    have hk' : e'.kind = .RK := rfl
    have hbi : b R e' 0 = b R e 0 := rfl
    have hd : √((1 : ℝ) ^ 2 - 4 * 0) = 1 := by simp
    simp only [hk, hk', Kind.u, Kind.w, hd, ham, hbi] at h0
    have hδ : delta R e 1 (fun _ => 1) 0 = 2 := by
      simp only [delta, he]; rw [← he, ha, ham]; norm_num
    have hδ' : delta R e' 1 (fun _ => 1) 0 = √0.42748 := by
      simp only [delta, he']; rw [← he', hae]; simp [ha]
    rw [hδ, hδ'] at h0
    set B := bm R e (fun _ => 1) / R with hBd
    have hB0 : 0 < B := by rw [hBd, hb]; positivity
    have hhi : B < hi := by rw [mul_one, mul_one, ← hBd] at h4; exact h4.trans_le h3
    have hlog : 0 < Real.log ((2 * hi + B * (1 + 1)) / (2 * hi + B * (1 - 1))) := by
      refine Real.log_pos ((one_lt_div ?_).2 ?_) <;> nlinarith
    have hs : √(0.42748 : ℝ) ≤ 1 := Real.sqrt_le_one.2 (by norm_num)
    have hc : 0 < 0.42748 / R ^ 2 / (B * 1) := by positivity
    have := mul_pos (mul_pos hc (by linarith : (0 : ℝ) < 2 - √0.42748)) hlog
    linarith

/-! ### C50 -/

/-- C50: the matrix of second virial coefficients is symmetric with the pure-component values on the diagonal, and the mixture coefficient of a pure
component is its own. -/
theorem C50_coefficients (R : ℝ) (e : Virial N) (T : ℝ) :
    (∀ i j, virialB R e T i j = virialB R e T j i) ∧ (∀ i, virialB R e T i i = bPure R T (e.Tc i) (e.Pc i) (e.w i)) ∧
      ∀ i, virialBm R e T (Pi.single i 1) = bPure R T (e.Tc i) (e.Pc i) (e.w i) := by
  have hd : ∀ i, virialB R e T i i = bPure R T (e.Tc i) (e.Pc i) (e.w i) := fun i => by simp [virialB, bMixture]
  exact ⟨virialB_symm R e T, hd, fun i => ((C66_pure i (fun _ => 0) le_rfl none _).2).trans (hd i)⟩

/-- C50: identical components behave as one. -/
theorem C50_identical {R T Tc Pc Zc w : ℝ} (hR : 0 < R) (hTc : 0 < Tc) (hPc : 0 < Pc) (hZc : 0 < Zc) (y : Fin N → ℝ) (hy : ∑ i, y i = 1) :
    (∀ i j, virialB R ⟨fun _ : Fin N => Tc, fun _ => Pc, fun _ => Zc, fun _ => w⟩ T i j = bPure R T Tc Pc w) ∧
      virialBm R ⟨fun _ : Fin N => Tc, fun _ => Pc, fun _ => Zc, fun _ => w⟩ T y = bPure R T Tc Pc w := by
  have hv : 0 < Zc * R * Tc / Pc := by positivity
  have hcross : ∀ i j, bCross R T (fun _ : Fin N => Tc) (fun _ => Pc) (fun _ => Zc) (fun _ => w) i j = bPure R T Tc Pc w := by
    intro i j
    simp only [bCross]
    have h1 : ((Zc * R * Tc / Pc) ^ (1 / 3 : ℝ) + (Zc * R * Tc / Pc) ^ (1 / 3 : ℝ)) ^ 3 / 8 = Zc * R * Tc / Pc := by
      have : ((Zc * R * Tc / Pc) ^ (1 / 3 : ℝ)) ^ 3 = Zc * R * Tc / Pc := by
        rw [← Real.rpow_natCast, ← Real.rpow_mul hv.le]; norm_num
      rw [← two_mul, mul_pow, this]; ring
    rw [h1, Real.sqrt_mul_self hv.le, Real.sqrt_mul_self hTc.le, div_self hv.ne']
    congr 1
    · ring
    · field_simp; ring
    · ring
  have hB : ∀ i j, virialB R ⟨fun _ : Fin N => Tc, fun _ => Pc, fun _ => Zc, fun _ => w⟩ T i j = bPure R T Tc Pc w := by
    intro i j
    simp only [virialB, bMixture, hcross]
    simp
  refine ⟨hB, ?_⟩
  rw [virialBm, show virialB R ⟨fun _ : Fin N => Tc, fun _ => Pc, fun _ => Zc, fun _ => w⟩ T = fun _ _ => bPure R T Tc Pc w from
    funext fun i => funext fun j => hB i j]
  rw [quadratic]
  simp_rw [← sum_mul, hy, one_mul]

/-- C50: the volume obtained from `Z` gives back the pressure. -/
theorem C50_round_trip {R T P : ℝ} (hR : 0 < R) (hT : 0 < T) (hP : 0 < P) (e : Virial N) (y : Fin N → ℝ) :
    virialP R e T (vol R (virialZ R e T P y) T P) y = P := by
  have : vol R (virialZ R e T P y) T P - virialBm R e T y = R * T / P := by
    simp only [vol, virialZ]; field_simp; ring
  rw [virialP, this]
  field_simp

/-- C50: `ln φ_i` is the composition derivative of `n Bm P/(R T)`. -/
theorem C50_fugacity {R T P : ℝ} (e : Virial N) (n : Fin N → ℝ) (hn0 : 0 < ∑ i, n i) (i : Fin N) :
    HasDerivAt (fun t => (∑ j, (n + Pi.single i t : Fin N → ℝ) j) *
        virialBm R e T (fun l => (n + Pi.single i t : Fin N → ℝ) l / ∑ j, (n + Pi.single i t : Fin N → ℝ) j) * P / (R * T))
      (Real.log (virialPhi R e T P (fun i => n i / ∑ i, n i) i)) 0 := by
  have hq : ∀ (m : Fin N → ℝ) (c : ℝ), virialBm R e T (fun l => m l / c) = (∑ l, m l * ∑ j, virialB R e T l j * m j) / c ^ 2 := by
    intro m c
    simp only [virialBm, quadratic]
    rw [sum_div]
    refine sum_congr rfl fun l _ => ?_
    rw [mul_sum, mul_sum, sum_div]
    refine sum_congr rfl fun j _ => ?_
    rw [virialB_symm R e T l j]; ring
  have hexp : ∀ t, (∑ l, (n + Pi.single i t : Fin N → ℝ) l * ∑ j, virialB R e T l j * (n + Pi.single i t : Fin N → ℝ) j) =
      (∑ l, n l * ∑ j, virialB R e T l j * n j) + 2 * t * (∑ j, virialB R e T i j * n j) + t ^ 2 * virialB R e T i i := by
    intro t
    have h1 : ∀ l, ∑ j, virialB R e T l j * (n + Pi.single i t : Fin N → ℝ) j = (∑ j, virialB R e T l j * n j) + t * virialB R e T l i := by
      intro l
      have := sum_add_single n (fun j => virialB R e T l j) i t
      rw [sum_congr rfl fun j _ => mul_comm (virialB R e T l j) _, this]
      congr 1
      exact sum_congr rfl fun j _ => mul_comm _ _
    rw [sum_congr rfl fun l _ => by rw [h1 l], sum_add_single]
    have h2 : ∑ l, n l * ((∑ j, virialB R e T l j * n j) + t * virialB R e T l i) =
        (∑ l, n l * ∑ j, virialB R e T l j * n j) + t * ∑ j, virialB R e T i j * n j := by
      rw [mul_sum, ← sum_add_distrib]
      refine sum_congr rfl fun l _ => ?_
      rw [virialB_symm R e T i l]; ring
    rw [h2]; ring
  simp only [virialPhi, Real.log_exp]
  set nT := ∑ i, n i with hnT
  set Q := ∑ l, n l * ∑ j, virialB R e T l j * n j
  set b1 := ∑ j, virialB R e T i j * n j with hb1
  have hlin : HasDerivAt (fun t : ℝ => (Q + 2 * t * b1 + t ^ 2 * virialB R e T i i) / (nT + t) * (P / (R * T))) ((2 * b1 * nT - Q) / nT ^ 2 * (P / (R * T))) 0 := by
    have d1 : HasDerivAt (fun t : ℝ => Q + 2 * t * b1 + t ^ 2 * virialB R e T i i) (2 * b1) 0 := by
      have h1 : HasDerivAt (fun t : ℝ => 2 * t * b1) (2 * b1) 0 := by simpa using ((hasDerivAt_id (0 : ℝ)).const_mul 2).mul_const b1
      have h2 : HasDerivAt (fun t : ℝ => t ^ 2 * virialB R e T i i) 0 0 := by simpa using ((hasDerivAt_id (0 : ℝ)).pow 2).mul_const (virialB R e T i i)
      exact ((h1.const_add Q).add h2).congr_deriv (add_zero _)
    have d2 : HasDerivAt (fun t : ℝ => nT + t) 1 0 := (hasDerivAt_id (0 : ℝ)).const_add nT
    refine ((d1.div d2 (by simpa using hn0.ne')).mul_const _).congr_deriv ?_
    simp
  refine (hlin.congr_of_eventuallyEq ?_).congr_deriv ?_
  · have c1 : ∀ᶠ t in nhds (0 : ℝ), 0 < nT + t :=
      (continuous_const.add continuous_id).continuousAt.eventually (lt_mem_nhds (by simpa using hn0))
    filter_upwards [c1] with t ht
    rw [hq, hexp, sum_add_single', ← hnT]
    field_simp
  · rw [hq]
    have h1 : ∑ j, virialB R e T i j * (n j / nT) = b1 / nT := by
      rw [hb1, sum_div]; exact sum_congr rfl fun j _ => by ring
    rw [h1]
    change _ = (2 * (b1 / nT) - Q / nT ^ 2) * P / (R * T)
    field_simp

/-- C50: `Σ y_i ln φ_i` is the residual Gibbs energy over `R T`, from the Helmholtz function against the ideal gas at the same temperature and pressure. -/
theorem C50_gibbs {R T P : ℝ} (hR : 0 < R) (hT : 0 < T) (hP : 0 < P) (e : Virial N) (y : Fin N → ℝ) (hy : ∑ i, y i = 1) :
    ∑ i, y i * Real.log (virialPhi R e T P y i) =
      virialDA R e T (vol R (virialZ R e T P y) T P) y (R * T / P) / (R * T) + (virialZ R e T P y - 1) := by
  have hq : virialBm R e T y = ∑ l, y l * ∑ j, virialB R e T l j * y j := by
    simp only [virialBm, quadratic]
    refine sum_congr rfl fun l _ => ?_
    congr 1
    refine sum_congr rfl fun j _ => ?_
    rw [virialB_symm R e T l j]; ring
  have h1 : ∀ i, y i * Real.log (virialPhi R e T P y i) =
      2 * (P / (R * T)) * (y i * ∑ j, virialB R e T i j * y j) - y i * (virialBm R e T y * P / (R * T)) := by
    intro i
    simp only [virialPhi, Real.log_exp]; ring
  rw [sum_congr rfl fun i _ => h1 i, sum_sub_distrib, ← mul_sum, ← sum_mul, hy, ← hq]
  have h2 : vol R (virialZ R e T P y) T P - virialBm R e T y = R * T / P := by
    simp only [vol, virialZ]; field_simp; ring
  simp only [virialDA, hy, div_one, one_mul]
  rw [h2, div_self (by positivity), Real.log_one]
  simp only [virialZ]
  ring

example : virialP 8 ⟨![400, 500], ![3, 4], ![1 / 4, 1 / 4], ![0, 1 / 10]⟩ 300
    (vol 8 (virialZ 8 ⟨![400, 500], ![3, 4], ![1 / 4, 1 / 4], ![0, 1 / 10]⟩ 300 2 ![1 / 2, 1 / 2]) 300 2) ![1 / 2, 1 / 2] = 2 :=
  C50_round_trip (by norm_num) (by norm_num) (by norm_num) _ _

example : virialBm 8 ⟨fun _ : Fin 2 => 400, fun _ => 3, fun _ => 1 / 4, fun _ => 1 / 10⟩ 300 ![1 / 2, 1 / 2] = bPure 8 300 400 3 (1 / 10) :=
  (C50_identical (by norm_num) (by norm_num) (by norm_num) (by norm_num) _ (by norm_num [Fin.sum_univ_two])).2

/-! ### C81 -/

/-- C81: `Bm` of a cubic equation is its second virial coefficient: the limit of `v (P v/(R T) - 1)` at infinite dilution. -/
theorem C81_second_virial {R T : ℝ} (e : Cubic N) (z : Fin N → ℝ) (hR : 0 < R) (hT : 0 < T) :
    Filter.Tendsto (fun v => v * (cubicP R e T v z * v / (R * T) - 1)) Filter.atTop (nhds (cubicBm R e T z)) := by
  set bb := bm R e z with hb
  set aa := am R e T z with ha
  set u := e.kind.u with hu
  set w := e.kind.w with hw
  have hinv : Filter.Tendsto (fun v : ℝ => v⁻¹) Filter.atTop (nhds 0) := tendsto_inv_atTop_zero
  have hlim : Filter.Tendsto (fun v : ℝ => bb / (1 - bb * v⁻¹) - aa / (R * T) / (1 + u * bb * v⁻¹ + w * bb ^ 2 * (v⁻¹) ^ 2)) Filter.atTop
      (nhds (bb / (1 - bb * 0) - aa / (R * T) / (1 + u * bb * 0 + w * bb ^ 2 * 0 ^ 2))) := by
    refine Filter.Tendsto.sub (tendsto_const_nhds.div (tendsto_const_nhds.sub (hinv.const_mul bb)) (by simp))
      (tendsto_const_nhds.div ((tendsto_const_nhds.add (hinv.const_mul _)).add ((hinv.pow 2).const_mul _)) (by simp))
  have hval : bb / (1 - bb * 0) - aa / (R * T) / (1 + u * bb * 0 + w * bb ^ 2 * 0 ^ 2) = cubicBm R e T z := by
    rw [cubicBm, ← hb, ← ha]; simp
  rw [hval] at hlim
  refine hlim.congr' ?_
  have hd1 : Filter.Tendsto (fun v : ℝ => 1 - bb * v⁻¹) Filter.atTop (nhds (1 - bb * 0)) := tendsto_const_nhds.sub (hinv.const_mul bb)
  have hd2 : Filter.Tendsto (fun v : ℝ => 1 + u * bb * v⁻¹ + w * bb ^ 2 * (v⁻¹) ^ 2) Filter.atTop (nhds (1 + u * bb * 0 + w * bb ^ 2 * 0 ^ 2)) :=
    (tendsto_const_nhds.add (hinv.const_mul _)).add ((hinv.pow 2).const_mul _)
  filter_upwards [Filter.eventually_gt_atTop 0, hd1.eventually (lt_mem_nhds (by simp : (0 : ℝ) < 1 - bb * 0)),
    hd2.eventually (lt_mem_nhds (by simp : (0 : ℝ) < 1 + u * bb * 0 + w * bb ^ 2 * 0 ^ 2))] with v hv h1 h2
  simp only [cubicP]
  rw [← hb, ← ha, ← hu, ← hw]
  have e1 : v - bb = v * (1 - bb * v⁻¹) := by field_simp
  have e2 : v ^ 2 + u * v * bb + w * bb ^ 2 = v ^ 2 * (1 + u * bb * v⁻¹ + w * bb ^ 2 * (v⁻¹) ^ 2) := by field_simp
  have e3 : bb = v * (1 - (1 - bb * v⁻¹)) := by field_simp; ring
  rw [e1, e2]
  generalize 1 + u * bb * v⁻¹ + w * bb ^ 2 * (v⁻¹) ^ 2 = q at *
  generalize 1 - bb * v⁻¹ = x at *
  rw [e3]
  field_simp
  ring

end Verif.Eos
