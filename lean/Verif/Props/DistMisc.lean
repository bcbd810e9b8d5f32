import Verif.Lemmas.DistMisc
import Mathlib.MeasureTheory.Integral.IntegralEqImproper

/-!
# C24: `convolve_moments`; C25: `convolve_moments_self`; C26: `reconstruct_Laguerre`; C27: `convert_polymer_standards`
-/

namespace Verif.DistMisc

open MeasureTheory

/-! ### C24 -/

/-- **C24.** If `q` and `r` list the first moments of two size distributions (measures on the reals with finite moments, e.g. discrete
chain-length distributions), `convolve_moments(q, r)` lists the moments of the sum of two independent sizes, for any number of
moments. -/
theorem C24_moments_of_sum (N : ℕ) (μ ν : Measure ℝ) [SFinite μ] [SFinite ν] (hμ : ∀ n < N, Integrable (fun x : ℝ => x ^ n) μ)
    (hν : ∀ n < N, Integrable (fun x : ℝ => x ^ n) ν) :
    convolveMoments ((List.range N).map fun n => ∫ x, x ^ n ∂μ) ((List.range N).map fun n => ∫ x, x ^ n ∂ν) =
      .ok ((List.range N).map fun n => ∫ z : ℝ × ℝ, (z.1 + z.2) ^ n ∂(μ.prod ν)) := by
  unfold convolveMoments
  rw [if_neg (by simp)]
  congr 1
  rw [List.length_map, List.length_range]
  refine List.map_congr_left fun n hn => ?_
  have hn : n < N := List.mem_range.mp hn
  rw [convAt_eq]
  have hg : ∀ (ρ : Measure ℝ) (j : ℕ), j < N → ((List.range N).map fun n => ∫ x, x ^ n ∂ρ).getD j 0 = ∫ x, x ^ j ∂ρ := by
    intro ρ j hj
    rw [List.getD_eq_getElem?_getD, List.getElem?_map, List.getElem?_range hj]
    rfl
  rw [bconv_congr hn (hg μ) (hg ν)]
  have hi : ∀ j ∈ Finset.range (n + 1), Integrable (fun z : ℝ × ℝ => z.1 ^ j * z.2 ^ (n - j) * (n.choose j : ℝ)) (μ.prod ν) := by
    intro j hj
    have : j ≤ n := by simpa [Nat.lt_succ_iff] using hj
    exact ((hμ j (by omega)).mul_prod (hν (n - j) (by omega))).mul_const _
  simp_rw [add_pow]
  rw [integral_finsetSum _ hi, bconv]
  refine Finset.sum_congr rfl fun j _ => ?_
  rw [integral_mul_const, integral_prod_mul (fun x : ℝ => x ^ j) (fun y : ℝ => y ^ (n - j))]
  ring

example : ∀ n < 4, Integrable (fun x : ℝ => x ^ n) (Measure.dirac 3 + Measure.dirac 5) := by
  intro n _
  exact (integrable_dirac (by simp)).add_measure (integrable_dirac (by simp))

section
variable {α : Type*} [Field α] [CharZero α]

/-- **C24.** Lists of different lengths raise; otherwise the result has the same length. -/
theorem C24_lengths (q r : List α) :
    (q.length ≠ r.length → convolveMoments q r = .error .ValueError) ∧
    (q.length = r.length → ∃ p, convolveMoments q r = .ok p ∧ p.length = q.length) := by
  unfold convolveMoments
  constructor
  · intro h; rw [if_pos h]
  · intro h; rw [if_neg (by simpa using h)]; exact ⟨_, rfl, by simp⟩

/-- **C24.** Convolution is commutative. -/
theorem C24_commutative (q r : List α) : convolveMoments q r = convolveMoments r q := by
  unfold convolveMoments
  by_cases h : q.length = r.length
  · rw [if_neg (by simpa using h), if_neg (by simpa using h.symm), h]
    congr 1
    refine List.map_congr_left fun n _ => ?_
    rw [convAt_eq, convAt_eq, bconv_comm]
  · rw [if_pos h, if_pos (fun h' => h h'.symm)]

/-- **C24.** Convolution is associative. -/
theorem C24_associative (q r s qr rs : List α) (h1 : convolveMoments q r = .ok qr) (h2 : convolveMoments r s = .ok rs) :
    convolveMoments qr s = convolveMoments q rs := by
  unfold convolveMoments at h1 h2
  split_ifs at h1 h2 with l1 l2
  simp only [Except.ok.injEq] at h1 h2
  push Not at l1 l2
  have lqr : qr.length = q.length := by rw [← h1]; simp
  have lrs : rs.length = r.length := by rw [← h2]; simp
  unfold convolveMoments
  rw [if_neg (by rw [lqr, l1, l2]; simp), if_neg (by rw [lrs, l1]; simp), lqr]
  congr 1
  refine List.map_congr_left fun n hn => ?_
  have hn : n < q.length := List.mem_range.mp hn
  rw [convAt_eq, convAt_eq]
  have e1 : ∀ j < q.length, qr.getD j 0 = bconv (fun j => q.getD j 0) (fun j => r.getD j 0) j := by
    intro j hj; rw [← h1]; exact getD_conv q r j hj
  have e2 : ∀ j < q.length, rs.getD j 0 = bconv (fun j => r.getD j 0) (fun j => s.getD j 0) j := by
    intro j hj; rw [← h2]; exact getD_conv r s j (by omega)
  rw [bconv_congr hn e1 (fun _ _ => rfl), bconv_congr (q := fun j => q.getD j 0) hn (fun _ _ => rfl) e2, bconv_assoc]

example : ∃ qr rs : List ℚ, convolveMoments [1, 2, 5] [1, 3, 10] = .ok qr ∧ convolveMoments [1, 3, 10] [2, 1, 1] = .ok rs :=
  ⟨_, _, rfl, rfl⟩

/-- **C24.** The moments of the constant size 0, `[1, 0, 0, …]`, are a unit. -/
theorem C24_unit (q : List α) (hq : q ≠ []) : convolveMoments (1 :: List.replicate (q.length - 1) 0) q = .ok q := by
  have hl : q.length ≠ 0 := by simpa using hq
  unfold convolveMoments
  rw [if_neg (by simp; omega)]
  congr 1
  apply list_ext_getD
  · simp; omega
  · intro i hi
    have hi' : i < (1 :: List.replicate (q.length - 1) (0 : α)).length := by simpa using hi
    rw [getD_conv _ _ _ hi', bconv, Finset.sum_range_succ']
    have hz : ∀ j, (1 :: List.replicate (q.length - 1) (0 : α)).getD (j + 1) 0 = 0 := by
      intro j
      simp only [List.getD_eq_getElem?_getD, List.getElem?_cons_succ, List.getElem?_replicate]
      split_ifs <;> rfl
    rw [Finset.sum_eq_zero (fun j _ => by rw [hz j]; ring)]
    simp

example : ([1, 2, 5] : List ℚ) ≠ [] := by simp

/-! ### C25 -/

/-- **C25.** `convolve_moments_self(q, order)` is `q` convolved with itself `order` times, for every order and any number of moments
(the closed forms used for up to 3 moments included). -/
theorem C25_self_convolution (q : List α) (order : ℕ) :
    convolveMomentsSelf q order = selfLoop q order q := by
  have loop1 : ∀ (q0 : α) (n k : ℕ), selfLoop [q0] n [q0 ^ (k + 1)] = .ok [q0 ^ (k + n + 1)] := by
    intro q0 n
    induction n with
    | zero => intro k; rfl
    | succ n ih =>
      intro k
      have : convolveMoments [q0] [q0 ^ (k + 1)] = .ok [q0 ^ (k + 1 + 1)] := by
        simp [convolveMoments, convAt, List.range_succ, pow_succ]; ring
      simp only [selfLoop, this, ih (k + 1)]
      congr 3; ring
  have loop2 : ∀ (q0 q1 : α) (n k : ℕ), selfLoop [q0, q1] n [q0 ^ (k + 1), (k + 1 : α) * q0 ^ k * q1] =
      .ok [q0 ^ (k + n + 1), ((k + n : ℕ) + 1 : α) * q0 ^ (k + n) * q1] := by
    intro q0 q1 n
    induction n with
    | zero => intro k; simp [selfLoop]
    | succ n ih =>
      intro k
      have : convolveMoments [q0, q1] [q0 ^ (k + 1), (k + 1 : α) * q0 ^ k * q1] =
          .ok [q0 ^ (k + 1 + 1), ((k + 1 : ℕ) + 1 : α) * q0 ^ (k + 1) * q1] := by
        simp [convolveMoments, convAt, List.range_succ, pow_succ]
        constructor <;> ring
      simp only [selfLoop, this, ih (k + 1)]
      rw [show k + 1 + n = k + (n + 1) by ring]
  have loop3 : ∀ (q0 q1 q2 : α) (n k : ℕ), selfLoop [q0, q1, q2] n [q0 ^ (k + 1 + 1), ((k + 1 : ℕ) + 1 : α) * q0 ^ (k + 1) * q1,
      ((k + 1 : ℕ) + 1 : α) * q0 ^ k * ((k + 1 : ℕ) * q1 ^ 2 + q0 * q2)] =
      .ok [q0 ^ (k + n + 1 + 1), ((k + n + 1 : ℕ) + 1 : α) * q0 ^ (k + n + 1) * q1,
        ((k + n + 1 : ℕ) + 1 : α) * q0 ^ (k + n) * ((k + n + 1 : ℕ) * q1 ^ 2 + q0 * q2)] := by
    intro q0 q1 q2 n
    induction n with
    | zero => intro k; simp [selfLoop]
    | succ n ih =>
      intro k
      have : convolveMoments [q0, q1, q2] [q0 ^ (k + 1 + 1), ((k + 1 : ℕ) + 1 : α) * q0 ^ (k + 1) * q1,
          ((k + 1 : ℕ) + 1 : α) * q0 ^ k * ((k + 1 : ℕ) * q1 ^ 2 + q0 * q2)] =
          .ok [q0 ^ (k + 1 + 1 + 1), ((k + 1 + 1 : ℕ) + 1 : α) * q0 ^ (k + 1 + 1) * q1,
            ((k + 1 + 1 : ℕ) + 1 : α) * q0 ^ (k + 1) * ((k + 1 + 1 : ℕ) * q1 ^ 2 + q0 * q2)] := by
        simp [convolveMoments, convAt, List.range_succ, pow_succ]
        refine ⟨by ring, by ring, by ring⟩
      simp only [selfLoop, this, ih (k + 1)]
      rw [show k + 1 + n = k + (n + 1) by ring]
  unfold convolveMomentsSelf
  split_ifs with h0
  · subst h0; rfl
  · match q with
    | [] =>
      have : ∀ n, selfLoop ([] : List α) n [] = .ok [] := by
        intro n
        induction n with
        | zero => rfl
        | succ n ih =>
          have : convolveMoments ([] : List α) [] = .ok [] := rfl
          simp only [selfLoop, this, ih]
      rw [this]
    | [q0] =>
      have := loop1 q0 order 0
      simp only [zero_add, pow_one] at this
      rw [this]
    | [q0, q1] =>
      have := loop2 q0 q1 order 0
      simp only [zero_add, pow_one, Nat.cast_zero, pow_zero, one_mul] at this
      rw [this]
    | [q0, q1, q2] =>
      obtain ⟨k, rfl⟩ : ∃ k, order = k + 1 := ⟨order - 1, by omega⟩
      have h1 : convolveMoments [q0, q1, q2] [q0, q1, q2] = .ok [q0 ^ (0 + 1 + 1), ((0 + 1 : ℕ) + 1 : α) * q0 ^ (0 + 1) * q1,
          ((0 + 1 : ℕ) + 1 : α) * q0 ^ 0 * ((0 + 1 : ℕ) * q1 ^ 2 + q0 * q2)] := by
        simp [convolveMoments, convAt, List.range_succ, pow_succ]
        refine ⟨by ring, by ring⟩
      have := loop3 q0 q1 q2 k 0
      simp only [selfLoop, h1, this]
      simp
    | _ :: _ :: _ :: _ :: _ => rfl

/-- **C25.** The same as a recursion on the order: order 0 is `q`, and one more order is one more convolution with `q`. -/
theorem C25_recursion (q : List α) (order : ℕ) :
    convolveMomentsSelf q 0 = .ok q ∧
      ∃ p, p.length = q.length ∧ convolveMomentsSelf q order = .ok p ∧ convolveMomentsSelf q (order + 1) = convolveMoments q p := by
  have len : ∀ n (p : List α), p.length = q.length → ∃ p', p'.length = q.length ∧ selfLoop q n p = .ok p' ∧ selfLoop q (n + 1) p = convolveMoments q p' := by
    intro n
    induction n with
    | zero =>
      intro p hp
      refine ⟨p, hp, rfl, ?_⟩
      simp only [selfLoop]
      cases convolveMoments q p <;> rfl
    | succ n ih =>
      intro p hp
      have h1 : convolveMoments q p = .ok ((List.range q.length).map (convAt q p)) := by
        unfold convolveMoments; rw [if_neg (by simp [hp])]
      obtain ⟨p', a, b, c⟩ := ih ((List.range q.length).map (convAt q p)) (by simp)
      refine ⟨p', a, ?_, ?_⟩
      · simp only [selfLoop, h1]; exact b
      · rw [selfLoop, h1]; exact c
  refine ⟨by simp [convolveMomentsSelf], ?_⟩
  obtain ⟨p, a, b, c⟩ := len order q rfl
  exact ⟨p, a, by rw [C25_self_convolution, b], by rw [C25_self_convolution, c]⟩

/-- **C25.** Together with C24: applied to the moments of a distribution, the result has the same length and order 1 is the convolution
of `q` with itself. -/
theorem C25_order_one (q : List α) : convolveMomentsSelf q 1 = convolveMoments q q := by
  rw [C25_self_convolution]
  simp only [selfLoop]
  cases convolveMoments q q <;> rfl

end

/-! ### C26 -/

/-- **C26.** The function returned by `reconstruct_Laguerre` has exactly the moments it was given, under integration over `(0, ∞)`, for
any number of moments ≥ 2 with positive zeroth and first moment. -/
theorem C26_laguerre_moments (moments : List ℝ) (h2 : 2 ≤ moments.length) (h0 : 0 < moments.getD 0 0) (h1 : 0 < moments.getD 1 0)
    (j : ℕ) (hj : j < moments.length) :
    ∫ n in Set.Ioi (0 : ℝ), n ^ j * reconstructLaguerre moments n = moments.getD j 0 := by
  set D := moments.getD 1 0 / moments.getD 0 0 with hD
  have hDpos : 0 < D := div_pos h1 h0
  have hD0 := hDpos.ne'
  have e : ∀ n : ℝ, n ^ j * reconstructLaguerre moments n = D ^ j / D ^ 2 *
      (fun x : ℝ => ∑ m ∈ Finset.range moments.length, laguerreCoeff moments D m * (x ^ j * Real.exp (-x) * laguerre m x)) (D⁻¹ * n) := by
    intro n
    have hn : n ^ j = D ^ j * (D⁻¹ * n) ^ j := by rw [← mul_pow, mul_inv_cancel_left₀ hD0]
    simp only [reconstructLaguerre, ← hD]
    rw [div_eq_inv_mul n D, Finset.mul_sum, Finset.mul_sum, Finset.mul_sum]
    refine Finset.sum_congr rfl fun m _ => ?_
    rw [hn]
    ring
  simp_rw [e]
  rw [integral_const_mul, integral_comp_mul_left_Ioi (fun x : ℝ => ∑ m ∈ Finset.range moments.length,
    laguerreCoeff moments D m * (x ^ j * Real.exp (-x) * laguerre m x)) 0 (inv_pos.mpr hDpos), mul_zero, inv_inv, smul_eq_mul,
    integral_finsetSum _ fun m _ => (integral_laguerre j m).1.const_mul _]
  simp_rw [integral_const_mul, fun m => (integral_laguerre j m).2]
  have hsub : ∑ m ∈ Finset.range moments.length, laguerreCoeff moments D m * (j.factorial * ((-1) ^ m * (j.choose m : ℝ))) =
      ∑ m ∈ Finset.range (j + 1), laguerreCoeff moments D m * (j.factorial * ((-1) ^ m * (j.choose m : ℝ))) := by
    symm
    apply Finset.sum_subset
    · intro x hx; simp at hx ⊢; omega
    · intro x _ hx
      rw [Nat.choose_eq_zero_of_lt (by simpa using hx)]
      simp
  rw [hsub]
  have hb := binomial_inversion (fun i => moments.getD i 0 / D ^ ((i : ℤ) - 1) / i.factorial) j
  have hb' : ∑ m ∈ Finset.range (j + 1), laguerreCoeff moments D m * (j.factorial * ((-1) ^ m * (j.choose m : ℝ))) =
      j.factorial * (moments.getD j 0 / D ^ ((j : ℤ) - 1) / j.factorial) := by
    rw [← hb, Finset.mul_sum]
    refine Finset.sum_congr rfl fun m _ => ?_
    have : laguerreCoeff moments D m = ∑ i ∈ Finset.range (m + 1), (m.choose i : ℝ) * (-1) ^ i * (moments.getD i 0 / D ^ ((i : ℤ) - 1) / i.factorial) := by
      unfold laguerreCoeff
      refine Finset.sum_congr rfl fun i _ => ?_
      ring
    rw [this]
    ring
  rw [hb', zpow_sub_one₀ hD0, zpow_natCast]
  have : (j.factorial : ℝ) ≠ 0 := by positivity
  field_simp

example : 2 ≤ ([1, 100, 20000] : List ℝ).length ∧ 0 < ([1, 100, 20000] : List ℝ).getD 0 0 ∧
    0 < ([1, 100, 20000] : List ℝ).getD 1 0 ∧ 2 < ([1, 100, 20000] : List ℝ).length := by simp

/-! ### C27 -/

/-- **C27.** The converted molar mass has the same hydrodynamic volume: `K2 M2^(1+a2) = K1 M1^(1+a1)`. -/
theorem C27_same_hydrodynamic_volume (M1 K1 K2 a1 a2 : ℝ) (hM : 0 < M1) (hK1 : 0 < K1) (hK2 : 0 < K2) (ha2 : 1 + a2 ≠ 0) :
    0 < convertStandards M1 K1 K2 a1 a2 ∧ K2 * convertStandards M1 K1 K2 a1 a2 ^ (1 + a2) = K1 * M1 ^ (1 + a1) := by
  have hk : 0 < K1 / K2 := by positivity
  refine ⟨by unfold convertStandards; positivity, ?_⟩
  unfold convertStandards
  rw [Real.mul_rpow (by positivity) (by positivity), ← Real.rpow_mul hk.le, ← Real.rpow_mul hM.le, div_mul_cancel₀ _ ha2,
    div_mul_cancel₀ _ ha2, Real.rpow_one]
  field_simp

example : (0 : ℝ) < 1e5 ∧ (0 : ℝ) < 0.014 ∧ (0 : ℝ) < 0.0128 ∧ (1 + 0.69 : ℝ) ≠ 0 := by norm_num

/-- **C27.** Converting with identical constants is the identity; converting there and back is the identity; conversions compose. -/
theorem C27_conversion_group (M K1 K2 K3 a1 a2 a3 : ℝ) (hM : 0 < M) (hK1 : 0 < K1) (hK2 : 0 < K2) (hK3 : 0 < K3) (h1 : 0 < 1 + a1)
    (h2 : 0 < 1 + a2) (h3 : 0 < 1 + a3) :
    convertStandards M K1 K1 a1 a1 = M ∧
    convertStandards (convertStandards M K1 K2 a1 a2) K2 K1 a2 a1 = M ∧
    convertStandards (convertStandards M K1 K2 a1 a2) K2 K3 a2 a3 = convertStandards M K1 K3 a1 a3 := by
  have uniq : ∀ (x y K a : ℝ), 0 < x → 0 < y → 0 < K → 0 < 1 + a → K * x ^ (1 + a) = K * y ^ (1 + a) → x = y := by
    intro x y K a hx hy hK ha h
    have := mul_left_cancel₀ hK.ne' h
    have h' := congrArg (fun t : ℝ => t ^ (1 / (1 + a))) this
    simp only [← Real.rpow_mul hx.le, ← Real.rpow_mul hy.le, mul_one_div_cancel ha.ne', Real.rpow_one] at h'
    exact h'
  obtain ⟨p11, e11⟩ := C27_same_hydrodynamic_volume M K1 K1 a1 a1 hM hK1 hK1 h1.ne'
  obtain ⟨p12, e12⟩ := C27_same_hydrodynamic_volume M K1 K2 a1 a2 hM hK1 hK2 h2.ne'
  obtain ⟨p13, e13⟩ := C27_same_hydrodynamic_volume M K1 K3 a1 a3 hM hK1 hK3 h3.ne'
  obtain ⟨q1, f1⟩ := C27_same_hydrodynamic_volume _ K2 K1 a2 a1 p12 hK2 hK1 h1.ne'
  obtain ⟨q3, f3⟩ := C27_same_hydrodynamic_volume _ K2 K3 a2 a3 p12 hK2 hK3 h3.ne'
  exact ⟨uniq _ _ K1 a1 p11 hM hK1 h1 e11, uniq _ _ K1 a1 q1 hM hK1 h1 (f1.trans e12),
    uniq _ _ K3 a3 q3 p13 hK3 h3 (f3.trans (e12.trans e13.symm))⟩

example : (0 : ℝ) < 1 + 0.7 ∧ (0 : ℝ) < 1 + 0.69 := by norm_num

/-- **C27.** Conversion is strictly increasing in the molar mass. -/
theorem C27_strictly_increasing (M M' K1 K2 a1 a2 : ℝ) (hM : 0 < M) (hMM : M < M') (hK1 : 0 < K1) (hK2 : 0 < K2) (h1 : 0 < 1 + a1)
    (h2 : 0 < 1 + a2) : convertStandards M K1 K2 a1 a2 < convertStandards M' K1 K2 a1 a2 := by
  unfold convertStandards
  have hk : 0 < K1 / K2 := by positivity
  exact mul_lt_mul_of_pos_left (Real.rpow_lt_rpow hM.le hMM (by positivity)) (by positivity)

example : (0 : ℝ) < 1000 ∧ (1000 : ℝ) < 2000 := by norm_num

end Verif.DistMisc
