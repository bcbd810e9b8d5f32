import Verif.Lemmas.GoldAux

/-! # C99: Weibull-Nycander-Gold chain-length distribution -/

namespace Verif.Gold

open Real Verif.Dist Filter Topology

/-- The number fraction of chains of length `k` at dimensionless time `τ` (`p0 = exp(-τ)`), in closed form. -/
noncomputable def frac (r : ℝ) (k : ℕ) (τ : ℝ) : ℝ :=
  if k = 0 then exp (-τ)
  else exp (-τ) / r * (r / (r - 1)) ^ k * (1 - exp (-((r - 1) * τ)) * ∑ j ∈ Finset.range k, ((r - 1) * τ) ^ j / (j.factorial : ℝ))

theorem frac_zero (r τ : ℝ) : frac r 0 τ = exp (-τ) := if_pos rfl

theorem frac_succ (r τ : ℝ) (k : ℕ) : frac r (k + 1) τ = exp (-(r * τ)) / r * ((r / (r - 1)) ^ (k + 1) * h (k + 1) ((r - 1) * τ)) := by
  have e : exp (-(r * τ)) * exp ((r - 1) * τ) = exp (-τ) := by rw [← exp_add]; congr 1; ring
  have e2 : exp (-((r - 1) * τ)) * exp ((r - 1) * τ) = 1 := by rw [← exp_add]; simp
  have e3 : exp (-τ) * exp (-((r - 1) * τ)) = exp (-(r * τ)) := by rw [← exp_add]; congr 1; ring
  rw [frac, if_neg (Nat.succ_ne_zero k), h, ← e3]
  generalize ∑ j ∈ Finset.range (k + 1), ((r - 1) * τ) ^ j / (j.factorial : ℝ) = S
  have : exp (-τ) * exp (-((r - 1) * τ)) * exp ((r - 1) * τ) = exp (-τ) := by rw [mul_assoc, e2, mul_one]
  linear_combination -(1 / r * (r / (r - 1)) ^ (k + 1)) * this

/-- C99. The closed form solves the kinetic equations of living polymerisation with initiation (rate constant 1) and propagation (rate constant `r`),
starting from initiator only. -/
theorem C99_kinetics (r : ℝ) (hr : 0 < r) (hr1 : r ≠ 1) (τ : ℝ) :
    (frac r 0 0 = 1 ∧ ∀ k, frac r (k + 1) 0 = 0)
      ∧ HasDerivAt (frac r 0) (-frac r 0 τ) τ
      ∧ HasDerivAt (frac r 1) (frac r 0 τ - r * frac r 1 τ) τ
      ∧ ∀ k, HasDerivAt (frac r (k + 2)) (r * frac r (k + 1) τ - r * frac r (k + 2) τ) τ := by
  have h1 : r - 1 ≠ 0 := sub_ne_zero.2 hr1
  have hE : HasDerivAt (fun t => exp (-(r * t)) / r) (exp (-(r * τ)) * -r / r) τ := by
    have : HasDerivAt (fun t : ℝ => -(r * t)) (-r) τ := by
      have h0 := (hasDerivAt_id τ).const_mul (-r)
      simpa using h0
    exact this.exp.div_const r
  have hL : HasDerivAt (fun t : ℝ => (r - 1) * t) (r - 1) τ := by simpa using (hasDerivAt_id τ).const_mul (r - 1)
  have hs : ∀ k, HasDerivAt (frac r (k + 1))
      (exp (-(r * τ)) * -r / r * ((r / (r - 1)) ^ (k + 1) * h (k + 1) ((r - 1) * τ))
        + exp (-(r * τ)) / r * ((r / (r - 1)) ^ (k + 1) * (h k ((r - 1) * τ) * (r - 1)))) τ := by
    intro k
    have := hE.mul (((h_deriv k ((r - 1) * τ)).comp τ hL).const_mul ((r / (r - 1)) ^ (k + 1)))
    refine this.congr_of_eventuallyEq (Eventually.of_forall fun t => ?_)
    rw [frac_succ]; rfl
  refine ⟨⟨?_, ?_⟩, ?_, ?_, ?_⟩
  · rw [frac_zero]; simp
  · intro k; rw [frac_succ]; simp [h_at_zero]
  · have : HasDerivAt (fun t : ℝ => exp (-t)) (exp (-τ) * -1) τ := (hasDerivAt_neg τ).exp
    have e : frac r 0 = fun t => exp (-t) := by funext t; exact frac_zero r t
    rw [e]
    exact this.congr_deriv (by ring)
  · refine (hs 0).congr_deriv ?_
    rw [frac_zero, frac_succ, h_zero]
    have e : exp (-τ) = exp (-(r * τ)) * exp ((r - 1) * τ) := by rw [← exp_add]; congr 1; ring
    rw [e]
    generalize h (0 + 1) ((r - 1) * τ) = H
    generalize exp ((r - 1) * τ) = X
    rw [zero_add, pow_one]
    field_simp
    ring
  · intro k
    refine (hs (k + 1)).congr_deriv ?_
    rw [frac_succ, frac_succ]
    rw [pow_succ (r / (r - 1)) (k + 1)]
    field_simp
    ring

/-- C99. All fractions are positive after time zero, for either sign of `r - 1`. -/
theorem C99_positive (r τ : ℝ) (hr : 0 < r) (hr1 : r ≠ 1) (hτ : 0 < τ) (k : ℕ) : 0 < frac r k τ := by
  cases k with
  | zero => rw [frac_zero]; exact exp_pos _
  | succ k =>
    rw [frac_succ]
    refine mul_pos (div_pos (exp_pos _) hr) ?_
    rcases lt_or_gt_of_ne hr1 with h | h
    · have := h_sign (k + 1) (mul_neg_of_neg_of_pos (sub_neg.2 h) hτ)
      have e : (r / (r - 1)) ^ (k + 1) = (r / (1 - r)) ^ (k + 1) * (-1) ^ (k + 1) := by
        rw [← mul_pow]; congr 1
        have : r - 1 ≠ 0 := by linarith
        have : 1 - r ≠ 0 := by linarith
        field_simp; ring
      rw [e, mul_assoc]
      exact mul_pos (pow_pos (div_pos hr (by linarith)) _) this
    · exact mul_pos (pow_pos (div_pos hr (by linarith)) _) (h_pos _ (mul_pos (by linarith) hτ))

/-- C99. The fractions add up to one, and the mean chain length is `v = r τ + (1 - r)(1 - p0)`, the equation solved for `p0`. -/
theorem C99_normalised (r τ : ℝ) (hr : 0 < r) (hr1 : r ≠ 1) (hτ : 0 < τ) :
    HasSum (fun k => frac r k τ) 1 ∧ HasSum (fun k : ℕ => (k : ℝ) * frac r k τ) (r * τ + (1 - r) * (1 - exp (-τ))) := by
  have h1 : r - 1 ≠ 0 := sub_ne_zero.2 hr1
  have hc : r / (r - 1) ≠ 1 := by rw [Ne, div_eq_one_iff_eq h1]; linarith
  have hc1 : r / (r - 1) - 1 = 1 / (r - 1) := by field_simp; ring
  have hcx : r / (r - 1) * ((r - 1) * τ) = r * τ := by field_simp
  have hcx' : r / (r - 1) * ((r - 1) * τ) = r * τ := hcx
  have e : exp (-(r * τ)) * exp ((r - 1) * τ) = exp (-τ) := by rw [← exp_add]; congr 1; ring
  have e1 : exp (-(r * τ)) * exp (r * τ) = 1 := by rw [← exp_add]; simp
  have p0 := C99_positive r τ hr hr1 hτ
  constructor
  · rw [← hasSum_nat_add_iff' 1]
    rw [hasSum_iff_tendsto_nat_of_nonneg (fun k => (p0 _).le)]
    have t := (tendsto_sum_pow_h hc ((r - 1) * τ)).const_mul (exp (-(r * τ)) / r)
    rw [hcx, hc1] at t
    have e2 : exp (-(r * τ)) / r * (r / (r - 1) * (exp (r * τ) - exp ((r - 1) * τ)) / (1 / (r - 1))) = 1 - ∑ i ∈ Finset.range 1, frac r i τ := by
      rw [Finset.sum_range_one, frac_zero, ← e]
      have : exp (-(r * τ)) / r * (r / (r - 1) * (exp (r * τ) - exp ((r - 1) * τ)) / (1 / (r - 1)))
          = exp (-(r * τ)) * exp (r * τ) - exp (-(r * τ)) * exp ((r - 1) * τ) := by field_simp
      rw [this, e1]
    rw [e2] at t
    refine t.congr fun n => ?_
    rw [Finset.mul_sum]
    exact Finset.sum_congr rfl fun k _ => (frac_succ r τ k).symm
  · rw [← hasSum_nat_add_iff' 1]
    rw [hasSum_iff_tendsto_nat_of_nonneg (fun k => mul_nonneg (Nat.cast_nonneg _) (p0 _).le)]
    have t := (tendsto_sum_mul_pow_h hc ((r - 1) * τ)).const_mul (exp (-(r * τ)) / r)
    rw [hcx, hc1] at t
    have e2 : exp (-(r * τ)) / r * ((r / (r - 1) * (r * τ) * exp (r * τ) - r / (r - 1) * (exp (r * τ) - exp ((r - 1) * τ)) / (1 / (r - 1))) / (1 / (r - 1)))
        = r * τ + (1 - r) * (1 - exp (-τ)) - ∑ i ∈ Finset.range 1, (i : ℝ) * frac r i τ := by
      rw [Finset.sum_range_one, Nat.cast_zero, zero_mul, sub_zero, ← e]
      have : exp (-(r * τ)) / r * ((r / (r - 1) * (r * τ) * exp (r * τ) - r / (r - 1) * (exp (r * τ) - exp ((r - 1) * τ)) / (1 / (r - 1))) / (1 / (r - 1)))
          = r * τ * (exp (-(r * τ)) * exp (r * τ)) - (r - 1) * (exp (-(r * τ)) * exp (r * τ) - exp (-(r * τ)) * exp ((r - 1) * τ)) := by field_simp
      rw [this, e1]; ring
    rw [e2] at t
    refine t.congr fun n => ?_
    rw [Finset.mul_sum]
    refine Finset.sum_congr rfl fun k _ => ?_
    rw [frac_succ]; ring

example : (0 : ℝ) < 5 ∧ (5 : ℝ) ≠ 1 ∧ (0 : ℝ) < 0.5 := by norm_num

/-! ## The unreacted fraction -/

/-- C99. The equation for `p0` has exactly one solution between zero and one. -/
theorem C99_p0_unique (v r : ℝ) (hv : 0 < v) (hr : 0 < r) :
    StrictMonoOn (findP0 v r) (Set.Ioc 0 1) ∧ ∃ p, (0 < p ∧ p < 1 ∧ findP0 v r p = 0) ∧ ∀ q, 0 < q → q ≤ 1 → findP0 v r q = 0 → q = p := by
  have hd : ∀ p, 0 < p → HasDerivAt (findP0 v r) (r * p⁻¹ + (r - 1) * -1) p := by
    intro p hp
    have h1 := ((hasDerivAt_log hp.ne').const_mul r).const_add v
    have h2 : HasDerivAt (fun p : ℝ => (r - 1) * (1 - p)) ((r - 1) * -1) p := ((hasDerivAt_id p).const_sub 1).const_mul (r - 1)
    exact h1.add h2
  have sm : StrictMonoOn (findP0 v r) (Set.Ioc 0 1) := by
    refine strictMonoOn_of_deriv_pos (convex_Ioc 0 1) (fun p hp => (hd p hp.1).continuousAt.continuousWithinAt) fun p hp => ?_
    rw [interior_Ioc] at hp
    rw [(hd p hp.1).deriv]
    have : r * p⁻¹ + (r - 1) * -1 = (r * (1 - p) + p) / p := by have := hp.1.ne'; field_simp; ring
    rw [this]
    have h0 := hp.1
    have h1 : 0 < 1 - p := by linarith [hp.2]
    positivity
  refine ⟨sm, ?_⟩
  have f1 : findP0 v r 1 = v := by simp [findP0]
  set q := exp (-(v + 1 + |r - 1|) / r) with hq
  have q0 : 0 < q := exp_pos _
  have q1 : q < 1 := by
    rw [hq, exp_lt_one_iff, neg_div, neg_lt_zero]
    have := abs_nonneg (r - 1)
    positivity
  have fq : findP0 v r q < 0 := by
    unfold findP0
    rw [hq, log_exp, ← hq]
    have e : r * (-(v + 1 + |r - 1|) / r) = -(v + 1 + |r - 1|) := by field_simp
    rw [e]
    have h2 : (r - 1) * (1 - q) ≤ |r - 1| := by
      have h3 : |(r - 1) * (1 - q)| ≤ |r - 1| := by
        rw [abs_mul]
        refine mul_le_of_le_one_right (abs_nonneg _) ?_
        rw [abs_of_pos (by linarith)]; linarith
      exact (le_abs_self _).trans h3
    linarith
  have cont : ContinuousOn (findP0 v r) (Set.Icc q 1) := fun p hp => (hd p (q0.trans_le hp.1)).continuousAt.continuousWithinAt
  obtain ⟨p, hp, hp0⟩ := intermediate_value_Icc q1.le cont (show (0 : ℝ) ∈ Set.Icc (findP0 v r q) (findP0 v r 1) from ⟨fq.le, by rw [f1]; exact hv.le⟩)
  refine ⟨p, ⟨q0.trans_le hp.1, lt_of_le_of_ne hp.2 ?_, hp0⟩, ?_⟩
  · rintro rfl; rw [f1] at hp0; linarith
  · intro s s0 s1 hs
    exact sm.injOn ⟨s0, s1⟩ ⟨q0.trans_le hp.1, hp.2⟩ (hs.trans hp0.symm)

/-- C99. What is used for `p0` is positive (and in `[eps, 1]` when the root finder is used); if the root finder converged it makes the residual at most `1e-12` or is within `4 eps p0 + 1e-12` of the exact solution;
in the limiting case its logarithm is within `eps |r - 1| / r` of the exact one. -/
theorem C99_p0_accuracy (v r p0 : ℝ) (hv : 0 < v) (hr : 0 < r) (hp : goldP0 v r = .ok p0) :
    ∃ p, 0 < p ∧ p < 1 ∧ findP0 v r p = 0 ∧ 0 < p0 ∧
      (findP0 v r eps < 0 → eps ≤ p0 ∧ p0 ≤ 1 ∧ ∃ s c, rootBrent (findP0 v r) eps 1 1e-12 1e-12 50 = .ok (s, c) ∧ p0 = s.x ∧
        (s.success = true → |findP0 v r p0| ≤ 1e-12 ∨ |p - p0| ≤ 4 * eps * |p0| + 1e-12))
      ∧ (0 ≤ findP0 v r eps → |log p0 - log p| ≤ eps * (|r - 1| / r)) := by
  obtain ⟨sm, p, ⟨h0, h1, hz⟩, hu⟩ := C99_p0_unique v r hv hr
  have he0 : (0 : ℝ) < eps := by norm_num [eps]
  have he1 : (eps : ℝ) ≤ 1 := by norm_num [eps]
  refine ⟨p, h0, h1, hz, ?_⟩
  unfold goldP0 at hp
  split_ifs at hp with hneg
  · cases hb : rootBrent (findP0 v r) eps 1 1e-12 1e-12 50 with
    | error e => rw [hb] at hp; cases hp
    | ok sc =>
      obtain ⟨s, c⟩ := sc
      rw [hb] at hp
      injection hp with hp
      have hx : s.x = p0 := hp
      have hmem := (C03_brent_stays_in_bracket (findP0 v r) eps 1 1e-12 1e-12 50 (by norm_num) (by norm_num) s c hb).2.1
      rw [Set.uIcc_of_le he1, hx] at hmem
      refine ⟨he0.trans_le hmem.1, fun _ => ⟨hmem.1, hmem.2, s, c, rfl, hx.symm, fun hs => ?_⟩, fun h => absurd hneg (not_lt.2 h)⟩
      have hcont : ContinuousOn (findP0 v r) (Set.uIcc eps 1) := by
        rw [Set.uIcc_of_le he1]
        unfold findP0
        refine ContinuousOn.add (ContinuousOn.add continuousOn_const (continuousOn_const.mul (continuousOn_log.mono ?_))) (by fun_prop)
        intro x hx
        simp only [Set.mem_compl_iff, Set.mem_singleton_iff]
        have := he0.trans_le hx.1
        exact this.ne'
      rcases C04_brent_exact_root (findP0 v r) eps 1 1e-12 1e-12 50 (by norm_num) (by norm_num) hcont s c hb hs with h | ⟨z, hz1, hz2, hz3⟩
      · left; rwa [hx] at h
      · right
        rw [Set.uIcc_of_le he1] at hz1
        rw [hx] at hz3
        rwa [← hu z (he0.trans_le hz1.1) hz1.2 hz2]
  · injection hp with hp
    refine ⟨by rw [← hp]; exact exp_pos _, fun h => absurd h hneg, fun h => ?_⟩
    have hpe : p ≤ eps := by
      by_contra hc
      have := sm ⟨he0, he1⟩ ⟨h0, h1.le⟩ (not_le.1 hc)
      rw [hz] at this
      linarith
    rw [← hp, log_exp]
    have e : (1 - v - r) / r - log p = -((r - 1) / r) * p := by
      unfold findP0 at hz
      field_simp
      linarith
    rw [e, abs_mul, abs_neg, abs_div, abs_of_pos hr, abs_of_pos h0, mul_comm]
    gcongr

/-! ## The evaluation -/

/-- C99. For `r > 1` the code returns the exact fraction for its `p0`. -/
theorem C99_above (v r p0 : ℝ) (hr : 1 < r) (hp : 0 < p0) (hp1 : p0 < 1) (k : ℕ) : goldBody k v r p0 = frac r k (-log p0) := by
  have hl := log_neg hp hp1
  have e0 : exp (-(-log p0)) = p0 := by rw [neg_neg, exp_log hp]
  unfold goldBody
  cases k with
  | zero => rw [if_pos rfl, frac_zero, e0]
  | succ k =>
    rw [if_neg (Nat.succ_ne_zero k)]
    dsimp only
    have ha : 0 < (1 - r) * log p0 := mul_pos_of_neg_of_neg (by linarith) hl
    have hg : gammainc ((k + 1 : ℕ) : ℝ) ((1 - r) * log p0) = 1 - exp (-((1 - r) * log p0)) * ∑ j ∈ Finset.range (k + 1), ((1 - r) * log p0) ^ j / (j.factorial : ℝ) := by
      have h1 := gammainc_add_gammaincc ((k + 1 : ℕ) : ℝ) ((1 - r) * log p0) (by positivity) ha.le
      rw [gammaincc_nat k _ ha, poisQ] at h1
      rw [Finset.mul_sum]
      have : ∑ i ∈ Finset.range (k + 1), exp (-((1 - r) * log p0)) * ((1 - r) * log p0) ^ i / (i.factorial : ℝ)
          = ∑ i ∈ Finset.range (k + 1), exp (-((1 - r) * log p0)) * (((1 - r) * log p0) ^ i / (i.factorial : ℝ)) := Finset.sum_congr rfl fun i _ => by ring
      rw [this] at h1
      linarith
    rw [if_pos hr, pref _ hp (by linarith) (div_pos (by linarith) (by linarith)), hg, frac, if_neg (Nat.succ_ne_zero k), e0, show (r - 1) * -log p0 = (1 - r) * log p0 by ring]

/-- C99. For `r < 1` the code returns the exact fraction for its `p0` when it uses the direct sum (`k < v` and no heavy cancellation); otherwise the deviation is at most the
first omitted term of the alternating series, of index `m + 1` where `m = k + 100` or the term of index `m` was below `100 eps`. -/
theorem C99_below (v r p0 : ℝ) (hr0 : 0 < r) (hr : r < 1) (hp : 0 < p0) (hp1 : p0 < 1) (k : ℕ) (hk : k ≠ 0) :
    (√eps < |exp (-((1 - r) * log p0)) * ∑ j ∈ Finset.range k, ((1 - r) * log p0) ^ j / (j.factorial : ℝ) - 1| → (k : ℝ) < v → goldBody k v r p0 = frac r k (-log p0))
      ∧ ∃ m, k ≤ m ∧ m ≤ k + 100 ∧ (m < k + 100 → |((1 - r) * log p0) ^ m / (m.factorial : ℝ)| < 100 * eps)
        ∧ |goldBody k v r p0 - frac r k (-log p0)|
            ≤ p0 / r * (r / (1 - r)) ^ k * exp (-((1 - r) * log p0)) * |((1 - r) * log p0) ^ (m + 1) / ((m + 1).factorial : ℝ)| := by
  have hl := log_neg hp hp1
  have e0 : exp (-(-log p0)) = p0 := by rw [neg_neg, exp_log hp]
  have hc : 0 < r / (1 - r) := div_pos hr0 (by linarith)
  have ha : (1 - r) * log p0 < 0 := mul_neg_of_pos_of_neg (by linarith) hl
  have eb : goldBody k v r p0 = goldSum k v r p0 ((1 - r) * log p0) := by
    unfold goldBody; rw [if_neg hk]; dsimp only; rw [if_neg (by linarith)]
  have hpow : (r / (r - 1)) ^ k = (r / (1 - r)) ^ k * (-1) ^ k := by
    rw [← mul_pow]; congr 1
    have : r - 1 ≠ 0 := by linarith
    have : 1 - r ≠ 0 := by linarith
    field_simp; ring
  have ef : frac r k (-log p0) = p0 / r * ((r / (1 - r)) ^ k * (-1) ^ k) * (1 - exp (-((1 - r) * log p0)) * ∑ j ∈ Finset.range k, ((1 - r) * log p0) ^ j / (j.factorial : ℝ)) := by
    rw [frac, if_neg hk, e0, hpow, show (r - 1) * -log p0 = (1 - r) * log p0 by ring]
  rw [eb, ef, goldSum]
  dsimp only
  rw [sumLoop_one _ hk, pref k hp hr0 hc]
  generalize hx : (1 - r) * log p0 = a at *
  have hS : ∑ j ∈ Finset.range k, a ^ j / (j.factorial : ℝ) = exp a - h k a := by unfold h; ring
  rw [hS]
  have hB : exp (-a) * exp a = 1 := by rw [← exp_add]; simp
  obtain ⟨m, m1, m2, m3, m4⟩ := tailLoop_eq a k 100 k le_rfl
  have ek : h k a - h (k + 1) a = a ^ k / (k.factorial : ℝ) := by rw [h_succ k]; ring
  rw [ek] at m4
  constructor
  · intro c1 c2
    rw [if_pos ⟨c1, c2⟩]; ring
  · refine ⟨m, m1, m2, fun hm => by rw [mul_comm]; exact m3 hm, ?_⟩
    have hn : 0 ≤ p0 / r * (r / (1 - r)) ^ k * exp (-a) * |a ^ (m + 1) / ((m + 1).factorial : ℝ)| := by positivity
    split_ifs with hif
    · have : p0 / r * (r / (1 - r)) ^ k * (-1) ^ k * (1 - exp (-a) * (exp a - h k a)) - p0 / r * ((r / (1 - r)) ^ k * (-1) ^ k) * (1 - exp (-a) * (exp a - h k a)) = 0 := by ring
      rw [this, abs_zero]; exact hn
    · rw [m4]
      have : p0 / r * (r / (1 - r)) ^ k * (-1) ^ k * exp (-a) * (h k a - h (m + 1) a) - p0 / r * ((r / (1 - r)) ^ k * (-1) ^ k) * (1 - exp (-a) * (exp a - h k a))
          = p0 / r * (r / (1 - r)) ^ k * exp (-a) * (-1) ^ k * -h (m + 1) a := by
        linear_combination (p0 / r * (r / (1 - r)) ^ k * (-1) ^ k) * hB
      rw [this, abs_mul, abs_mul, abs_pow, abs_neg, abs_one, one_pow, mul_one, abs_neg, abs_of_pos (by positivity : 0 < p0 / r * (r / (1 - r)) ^ k * exp (-a))]
      have := h_alternating (k := m + 1) ha
      gcongr

example : (0 : ℝ) < 0.5 ∧ (0.5 : ℝ) < 1 ∧ (3 : ℕ) ≠ 0 := by norm_num

/-- C99. End to end for `r ≥ 1.001`: the result is the exact fraction at the time given by the computed `p0`, and the mean over all lengths is then `v - find_p0(p0)`. -/
theorem C99_pdf (k : ℕ) (v r : ℝ) (hr : 1.001 ≤ r) (p0 : ℝ) (hp : goldP0 v r = .ok p0) (h0 : 0 < p0) (h1 : p0 < 1) :
    goldPdf k v r = .ok (some (frac r k (-log p0))) ∧ HasSum (fun k : ℕ => (k : ℝ) * frac r k (-log p0)) (v - findP0 v r p0) := by
  have hr' : 1 < r := lt_of_lt_of_le (by norm_num) hr
  constructor
  · unfold goldPdf
    rw [if_neg (by rw [abs_of_pos (by linarith), not_lt]; norm_num at hr ⊢; linarith), hp]
    show Except.ok (some (goldBody k v r p0)) = _
    rw [C99_above v r p0 hr' h0 h1]
  · have := (C99_normalised r (-log p0) (by linarith) hr'.ne' (neg_pos.2 (log_neg h0 h1))).2
    rw [neg_neg, exp_log h0] at this
    convert this using 1
    unfold findP0
    ring

example : (1.001 : ℝ) ≤ 5 ∧ (0 : ℝ) < 0.58958989 ∧ (0.58958989 : ℝ) < 1 ∧ |(1.0005 : ℝ) - 1| < 1e-3 := by norm_num [abs_of_pos]

/-- C99. Within `1e-3` of `r = 1` the Poisson distribution with mean `v` is returned. -/
theorem C99_poisson (k : ℕ) (v r : ℝ) (hv : 0 < v) (hr : |r - 1| < 1e-3) : goldPdf k v r = .ok (some (v ^ k * exp (-v) / (k.factorial : ℝ))) := by
  unfold goldPdf
  rw [if_pos hr, poisson]
  simp only [if_true, if_neg hv.ne']
  congr 2
  rw [gammaln, show (k : ℝ) + 1 + ((0 : ℤ) : ℝ) = k + 1 by push_cast; ring, Real.Gamma_nat_eq_factorial, abs_of_pos (by positivity), sub_sub, exp_sub, exp_add, exp_log (by positivity)]
  rw [show ((k : ℝ) + ((0 : ℤ) : ℝ)) * log v = log v * k by push_cast; ring, exp_mul, exp_log hv, rpow_natCast, exp_neg]
  field_simp

/-! ## A probability above one -/

/-- Fractions are at most one: false for what the code computes. For `r = 0.01`, `v = 2`, `k = 2` the tail sum is cut off after one hundred terms, far from convergence, and the
result exceeds `10^30`. -/
theorem C99_at_most_one_false : ∃ y, goldPdf 2 2 0.01 = .ok (some y) ∧ 10 ^ 30 < y := by
  have hp : goldP0 2 0.01 = .ok (exp (-101)) := by
    unfold goldP0
    rw [if_neg]
    · norm_num
    · unfold findP0
      rw [not_lt]
      have h2 : -37 ≤ log (eps : ℝ) := by
        have : (eps : ℝ) = (2 ^ 52)⁻¹ := by norm_num [eps]
        rw [this, log_inv, log_pow]
        have := log_two_lt_d9
        push_cast
        linarith
      have h3 : (0 : ℝ) < eps := by norm_num [eps]
      nlinarith
  refine ⟨goldBody 2 2 0.01 (exp (-101)), ?_, ?_⟩
  · unfold goldPdf
    rw [if_neg (by norm_num [abs_lt, abs_of_neg]), hp]
    rfl
  · unfold goldBody
    rw [if_neg (by norm_num)]
    dsimp only
    rw [if_neg (by norm_num), log_exp, goldSum]
    dsimp only
    rw [if_neg (by norm_num), pref 2 (exp_pos _) (by norm_num) (by norm_num)]
    have ea : (1 - 0.01 : ℝ) * -101 = ((-9999 / 100 : ℚ) : ℝ) := by norm_num
    rw [ea]
    have es : ((-9999 / 100 : ℚ) : ℝ) ^ 2 / ((Nat.factorial 2 : ℕ) : ℝ) = (((9999 / 100) ^ 2 / 2 : ℚ) : ℝ) := by norm_num [Nat.factorial]
    rw [es, tailLoop_cast]
    have hq : (10 ^ 34 : ℚ) < tailLoop (-9999 / 100 : ℚ) 100 (2 + 1) ((9999 / 100) ^ 2 / 2) ((9999 / 100) ^ 2 / 2) := by decide +kernel
    have hq' : (10 ^ 34 : ℝ) < ((tailLoop (-9999 / 100 : ℚ) 100 (2 + 1) ((9999 / 100) ^ 2 / 2) ((9999 / 100) ^ 2 / 2) : ℚ) : ℝ) := by exact_mod_cast hq
    generalize ((tailLoop (-9999 / 100 : ℚ) 100 (2 + 1) ((9999 / 100) ^ 2 / 2) ((9999 / 100) ^ 2 / 2) : ℚ) : ℝ) = S at *
    have eB : exp (-101) * exp (-((-9999 / 100 : ℚ) : ℝ)) = exp (-1.01) := by rw [← exp_add]; norm_num
    have hB : (0.3 : ℝ) < exp (-1.01) := by
      have := exp_neg_one_gt_d9
      have h2 : exp (-1.01) = exp (-1) * exp (-0.01) := by rw [← exp_add]; norm_num
      have h3 : (0.99 : ℝ) ≤ exp (-0.01) := by have := add_one_le_exp (-0.01 : ℝ); linarith
      rw [h2]; nlinarith
    have e : exp (-101) / 0.01 * (0.01 / (1 - 0.01)) ^ 2 * (-1) ^ 2 * exp (-((-9999 / 100 : ℚ) : ℝ)) * S = 1 / 0.01 * (0.01 / (1 - 0.01)) ^ 2 * exp (-1.01) * S := by
      rw [← eB]; ring
    rw [e]
    have hf : (0.01 : ℝ) < 1 / 0.01 * (0.01 / (1 - 0.01)) ^ 2 := by norm_num
    have hS0 : 0 < S := lt_trans (by norm_num) hq'
    calc (10 : ℝ) ^ 30 < 0.01 * 0.3 * 10 ^ 34 := by norm_num
      _ < 0.01 * 0.3 * S := by nlinarith
      _ ≤ _ := by gcongr

end Verif.Gold
