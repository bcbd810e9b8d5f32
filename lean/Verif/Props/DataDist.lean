import Verif.Lemmas.DataDist

/-!
# C104, C105: distributions defined by data

`D` is a `DataDistribution` object, built by `construct I …` where `I` is the interpolation routine. `pdf D size order sizeasmass` and `cdf …` are the methods,
with orders 0, 1, 2 for the kinds number, mass, gpc.
-/

namespace Verif.DataDist

open Verif.Dist MeasureTheory Set

/-- **C104**. Construction: data of equal lengths are accepted exactly if at least four points remain and their sizes increase. The points kept are exactly those with a
positive ordinate and a chain length of at least 1, in the given order; the warning is printed exactly if some point is dropped. -/
theorem C104_construct (I : Interp) (dt : DType) (xs ys : List ℝ) (order : ℕ) (sizeasmass : Bool) (M0 : ℝ) (hi : ¬ (dt = .int ∧ sizeasmass = true))
    (hl : xs.length = ys.length) (pts : List (ℝ × ℝ))
    (hp : pts = (((xs.map fun x => if sizeasmass then x / M0 else x).zip ys).filter fun q => decide (0 < q.2 ∧ 1 ≤ q.1))) :
    (4 ≤ pts.length ∧ (pts.map Prod.fst).Pairwise (· < ·) → ∃ D warn, construct I dt xs ys order sizeasmass M0 = .ok (D, warn) ∧
      D.points = pts ∧ D.order = order ∧ D.M0 = M0 ∧ D.spl = I pts ∧ 1 ≤ first D ∧ first D < last D ∧
      (∀ q ∈ pts, first D ≤ q.1 ∧ q.1 ≤ last D ∧ 0 < q.2) ∧ (warn = true ↔ pts.length < xs.length)) ∧
    (¬ (4 ≤ pts.length ∧ (pts.map Prod.fst).Pairwise (· < ·)) → construct I dt xs ys order sizeasmass M0 = .error .ValueError) := by
  have h1 : toLength dt sizeasmass M0 xs = .ok (xs.map fun x => if sizeasmass then x / M0 else x) := by
    unfold toLength
    cases sizeasmass with
    | false => simp
    | true =>
      cases dt with
      | int => simp at hi
      | float => simp
  have h2 : (((xs.map fun x => if sizeasmass then x / M0 else x).zip ys).filter fun q => decide (valid q)) = pts := by
    rw [hp]
    exact List.filter_congr fun q _ => decide_eq_decide.2 Iff.rfl
  unfold construct
  rw [h1]
  dsimp only
  rw [if_neg (by simp [hl]), h2]
  constructor
  · intro h
    have hv : ∀ q ∈ pts, valid q := by
      intro q hq
      rw [← h2, List.mem_filter] at hq
      simpa using hq.2
    obtain ⟨f1, f2, f3⟩ := first_last h hv order M0 (I pts)
    rw [if_pos (show splineOk pts from h)]
    refine ⟨_, _, rfl, rfl, rfl, rfl, rfl, f1, f2, fun q hq => ⟨(f3 q hq).1, (f3 q hq).2, (hv q hq).1⟩, ?_⟩
    have hlen : ((xs.map fun x => if sizeasmass then x / M0 else x).zip ys).length = xs.length := by simp [hl]
    rw [← hlen, ← h2, Bool.not_eq_true', List.length_filter_lt_length_iff_exists, List.all_eq_false]
  · intro h
    rw [if_neg (show ¬ splineOk pts from h)]

/-- **C104**, false of the code: molar masses given as integers are not accepted, the same numbers as floats are. -/
theorem C104_integers_false : ∃ (I : Interp) (xs ys : List ℝ),
    construct I .int xs ys 1 true (1 / 10) = .error .TypeError ∧ ∃ D, construct I .float xs ys 1 true (1 / 10) = .ok D := by
  refine ⟨fun _ _ => 1, [1, 2, 3, 4], [1, 1, 1, 1], rfl, ?_⟩
  obtain ⟨D, warn, h, _⟩ := (C104_construct (fun _ _ => 1) .float [1, 2, 3, 4] [1, 1, 1, 1] 1 true (1 / 10) (by simp) (by simp) _ rfl).1
    (by norm_num)
  exact ⟨_, h⟩

/-- **C104**. Every kind of density, in every unit, integrates to one over the range of the data and vanishes outside it, provided the corresponding moment is not zero. -/
theorem C104_density {D : Obj} (h : Good D) (hM : 0 < D.M0) (order : ℕ) (hm : momentLength D order ≠ 0) (sizeasmass : Bool) :
    ∫ x in (xrangePlot D sizeasmass).1..(xrangePlot D sizeasmass).2, pdf D x order sizeasmass = 1 ∧
    ∀ x, x ∉ Icc (xrangePlot D sizeasmass).1 (xrangePlot D sizeasmass).2 → pdf D x order sizeasmass = 0 := by
  have key : ∫ x in (first D)..(last D), pdf D x order false = 1 := by
    simp_rw [pdf_length h]
    rw [intervalIntegral.integral_div, integral_wS (left_mem_Icc.2 h.lt.le) (right_mem_Icc.2 h.lt.le), ← moment_eq h, div_self hm]
  cases sizeasmass with
  | false =>
    refine ⟨by simpa [xrangePlot] using key, fun x hx => ?_⟩
    rw [pdf_length h, wS_out (by simpa [xrangePlot] using hx), zero_div]
  | true =>
    simp only [xrangePlot, if_true]
    refine ⟨?_, fun x hx => ?_⟩
    · simp_rw [pdf_mass]
      rw [intervalIntegral.integral_div, intervalIntegral.integral_comp_div (fun x => pdf D x order false) hM.ne', mul_div_cancel_right₀ _ hM.ne',
        mul_div_cancel_right₀ _ hM.ne', key, smul_eq_mul, mul_one, div_self hM.ne']
    · rw [pdf_mass, pdf_length h, wS_out, zero_div, zero_div]
      rintro ⟨a, b⟩
      rw [le_div_iff₀ hM] at a
      rw [div_le_iff₀ hM] at b
      exact hx ⟨a, b⟩

/-- **C104**. The cdf is the integral of the density of the same kind: zero up to the smallest size, one from the largest size on. -/
theorem C104_cdf {D : Obj} (h : Good D) (hM : 0 < D.M0) (order : ℕ) (hm : momentLength D order ≠ 0) (sizeasmass : Bool) (x : ℝ) :
    cdf D x order sizeasmass = ∫ t in (xrangePlot D sizeasmass).1..x, pdf D t order sizeasmass ∧
    (x ≤ (xrangePlot D sizeasmass).1 → cdf D x order sizeasmass = 0) ∧ ((xrangePlot D sizeasmass).2 ≤ x → cdf D x order sizeasmass = 1) := by
  have key : ∀ x, cdfLength D x order = ∫ t in (first D)..x, pdf D t order false := by
    intro x
    simp_rw [pdf_length h]
    rw [intervalIntegral.integral_div, cdfLength, partial_eq h]
  have k0 : ∀ x, x ≤ first D → cdfLength D x order = 0 := fun x hx => by rw [cdfLength, partial_eq h, integral_below hx, zero_div]
  have k1 : ∀ x, last D ≤ x → cdfLength D x order = 1 := fun x hx => by rw [cdfLength, partial_eq h, integral_above h hx, div_self hm]
  cases sizeasmass with
  | false => exact ⟨by simpa [cdf, xrangePlot] using key x, fun hx => by simpa [cdf] using k0 x (by simpa [xrangePlot] using hx),
      fun hx => by simpa [cdf] using k1 x (by simpa [xrangePlot] using hx)⟩
  | true =>
    simp only [cdf, xrangePlot, if_true]
    refine ⟨?_, fun hx => k0 _ (by rwa [div_le_iff₀ hM]), fun hx => k1 _ (by rwa [le_div_iff₀ hM])⟩
    simp_rw [pdf_mass]
    rw [intervalIntegral.integral_div, intervalIntegral.integral_comp_div (fun x => pdf D x order false) hM.ne', mul_div_cancel_right₀ _ hM.ne',
      key, smul_eq_mul, mul_div_cancel_left₀ _ hM.ne']

/-- **C104**. The distribution reproduces the data: if the routine interpolates, the density of the kind of the data at the size of a retained point is its ordinate,
divided by the integral of the interpolant. The densities of the kinds are related by powers of the size. -/
theorem C104_data {D : Obj} (h : Good D) (q : ℝ × ℝ) (hq : first D ≤ q.1 ∧ q.1 ≤ last D) (hI : D.spl q.1 = q.2) (j k : ℕ)
    (hj : momentLength D j ≠ 0) (hk : momentLength D k ≠ 0) :
    pdf D q.1 D.order false = q.2 / ∫ x in (first D)..(last D), D.spl x ∧
    pdf D q.1 k false * momentLength D k * q.1 ^ j = pdf D q.1 j false * momentLength D j * q.1 ^ k := by
  have hm : q.1 ∈ Icc (first D) (last D) := ⟨hq.1, hq.2⟩
  have hp := h.pos hm
  constructor
  · rw [pdf_length h, wS_in hm, moment_eq h]
    simp [w, hI]
  · rw [pdf_length h, pdf_length h, div_mul_cancel₀ _ hk, div_mul_cancel₀ _ hj, wS_in hm, wS_in hm]
    unfold w
    rw [sub_eq_add_neg, sub_eq_add_neg, zpow_add₀ hp.ne', zpow_add₀ hp.ne', zpow_natCast, zpow_natCast]
    ring

/-- **C104** (partial). If the interpolant does not become negative between the data points, the cdf increases from 0 to 1. What is missing is that this is
so for all data, which is false (`C104_negative_false`). -/
theorem C104_monotone_partial {D : Obj} (h : Good D) (hM : 0 < D.M0) (hs : ∀ x ∈ Icc (first D) (last D), 0 ≤ D.spl x) (hp : 0 < D.spl (first D)) (order : ℕ)
    (sizeasmass : Bool) :
    (∀ x, 0 ≤ pdf D x order sizeasmass) ∧ Monotone (fun x => cdf D x order sizeasmass) ∧ ∀ x, cdf D x order sizeasmass ∈ Icc 0 1 := by
  have hpos := moment_pos h hs hp order
  have hw : ∀ x, 0 ≤ wS D order x := by
    intro x
    by_cases hx : x ∈ Icc (first D) (last D)
    · rw [wS_in hx]; exact w_nonneg h hs order hx
    · rw [wS_out hx]
  have i : ∀ a b, IntervalIntegrable (wS D order) volume a b := fun a b => (integrable_wS h order).intervalIntegrable
  have hmono : Monotone fun x => cdfLength D x order := by
    intro x y hxy
    simp only [cdfLength]
    rw [partial_eq h, partial_eq h, ← intervalIntegral.integral_add_adjacent_intervals (i (first D) x) (i x y)]
    have := intervalIntegral.integral_nonneg hxy (f := wS D order) (μ := volume) fun t _ => hw t
    gcongr
    linarith
  have hmono' : Monotone fun x => cdf D x order sizeasmass := by
    intro x y hxy
    simp only [cdf]
    refine hmono ?_
    split_ifs
    · gcongr
    · exact hxy
  refine ⟨fun x => ?_, hmono', fun x => ⟨?_, ?_⟩⟩
  · cases sizeasmass with
    | false => rw [pdf_length h]; exact div_nonneg (hw x) hpos.le
    | true => rw [pdf_mass, pdf_length h]; exact div_nonneg (div_nonneg (hw _) hpos.le) hM.le
  · have := (C104_cdf h hM order hpos.ne' sizeasmass (min x (xrangePlot D sizeasmass).1)).2.1 (min_le_right _ _)
    rw [← this]
    exact hmono' (min_le_left _ _)
  · have := (C104_cdf h hM order hpos.ne' sizeasmass (max x (xrangePlot D sizeasmass).2)).2.2 (le_max_right _ _)
    rw [← this]
    exact hmono' (le_max_left _ _)

/-- **C104**. With such an interpolant the averages are ordered and lie between the smallest and the largest size of the data. -/
theorem C104_averages {D : Obj} (h : Good D) (hM : 0 < D.M0) (hs : ∀ x ∈ Icc (first D) (last D), 0 ≤ D.spl x) (hp : 0 < D.spl (first D)) :
    first D ≤ avgDPn (momentMass D) ∧ avgDPn (momentMass D) ≤ avgDPw (momentMass D) ∧ avgDPw (momentMass D) ≤ avgDPz (momentMass D) ∧
    avgDPz (momentMass D) ≤ last D ∧ avgMn (momentMass D) = D.M0 * avgDPn (momentMass D) ∧ 1 ≤ avgPDI (momentMass D) := by
  have P := moment_pos h hs hp
  have e1 : avgDPn (momentMass D) = momentLength D 1 / momentLength D 0 := by simp [avgDPn, momentMass, Dist.momentMass]
  have e2 : avgDPw (momentMass D) = momentLength D 2 / momentLength D 1 := by
    simp only [avgDPw, momentMass, Dist.momentMass]; norm_num; field_simp
  have e3 : avgDPz (momentMass D) = momentLength D 3 / momentLength D 2 := by
    simp only [avgDPz, momentMass, Dist.momentMass]
    have := P 2
    norm_num
    rw [mul_div_mul_right _ _ (by positivity)]
  have e4 : avgMn (momentMass D) = D.M0 * avgDPn (momentMass D) := by
    rw [e1]; simp only [avgMn, momentMass, Dist.momentMass]; norm_num; ring
  have e5 : avgMw (momentMass D) = D.M0 * avgDPw (momentMass D) := by
    rw [e2]
    have := P 1
    simp only [avgMw, momentMass, Dist.momentMass]; norm_num
    field_simp
  have cs : ∀ k, momentLength D (k + 1) / momentLength D k ≤ momentLength D (k + 2) / momentLength D (k + 1) := by
    intro k
    have p0 := P k
    have p1 := P (k + 1)
    have q := moment_quad_nonneg h hs k ((momentLength D (k + 1) / momentLength D k) ^ 2) (-2 * (momentLength D (k + 1) / momentLength D k)) 1
      (fun x _ => by nlinarith [sq_nonneg (x - momentLength D (k + 1) / momentLength D k)])
    rw [div_le_div_iff₀ p0 p1]
    have e : (momentLength D (k + 1) / momentLength D k) ^ 2 * momentLength D k = momentLength D (k + 1) * (momentLength D (k + 1) / momentLength D k) := by
      field_simp
    have e' : momentLength D (k + 1) / momentLength D k * momentLength D k = momentLength D (k + 1) := by field_simp
    rw [e] at q
    nlinarith
  have hn : avgDPn (momentMass D) ≤ avgDPw (momentMass D) := by rw [e1, e2]; exact cs 0
  have n1 : 0 < avgDPn (momentMass D) := by rw [e1]; exact div_pos (P 1) (P 0)
  refine ⟨?_, hn, by rw [e2, e3]; exact cs 1, ?_, e4, ?_⟩
  · rw [e1, le_div_iff₀ (P 0)]
    have := moment_quad_nonneg h hs 0 (-first D) 1 0 (fun x hx => by linarith [hx.1])
    linarith
  · rw [e3, div_le_iff₀ (P 2)]
    have := moment_quad_nonneg h hs 2 (last D) (-1) 0 (fun x hx => by linarith [hx.2])
    linarith
  · unfold avgPDI
    rw [e4, e5, mul_div_mul_left _ _ hM.ne', one_le_div n1]
    exact hn

/-- Interpolation of four points by the cubic through them, which is what the spline is for four points. -/
def IsCubicInterp (I : Interp) : Prop := ∀ pts : List (ℝ × ℝ), pts.length = 4 → splineOk pts →
  (∀ q ∈ pts, I pts q.1 = q.2) ∧ ∃ a b c d : ℝ, ∀ x, I pts x = a + b * x + c * x ^ 2 + d * x ^ 3

/-- **C104**, false of the code: for positive data the density can be negative and the cdf decreasing, because the interpolant undershoots. Data: sizes 1, 2, 3, 4 with
ordinates 10, 1, 1, 10. -/
theorem C104_negative_false (I : Interp) (hI : IsCubicInterp I) : ∃ D, construct I .float [1, 2, 3, 4] [10, 1, 1, 10] 1 false (1 / 10) = .ok (D, false) ∧
    pdf D (5 / 2) 1 false < 0 ∧ ∃ x y, x < y ∧ cdf D y 1 false < cdf D x 1 false := by
  have hpts : [((1 : ℝ), (10 : ℝ)), (2, 1), (3, 1), (4, 10)] = ((([1, 2, 3, 4] : List ℝ).map fun x => if (false : Bool) = true then x / (1 / 10) else x).zip
      ([10, 1, 1, 10] : List ℝ)).filter (fun q => decide (0 < q.2 ∧ 1 ≤ q.1)) := by
    norm_num [List.filter]
  have hok : splineOk [((1 : ℝ), (10 : ℝ)), (2, 1), (3, 1), (4, 10)] := ⟨by norm_num, by norm_num⟩
  obtain ⟨D, warn, h1, h2, h3, h4, h5, -, -, -, h6⟩ := (C104_construct I .float [1, 2, 3, 4] [10, 1, 1, 10] 1 false (1 / 10) (by simp) (by simp) _ hpts).1 hok
  have hw : warn = false := by
    cases warn with
    | false => rfl
    | true => have := h6.1 rfl; simp at this
  subst hw
  obtain ⟨g1, a, b, c, d, g2⟩ := hI _ (by norm_num) hok
  have s1 := g1 (1, 10) (by simp)
  have s2 := g1 (2, 1) (by simp)
  have s3 := g1 (3, 1) (by simp)
  have s4 := g1 (4, 10) (by simp)
  rw [g2] at s1 s2 s3 s4
  dsimp only at s1 s2 s3 s4
  have hd : d = 0 := by linarith
  have hc : c = 9 / 2 := by subst hd; linarith
  have hb : b = -45 / 2 := by subst hd hc; linarith
  have ha : a = 28 := by subst hd hc hb; linarith
  subst hd hc hb ha
  have hspl : D.spl = fun x => 28 + -45 / 2 * x + 9 / 2 * x ^ 2 + 0 * x ^ 3 := by rw [h5]; funext x; exact g2 x
  have hf : first D = 1 := by simp [first, h2]
  have hl : last D = 4 := by simp [last, h2]
  have hG : Good D := ⟨hf.ge, by rw [hf, hl]; norm_num, by rw [hspl]; fun_prop⟩
  have hwx : ∀ x, w D 1 x = D.spl x := fun x => by simp [w, h3]
  have hint : ∀ u v : ℝ, ∫ x in u..v, D.spl x = (28 * v - 45 / 4 * v ^ 2 + 3 / 2 * v ^ 3) - (28 * u - 45 / 4 * u ^ 2 + 3 / 2 * u ^ 3) := by
    intro u v
    rw [hspl]
    refine intervalIntegral.integral_eq_sub_of_hasDerivAt (f := fun v => 28 * v - 45 / 4 * v ^ 2 + 3 / 2 * v ^ 3) (fun x _ => ?_) (Continuous.intervalIntegrable (by fun_prop) _ _)
    have e := (((hasDerivAt_id x).const_mul (28 : ℝ)).sub ((hasDerivAt_pow 2 x).const_mul (45 / 4))).add ((hasDerivAt_pow 3 x).const_mul (3 / 2))
    refine e.congr_deriv ?_
    norm_num
    ring
  have hm : momentLength D 1 = 39 / 4 := by
    rw [moment_eq hG, hf, hl]
    simp_rw [hwx]
    rw [hint]
    norm_num
  refine ⟨D, h1, ?_, 12 / 5, 13 / 5, by norm_num, ?_⟩
  · rw [pdf_length hG, hm, wS_in ⟨by rw [hf]; norm_num, by rw [hl]; norm_num⟩, hwx, hspl]
    norm_num
  · simp only [cdf, Bool.false_eq_true, if_false, cdfLength]
    rw [partial_eq hG, partial_eq hG, integral_wS (left_mem_Icc.2 hG.lt.le) ⟨by rw [hf]; norm_num, by rw [hl]; norm_num⟩,
      integral_wS (left_mem_Icc.2 hG.lt.le) ⟨by rw [hf]; norm_num, by rw [hl]; norm_num⟩, hm]
    simp_rw [hwx]
    rw [hint, hint, hf]
    norm_num

/-- The parameters of what `fit` returned agree with a vector of weights, logarithms of DPn and PDI. -/
def Holds {n : ℕ} (isP2 : Bool) (r : Fitted n) (x : Trial n) : Prop :=
  match r with
  | .nothing => False
  | .single DPn PDI => ∀ i, DPn = 10 ^ x.l i ∧ PDI = if isP2 then some (x.p i) else none
  | .mixture parts => ∀ i, (parts i).w = x.w i ∧ (parts i).DPn = 10 ^ x.l i ∧ (parts i).PDI = if isP2 then some (x.p i) else none

/-- Some trial asks for a DPn below 1 or a PDI below 1.000001. -/
def OutOfRange {n : ℕ} (isP2 : Bool) (x : Trial n) : Prop := ∃ i, (10 : ℝ) ^ x.l i < 1 ∨ (isP2 = true ∧ x.p i < 1000001 / 1000000)

/-- **C105**. Exactly what `fit` does, whatever the optimiser: it raises `RangeError` for a number of components outside 1…10 or if some trial is outside the range of the
parameters; otherwise it returns nothing if the optimiser reports failure, and a distribution holding the parameters of the **last trial** if it reports
success (the weight is dropped for a single component). -/
theorem C105_fit (D : Obj) (isP2 : Bool) (n : ℕ) (trials : List (Trial n)) (x : Trial n) (success : Bool) :
    ((n < 1 ∨ 10 < n ∨ ∃ y ∈ trials ++ [x], OutOfRange isP2 y) → fit D isP2 n (trials ++ [x]) success = .error .RangeError) ∧
    (1 ≤ n → n ≤ 10 → (∀ y ∈ trials ++ [x], ¬ OutOfRange isP2 y) →
      (success = false → fit D isP2 n (trials ++ [x]) success = .ok .nothing) ∧
      (success = true → ∃ r, fit D isP2 n (trials ++ [x]) success = .ok r ∧ Holds isP2 r x ∧ ((∃ d p, r = .single d p) ↔ n = 1))) := by
  have hacc : ∀ y : Trial n, (∀ i, accepted isP2 (decode isP2 y i)) ↔ ¬ OutOfRange isP2 y := by
    intro y
    unfold OutOfRange accepted decode
    push Not
    refine forall_congr' fun i => and_congr Iff.rfl ?_
    cases isP2 <;> simp
  have heval : ∀ (l : List (Trial n)) (c : Fin n → Part), (∃ y ∈ l, OutOfRange isP2 y) → evaluate isP2 c l = .error .RangeError := by
    intro l
    induction l with
    | nil => intro c h; simp at h
    | cons y l ih =>
      intro c h
      unfold evaluate
      split_ifs with h1
      · refine ih _ ?_
        obtain ⟨z, hz, ho⟩ := h
        rcases List.mem_cons.1 hz with rfl | hz
        · exact absurd ho ((hacc _).1 h1)
        · exact ⟨z, hz, ho⟩
      · rfl
  have heval' : ∀ (l : List (Trial n)) (c : Fin n → Part), (∀ y ∈ l ++ [x], ¬ OutOfRange isP2 y) → evaluate isP2 c (l ++ [x]) = .ok (decode isP2 x) := by
    intro l
    induction l with
    | nil =>
      intro c h
      simp only [List.nil_append, evaluate]
      rw [if_pos ((hacc _).2 (h x (by simp)))]
    | cons y l ih =>
      intro c h
      rw [List.cons_append, evaluate, if_pos ((hacc _).2 (h y (by simp)))]
      exact ih _ fun z hz => h z (List.mem_cons_of_mem _ hz)
  unfold fit
  constructor
  · intro h
    by_cases h1 : n < 1 ∨ 10 < n
    · rw [if_pos h1]
    · rw [if_neg h1, heval _ _ (by
        rcases h with h | h | h
        · omega
        · omega
        · exact h)]
  · intro h1 h10 h
    rw [if_neg (by omega), heval' _ _ h]
    dsimp only
    refine ⟨fun hs => by simp [hs], fun hs => ?_⟩
    rw [if_pos hs]
    split_ifs with hn
    · subst hn
      refine ⟨_, rfl, ?_, by simp⟩
      intro i
      rw [Subsingleton.elim i ⟨0, by omega⟩]
      exact ⟨rfl, rfl⟩
    · refine ⟨_, rfl, fun i => ⟨rfl, rfl, rfl⟩, by simp [hn]⟩

/-- **C105**, false of the code: the distribution returned by a successful `fit` need not hold the optimum found, but what happened to be tried last. Here the optimiser
tries DPn = 10, 100, 1000, in this order, and reports the optimum 100; the fitted distribution has DPn = 1000. -/
theorem C105_optimum_false (D : Obj) : ∃ (trials : List (Trial 1)) (opt : Trial 1), opt ∈ trials ∧
    ∃ r, fit D false 1 trials true = .ok r ∧ ¬ Holds false r opt := by
  let x : ℝ → Trial 1 := fun l => ⟨fun _ => 1, fun _ => l, fun _ => 2⟩
  have hx : ∀ l : ℝ, 0 ≤ l → ¬ OutOfRange false (x l) := by
    rintro l hl ⟨i, hi | hi⟩
    · exact absurd hi (not_lt.2 (Real.one_le_rpow (by norm_num) hl))
    · simp at hi
  obtain ⟨r, h1, h2, -⟩ := ((C105_fit D false 1 [x 1, x 2] (x 3) true).2 le_rfl (by norm_num) (by
    intro y hy
    simp only [List.cons_append, List.nil_append, List.mem_cons, List.not_mem_nil, or_false] at hy
    rcases hy with rfl | rfl | rfl <;> exact hx _ (by norm_num))).2 rfl
  refine ⟨[x 1, x 2, x 3], x 2, by simp, r, h1, fun h3 => ?_⟩
  have : (10 : ℝ) ^ (3 : ℝ) = 10 ^ (2 : ℝ) := by
    cases r with
    | nothing => exact absurd h2 (by simp [Holds])
    | single d p =>
      have a := (h2 0).1
      have b := (h3 0).1
      rw [← show d = (10 : ℝ) ^ (3 : ℝ) from a]; exact b
    | mixture q =>
      have a := (h2 0).2.1
      have b := (h3 0).2.1
      rw [← show (q 0).DPn = (10 : ℝ) ^ (3 : ℝ) from a]; exact b
  norm_num at this

/-! ### The hypotheses can be met -/

/-- A triangular data set, interpolated by a constant (any continuous interpolant will do). -/
noncomputable def exD : Obj := ⟨[(1, 3), (2, 3), (3, 3), (4, 3)], 1, 1 / 10, fun _ => 3⟩

theorem exD_good : Good exD := ⟨by norm_num [exD, first], by norm_num [exD, first, last], by simp only [exD]; fun_prop⟩

example : (∀ x, 0 ≤ pdf exD x 0 true) ∧ Monotone (fun x => cdf exD x 0 true) ∧ ∀ x, cdf exD x 0 true ∈ Icc 0 1 :=
  C104_monotone_partial exD_good (by norm_num [exD]) (fun _ _ => by norm_num [exD]) (by norm_num [exD]) 0 true

example : first exD ≤ avgDPn (momentMass exD) :=
  (C104_averages exD_good (by norm_num [exD]) (fun _ _ => by norm_num [exD]) (by norm_num [exD])).1

example : ∫ x in (xrangePlot exD true).1..(xrangePlot exD true).2, pdf exD x 2 true = 1 :=
  (C104_density exD_good (by norm_num [exD]) 2 (moment_pos exD_good (fun _ _ => by norm_num [exD]) (by norm_num [exD]) 2).ne' true).1

example : cdf exD 100 0 false = 1 :=
  (C104_cdf exD_good (by norm_num [exD]) 0 (moment_pos exD_good (fun _ _ => by norm_num [exD]) (by norm_num [exD]) 0).ne' false 100).2.2
    (by norm_num [xrangePlot, exD, last])

example : pdf exD 2 1 false = 3 / ∫ x in (first exD)..(last exD), exD.spl x :=
  (C104_data exD_good (2, 3) ⟨by norm_num [exD, first], by norm_num [exD, last]⟩ (by simp [exD]) 1 1
    (moment_pos exD_good (fun _ _ => by norm_num [exD]) (by norm_num [exD]) 1).ne'
    (moment_pos exD_good (fun _ _ => by norm_num [exD]) (by norm_num [exD]) 1).ne').1

/-- Lagrange interpolation satisfies `IsCubicInterp`. -/
noncomputable def lagrange : Interp
  | [p, q, r, s] => fun x =>
    p.2 * ((x - q.1) * (x - r.1) * (x - s.1)) / ((p.1 - q.1) * (p.1 - r.1) * (p.1 - s.1)) +
    q.2 * ((x - p.1) * (x - r.1) * (x - s.1)) / ((q.1 - p.1) * (q.1 - r.1) * (q.1 - s.1)) +
    r.2 * ((x - p.1) * (x - q.1) * (x - s.1)) / ((r.1 - p.1) * (r.1 - q.1) * (r.1 - s.1)) +
    s.2 * ((x - p.1) * (x - q.1) * (x - r.1)) / ((s.1 - p.1) * (s.1 - q.1) * (s.1 - r.1))
  | _ => fun _ => 0

theorem lagrange_cubic : IsCubicInterp lagrange := by
  rintro pts h4 ⟨-, hp⟩
  match pts, h4, hp with
  | [p, q, r, s], _, hp =>
    simp only [List.map_cons, List.map_nil, List.pairwise_cons, List.mem_cons, List.not_mem_nil, or_false, forall_eq_or_imp, forall_eq] at hp
    obtain ⟨⟨pq, pr, ps⟩, ⟨qr, qs⟩, rs, -⟩ := hp
    have d1 := sub_ne_zero.2 pq.ne
    have d2 := sub_ne_zero.2 pr.ne
    have d3 := sub_ne_zero.2 ps.ne
    have d4 := sub_ne_zero.2 qr.ne
    have d5 := sub_ne_zero.2 qs.ne
    have d6 := sub_ne_zero.2 rs.ne
    have e1 := sub_ne_zero.2 pq.ne'
    have e2 := sub_ne_zero.2 pr.ne'
    have e3 := sub_ne_zero.2 ps.ne'
    have e4 := sub_ne_zero.2 qr.ne'
    have e5 := sub_ne_zero.2 qs.ne'
    have e6 := sub_ne_zero.2 rs.ne'
    constructor
    · intro t ht
      simp only [List.mem_cons, List.not_mem_nil, or_false] at ht
      rcases ht with rfl | rfl | rfl | rfl <;> simp only [lagrange, sub_self, mul_zero, zero_mul, zero_div, add_zero, zero_add] <;> field_simp
    · obtain ⟨A, hA⟩ : ∃ A, A = p.2 / ((p.1 - q.1) * (p.1 - r.1) * (p.1 - s.1)) := ⟨_, rfl⟩
      obtain ⟨B, hB⟩ : ∃ A, A = q.2 / ((q.1 - p.1) * (q.1 - r.1) * (q.1 - s.1)) := ⟨_, rfl⟩
      obtain ⟨C, hC⟩ : ∃ A, A = r.2 / ((r.1 - p.1) * (r.1 - q.1) * (r.1 - s.1)) := ⟨_, rfl⟩
      obtain ⟨E, hE⟩ : ∃ A, A = s.2 / ((s.1 - p.1) * (s.1 - q.1) * (s.1 - r.1)) := ⟨_, rfl⟩
      refine ⟨-(A * q.1 * r.1 * s.1 + B * p.1 * r.1 * s.1 + C * p.1 * q.1 * s.1 + E * p.1 * q.1 * r.1),
        A * (q.1 * r.1 + q.1 * s.1 + r.1 * s.1) + B * (p.1 * r.1 + p.1 * s.1 + r.1 * s.1) + C * (p.1 * q.1 + p.1 * s.1 + q.1 * s.1) +
          E * (p.1 * q.1 + p.1 * r.1 + q.1 * r.1),
        -(A * (q.1 + r.1 + s.1) + B * (p.1 + r.1 + s.1) + C * (p.1 + q.1 + s.1) + E * (p.1 + q.1 + r.1)), A + B + C + E, fun x => ?_⟩
      simp only [lagrange, mul_div_right_comm _ _ ((p.1 - q.1) * (p.1 - r.1) * (p.1 - s.1)), mul_div_right_comm _ _ ((q.1 - p.1) * (q.1 - r.1) * (q.1 - s.1)),
        mul_div_right_comm _ _ ((r.1 - p.1) * (r.1 - q.1) * (r.1 - s.1)), mul_div_right_comm _ _ ((s.1 - p.1) * (s.1 - q.1) * (s.1 - r.1)), ← hA, ← hB, ← hC, ← hE]
      ring

example : ∃ D, construct lagrange .float [1, 2, 3, 4] [10, 1, 1, 10] 1 false (1 / 10) = .ok (D, false) ∧ pdf D (5 / 2) 1 false < 0 :=
  let ⟨D, h1, h2, _⟩ := C104_negative_false lagrange lagrange_cubic
  ⟨D, h1, h2⟩

example : ∃ D warn, construct lagrange .float [0, 1, 2, 3, 4] [5, 1, 2, 2, 1] 1 false (1 / 10) = .ok (D, warn) ∧ D.points = [(1, 1), (2, 2), (3, 2), (4, 1)] := by
  obtain ⟨D, warn, h, h2, _⟩ := (C104_construct lagrange .float [0, 1, 2, 3, 4] [5, 1, 2, 2, 1] 1 false (1 / 10) (by simp) (by simp) [(1, 1), (2, 2), (3, 2), (4, 1)]
    (by norm_num [List.filter])).1 (by norm_num)
  exact ⟨D, warn, h, h2⟩

end Verif.DataDist
