import Verif.Lemmas.SpecialRootsAux

/-! # C88: roots of x tan x = a and 1 - x cot x = a -/

namespace Verif.SpecialRoots

open Real

/-! ## x tan x = a -/

/-- C88. For every `a > 0` there is exactly one root in each interval `[iπ, iπ + π/2)`. -/
theorem C88_xtanx_root (a : ℝ) (ha : 0 < a) (i : ℕ) :
    ∃ q, (i * π < q ∧ q < i * π + π / 2 ∧ q * tan q = a) ∧ ∀ q', i * π ≤ q' → q' < i * π + π / 2 → q' * tan q' = a → q' = q := by
  obtain ⟨q, h0, h1, h2⟩ := tan_root a ha i
  exact ⟨q, ⟨h0, h1, h2⟩, fun q' h0' h1' h2' => tan_root_unique ha h0 h1 h2 h0' h1' h2'⟩

/-- C88. Entry `i` of `roots_xtanx(a, N)` for `0 < a < 100`: it lies in the interval of the `i`-th root, and never below the root unless it is the untouched starting point of the first root, which then met a stopping test;
when the Newton solver reports success the error is bounded by the residual tolerance over the slope, or by the step tolerance times the ratio of slopes. -/
theorem C88_xtanx_newton (a tolx : ℝ) (ha : 0 < a) (ha' : a < 100) (i : ℕ) (q : ℝ) (hq0 : i * π < q) (hq1 : q < i * π + π / 2) (hq : q * tan q = a) :
    ∃ x, xtanxEntry a tolx i = .ok x ∧ i * π < x ∧ x < i * π + π / 2 ∧ (q ≤ x ∨ (i = 0 ∧ x = π * (0.5 * a / (a + 1)) ∧ (|x * tan x - a| ≤ 1e-10 ∨ tanD x ≤ eps ∨ |x * tan x - a| ≤ tolx * tanD x)))
      ∧ ∃ r calls, rootNewton (tanF a) (π * (i + 0.5 * a / (a + 1))) tolx 1e-10 50 = .ok (r, calls) ∧ x = r.x ∧
        (r.success = true → |x - q| ≤ 1e-10 / tanD (min x q) ∨ |x - q| ≤ tolx * (tanD (max x q) / tanD q)) := by
  have hpi := pi_pos
  obtain ⟨⟨r, calls⟩, hr⟩ := (C01_newton_error_iff (tanF a) (π * (i + 0.5 * a / (a + 1))) tolx 1e-10 50).2 (by norm_num)
  have he : xtanxEntry a tolx i = .ok r.x := by
    show (if a = 0 then _ else _) = _
    rw [if_neg ha.ne', if_pos ha', pdiv, if_neg (by positivity : a + 1 ≠ 0)]
    simp only [bind, Except.bind, hr]
    rfl
  obtain ⟨-, -, hn1, -, -, hx, hrf, hst, hsf⟩ := C01_newton_certificate _ _ _ _ _ _ _ hr
  have hq' : (fun x => x * tan x - a) q = 0 := by simp only; linarith
  have hep : (0 : ℝ) < eps := by norm_num [eps]
  have hstop : r.niter - 1 = 0 → 0 < tanD r.x → |r.x * tan r.x - a| ≤ 1e-10 ∨ tanD r.x ≤ eps ∨ |r.x * tan r.x - a| ≤ tolx * tanD r.x := by
    intro hn hp
    have e1 : r.f = r.x * tan r.x - a := hrf
    have e2 : (tanF a (r.x, eps)).2 / eps = tanD r.x := by
      simp only [tanF]
      rw [mul_div_cancel_left₀ _ hep.ne']
      rfl
    rw [e2, abs_of_pos hp, e1] at hst hsf
    rcases Bool.eq_false_or_eq_true r.success with hs | hs
    · rcases hst hs with h | h
      · exact Or.inl h.2
      · refine Or.inr (Or.inr ?_)
        have := h.2.2
        rwa [abs_div, abs_of_pos hp, div_le_iff₀ hp] at this
    · rcases (hsf hs).2 with h | h
      · exact Or.inr (Or.inl h.2)
      · omega
  have hpos : ∀ t : ℝ, i * π < t → 0 < t := fun t ht => lt_of_le_of_lt (by positivity) ht
  have hd : ∀ t ∈ Set.Ico q (i * π + π / 2), HasDerivAt (fun x => x * tan x - a) (tanD t) t := fun t ht => tan_deriv a (cos_ne' (hq0.le.trans ht.1) ht.2)
  have hm : MonotoneOn tanD (Set.Ico q (i * π + π / 2)) := (tanD_mono i).mono fun t ht => ⟨hq0.le.trans ht.1, ht.2⟩
  have hq0' := tanD_pos hq0.le hq1 (hpos q hq0)
  have hs : (0 : ℝ) < 0.5 * a / (a + 1) ∧ 0.5 * a / (a + 1) < 1 / 2 := by
    refine ⟨by positivity, ?_⟩
    rw [div_lt_iff₀ (by positivity)]; linarith
  have it : ∀ x0, q ≤ x0 → x0 < i * π + π / 2 → ∀ n, q ≤ (newtonIter (tanF a))^[n] x0 ∧ (newtonIter (tanF a))^[n] x0 ≤ x0 := fun x0 h0 h1 n =>
    iterate_right (f := fun x => x * tan x - a) hq' hd hm hq0' (newtonIter (tanF a)) (newtonIter_tan a) h0 h1 n
  have pos : i * π < r.x ∧ r.x < i * π + π / 2 ∧ (q ≤ r.x ∨ (i = 0 ∧ r.x = π * (0.5 * a / (a + 1)) ∧ (|r.x * tan r.x - a| ≤ 1e-10 ∨ tanD r.x ≤ eps ∨ |r.x * tan r.x - a| ≤ tolx * tanD r.x))) := by
    rcases Nat.eq_zero_or_pos i with h | h
    · subst h
      have e0 : π * (((0 : ℕ) : ℝ) + 0.5 * a / (a + 1)) = π * (0.5 * a / (a + 1)) := by simp
      rw [e0] at hx
      obtain ⟨y0, y1, y2⟩ := start_zero ha
      simp only [Nat.cast_zero, zero_mul, zero_add] at hq0 hq1 it ⊢
      by_cases hn : r.niter - 1 = 0
      · have hx' := hx
        rw [hn, Function.iterate_zero_apply] at hx'
        have hy0 : 0 < r.x := by rw [hx']; exact y0
        have hy1 : r.x < π / 2 := by rw [hx']; exact y1
        exact ⟨hy0, hy1, Or.inr ⟨trivial, hx', hstop hn (tanD_pos (i := 0) (by simpa using hy0.le) (by simpa using hy1) hy0)⟩⟩
      · obtain ⟨n, hn⟩ := Nat.exists_eq_succ_of_ne_zero hn
        rw [hn, Function.iterate_succ_apply] at hx
        have h1 : q ≤ newtonIter (tanF a) (π * (0.5 * a / (a + 1))) ∧ newtonIter (tanF a) (π * (0.5 * a / (a + 1))) < π / 2 := by
          rw [newtonIter_tan]
          refine ⟨?_, y2⟩
          rcases le_total q (π * (0.5 * a / (a + 1))) with hle | hle
          · exact (newton_right (f := fun x => x * tan x - a) hle hq' (fun t ht => tan_deriv a (cos_ne' (i := 0) (by simpa using hq0.le.trans ht.1) (by simpa using ht.2.trans_lt y1)))
              ((tanD_mono 0).mono fun t ht => ⟨by simpa using hq0.le.trans ht.1, by simpa using ht.2.trans_lt y1⟩) hq0').1
          · exact newton_left (f := fun x => x * tan x - a) hle hq' (fun t ht => tan_deriv a (cos_ne' (i := 0) (by simpa using y0.le.trans ht.1) (by simpa using ht.2.trans_lt hq1)))
              ((tanD_mono 0).mono fun t ht => ⟨by simpa using y0.le.trans ht.1, by simpa using ht.2.trans_lt hq1⟩)
              (tanD_pos (i := 0) (by simpa using y0.le) (by simpa using y1) y0)
        obtain ⟨a1, a2⟩ := it _ h1.1 h1.2 n
        rw [← hx] at a1 a2
        exact ⟨hq0.trans_le a1, a2.trans_lt h1.2, Or.inl a1⟩
    · obtain ⟨j, rfl⟩ := Nat.exists_eq_succ_of_ne_zero h.ne'
      have hst := start_right ha j
      set x0 := π * (((j + 1 : ℕ) : ℝ) + 0.5 * a / (a + 1)) with hx0
      have b0 : ((j + 1 : ℕ) : ℝ) * π < x0 := by rw [hx0, mul_add, mul_comm π]; nlinarith
      have b1 : x0 < ((j + 1 : ℕ) : ℝ) * π + π / 2 := by rw [hx0, mul_add, mul_comm π]; nlinarith
      have hqx : q ≤ x0 := by
        by_contra hc
        have h1 := tan_mono' b0.le (not_le.1 hc) hq1
        have h2 := tan_nonneg' b0.le b1
        have h3 := hpos x0 b0
        have h4 := not_le.1 hc
        nlinarith
      obtain ⟨a1, a2⟩ := it x0 hqx b1 (r.niter - 1)
      rw [← hx] at a1 a2
      exact ⟨hq0.trans_le a1, a2.trans_lt b1, Or.inl a1⟩
  refine ⟨r.x, he, pos.1, pos.2.1, pos.2.2, r, calls, hr, rfl, fun hsu => ?_⟩
  have sub : Set.uIcc q r.x ⊆ Set.Ioo (i * π) (i * π + π / 2) := by
    intro t ht
    rw [Set.mem_uIcc] at ht
    rcases ht with ht | ht
    · exact ⟨hq0.trans_le ht.1, ht.2.trans_lt pos.2.1⟩
    · exact ⟨pos.1.trans_le ht.1, ht.2.trans_lt hq1⟩
  have he0 : (eps : ℝ) ≠ 0 := by norm_num [eps]
  refine success_bound (f := fun x => x * tan x - a) hr hsu rfl rfl ?_ hq' (fun t ht => tan_deriv a (cos_ne' (sub ht).1.le (sub ht).2))
    ((tanD_mono i).mono fun t ht => ⟨(sub ht).1.le, (sub ht).2⟩) (fun t ht => tanD_pos (sub ht).1.le (sub ht).2 (hpos t (sub ht).1))
  simp only [tanF]
  rw [mul_div_cancel_left₀ _ he0]
  exact abs_of_pos (tanD_pos pos.1.le pos.2.1 (hpos _ pos.1))

/-- C88. Entry `i` for `a ≥ 100`: the fixed-point loop is always within `1.02 tolx` or `1e-20` of the root. -/
theorem C88_xtanx_large (a tolx : ℝ) (ha : 100 ≤ a) (i : ℕ) (q : ℝ) (hq0 : i * π < q) (hq1 : q < i * π + π / 2) (hq : q * tan q = a) (ht : 0 ≤ tolx) :
    ∃ x, xtanxEntry a tolx i = .ok x ∧ i * π < x ∧ x < i * π + π / 2 ∧ (|x - q| ≤ 1.02 * tolx ∨ |x - q| ≤ 1e-20) := by
  have hpi := pi_gt_three
  have hi : (0 : ℝ) ≤ i * π := by positivity
  refine ⟨i * π + fpLoop (fun e => arctan (a / (i * π + e))) tolx 10 1, ?_, ?_⟩
  · show (if a = 0 then _ else _) = _
    rw [if_neg (by linarith), if_neg (by linarith)]
  set p := q - i * π with hp
  have p0 : 0 < p := by rw [hp]; linarith
  have p1 : p < π / 2 := by rw [hp]; linarith
  have hqe : q = i * π + p := by rw [hp]; ring
  have hfix : arctan (a / (i * π + p)) = p := by
    have hq0'' : 0 < q := hi.trans_lt hq0
    have : a / (i * π + p) = tan p := by
      rw [← hqe, ← hq, mul_div_cancel_left₀ _ hq0''.ne', hp, tan_sub_nat_mul_pi]
    rw [this, arctan_tan (by linarith) p1]
  have dg : ∀ e, 0 < e → HasDerivAt (fun e => arctan (a / (i * π + e))) (-(a / ((i * π + e) ^ 2 + a ^ 2))) e := by
    intro e he
    have hne : i * π + e ≠ 0 := by positivity
    have h1 : HasDerivAt (fun e => a / (i * π + e)) (a * -1 / (i * π + e) ^ 2) e := by
      have := ((hasDerivAt_id e).const_add (i * π)).inv hne
      have := this.const_mul a
      refine (this.congr_deriv ?_).congr_of_eventuallyEq (Filter.Eventually.of_forall fun t => ?_)
      · simp only [id]; ring
      · simp [div_eq_mul_inv]
    refine h1.arctan.congr_deriv ?_
    have : 0 < (i * π + e) ^ 2 + a ^ 2 := by positivity
    field_simp
  have lip : ∀ e ∈ Set.Ioo 0 (π / 2), |arctan (a / (i * π + e)) - p| ≤ 0.01 * |e - p| := by
    intro e he
    have hb := Convex.norm_image_sub_le_of_norm_hasDerivWithin_le (f := fun e => arctan (a / (i * π + e))) (C := 0.01) (s := Set.Ioo 0 (π / 2)) (x := p) (y := e)
      (fun t ht => (dg t ht.1).hasDerivWithinAt) (fun t ht => ?_) (convex_Ioo _ _) ⟨p0, p1⟩ he
    · simp only [hfix, norm_eq_abs] at hb
      exact hb
    · rw [norm_eq_abs, abs_neg, abs_of_nonneg (by positivity), div_le_iff₀ (by positivity)]
      have := ht.1
      have : 0 ≤ (i * π + t) ^ 2 := by positivity
      nlinarith
  have inv : ∀ e ∈ Set.Ioo 0 (π / 2), arctan (a / (i * π + e)) ∈ Set.Ioo 0 (π / 2) := by
    intro e he
    refine ⟨arctan_pos.2 (div_pos (by linarith) (by linarith [he.1])), arctan_lt_pi_div_two _⟩
  obtain ⟨m1, m2⟩ := fpLoop_error _ (Set.Ioo 0 (π / 2)) 0.01 p tolx (by norm_num) (by norm_num) inv lip 10 1 ⟨by norm_num, by linarith⟩
  generalize fpLoop (fun e => arctan (a / (i * π + e))) tolx 10 1 = x at m1 m2
  refine ⟨by linarith [m1.1], by linarith [m1.2], ?_⟩
  have ex : i * π + x - q = x - p := by rw [hp]; ring
  rw [ex]
  refine m2.imp (fun h => h.trans ?_) fun h => h.trans ?_
  · rw [div_le_iff₀ (by norm_num)]; norm_num; nlinarith
  · have h4 := pi_lt_four
    have : |1 - p| ≤ 1 := abs_le.2 ⟨by linarith, by linarith⟩
    calc (0.01 : ℝ) ^ 10 * |1 - p| ≤ 0.01 ^ 10 * 1 := by gcongr
      _ ≤ 1e-20 := by norm_num

example : (100 : ℝ) ≤ 250 ∧ (0 : ℝ) ≤ 1e-6 := by norm_num

/-- C88. The limiting cases are exact: `x sin x = 0` for `a = 0`, `cos x = 0` for `a = inf`. -/
theorem C88_xtanx_limits (tolx : ℝ) (i : ℕ) :
    (xtanxEntry ((0 : ℝ) : WithTop ℝ) tolx i = .ok (i * π) ∧ tan (i * π) = 0) ∧ (xtanxEntry ⊤ tolx i = .ok ((i + 1 / 2) * π) ∧ cos ((i + 1 / 2) * π) = 0) := by
  refine ⟨⟨?_, tan_nat_mul_pi i⟩, rfl, ?_⟩
  · show (if (0 : ℝ) = 0 then _ else _) = _
    rw [if_pos rfl]
  · rw [show ((i : ℝ) + 1 / 2) * π = π / 2 + i * π by ring, cos_add_nat_mul_pi, cos_pi_div_two, mul_zero]

/-- C88. For every positive `a` the call returns `N` values, the `i`-th in the interval of the `i`-th root, hence in increasing order. -/
theorem C88_xtanx_list (a tolx : ℝ) (ha : 0 < a) (ht : 0 ≤ tolx) (N : ℕ) :
    ∃ x : ℕ → ℝ, rootsXtanx a N tolx = .ok ((List.range N).map x) ∧ (∀ i, i * π < x i ∧ x i < i * π + π / 2) ∧ StrictMono x := by
  have key : ∀ i : ℕ, ∃ x, xtanxEntry a tolx i = .ok x ∧ i * π < x ∧ x < i * π + π / 2 := by
    intro i
    obtain ⟨q, ⟨h0, h1, h2⟩, -⟩ := C88_xtanx_root a ha i
    rcases lt_or_ge a 100 with h | h
    · obtain ⟨x, hx, h3, h4, -⟩ := C88_xtanx_newton a tolx ha h i q h0 h1 h2
      exact ⟨x, hx, h3, h4⟩
    · obtain ⟨x, hx, h3, h4, -⟩ := C88_xtanx_large a tolx h i q h0 h1 h2 ht
      exact ⟨x, hx, h3, h4⟩
  choose x hx using key
  refine ⟨x, ?_, fun i => (hx i).2, strictMono_nat_of_lt_succ fun i => ?_⟩
  · unfold rootsXtanx
    exact mapM_ok _ x (fun i => (hx i).1) _
  · have h1 := (hx i).2.2
    have h2 := (hx (i + 1)).2.1
    push_cast at h2
    have := pi_pos
    linarith

/-- `x tan x = a` can be solved for negative `a` as well, and `a` is not restricted; false: at `a = -1` the starting point divides by zero. -/
theorem C88_negative_false (tolx : ℝ) (N : ℕ) : rootsXtanx ((-1 : ℝ) : WithTop ℝ) (N + 1) tolx = .error .ZeroDivisionError ∧ ∃ x : ℝ, 0 < x ∧ x * tan x = -1 := by
  constructor
  · have h0 : xtanxEntry ((-1 : ℝ) : WithTop ℝ) tolx 0 = .error .ZeroDivisionError := by
      show (if (-1 : ℝ) = 0 then _ else _) = _
      rw [if_neg (by norm_num), if_pos (by norm_num), pdiv, if_pos (by norm_num)]
      rfl
    unfold rootsXtanx
    rw [List.range_succ_eq_map, List.mapM_cons, h0]
    rfl
  · have hpi := pi_pos
    have cont : ContinuousOn (fun x : ℝ => x * sin x + cos x) (Set.Icc (π / 2) π) := by fun_prop
    obtain ⟨x, hx, hz⟩ := intermediate_value_Ioo' (by linarith : π / 2 ≤ π) cont
      (show (0 : ℝ) ∈ Set.Ioo (π * sin π + cos π) (π / 2 * sin (π / 2) + cos (π / 2)) by
        rw [sin_pi, cos_pi, sin_pi_div_two, cos_pi_div_two]
        exact ⟨by norm_num, by linarith⟩)
    have hc : cos x < 0 := cos_neg_of_pi_div_two_lt_of_lt hx.1 (by linarith [hx.2])
    refine ⟨x, by linarith [hx.1], ?_⟩
    simp only at hz
    rw [tan_eq_sin_div_cos]
    have := hc.ne
    field_simp
    linarith

/-! ## 1 - x cot x = a -/

/-- C88. For every `a > 0` there is exactly one root in each interval `(iπ, (i+1)π)`. -/
theorem C88_xcotx_root (a : ℝ) (ha : 0 < a) (i : ℕ) :
    ∃ q, (i * π < q ∧ q < (i + 1) * π ∧ 1 - q * (cos q / sin q) = a) ∧ ∀ q', i * π < q' → q' < (i + 1) * π → 1 - q' * (cos q' / sin q') = a → q' = q := by
  obtain ⟨q, h0, h1, h2, -⟩ := cot_root a ha i
  refine ⟨q, ⟨h0, h1, by rw [← mul_div_assoc, h2]; ring⟩, fun q' h0' h1' h2' => ?_⟩
  rw [← mul_div_assoc] at h2'
  rcases lt_trichotomy q' q with h | h | h
  · have := cot_anti h0' h h1; linarith
  · exact h
  · have := cot_anti h0 h h1'; linarith

/-- C88. Entry `i` of `roots_xcotx(a, N)` for `0 < a < 2`, `a ≠ 1`: as for `roots_xtanx`; the untouched start, where the function is `a - 1` and the slope `x`, met a stopping test. -/
theorem C88_xcotx_newton (a tolx : ℝ) (ha : 0 < a) (ha' : a < 2) (ha1 : a ≠ 1) (i : ℕ) (q : ℝ) (hq0 : i * π < q) (hq1 : q < (i + 1) * π) (hq : 1 - q * (cos q / sin q) = a) :
    ∃ x, xcotxEntry a tolx i = .ok x ∧ i * π < x ∧ x < (i + 1) * π ∧ (q ≤ x ∨ (1 < a ∧ x = (i + 1 / 2) * π ∧ (a - 1 ≤ 1e-10 ∨ a - 1 ≤ tolx * x)))
      ∧ ∃ r calls, rootNewton (cotF a) ((i + 1 / 2) * π) tolx 1e-10 50 = .ok (r, calls) ∧ x = r.x ∧
        (r.success = true → |x - q| ≤ 1e-10 / cotD (min x q) ∨ |x - q| ≤ tolx * (cotD (max x q) / cotD q)) := by
  have hpi := pi_gt_three
  have hi : (0 : ℝ) ≤ i * π := by positivity
  obtain ⟨⟨r, calls⟩, hr⟩ := (C01_newton_error_iff (cotF a) ((i + 1 / 2) * π) tolx 1e-10 50).2 (by norm_num)
  have he : xcotxEntry a tolx i = .ok r.x := by
    show (if a = 1 then _ else _) = _
    rw [if_neg ha1, if_pos ha', hr]
    rfl
  obtain ⟨-, -, hn1, -, -, hx, hrf, hst, hsf⟩ := C01_newton_certificate _ _ _ _ _ _ _ hr
  rw [← mul_div_assoc] at hq
  have hqe : q * cos q / sin q = 1 - a := by linarith
  have hq' : (fun x => -(x * cos x / sin x + a - 1)) q = 0 := by simp only; linarith
  -- position of the root
  obtain ⟨q2, b0, b1, b2, b3, b4⟩ := cot_root a ha i
  have hqq : q2 = q := by
    rcases lt_trichotomy q2 q with h | h | h
    · have := cot_anti b0 h hq1; linarith
    · exact h
    · have := cot_anti hq0 h b1; linarith
  subst hqq
  have hpos : ∀ t : ℝ, i * π < t → 0 < t := fun t ht => hi.trans_lt ht
  have hd : ∀ t ∈ Set.Ioo (i * π) ((i + 1) * π), HasDerivAt (fun x => -(x * cos x / sin x + a - 1)) (cotD t) t := fun t ht => cot_deriv a (sin_ne' ht.1 ht.2)
  have hmq : MonotoneOn cotD (Set.Ico q2 ((i + 1) * π)) := cotD_mono hq0 (by rw [hqe]; linarith)
  have hDq := cotD_pos (hpos q2 hq0) (sin_ne' hq0 hq1)
  have it : ∀ x0, q2 ≤ x0 → x0 < (i + 1) * π → ∀ n, q2 ≤ (newtonIter (cotF a))^[n] x0 ∧ (newtonIter (cotF a))^[n] x0 ≤ x0 := fun x0 h0 h1 n =>
    iterate_right (f := fun x => -(x * cos x / sin x + a - 1)) hq' (fun t ht => hd t ⟨hq0.trans_le ht.1, ht.2⟩) hmq hDq (newtonIter (cotF a)) (newtonIter_cot a) h0 h1 n
  set s0 := ((i : ℝ) + 1 / 2) * π with hs0
  have s0l : i * π < s0 := by rw [hs0]; linarith
  have s0r : s0 < (i + 1) * π := by rw [hs0]; linarith
  have s0c : cos s0 = 0 := by rw [hs0, show ((i : ℝ) + 1 / 2) * π = π / 2 + i * π by ring, cos_add_nat_mul_pi, cos_pi_div_two, mul_zero]
  have s0s : sin s0 ^ 2 = 1 := by have := sin_sq_add_cos_sq s0; rw [s0c] at this; linarith
  have hms : MonotoneOn cotD (Set.Ico s0 ((i + 1) * π)) := cotD_mono s0l (by rw [s0c, mul_zero, zero_div]; norm_num)
  have pos : i * π < r.x ∧ r.x < (i + 1) * π ∧ (q2 ≤ r.x ∨ (1 < a ∧ r.x = s0 ∧ (a - 1 ≤ 1e-10 ∨ a - 1 ≤ tolx * r.x))) := by
    rcases lt_or_gt_of_ne ha1 with h | h
    · obtain ⟨a1, a2⟩ := it s0 (b4 h).le s0r (r.niter - 1)
      rw [← hx] at a1 a2
      exact ⟨hq0.trans_le a1, a2.trans_lt s0r, Or.inl a1⟩
    · by_cases hn : r.niter - 1 = 0
      · rw [hn, Function.iterate_zero_apply] at hx
        have hs0p := hpos s0 s0l
        have hep : (0 : ℝ) < eps := by norm_num [eps]
        have e1 : r.f = a - 1 := by
          rw [hrf, hx]
          simp only [cotF]
          rw [tan_eq_sin_div_cos, s0c, div_zero, div_zero, zero_add]
        have e2 : |(cotF a (s0, eps)).2 / eps| = s0 := by
          simp only [cotF]
          rw [mul_div_cancel_left₀ _ hep.ne', s0c, s0s, zero_div, div_one, zero_sub, abs_neg, abs_of_pos hs0p]
        have hstop : a - 1 ≤ 1e-10 ∨ a - 1 ≤ tolx * s0 := by
          rw [hx, e2, e1, abs_of_pos (by linarith)] at hst
          rw [hx, e2, e1, abs_of_pos (by linarith)] at hsf
          rcases Bool.eq_false_or_eq_true r.success with hs | hs
          · rcases hst hs with h' | h'
            · exact Or.inl h'.2
            · refine Or.inr ?_
              have := h'.2.2
              rwa [abs_div, e2, abs_of_pos (by linarith : 0 < a - 1), div_le_iff₀ hs0p] at this
          · rcases (hsf hs).2 with h' | h'
            · exfalso
              have : s0 ≤ 1 := h'.2.trans (by norm_num [eps])
              rw [hs0] at this
              nlinarith [(Nat.cast_nonneg i : (0 : ℝ) ≤ i)]
            · omega
        rw [hx]
        exact ⟨s0l, s0r, Or.inr ⟨h, rfl, hstop⟩⟩
      · obtain ⟨n, hn⟩ := Nat.exists_eq_succ_of_ne_zero hn
        rw [hn, Function.iterate_succ_apply] at hx
        have hD0 : cotD s0 = s0 := by unfold cotD; rw [s0c, s0s]; simp
        have h1 : q2 ≤ newtonIter (cotF a) s0 ∧ newtonIter (cotF a) s0 < (i + 1) * π := by
          rw [newtonIter_cot]
          constructor
          · exact newton_left (f := fun x => -(x * cos x / sin x + a - 1)) (b3 h).le hq' (fun t ht => hd t ⟨s0l.trans_le ht.1, ht.2.trans_lt hq1⟩)
              (hms.mono fun t ht => ⟨ht.1, ht.2.trans_lt hq1⟩) (by rw [hD0]; exact hpos _ s0l)
          · rw [hD0, s0c, mul_zero, zero_div, zero_add, neg_div, sub_neg_eq_add]
            have hs0p : π / 2 ≤ s0 := by rw [hs0]; linarith
            have : (a - 1) / s0 < π / 2 := by
              rw [div_lt_iff₀ (by linarith)]
              nlinarith
            have e : ((i : ℝ) + 1) * π = s0 + π / 2 := by rw [hs0]; ring
            linarith
        obtain ⟨a1, a2⟩ := it _ h1.1 h1.2 n
        rw [← hx] at a1 a2
        exact ⟨hq0.trans_le a1, a2.trans_lt h1.2, Or.inl a1⟩
  refine ⟨r.x, he, pos.1, pos.2.1, pos.2.2, r, calls, hr, rfl, fun hsu => ?_⟩
  have sub : Set.uIcc q2 r.x ⊆ Set.Ioo (i * π) ((i + 1) * π) := by
    intro t ht
    rw [Set.mem_uIcc] at ht
    rcases ht with ht | ht
    · exact ⟨hq0.trans_le ht.1, ht.2.trans_lt pos.2.1⟩
    · exact ⟨pos.1.trans_le ht.1, ht.2.trans_lt hq1⟩
  have hm : MonotoneOn cotD (Set.uIcc q2 r.x) := by
    rcases pos.2.2 with h | ⟨h1, h2, -⟩
    · rw [Set.uIcc_of_le h]
      exact hmq.mono fun t ht => ⟨ht.1, ht.2.trans_lt pos.2.1⟩
    · have hle : r.x ≤ q2 := by rw [h2]; exact (b3 h1).le
      rw [Set.uIcc_of_ge hle, h2]
      exact hms.mono fun t ht => ⟨ht.1, ht.2.trans_lt hq1⟩
  have he0 : (eps : ℝ) ≠ 0 := by norm_num [eps]
  refine success_bound (f := fun x => -(x * cos x / sin x + a - 1)) hr hsu rfl ?_ ?_ hq' (fun t ht => hd t (sub ht)) hm
    (fun t ht => cotD_pos (hpos t (sub ht).1) (sin_ne' (sub ht).1 (sub ht).2))
  · simp only [cotF]
    rw [abs_neg, tan_eq_sin_div_cos, div_div_eq_mul_div]
  · simp only [cotF]
    rw [mul_div_cancel_left₀ _ he0, ← neg_sub, abs_neg]
    exact abs_of_pos (cotD_pos (hpos _ pos.1) (sin_ne' pos.1 pos.2.1))

/-- C88. Entry `i` for `a ≥ 2`: the fixed-point loop is always within `1.5 tolx` or `1e-14` of the root. -/
theorem C88_xcotx_large (a tolx : ℝ) (ha : 2 ≤ a) (i : ℕ) (q : ℝ) (hq0 : i * π < q) (hq1 : q < (i + 1) * π) (hq : 1 - q * (cos q / sin q) = a) (ht : 0 ≤ tolx) :
    ∃ x, xcotxEntry a tolx i = .ok x ∧ i * π < x ∧ x ≤ (i + 1) * π ∧ (|x - q| ≤ 1.5 * tolx ∨ |x - q| ≤ 1e-14) := by
  have hpi := pi_gt_three
  have hi : (0 : ℝ) ≤ i * π := by positivity
  refine ⟨(i + 1) * π + fpLoop (fun e => arctan (((i + 1) * π + e) / (1 - a))) tolx 30 0, ?_, ?_⟩
  · show (if a = 1 then _ else _) = _
    rw [if_neg (by linarith), if_neg (by linarith)]
  rw [← mul_div_assoc] at hq
  have hqe : q * cos q / sin q = 1 - a := by linarith
  obtain ⟨q2, b0, b1, b2, b3, -⟩ := cot_root a (by linarith) i
  have hqq : q2 = q := by
    rcases lt_trichotomy q2 q with h | h | h
    · have := cot_anti b0 h hq1; linarith
    · exact h
    · have := cot_anti hq0 h b1; linarith
  subst hqq
  have hq2 := b3 (by linarith)
  set p := q2 - (i + 1) * π with hp
  have p0 : -(π / 2) < p := by rw [hp]; linarith
  have p1 : p < 0 := by rw [hp]; linarith
  have h1a : 1 - a ≠ 0 := by linarith
  have hfix : arctan (((i + 1) * π + p) / (1 - a)) = p := by
    have hq0'' : 0 < q2 := hi.trans_lt hq0
    have hc : cos q2 ≠ 0 := by
      intro h; rw [h, mul_zero, zero_div] at hqe; exact h1a hqe.symm
    have hs := sin_ne' hq0 hq1
    have : ((i + 1) * π + p) / (1 - a) = tan p := by
      have e1 : ((i : ℝ) + 1) * π + p = q2 := by rw [hp]; ring
      have e2 : tan p = tan q2 := by
        rw [hp]
        have := tan_sub_nat_mul_pi q2 (i + 1)
        push_cast at this
        exact this
      rw [e1, e2, ← hqe, tan_eq_sin_div_cos]
      field_simp
    rw [this, arctan_tan p0 (by linarith)]
  have dg : ∀ e, -(π / 2) < e → HasDerivAt (fun e => arctan (((i + 1) * π + e) / (1 - a))) ((1 - a) / ((1 - a) ^ 2 + ((i + 1) * π + e) ^ 2)) e := by
    intro e he
    have h1 : HasDerivAt (fun e => ((i + 1) * π + e) / (1 - a)) (1 / (1 - a)) e := ((hasDerivAt_id e).const_add _).div_const _
    refine h1.arctan.congr_deriv ?_
    have : 0 < (1 - a) ^ 2 := by positivity
    have : (1 - a) ^ 2 + ((i + 1) * π + e) ^ 2 ≠ 0 := by positivity
    field_simp
  have lip : ∀ e ∈ Set.Ioc (-(π / 2)) 0, |arctan (((i + 1) * π + e) / (1 - a)) - p| ≤ (1 / 3) * |e - p| := by
    intro e he
    have hb := Convex.norm_image_sub_le_of_norm_hasDerivWithin_le (f := fun e => arctan (((i + 1) * π + e) / (1 - a))) (C := 1 / 3) (s := Set.Ioc (-(π / 2)) 0) (x := p) (y := e)
      (fun t ht => (dg t ht.1).hasDerivWithinAt) (fun t ht => ?_) (convex_Ioc _ _) ⟨p0, p1.le⟩ he
    · simp only [hfix, norm_eq_abs] at hb
      exact hb
    · have h2 : π / 2 < (i + 1) * π + t := by linarith [ht.1]
      have h3 : 0 < (1 - a) ^ 2 + ((i + 1) * π + t) ^ 2 := by
        have : 0 < (i + 1) * π + t := by linarith
        positivity
      rw [norm_eq_abs, abs_div, abs_of_pos h3, abs_of_neg (by linarith : 1 - a < 0), div_le_iff₀ h3]
      nlinarith [sq_nonneg (a - 1 - ((i + 1) * π + t))]
  have inv : ∀ e ∈ Set.Ioc (-(π / 2)) 0, arctan (((i + 1) * π + e) / (1 - a)) ∈ Set.Ioc (-(π / 2)) 0 := by
    intro e he
    refine ⟨neg_pi_div_two_lt_arctan _, (arctan_lt_zero.2 (div_neg_of_pos_of_neg (by linarith [he.1]) (by linarith))).le⟩
  obtain ⟨m1, m2⟩ := fpLoop_error _ (Set.Ioc (-(π / 2)) 0) (1 / 3) p tolx (by norm_num) (by norm_num) inv lip 30 0 ⟨by linarith, le_rfl⟩
  generalize fpLoop (fun e => arctan (((i + 1) * π + e) / (1 - a))) tolx 30 0 = x at m1 m2
  refine ⟨by linarith [m1.1], by linarith [m1.2], ?_⟩
  have ex : (i + 1) * π + x - q2 = x - p := by rw [hp]; ring
  rw [ex]
  refine m2.imp (fun h => h.trans ?_) fun h => h.trans ?_
  · rw [div_le_iff₀ (by norm_num)]; norm_num; linarith
  · have h4 := pi_lt_four
    have : |0 - p| ≤ 2 := abs_le.2 ⟨by linarith, by linarith⟩
    calc (1 / 3 : ℝ) ^ 30 * |0 - p| ≤ (1 / 3) ^ 30 * 2 := by gcongr
      _ ≤ 1e-14 := by norm_num

example : (2 : ℝ) ≤ 2.5 ∧ (0 : ℝ) < 0.5 ∧ (0.5 : ℝ) < 2 ∧ (0.5 : ℝ) ≠ 1 := by norm_num

/-- C88. For every positive `a` the call returns `N` values, the `i`-th in the interval of the `i`-th root, hence in increasing order. -/
theorem C88_xcotx_list (a tolx : ℝ) (ha : 0 < a) (ht : 0 ≤ tolx) (N : ℕ) :
    ∃ x : ℕ → ℝ, rootsXcotx a N tolx = .ok ((List.range N).map x) ∧ (∀ i, i * π < x i ∧ x i ≤ (i + 1) * π) ∧ StrictMono x := by
  have key : ∀ i : ℕ, ∃ x, xcotxEntry a tolx i = .ok x ∧ i * π < x ∧ x ≤ (i + 1) * π := by
    intro i
    have hpi := pi_pos
    obtain ⟨q, ⟨h0, h1, h2⟩, -⟩ := C88_xcotx_root a ha i
    rcases lt_or_ge a 2 with h | h
    · by_cases ha1 : a = 1
      · refine ⟨(i + 1 / 2) * π, ?_, by linarith, by linarith⟩
        show (if a = 1 then _ else _) = _
        rw [if_pos ha1]
      · obtain ⟨x, hx, h3, h4, -⟩ := C88_xcotx_newton a tolx ha h ha1 i q h0 h1 h2
        exact ⟨x, hx, h3, h4.le⟩
    · obtain ⟨x, hx, h3, h4, -⟩ := C88_xcotx_large a tolx h i q h0 h1 h2 ht
      exact ⟨x, hx, h3, h4⟩
  choose x hx using key
  refine ⟨x, ?_, fun i => (hx i).2, strictMono_nat_of_lt_succ fun i => ?_⟩
  · unfold rootsXcotx
    exact mapM_ok _ x (fun i => (hx i).1) _
  · have h1 := (hx i).2.2
    have h2 := (hx (i + 1)).2.1
    push_cast at h2
    linarith

/-- C88. The limiting cases are exact: `cos x = 0` for `a = 1`, `sin x = 0` for `a = inf`. -/
theorem C88_xcotx_limits (tolx : ℝ) (i : ℕ) :
    (xcotxEntry ((1 : ℝ) : WithTop ℝ) tolx i = .ok ((i + 1 / 2) * π) ∧ cos ((i + 1 / 2) * π) = 0) ∧ (xcotxEntry ⊤ tolx i = .ok ((i + 1) * π) ∧ sin ((i + 1) * π) = 0) := by
  refine ⟨⟨?_, ?_⟩, rfl, ?_⟩
  · show (if (1 : ℝ) = 1 then _ else _) = _
    rw [if_pos rfl]
  · rw [show ((i : ℝ) + 1 / 2) * π = π / 2 + i * π by ring, cos_add_nat_mul_pi, cos_pi_div_two, mul_zero]
  · have := sin_nat_mul_pi (i + 1)
    push_cast at this
    exact this

/-! ## The cache -/

/-- What is remembered is what was computed. -/
def Faithful (f : WithTop ℝ → ℕ → ℝ → Except Err (List ℝ)) (m : Mem) : Prop :=
  ∀ e ∈ m.cache, ∃ v, m.heap[e.2]? = some v ∧ f e.1.1 e.1.2.1 e.1.2.2 = .ok v

/-- C88. As long as the caller does not write into a returned array, the cached function returns what the function itself would return. -/
theorem C88_cache (f : WithTop ℝ → ℕ → ℝ → Except Err (List ℝ)) (key : WithTop ℝ × ℕ × ℝ) (m : Mem) (hm : Faithful f m) :
    (∀ addr m', cachedCall f key m = .ok (addr, m') → (∃ v, m'.heap[addr]? = some v ∧ f key.1 key.2.1 key.2.2 = .ok v) ∧ Faithful f m')
      ∧ ∀ e, cachedCall f key m = .error e → f key.1 key.2.1 key.2.2 = .error e := by
  classical
  unfold cachedCall
  cases hc : m.cache.find? (fun e => decide (e.1 = key)) with
  | some e =>
    have h1 := List.find?_some hc
    have h2 := List.mem_of_find?_eq_some hc
    refine ⟨fun addr m' h => ?_, fun e' h => by simp only [hc] at h; cases h⟩
    simp only [hc] at h
    cases h
    have := hm e h2
    simp only [decide_eq_true_eq] at h1
    rw [h1] at this
    exact ⟨this, hm⟩
  | none =>
    cases hv : f key.1 key.2.1 key.2.2 with
    | error e =>
      refine ⟨fun addr m' h => ?_, fun e' h => ?_⟩ <;> simp only [hc, hv] at h
      · cases h
      · cases h; rfl
    | ok v =>
      refine ⟨fun addr m' h => ?_, fun e' h => ?_⟩ <;> simp only [hc, hv] at h
      · cases h
        refine ⟨⟨v, by simp, rfl⟩, ?_⟩
        intro e he
        rcases List.mem_cons.1 he with rfl | he
        · exact ⟨v, by simp, hv⟩
        · obtain ⟨w, hw1, hw2⟩ := hm e he
          refine ⟨w, ?_, hw2⟩
          have hl := (List.getElem?_eq_some_iff.1 hw1).1
          rw [List.getElem?_append_left hl]
          exact hw1
      · cases h

/-- Two calls with equal arguments return equal roots: false once the caller has written into the first result, because both calls hand out the same array. -/
theorem C88_cache_false : ∃ addr m1 addr' m2, cachedCall rootsXtanx (⊤, 2, 1e-6) ⟨[], []⟩ = .ok (addr, m1)
    ∧ cachedCall rootsXtanx (⊤, 2, 1e-6) (m1.write addr 0 7) = .ok (addr', m2)
    ∧ rootsXtanx ⊤ 2 1e-6 = .ok [(0 + 1 / 2) * π, (1 + 1 / 2) * π] ∧ m2.heap[addr']? = some [7, (1 + 1 / 2) * π] := by
  have hv : rootsXtanx ⊤ 2 1e-6 = .ok [(0 + 1 / 2) * π, (1 + 1 / 2) * π] := by
    have e : rootsXtanx ⊤ 2 1e-6 = .ok [(((0 : ℕ) : ℝ) + 1 / 2) * π, (((1 : ℕ) : ℝ) + 1 / 2) * π] := rfl
    rw [e]; push_cast; rfl
  have h1 : cachedCall rootsXtanx (⊤, 2, 1e-6) ⟨[], []⟩ = .ok (0, ⟨[[(0 + 1 / 2) * π, (1 + 1 / 2) * π]], [((⊤, 2, 1e-6), 0)]⟩) := by
    unfold cachedCall
    simp only [List.find?_nil, hv]
    rfl
  refine ⟨0, _, 0, ⟨[[7, (1 + 1 / 2) * π]], [((⊤, 2, 1e-6), 0)]⟩, h1, ?_, hv, ?_⟩
  · unfold cachedCall Mem.write
    simp
  · rfl

end Verif.SpecialRoots
