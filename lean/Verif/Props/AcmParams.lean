import Verif.Props.Acm
import Mathlib.Analysis.Complex.ExponentialBounds

/-!
# C111: activity coefficient models: accepted parameters, temperature dependence, limits, phase stability
-/

namespace Verif.Acm

open Finset Topology

variable {N : ℕ}

theorem checkMat_ok (M : Mat N) (lo hi : ℝ) : checkMat M lo hi = .ok () ↔ ∀ i j, lo ≤ M i j ∧ M i j ≤ hi := by
  unfold checkMat; split_ifs with h
  · exact ⟨fun _ => h, fun _ => rfl⟩
  · exact ⟨fun h' => by simp at h', fun h' => absurd h' h⟩

theorem checkMat_cases (M : Mat N) (lo hi : ℝ) : checkMat M lo hi = .ok () ∨ checkMat M lo hi = .error .RangeError := by
  unfold checkMat; split_ifs <;> simp

theorem orFull_range (o : Option (Mat N)) {v lo hi : ℝ} (h1 : lo ≤ v) (h2 : v ≤ hi) :
    (∀ i j, lo ≤ orFull o v i j ∧ orFull o v i j ≤ hi) ↔ ∀ M ∈ o, ∀ i j, lo ≤ M i j ∧ M i j ≤ hi := by
  cases o with
  | none => simp [orFull, h1, h2]
  | some M => simp [orFull]

/-- Every entry that is supplied lies in the closed interval. -/
def InRange (o : Option (Mat N)) (lo hi : ℝ) : Prop := ∀ M ∈ o, ∀ i j, lo ≤ M i j ∧ M i j ≤ hi

theorem check_iff (o : Option (Mat N)) {v lo hi : ℝ} (h1 : lo ≤ v) (h2 : v ≤ hi) : checkMat (orFull o v) lo hi = .ok () ↔ InRange o lo hi :=
  (checkMat_ok _ _ _).trans (orFull_range o h1 h2)

/-- **C111.** The constructors succeed exactly if all supplied entries (also diagonal and ignored ones) are in the closed ranges of Aspen Plus, and otherwise raise
`RangeError`. -/
theorem C111_accepts :
    (∀ a b c d e f : Option (Mat N), ((∃ r, Nrtl.init a b c d e f = .ok r) ↔ InRange a (-100) 100 ∧ InRange b (-30000) 30000 ∧ InRange c 0 1 ∧ InRange d (-0.02) 0.02) ∧
      ∀ err, Nrtl.init a b c d e f = .error err → err = .RangeError) ∧
    (∀ a b c d : Option (Mat N), ((∃ r, Wilson.init a b c d = .ok r) ↔ InRange a (-50) 50 ∧ InRange b (-15000) 15000) ∧
      ∀ err, Wilson.init a b c d = .error err → err = .RangeError) ∧
    (∀ (q r : Fin N → ℝ) (a b c d : Option (Mat N)), ((∃ o, Uniquac.init q r a b c d = .ok o) ↔ InRange a (-50) 50 ∧ InRange b (-15000) 15000) ∧
      ∀ err, Uniquac.init q r a b c d = .error err → err = .RangeError) ∧
    ∀ a b c d e : Option (Mat N), ((∃ r, FloryHuggins.init a b c d e = .ok r) ↔ InRange a (-100) 100 ∧ ∀ o ∈ [b, c, d, e], InRange o (-1000000) 1000000) ∧
      ∀ err, FloryHuggins.init a b c d e = .error err → err = .RangeError := by
  refine ⟨fun a b c d e f => ?_, fun a b c d => ?_, fun q r a b c d => ?_, fun a b c d e => ?_⟩
  · rw [← check_iff a (v := 0) (by norm_num) (by norm_num), ← check_iff b (v := 0) (by norm_num) (by norm_num), ← check_iff c (v := 0.3) (by norm_num) (by norm_num),
      ← check_iff d (v := 0) (by norm_num) (by norm_num)]
    unfold Nrtl.init
    rcases checkMat_cases (orFull a 0) (-100) 100 with h1 | h1 <;> rcases checkMat_cases (orFull b 0) (-30000) 30000 with h2 | h2 <;>
      rcases checkMat_cases (orFull c 0.3) 0 1 with h3 | h3 <;> rcases checkMat_cases (orFull d 0) (-0.02) 0.02 with h4 | h4 <;>
      simp [h1, h2, h3, h4, bind, Except.bind, pure, Except.pure]
  · rw [← check_iff a (v := 0) (by norm_num) (by norm_num), ← check_iff b (v := 0) (by norm_num) (by norm_num)]
    unfold Wilson.init
    rcases checkMat_cases (orFull a 0) (-50) 50 with h1 | h1 <;> rcases checkMat_cases (orFull b 0) (-15000) 15000 with h2 | h2 <;>
      simp [h1, h2, bind, Except.bind, pure, Except.pure]
  · rw [← check_iff a (v := 0) (by norm_num) (by norm_num), ← check_iff b (v := 0) (by norm_num) (by norm_num)]
    unfold Uniquac.init
    rcases checkMat_cases (orFull a 0) (-50) 50 with h1 | h1 <;> rcases checkMat_cases (orFull b 0) (-15000) 15000 with h2 | h2 <;>
      simp [h1, h2, bind, Except.bind, pure, Except.pure]
  · simp only [List.forall_mem_cons, List.not_mem_nil, false_implies, implies_true, and_true]
    rw [← check_iff a (v := 0) (by norm_num) (by norm_num), ← check_iff b (v := 0) (by norm_num) (by norm_num), ← check_iff c (v := 0) (by norm_num) (by norm_num),
      ← check_iff d (v := 0) (by norm_num) (by norm_num), ← check_iff e (v := 0) (by norm_num) (by norm_num)]
    unfold FloryHuggins.init
    rcases checkMat_cases (orFull a 0) (-100) 100 with h1 | h1 <;> rcases checkMat_cases (orFull b 0) (-1000000) 1000000 with h2 | h2 <;>
      rcases checkMat_cases (orFull c 0) (-1000000) 1000000 with h3 | h3 <;> rcases checkMat_cases (orFull d 0) (-1000000) 1000000 with h4 | h4 <;>
      rcases checkMat_cases (orFull e 0) (-1000000) 1000000 with h5 | h5 <;>
      simp [h1, h2, h3, h4, h5, bind, Except.bind, pure, Except.pure]

/-- The bounds themselves are accepted. -/
example : InRange (some fun _ _ => -100 : Option (Mat 2)) (-100) 100 ∧ ¬ InRange (some fun _ _ => 100.1 : Option (Mat 2)) (-100) 100 := by
  refine ⟨fun M hM i j => ?_, fun h => ?_⟩
  · obtain rfl := Option.mem_some_iff.1 hM; norm_num
  · have := (h _ rfl 0 0).2; norm_num at this

/-- **C111.** Interaction parameters of a constructed object: the documented functions of temperature; zero or one on the diagonal; for the symmetric parameters the upper
triangle counts. Stated for arguments that are all supplied. -/
theorem C111_parameters (T : ℝ) {i j : Fin N} (hij : i ≠ j) :
    (∀ (a b c d e f : Mat N) m l, Nrtl.init (some a) (some b) (some c) (some d) (some e) (some f) = .ok (m, l) →
      m.tau T i j = a i j + b i j / T + e i j * Real.log T + f i j * T ∧ m.tau T i i = 0 ∧ m.alpha T i j = m.alpha T j i ∧
      (i < j → m.alpha T i j = c i j + d i j * (T - 273.15))) ∧
    (∀ (a b c d : Mat N) m l, Wilson.init (some a) (some b) (some c) (some d) = .ok (m, l) →
      m.Lambda T i j = Real.exp (a i j + b i j / T + c i j * Real.log T + d i j * T) ∧ m.Lambda T i i = 1) ∧
    (∀ (q r : Fin N → ℝ) (a b c d : Mat N) m l, Uniquac.init q r (some a) (some b) (some c) (some d) = .ok (m, l) →
      m.q = q ∧ m.r = r ∧ m.tau T i j = Real.exp (a i j + b i j / T + c i j * Real.log T + d i j * T) ∧ m.tau T i i = 1) ∧
    ∀ (a b c d e : Mat N) m l, FloryHuggins.init (some a) (some b) (some c) (some d) (some e) = .ok (m, l) →
      m.chi T i i = 0 ∧ m.chi T i j = m.chi T j i ∧ (i < j → m.chi T i j = a i j + b i j / T + c i j * Real.log T + d i j * T + e i j * T ^ 2) := by
  have hji : j ≠ i := hij.symm
  refine ⟨fun a b c d e f m l h => ?_, fun a b c d m l h => ?_, fun q r a b c d m l h => ?_, fun a b c d e m l h => ?_⟩
  · unfold Nrtl.init at h
    rcases checkMat_cases (orFull (some a) 0) (-100) 100 with h1 | h1 <;> rcases checkMat_cases (orFull (some b) 0) (-30000) 30000 with h2 | h2 <;>
      rcases checkMat_cases (orFull (some c) 0.3) 0 1 with h3 | h3 <;> rcases checkMat_cases (orFull (some d) 0) (-0.02) 0.02 with h4 | h4 <;>
      simp [h1, h2, h3, h4, bind, Except.bind, pure, Except.pure] at h
    obtain ⟨rfl, -⟩ := h
    refine ⟨?_, ?_, ?_, fun hlt => ?_⟩
    · simp [Nrtl.tau, fillDiag, orFull, hij]
    · simp [Nrtl.tau, fillDiag]
    · rcases lt_or_gt_of_ne hij with hlt | hlt <;> simp [Nrtl.alpha, enforceSymmetry, hlt, hlt.le, not_lt.2 hlt.le]
    · simp [Nrtl.alpha, enforceSymmetry, not_lt.2 hlt.le, fillDiag, orFull, hij]
  · unfold Wilson.init at h
    rcases checkMat_cases (orFull (some a) 0) (-50) 50 with h1 | h1 <;> rcases checkMat_cases (orFull (some b) 0) (-15000) 15000 with h2 | h2 <;>
      simp [h1, h2, bind, Except.bind, pure, Except.pure] at h
    obtain ⟨rfl, -⟩ := h
    exact ⟨by simp [Wilson.Lambda, fillDiag, orFull, hij], by simp [Wilson.Lambda, fillDiag]⟩
  · unfold Uniquac.init at h
    rcases checkMat_cases (orFull (some a) 0) (-50) 50 with h1 | h1 <;> rcases checkMat_cases (orFull (some b) 0) (-15000) 15000 with h2 | h2 <;>
      simp [h1, h2, bind, Except.bind, pure, Except.pure] at h
    obtain ⟨rfl, -⟩ := h
    exact ⟨rfl, rfl, by simp [Uniquac.tau, fillDiag, orFull, hij], by simp [Uniquac.tau, fillDiag]⟩
  · unfold FloryHuggins.init at h
    rcases checkMat_cases (orFull (some a) 0) (-100) 100 with h1 | h1 <;> rcases checkMat_cases (orFull (some b) 0) (-1000000) 1000000 with h2 | h2 <;>
      rcases checkMat_cases (orFull (some c) 0) (-1000000) 1000000 with h3 | h3 <;> rcases checkMat_cases (orFull (some d) 0) (-1000000) 1000000 with h4 | h4 <;>
      rcases checkMat_cases (orFull (some e) 0) (-1000000) 1000000 with h5 | h5 <;>
      simp [h1, h2, h3, h4, h5, bind, Except.bind, pure, Except.pure] at h
    obtain ⟨rfl, -⟩ := h
    refine ⟨by simp [FloryHuggins.chi, enforceSymmetry, fillDiag], ?_, fun hlt => ?_⟩
    · rcases lt_or_gt_of_ne hij with hlt | hlt <;> simp [FloryHuggins.chi, enforceSymmetry, hlt, not_lt.2 hlt.le]
    · simp [FloryHuggins.chi, enforceSymmetry, not_lt.2 hlt.le, fillDiag, orFull, hij]

example : ∃ m l, Nrtl.init (some ![![0, 1], ![2, 0]] : Option (Mat 2)) (some 0) (some fun _ _ => 0.2) (some 0) (some 0) (some 0) = .ok (m, l) := by
  have := (C111_accepts.1 (some ![![0, 1], ![2, 0]] : Option (Mat 2)) (some 0) (some fun _ _ => 0.2) (some 0) (some 0) (some 0)).1.2 ⟨?_, ?_, ?_, ?_⟩
  · obtain ⟨⟨m, l⟩, h⟩ := this; exact ⟨m, l, h⟩
  · intro M hM i j; obtain rfl := Option.mem_some_iff.1 hM; fin_cases i <;> fin_cases j <;> norm_num
  all_goals intro M hM i j; obtain rfl := Option.mem_some_iff.1 hM; norm_num

/-- **C111.** Without arguments the models are ideal: NRTL (although `alpha` is 0.3) and Wilson, UNIQUAC for equal sizes, Flory-Huggins for unit sizes. -/
theorem C111_defaults (R T : ℝ) (x : Fin N → ℝ) (hx : ∑ i, x i = 1) :
    (∃ m l, Nrtl.init none none none none none none = .ok (m, l) ∧ m.gE R T x = 0 ∧ (∀ i, m.gamma T x i = 1) ∧ ∀ i j, i ≠ j → m.alpha T i j = 0.3) ∧
    (∃ m l, Wilson.init none none none none = .ok (m, l) ∧ m.gE R T x = 0 ∧ ∀ i, m.gamma T x i = 1) ∧
    (∃ m l, Uniquac.init (fun _ => 1) (fun _ => 1) none none none none = .ok (m, l) ∧ m.gE R T x = 0 ∧ ∀ i, m.gamma T x i = 1) ∧
    ∃ m l, FloryHuggins.init none none none none none = .ok (m, l) ∧ fhDgmix R T x (fun _ => 1) (m.chi T) = -T * dsmixIdeal R x ∧
      ∀ i, fhActivity x (fun _ => 1) (m.chi T) i = x i := by
  have hx' : ∑ i, 1 * x i = 1 := by simpa using hx
  refine ⟨?_, ?_, ?_, ?_⟩
  · obtain ⟨⟨m, l⟩, h⟩ := (C111_accepts.1 (none : Option (Mat N)) none none none none none).1.2 ⟨by simp [InRange], by simp [InRange], by simp [InRange], by simp [InRange]⟩
    refine ⟨m, l, h, ?_⟩
    unfold Nrtl.init at h
    rcases checkMat_cases (orFull (none : Option (Mat N)) 0) (-100) 100 with h1 | h1 <;> rcases checkMat_cases (orFull (none : Option (Mat N)) 0) (-30000) 30000 with h2 | h2 <;>
      rcases checkMat_cases (orFull (none : Option (Mat N)) 0.3) 0 1 with h3 | h3 <;> rcases checkMat_cases (orFull (none : Option (Mat N)) 0) (-0.02) 0.02 with h4 | h4 <;>
      simp [h1, h2, h3, h4, bind, Except.bind, pure, Except.pure] at h
    obtain ⟨rfl, -⟩ := h
    refine ⟨?_, fun i => ?_, fun i j hij => ?_⟩
    · simp [Nrtl.gE, nrtlGE, Nrtl.tau, fillDiag, orFull]
    · simp [Nrtl.gamma, nrtlGamma, Nrtl.tau, fillDiag, orFull]
    · simp [Nrtl.alpha, enforceSymmetry, fillDiag, orFull, hij, hij.symm]
  · obtain ⟨⟨m, l⟩, h⟩ := (C111_accepts.2.1 (none : Option (Mat N)) none none none).1.2 ⟨by simp [InRange], by simp [InRange]⟩
    refine ⟨m, l, h, ?_⟩
    unfold Wilson.init at h
    rcases checkMat_cases (orFull (none : Option (Mat N)) 0) (-50) 50 with h1 | h1 <;> rcases checkMat_cases (orFull (none : Option (Mat N)) 0) (-15000) 15000 with h2 | h2 <;>
      simp [h1, h2, bind, Except.bind, pure, Except.pure] at h
    obtain ⟨rfl, -⟩ := h
    refine ⟨?_, fun i => ?_⟩
    · simp [Wilson.gE, wilsonGE, Wilson.Lambda, fillDiag, orFull, hx]
    · simp [Wilson.gamma, wilsonGamma, Wilson.Lambda, fillDiag, orFull, hx]
  · obtain ⟨⟨m, l⟩, h⟩ := (C111_accepts.2.2.1 (fun _ => 1) (fun _ => 1) (none : Option (Mat N)) none none none).1.2 ⟨by simp [InRange], by simp [InRange]⟩
    refine ⟨m, l, h, ?_⟩
    unfold Uniquac.init at h
    rcases checkMat_cases (orFull (none : Option (Mat N)) 0) (-50) 50 with h1 | h1 <;> rcases checkMat_cases (orFull (none : Option (Mat N)) 0) (-15000) 15000 with h2 | h2 <;>
      simp [h1, h2, bind, Except.bind, pure, Except.pure] at h
    obtain ⟨rfl, -⟩ := h
    refine ⟨?_, fun i => ?_⟩
    · simp only [Uniquac.gE, uniquacGE, Uniquac.tau, fillDiag, orFull, mul_one, hx, div_one]
      rw [sum_eq_zero, sum_eq_zero]
      · simp
      · intro i _; simp [hx]
      · intro i hi; simp [div_self (mem_filter.1 hi).2.ne']
    · simp [Uniquac.gamma, uniquacGamma, Uniquac.tau, fillDiag, orFull, hx]
  · obtain ⟨⟨m, l⟩, h⟩ := (C111_accepts.2.2.2 (none : Option (Mat N)) none none none none).1.2 ⟨by simp [InRange], by simp [InRange]⟩
    refine ⟨m, l, h, ?_⟩
    unfold FloryHuggins.init at h
    rcases checkMat_cases (orFull (none : Option (Mat N)) 0) (-100) 100 with h1 | h1 <;> rcases checkMat_cases (orFull (none : Option (Mat N)) 0) (-1000000) 1000000 with h2 | h2 <;>
      simp [h1, h2, bind, Except.bind, pure, Except.pure] at h
    obtain ⟨rfl, -⟩ := h
    have hc : (⟨enforceSymmetry (fillDiag (orFull none 0)), enforceSymmetry (fillDiag (orFull none 0)), enforceSymmetry (fillDiag (orFull none 0)),
      enforceSymmetry (fillDiag (orFull none 0)), enforceSymmetry (fillDiag (orFull none 0))⟩ : FloryHuggins N).chi T = fun _ _ => 0 := by
      funext i j; simp [FloryHuggins.chi, enforceSymmetry, fillDiag, orFull]
    rw [hc]
    refine ⟨?_, fun i => ?_⟩
    · simp only [fhDgmix, dsmixIdeal, div_one, mul_zero, sum_const_zero, add_zero]; ring
    · simp [fhActivity, hx]

/-- Joint convexity of `u log (u / v)`. -/
theorem relEntropy_convex {u v u' v' s t : ℝ} (hu : 0 ≤ u) (hu' : 0 ≤ u') (hv : 0 < v) (hv' : 0 < v') (hs : 0 ≤ s) (ht : 0 ≤ t) (hst : s + t = 1) :
    (s * u + t * u') * Real.log (s * u + t * u') - (s * u + t * u') * Real.log (s * v + t * v') ≤
      s * (u * Real.log u - u * Real.log v) + t * (u' * Real.log u' - u' * Real.log v') := by
  have hB : 0 < s * v + t * v' := by
    rcases hs.eq_or_lt with rfl | hs'
    · have : t = 1 := by linarith
      rw [this]; linarith
    · have := mul_pos hs' hv; have := mul_nonneg ht hv'.le; linarith
  rcases (add_nonneg (mul_nonneg hs hu) (mul_nonneg ht hu')).eq_or_lt with hA | hA
  · have h1 : s * u = 0 := le_antisymm (by linarith [mul_nonneg ht hu']) (mul_nonneg hs hu)
    have h2 : t * u' = 0 := by linarith
    rw [← hA]
    have e1 : s * (u * Real.log u - u * Real.log v) = s * u * (Real.log u - Real.log v) := by ring
    have e2 : t * (u' * Real.log u' - u' * Real.log v') = t * u' * (Real.log u' - Real.log v') := by ring
    rw [e1, e2, h1, h2]; simp
  · obtain ⟨A, hAdef⟩ : ∃ A, A = s * u + t * u' := ⟨_, rfl⟩
    rw [← hAdef] at hA ⊢
    have key : ∀ a b, 0 ≤ a → 0 < b → a - A * b / (s * v + t * v') ≤ (a * Real.log a - a * Real.log b) - a * (Real.log A - Real.log (s * v + t * v')) := by
      intro a b ha hb
      rcases ha.eq_or_lt with rfl | ha'
      · have : 0 ≤ A * b / (s * v + t * v') := by positivity
        simpa using this
      · have h1 := Real.log_le_sub_one_of_pos (show 0 < A * b / ((s * v + t * v') * a) by positivity)
        rw [Real.log_div (by positivity) (by positivity), Real.log_mul hA.ne' hb.ne', Real.log_mul hB.ne' ha'.ne'] at h1
        have h2 := mul_le_mul_of_nonneg_left h1 ha
        have h3 : a * (A * b / ((s * v + t * v') * a) - 1) = A * b / (s * v + t * v') - a := by field_simp
        rw [h3] at h2
        linarith
    have k1 := mul_le_mul_of_nonneg_left (key u v hu hv) hs
    have k2 := mul_le_mul_of_nonneg_left (key u' v' hu' hv') ht
    have e : s * (u - A * v / (s * v + t * v')) + t * (u' - A * v' / (s * v + t * v')) = 0 := by
      field_simp
      rw [hAdef]; ring
    have e2 : A * Real.log A - A * Real.log (s * v + t * v') = s * (u * (Real.log A - Real.log (s * v + t * v'))) + t * (u' * (Real.log A - Real.log (s * v + t * v'))) := by
      calc _ = A * (Real.log A - Real.log (s * v + t * v')) := by ring
        _ = (s * u + t * u') * (Real.log A - Real.log (s * v + t * v')) := by rw [← hAdef]
        _ = _ := by ring
    rw [e2]
    linarith

/-- **C111.** The Wilson model never predicts a liquid-liquid split: the Gibbs energy of mixing is convex for any parameters, temperature and number of components. -/
theorem C111_wilson_stable {R T : ℝ} (hRT : 0 ≤ R * T) (m : Wilson N) (x y : Fin N → ℝ) (hx : ∀ i, 0 ≤ x i) (hx1 : ∑ i, x i = 1) (hy : ∀ i, 0 ≤ y i) (hy1 : ∑ i, y i = 1)
    {s t : ℝ} (hs : 0 ≤ s) (ht : 0 ≤ t) (hst : s + t = 1) :
    dgmix R (fun T => m.gE R T fun i => s * x i + t * y i) T (fun i => s * x i + t * y i) ≤
      s * dgmix R (fun T => m.gE R T x) T x + t * dgmix R (fun T => m.gE R T y) T y := by
  have hL : ∀ i j, 0 < m.Lambda T i j := fun i j => Real.exp_pos _
  have hpos : ∀ z : Fin N → ℝ, (∀ i, 0 ≤ z i) → ∑ i, z i = 1 → ∀ i, 0 < ∑ j, m.Lambda T i j * z j := by
    intro z hz hz1 i
    obtain ⟨k, hk⟩ : ∃ k, 0 < z k := by
      by_contra h
      push Not at h
      have := sum_nonpos fun i (_ : i ∈ univ) => h i
      linarith
    exact sum_pos' (fun j _ => mul_nonneg (hL i j).le (hz j)) ⟨k, mem_univ k, mul_pos (hL i k) hk⟩
  have heq : ∀ z : Fin N → ℝ, (∀ i, 0 ≤ z i) → dgmix R (fun T => m.gE R T z) T z =
      R * T * ∑ i, (z i * Real.log (z i) - z i * Real.log (∑ j, m.Lambda T i j * z j)) := by
    intro z hz
    have h1 : ∑ i ∈ univ.filter (fun i => z i > 0), z i * Real.log (z i) = ∑ i, z i * Real.log (z i) :=
      sum_filter_of_ne fun i _ h => lt_of_le_of_ne (hz i) fun h0 => h (by rw [← h0, zero_mul])
    simp only [dgmix, dsmixIdeal, Wilson.gE, wilsonGE, h1, sum_sub_distrib]
    ring
  have hz : ∀ i, 0 ≤ s * x i + t * y i := fun i => add_nonneg (mul_nonneg hs (hx i)) (mul_nonneg ht (hy i))
  rw [heq _ hz, heq x hx, heq y hy]
  have hsum : ∀ i, ∑ j, m.Lambda T i j * (s * x j + t * y j) = s * ∑ j, m.Lambda T i j * x j + t * ∑ j, m.Lambda T i j * y j := by
    intro i; rw [mul_sum, mul_sum, ← sum_add_distrib]; exact sum_congr rfl fun j _ => by ring
  have : ∑ i, ((s * x i + t * y i) * Real.log (s * x i + t * y i) - (s * x i + t * y i) * Real.log (∑ j, m.Lambda T i j * (s * x j + t * y j))) ≤
      s * ∑ i, (x i * Real.log (x i) - x i * Real.log (∑ j, m.Lambda T i j * x j)) + t * ∑ i, (y i * Real.log (y i) - y i * Real.log (∑ j, m.Lambda T i j * y j)) := by
    rw [mul_sum, mul_sum, ← sum_add_distrib]
    refine sum_le_sum fun i _ => ?_
    rw [hsum]
    exact relEntropy_convex (hx i) (hy i) (hpos x hx hx1 i) (hpos y hy hy1 i) hs ht hst
  calc _ ≤ R * T * _ := mul_le_mul_of_nonneg_left this hRT
    _ = _ := by ring

example : (∀ i, 0 ≤ (![1, 0] : Fin 2 → ℝ) i) ∧ ∑ i, (![1, 0] : Fin 2 → ℝ) i = 1 ∧ (0 : ℝ) ≤ 8 * 300 := by
  refine ⟨fun i => by fin_cases i <;> norm_num, by norm_num [Fin.sum_univ_two], by norm_num⟩

/-- **C111.** NRTL and UNIQUAC can: accepted parameters for which the mixture of equal amounts has a higher Gibbs energy of mixing than the pure components. -/
theorem C111_split : (∃ (m : Nrtl 2) (l : _), Nrtl.init (some fun _ _ => 3) none (some fun _ _ => 0) none none none = .ok (m, l) ∧ ∀ R T : ℝ, 0 < R * T →
      dgmix R (fun T => m.gE R T ![1, 0]) T ![1, 0] = 0 ∧ dgmix R (fun T => m.gE R T ![0, 1]) T ![0, 1] = 0 ∧
      0 < dgmix R (fun T => m.gE R T fun _ => 1 / 2) T (fun _ : Fin 2 => 1 / 2)) ∧
    ∃ (m : Uniquac 2) (l : _), Uniquac.init (fun _ => 2) (fun _ => 1) (some fun _ _ => -3) none none none = .ok (m, l) ∧ ∀ R T : ℝ, 0 < R * T →
      0 < dgmix R (fun T => m.gE R T fun _ => 1 / 2) T (fun _ : Fin 2 => 1 / 2) := by
  have hfil : (univ.filter fun i : Fin 2 => (1 / 2 : ℝ) > 0) = univ := by
    refine filter_true_of_mem fun i _ => by norm_num
  have hl : Real.log (1 / 2) = -Real.log 2 := by rw [one_div, Real.log_inv]
  have hl2 := Real.log_two_lt_d9
  have hl2' := Real.log_two_gt_d9
  constructor
  · obtain ⟨⟨m, l⟩, h⟩ := (C111_accepts.1 (some fun _ _ => 3 : Option (Mat 2)) none (some fun _ _ => 0) none none none).1.2
      ⟨by norm_num [InRange], by simp [InRange], by norm_num [InRange], by simp [InRange]⟩
    refine ⟨m, l, h, fun R T hRT => ?_⟩
    have h0 := C52_nrtl h R T 0
    have g1 := C52_nrtl h R T 1
    have e0 : (Pi.single 0 1 : Fin 2 → ℝ) = ![1, 0] := by funext i; fin_cases i <;> simp
    have e1 : (Pi.single 1 1 : Fin 2 → ℝ) = ![0, 1] := by funext i; fin_cases i <;> simp
    rw [e0] at h0; rw [e1] at g1
    unfold Nrtl.init at h
    rcases checkMat_cases (orFull (some fun _ _ => 3 : Option (Mat 2)) 0) (-100) 100 with h1 | h1 <;> rcases checkMat_cases (orFull (none : Option (Mat 2)) 0) (-30000) 30000 with h2 | h2 <;>
      rcases checkMat_cases (orFull (some fun _ _ => 0 : Option (Mat 2)) 0.3) 0 1 with h3 | h3 <;> rcases checkMat_cases (orFull (none : Option (Mat 2)) 0) (-0.02) 0.02 with h4 | h4 <;>
      simp [h1, h2, h3, h4, bind, Except.bind, pure, Except.pure] at h
    refine ⟨?_, ?_, ?_⟩
    · simp only [dgmix, dsmixIdeal, h0.2.1]
      rw [sum_filter]; simp [Fin.sum_univ_two]
    · simp only [dgmix, dsmixIdeal, g1.2.1]
      rw [sum_filter]; simp [Fin.sum_univ_two]
    · have : dgmix R (fun T => m.gE R T fun _ => 1 / 2) T (fun _ : Fin 2 => 1 / 2) = R * T * (3 / 2 - Real.log 2) := by
        obtain ⟨rfl, -⟩ := h
        simp only [dgmix, dsmixIdeal, hfil, hl]
        simp [Nrtl.gE, nrtlGE, Nrtl.tau, Nrtl.alpha, enforceSymmetry, fillDiag, orFull, Fin.sum_univ_two]
        ring
      rw [this]
      exact mul_pos hRT (by linarith)
  · obtain ⟨⟨m, l⟩, h⟩ := (C111_accepts.2.2.1 (fun _ => 2) (fun _ => 1) (some fun _ _ => -3 : Option (Mat 2)) none none none).1.2
      ⟨by norm_num [InRange], by simp [InRange]⟩
    refine ⟨m, l, h, fun R T hRT => ?_⟩
    unfold Uniquac.init at h
    rcases checkMat_cases (orFull (some fun _ _ => -3 : Option (Mat 2)) 0) (-50) 50 with h1 | h1 <;> rcases checkMat_cases (orFull (none : Option (Mat 2)) 0) (-15000) 15000 with h2 | h2 <;>
      simp [h1, h2, bind, Except.bind, pure, Except.pure] at h
    have : dgmix R (fun T => m.gE R T fun _ => 1 / 2) T (fun _ : Fin 2 => 1 / 2) = R * T * (-2 * Real.log ((1 + Real.exp (-3)) / 2) - Real.log 2) := by
      obtain ⟨rfl, -⟩ := h
      simp only [dgmix, dsmixIdeal, hfil, hl, Uniquac.gE, uniquacGE]
      simp [Uniquac.tau, fillDiag, orFull, Fin.sum_univ_two]
      rw [show (2 : ℝ)⁻¹ * Real.exp (-3) + 2⁻¹ = (1 + Real.exp (-3)) / 2 by ring, show (2 : ℝ)⁻¹ + 2⁻¹ * Real.exp (-3) = (1 + Real.exp (-3)) / 2 by ring]
      ring
    rw [this]
    refine mul_pos hRT ?_
    have hpos := Real.exp_pos (-3)
    have hsm : Real.exp (-3) < 1 / 8 := by
      have h1 : (2 : ℝ) ≤ Real.exp 1 := by have := Real.add_one_le_exp (1 : ℝ); linarith
      have h3 : Real.exp 3 = Real.exp 1 ^ 3 := by rw [← Real.exp_nat_mul]; norm_num
      have h4 : Real.exp 1 ≠ 2 := by have := Real.exp_one_gt_d9; intro h; rw [h] at this; norm_num at this
      rw [Real.exp_neg, h3, one_div]
      refine inv_strictAnti₀ (by norm_num) ?_
      calc (8 : ℝ) = 2 ^ 3 := by norm_num
        _ < _ := pow_lt_pow_left₀ (lt_of_le_of_ne h1 h4.symm) (by norm_num) (by norm_num)
    have h5 : Real.log (1 + Real.exp (-3)) ≤ Real.exp (-3) := by
      have := Real.log_le_sub_one_of_pos (show 0 < 1 + Real.exp (-3) by positivity); linarith
    rw [Real.log_div (by positivity) (by norm_num)]
    linarith

/-- **C111.** UNIQUAC with unit sizes is the Wilson model with transposed parameters. -/
theorem C111_uniquac_wilson (R T : ℝ) (x : Fin N → ℝ) (hx : ∀ i, 0 ≤ x i) (hx1 : ∑ i, x i = 1) (tau : Mat N) (ht : ∀ i j, 0 < tau i j) :
    uniquacGE R T x (fun _ => 1) (fun _ => 1) tau = wilsonGE R T x (fun i j => tau j i) ∧
    ∀ i, uniquacGamma x (fun _ => 1) (fun _ => 1) tau i = wilsonGamma x (fun i j => tau j i) i := by
  have hs : ∀ i, ∑ j, tau j i * x j = ∑ j, x j * tau j i := fun i => sum_congr rfl fun j _ => mul_comm _ _
  refine ⟨?_, fun i => ?_⟩
  · simp only [uniquacGE, wilsonGE, mul_one, hx1, div_one, one_mul, hs]
    have h1 : ∑ i ∈ univ.filter (fun i => x i > 0), x i * (Real.log (x i / x i) + 5 * Real.log (x i / x i)) = 0 :=
      sum_eq_zero fun i hi => by simp [div_self (mem_filter.1 hi).2.ne']
    have h2 : ∑ i ∈ univ.filter (fun i => x i > 0), x i * Real.log (∑ j, x j * tau j i) = ∑ i, x i * Real.log (∑ j, x j * tau j i) :=
      sum_filter_of_ne fun i _ h => lt_of_le_of_ne (hx i) fun h0 => h (by rw [← h0, zero_mul])
    rw [h1, h2]; ring
  · have hp : 0 < ∑ j, x j * tau j i := by
      obtain ⟨k, hk⟩ : ∃ k, 0 < x k := by
        by_contra h
        push Not at h
        have := sum_nonpos fun i (_ : i ∈ univ) => h i
        linarith
      exact sum_pos' (fun j _ => mul_nonneg (hx j) (ht j i).le) ⟨k, mem_univ k, mul_pos hk (ht k i)⟩
    have h3 : ∑ j, tau i j * (x j / ∑ k, x k * tau k j) = ∑ l, x l / (∑ k, x k * tau k l) * tau i l := sum_congr rfl fun j _ => mul_comm _ _
    simp only [uniquacGamma, wilsonGamma, mul_one, hx1, div_one, hs, Real.log_one, sub_self, mul_zero, sub_zero, zero_add, one_mul, add_zero, h3]
    rw [show (1 : ℝ) - Real.log (∑ j, x j * tau j i) - ∑ l, x l / (∑ k, x k * tau k l) * tau i l =
      (1 - ∑ l, x l / (∑ k, x k * tau k l) * tau i l) - Real.log (∑ j, x j * tau j i) by ring, Real.exp_sub, Real.exp_log hp]


/-- **C111.** Infinite dilution in a binary mixture: the limiting activity coefficients of the textbooks. -/
theorem C111_infinite_dilution (tau alpha Lambda : Mat 2) (h0 : tau 0 0 = 0) (h1 : tau 1 1 = 0) (L0 : Lambda 0 0 = 1) (L1 : Lambda 1 1 = 1) :
    Real.log (nrtlGamma ![0, 1] tau alpha 0) = tau 1 0 + tau 0 1 * Real.exp (-alpha 0 1 * tau 0 1) ∧
    (0 < Lambda 0 1 → Real.log (wilsonGamma ![0, 1] Lambda 0) = 1 - Lambda 1 0 - Real.log (Lambda 0 1)) ∧
    (∀ q r : Fin 2 → ℝ, (∀ i, 0 < q i) → (∀ i, 0 < r i) → ∀ t : Mat 2, t 0 0 = 1 → t 1 1 = 1 →
      Real.log (uniquacGamma ![0, 1] q r t 0) = Real.log (r 0 / r 1) + 1 - r 0 / r 1 +
        q 0 * (1 - Real.log (t 1 0) - t 0 1 - 5 * (1 - (r 0 / r 1) / (q 0 / q 1) + Real.log ((r 0 / r 1) / (q 0 / q 1))))) ∧
    ∀ m chi : ℝ, Filter.Tendsto (fun p => fh2Activity p m chi / p) (𝓝[>] 0) (𝓝 (Real.exp (1 - 1 / m + chi))) := by
  refine ⟨?_, fun hL => ?_, fun q r hq hr t t0 t1 => ?_, fun m chi => ?_⟩
  · simp [nrtlGamma, Fin.sum_univ_two, h0, h1]
  · simp only [wilsonGamma, Fin.sum_univ_two, Matrix.cons_val_zero, Matrix.cons_val_one, mul_zero, mul_one, zero_add, zero_div, zero_mul, L1, div_one, one_mul]
    rw [Real.log_div (Real.exp_pos _).ne' hL.ne', Real.log_exp]
  · have q1 := (hq 1).ne'
    have r1 := (hr 1).ne'
    have hJ : 0 < r 0 / r 1 := div_pos (hr 0) (hr 1)
    simp only [uniquacGamma, Fin.sum_univ_two, Matrix.cons_val_zero, Matrix.cons_val_one, mul_zero, zero_mul, one_mul, zero_add, zero_div, t1, div_self q1]
    rw [Real.log_mul hJ.ne' (Real.exp_pos _).ne', Real.log_exp]
    simp
    ring
  · have hc : Continuous fun p : ℝ => Real.exp ((1 - 1 / m) * (1 - p) + chi * (1 - p) ^ 2) := by fun_prop
    have h := (hc.tendsto 0).mono_left (nhdsWithin_le_nhds (s := Set.Ioi 0))
    rw [show (1 - 1 / m) * (1 - 0) + chi * (1 - 0) ^ 2 = 1 - 1 / m + chi by ring] at h
    refine h.congr' ?_
    filter_upwards [self_mem_nhdsWithin] with p hp
    have : (0 : ℝ) < p := hp
    simp only [fh2Activity]
    field_simp

/-- Parameters with the diagonals that the constructors enforce. -/
example : (![![0, 1], ![2, 0]] : Mat 2) 0 0 = 0 ∧ (![![0, 1], ![2, 0]] : Mat 2) 1 1 = 0 ∧ (![![1, 1 / 2], ![2, 1]] : Mat 2) 0 0 = 1 ∧ (![![1, 1 / 2], ![2, 1]] : Mat 2) 1 1 = 1 :=
  ⟨rfl, rfl, rfl, rfl⟩

end Verif.Acm
