import Verif.Lemmas.Brent
import Mathlib.Topology.Order.IntermediateValue
import Mathlib.Topology.Instances.Real.Lemmas

/-!
# Properties C01–C04: scalar root solvers
-/

set_option linter.unusedSectionVars false

namespace Verif

variable {α : Type*} [Field α] [LinearOrder α] [IsStrictOrderedRing α]

/-- **C01.** Certificate of `root_newton`: counters, evaluated points (exactly the Newton iterates of `x0`), coherence of
`x` and `f`, meaning of `success` and of the message, for every function, start, tolerance and iteration limit. -/
theorem C01_newton_certificate (f : α × α → α × α) (x0 tolx tolf : α) (maxiter : ℕ) (r : RootResult α)
    (calls : List (α × α)) (h : rootNewton f x0 tolx tolf maxiter = .ok (r, calls)) :
    r.nfeval = calls.length ∧ r.niter = calls.length ∧ 1 ≤ r.niter ∧ r.niter ≤ maxiter ∧
    calls = (List.range r.niter).map (fun i => ((newtonIter f)^[i] x0, eps)) ∧
    r.x = (newtonIter f)^[r.niter - 1] x0 ∧ r.f = (f (r.x, eps)).1 ∧
    (r.success = true →
      (r.message = .tolf ∧ |r.f| ≤ tolf) ∨
      (r.message = .tolx ∧ eps < |(f (r.x, eps)).2 / eps| ∧ |r.f / ((f (r.x, eps)).2 / eps)| ≤ tolx)) ∧
    (r.success = false → tolf < |r.f| ∧
      ((r.message = .zeroSlope ∧ |(f (r.x, eps)).2 / eps| ≤ eps) ∨
       (r.message = .maxiter ∧ r.niter = maxiter))) := by
  obtain ⟨h1, h2, h3, h4, h5, h6, h7, h8⟩ :=
    newtonLoop_spec f x0 tolx tolf maxiter maxiter 0 x0 none [] r calls (by simp) (by simp) (by simp) (by simp)
      (by simp) h
  have hl : calls.length = r.niter := by rw [h4]; simp
  refine ⟨by omega, hl.symm, h2, h3, h4, h5, h6, ?_, h8⟩
  intro hs
  rcases h7 hs with ⟨a, b⟩ | ⟨a, _, b, c⟩
  · exact Or.inl ⟨b, a⟩
  · exact Or.inr ⟨a, b, c⟩

/-- **C01.** `root_newton` returns a result (never raises) exactly when at least one iteration is allowed; with
`maxiter = 0` it fails with an unbound-variable error instead of reporting failure. -/
theorem C01_newton_error_iff (f : α × α → α × α) (x0 tolx tolf : α) (maxiter : ℕ) :
    (∃ p, rootNewton f x0 tolx tolf maxiter = .ok p) ↔ maxiter ≠ 0 := by
  constructor
  · rintro ⟨p, hp⟩ rfl
    simp [rootNewton, newtonLoop] at hp
  · intro h
    exact newtonLoop_ok f tolx tolf maxiter maxiter 0 x0 none 0 [] (Or.inr (Nat.pos_of_ne_zero h))

example : rootNewton (α := ℚ) (fun _ => (0, 0)) 0 0 0 0 = .error .NameError := rfl

/-- **C01.** On an affine function `a*x + b` (extended to complex arguments) with slope above `eps`, `root_newton` finds
the exact root with at most two evaluations. -/
theorem C01_newton_affine (a b x0 tolx tolf : α) (ha : eps < |a|) (ht : 0 ≤ tolf) (maxiter : ℕ)
    (hm : 2 ≤ maxiter) :
    ∃ r calls, rootNewton (fun z : α × α => (a * z.1 + b, a * z.2)) x0 tolx tolf maxiter = .ok (r, calls) ∧
      r.success = true ∧ r.nfeval ≤ 2 ∧ (r.nfeval = 2 → r.x = -b / a) := by
  obtain ⟨m, rfl⟩ : ∃ m, maxiter = m + 2 := ⟨maxiter - 2, by omega⟩
  have he : (eps : α) ≠ 0 := eps_pos.ne'
  have ha0 : a ≠ 0 := by
    rintro rfl
    simp at ha
    exact absurd ha (not_lt.mpr eps_pos.le)
  have hd : a * eps / eps = a := by field_simp
  have hroot : a * (x0 + -(a * x0 + b) / a) + b = 0 := by field_simp; ring
  unfold rootNewton newtonLoop
  dsimp only [derivativeComplex]
  rw [hd]
  split_ifs with h1 h2 h3 h4
  · exact ⟨_, _, rfl, rfl, by simp, by simp⟩
  · exact absurd ha (not_lt.mpr h2)
  · exact ⟨_, _, rfl, rfl, by simp, by simp⟩
  · unfold newtonLoop
    dsimp only [derivativeComplex]
    rw [hroot, abs_zero, if_pos ht]
    refine ⟨_, _, rfl, rfl, le_rfl, fun _ => ?_⟩
    dsimp only
    field_simp
    ring
  · exact absurd (by omega : 0 + 1 < m + 2) h4

-- non-vacuity: slope 3 on ℚ, root 2
example : ∃ r calls, rootNewton (fun z : ℚ × ℚ => (3 * z.1 + (-6), 3 * z.2)) 10 0 0 50 = .ok (r, calls) ∧
    r.success = true ∧ r.nfeval ≤ 2 ∧ (r.nfeval = 2 → r.x = -(-6) / 3) :=
  C01_newton_affine 3 (-6) 10 0 0 (by norm_num [eps]) le_rfl 50 (by norm_num)

-- non-vacuity of the certificate: a failing and a succeeding run exist
example : ∃ r c, rootNewton (α := ℚ) (fun z => (z.1 ^ 2 + 1, 0)) 0 0 0 3 = .ok (r, c) ∧ r.success = false ∧
    r.message = .zeroSlope := by
  refine ⟨⟨false, .zeroSlope, 1, 1, 0, 1⟩, [(0, eps)], ?_, rfl, rfl⟩
  norm_num [rootNewton, newtonLoop, derivativeComplex, eps]

/-- **C02.** Certificate of `root_secant`. `none` stands for NaN. The evaluated points are exactly the secant sequence. -/
theorem C02_secant_certificate (f : α → α) (x0 x1 tolx tolf : α) (maxiter : ℕ) (r : RootResult (Option α))
    (calls : List α) (h : rootSecant f x0 x1 tolx tolf maxiter = .ok (r, calls)) :
    r.nfeval = calls.length ∧ calls = (List.range r.nfeval).map (secantSeq f x0 x1) ∧ r.niter ≤ maxiter ∧
    (r.success = true → ∃ x, r.x = some x ∧ r.f = some (f x) ∧ calls.getLast? = some x ∧
      ((r.message = .tolf ∧ |f x| ≤ tolf) ∨
       (r.message = .tolx ∧ 3 ≤ r.nfeval ∧ |x - secantSeq f x0 x1 (r.nfeval - 2)| ≤ tolx))) ∧
    (r.success = false → (∀ y ∈ calls.getLast?, tolf < |f y|) ∧
      (r.nfeval = 2 → r.x = none ∧ r.f = none) ∧
      (r.nfeval ≠ 2 → r.x = calls.getLast? ∧ r.f = calls.getLast?.map f) ∧
      ((r.message = .maxiter ∧ r.niter = maxiter) ∨
       (r.message = .zeroSlope ∧
        |f (secantSeq f x0 x1 (r.nfeval - 1)) - f (secantSeq f x0 x1 (r.nfeval - 2))| ≤
          eps * max (max |f (secantSeq f x0 x1 (r.nfeval - 2))| |f (secantSeq f x0 x1 (r.nfeval - 1))|) 1))) := by
  unfold rootSecant at h
  dsimp only at h
  split_ifs at h with h1 h2
  · simp only [Except.ok.injEq, Prod.mk.injEq] at h
    obtain ⟨rfl, rfl⟩ := h
    exact ⟨rfl, rfl, by simp, fun _ => ⟨x0, rfl, rfl, rfl, Or.inl ⟨rfl, h1⟩⟩, by simp⟩
  · simp only [Except.ok.injEq, Prod.mk.injEq] at h
    obtain ⟨rfl, rfl⟩ := h
    exact ⟨rfl, rfl, by simp, fun _ => ⟨x1, rfl, rfl, rfl, Or.inl ⟨rfl, h2⟩⟩, by simp⟩
  · obtain ⟨g1, g2, g3, g4, g5, g6, g7, g8⟩ :=
      secantLoop_spec f x0 x1 tolx tolf maxiter maxiter 0 none none r calls (by simp) (by simp) (by simp)
        (not_le.mp h2) h
    have hlast : calls.getLast? = some (secantSeq f x0 x1 (r.nfeval - 1)) := by
      obtain ⟨q, hq⟩ : ∃ q, r.nfeval = q + 1 := ⟨r.nfeval - 1, by omega⟩
      rw [g1, hq, List.range_succ, List.map_append]
      simp
    refine ⟨by rw [g1]; simp, g1, g4, ?_, ?_⟩
    · intro hs
      obtain ⟨e1, e2⟩ := g7 hs
      have hne : r.nfeval ≠ 2 := by omega
      rw [if_neg hne] at g5 g6
      refine ⟨_, g5, g6, hlast, ?_⟩
      rcases e2 with e2 | e2
      · exact Or.inl e2
      · exact Or.inr ⟨e2.1, by omega, e2.2⟩
    · intro hs
      obtain ⟨e1, e2⟩ := g8 hs
      refine ⟨?_, ?_, ?_, ?_⟩
      · intro y hy
        rw [hlast] at hy
        simp at hy
        rw [← hy]; exact e1
      · intro h2'
        rw [g5, g6]; simp [h2']
      · intro hne
        rw [g5, g6, hlast]; simp [hne]
      · rcases e2 with ⟨a, _, c⟩ | ⟨a, b, _⟩
        · exact Or.inr ⟨a, c⟩
        · exact Or.inl ⟨a, b⟩

/-- **C02.** With `maxiter = 0` and start points that are no roots the code raises instead of reporting failure; with
`maxiter ≥ 1` it never raises. -/
theorem C02_secant_error_iff (f : α → α) (x0 x1 tolx tolf : α) (maxiter : ℕ) :
    (∃ p, rootSecant f x0 x1 tolx tolf maxiter = .ok p) ↔ (maxiter ≠ 0 ∨ |f x0| ≤ tolf ∨ |f x1| ≤ tolf) := by
  unfold rootSecant
  dsimp only
  split_ifs with h1 h2
  · simp [h1]
  · simp [h2]
  · simp only [h1, h2, or_false]
    constructor
    · rintro ⟨p, hp⟩ rfl
      simp [secantLoop] at hp
    · intro h
      exact secantLoop_ok f tolx tolf maxiter 0 _ _ _ _ _ _ _ _ (Or.inr (Nat.pos_of_ne_zero h))

/-- **C02.** On an affine function the first secant update is the exact root. -/
theorem C02_secant_affine (a b x0 x1 tolx tolf : α) (ht : 0 ≤ tolf) (maxiter : ℕ) (hm : 1 ≤ maxiter)
    (h0 : tolf < |a * x0 + b|) (h1 : tolf < |a * x1 + b|)
    (hs : eps * max (max |a * x0 + b| |a * x1 + b|) 1 < |a * x1 + b - (a * x0 + b)|) :
    ∃ r calls, rootSecant (fun x => a * x + b) x0 x1 tolx tolf maxiter = .ok (r, calls) ∧
      r.success = true ∧ r.x = some (-b / a) ∧ r.nfeval = 3 := by
  obtain ⟨m, rfl⟩ : ∃ m, maxiter = m + 1 := ⟨maxiter - 1, by omega⟩
  have hmax : (0 : α) < max (max |a * x0 + b| |a * x1 + b|) 1 := lt_of_lt_of_le one_pos (le_max_right _ _)
  have hne : a * (x1 - x0) ≠ 0 := by
    intro h
    have : a * x1 + b - (a * x0 + b) = 0 := by linear_combination h
    rw [this, abs_zero] at hs
    have := mul_pos (eps_pos (α := α)) hmax
    linarith
  have ha : a ≠ 0 := left_ne_zero_of_mul hne
  have hx : x1 - x0 ≠ 0 := right_ne_zero_of_mul hne
  have key : x1 - (a * x1 + b) * (x1 - x0) / (a * x1 + b - (a * x0 + b)) = -b / a := by
    have : a * x1 + b - (a * x0 + b) = a * (x1 - x0) := by ring
    rw [this]; field_simp; ring
  have hf : a * (-b / a) + b = 0 := by field_simp; ring
  unfold rootSecant
  dsimp only
  rw [if_neg (not_le.mpr h0), if_neg (not_le.mpr h1)]
  unfold secantLoop
  dsimp only
  rw [if_neg (not_le.mpr hs), key, hf, abs_zero]
  split_ifs
  all_goals exact ⟨_, _, rfl, rfl, rfl, rfl⟩

example : ∃ r calls, rootSecant (fun x : ℚ => 2 * x + (-1)) 0 1 0 0 5 = .ok (r, calls) ∧
      r.success = true ∧ r.x = some (-(-1) / 2) ∧ r.nfeval = 3 :=
  C02_secant_affine 2 (-1) 0 1 0 0 le_rfl 5 (by norm_num) (by norm_num) (by norm_num)
    (by norm_num [eps])

-- the NaN result of a flat function is real
example : rootSecant (fun _ : ℚ => 1) 0 1 0 0 5 = .ok (⟨false, .zeroSlope, 2, 1, none, none⟩, [0, 1]) := by
  norm_num [rootSecant, secantLoop, eps]

/-- **C03.** Every call of the user function and the returned point stay in the closed start interval (whatever its
orientation); `nfeval` is the exact number of calls, at most `maxiter + 2`. No continuity of `f` is needed. -/
theorem C03_brent_stays_in_bracket (f : α → α) (xa xb tolx tolf : α) (maxiter : ℕ) (hx : 0 ≤ tolx) (hf : 0 ≤ tolf)
    (r : RootResult α) (calls : List α) (h : rootBrent f xa xb tolx tolf maxiter = .ok (r, calls)) :
    (∀ x ∈ calls, x ∈ Set.uIcc xa xb) ∧ r.x ∈ Set.uIcc xa xb ∧ r.x ∈ calls ∧ r.nfeval = calls.length ∧
      r.nfeval ≤ maxiter + 2 ∧ r.niter ≤ maxiter := by
  unfold rootBrent at h
  dsimp only at h
  split_ifs at h with h1 h2 h3
  · simp only [Except.ok.injEq, Prod.mk.injEq] at h
    obtain ⟨rfl, rfl⟩ := h
    simp
  · simp only [Except.ok.injEq, Prod.mk.injEq] at h
    obtain ⟨rfl, rfl⟩ := h
    simp
  · have hI : BrentInv f (min xa xb) (max xa xb) ⟨xa, f xa, xb, f xb, xb, f xb, 0, 0⟩ :=
      ⟨rfl, rfl, rfl, ⟨min_le_left _ _, le_max_left _ _⟩, ⟨min_le_right _ _, le_max_right _ _⟩,
        ⟨min_le_right _ _, le_max_right _ _⟩, fun _ => not_lt.mp h3⟩
    obtain ⟨g1, g2, g3, g4, g5, g6, g7, g8, g9⟩ := brentLoop_spec f (min xa xb) (max xa xb) tolx tolf maxiter hx hf
      maxiter 0 _ [xa, xb] r calls (by simp) hI (by simp) (by simp) (by simp) (by simp) (by simp) h
    exact ⟨fun x hx => g4 x hx, g4 _ g5, g5, g1, g2, g3⟩

/-- **C04.** Accuracy: on success either `|f x| ≤ tolf` or `f` changes sign between the returned `x` and an evaluated
point within `4·eps·|x| + tolx`; `f` is always the function value at `x`; failure is only reported after `maxiter`
iterations. -/
theorem C04_brent_accuracy (f : α → α) (xa xb tolx tolf : α) (maxiter : ℕ) (hx : 0 ≤ tolx) (hf : 0 ≤ tolf)
    (r : RootResult α) (calls : List α) (h : rootBrent f xa xb tolx tolf maxiter = .ok (r, calls)) :
    r.f = f r.x ∧
    (r.success = true → |f r.x| ≤ tolf ∨
      ∃ y ∈ Set.uIcc xa xb, f r.x * f y ≤ 0 ∧ |y - r.x| ≤ 4 * eps * |r.x| + tolx) ∧
    (r.success = false → r.message = .maxiter ∧ r.niter = maxiter) := by
  unfold rootBrent at h
  dsimp only at h
  split_ifs at h with h1 h2 h3
  · simp only [Except.ok.injEq, Prod.mk.injEq] at h
    obtain ⟨rfl, rfl⟩ := h
    exact ⟨rfl, fun _ => Or.inl h1, by simp⟩
  · simp only [Except.ok.injEq, Prod.mk.injEq] at h
    obtain ⟨rfl, rfl⟩ := h
    exact ⟨rfl, fun _ => Or.inl h2, by simp⟩
  · have hI : BrentInv f (min xa xb) (max xa xb) ⟨xa, f xa, xb, f xb, xb, f xb, 0, 0⟩ :=
      ⟨rfl, rfl, rfl, ⟨min_le_left _ _, le_max_left _ _⟩, ⟨min_le_right _ _, le_max_right _ _⟩,
        ⟨min_le_right _ _, le_max_right _ _⟩, fun _ => not_lt.mp h3⟩
    obtain ⟨g1, g2, g3, g4, g5, g6, g7, g8, g9⟩ := brentLoop_spec f (min xa xb) (max xa xb) tolx tolf maxiter hx hf
      maxiter 0 _ [xa, xb] r calls (by simp) hI (by simp) (by simp) (by simp) (by simp) (by simp) h
    refine ⟨g6, fun hs => ?_, g9⟩
    rcases g8 hs with ⟨_, a⟩ | ⟨_, y, hy, a, b⟩
    · left; rw [← g6]; exact a
    · right; exact ⟨y, g4 y hy, a, b⟩

/-- **C04.** For a continuous real function an exact root lies within `4·eps·|x| + tolx` of the returned `x`, or
`|f x| ≤ tolf`. -/
theorem C04_brent_exact_root (f : ℝ → ℝ) (xa xb tolx tolf : ℝ) (maxiter : ℕ) (hx : 0 ≤ tolx) (hf : 0 ≤ tolf)
    (hc : ContinuousOn f (Set.uIcc xa xb))
    (r : RootResult ℝ) (calls : List ℝ) (h : rootBrent f xa xb tolx tolf maxiter = .ok (r, calls))
    (hs : r.success = true) :
    |f r.x| ≤ tolf ∨ ∃ z ∈ Set.uIcc xa xb, f z = 0 ∧ |z - r.x| ≤ 4 * eps * |r.x| + tolx := by
  obtain ⟨_, h2, _⟩ := C04_brent_accuracy f xa xb tolx tolf maxiter hx hf r calls h
  have hmem := (C03_brent_stays_in_bracket f xa xb tolx tolf maxiter hx hf r calls h).2.1
  rcases h2 hs with h2 | ⟨y, hy, hs, hd⟩
  · exact Or.inl h2
  · right
    have hsub : Set.uIcc r.x y ⊆ Set.uIcc xa xb := Set.uIcc_subset_uIcc hmem hy
    have h0 : (0 : ℝ) ∈ Set.uIcc (f r.x) (f y) := by
      rw [Set.mem_uIcc]
      rcases mul_nonpos_iff.mp hs with ⟨a, b⟩ | ⟨a, b⟩
      · exact Or.inr ⟨b, a⟩
      · exact Or.inl ⟨a, b⟩
    obtain ⟨z, hz, hz0⟩ := intermediate_value_uIcc (hc.mono hsub) h0
    refine ⟨z, hsub hz, hz0, le_trans ?_ hd⟩
    exact Set.abs_sub_left_of_mem_uIcc hz

/-- **C04.** Refusal: `ValueError` exactly when neither end is within `tolf` and both ends have the same strict sign;
the only other exception is the unbound variable for `maxiter = 0`. -/
theorem C04_brent_refusal (f : α → α) (xa xb tolx tolf : α) (maxiter : ℕ) :
    (rootBrent f xa xb tolx tolf maxiter = .error .ValueError ↔
      tolf < |f xa| ∧ tolf < |f xb| ∧ 0 < f xa * f xb) ∧
    (maxiter ≠ 0 → (∃ p, rootBrent f xa xb tolx tolf maxiter = .ok p) ∨
      rootBrent f xa xb tolx tolf maxiter = .error .ValueError) := by
  unfold rootBrent
  dsimp only
  split_ifs with h1 h2 h3
  · simp [not_lt.mpr h1]
  · simp [not_lt.mpr h2]
  · simp only [not_le.mp h1, not_le.mp h2, true_and]
    simpa using h3
  · constructor
    · constructor
      · intro h
        exfalso
        cases maxiter with
        | zero => simp [brentLoop] at h
        | succ n =>
          obtain ⟨p, hp⟩ := brentLoop_ok f tolx tolf (n + 1) 0 ⟨xa, f xa, xb, f xb, xb, f xb, 0, 0⟩ 2 [xa, xb]
            (Or.inr (Nat.succ_pos _))
          rw [hp] at h; simp at h
      · rintro ⟨_, _, h⟩
        exact absurd h h3
    · intro hm
      exact Or.inl (brentLoop_ok f tolx tolf maxiter 0 _ 2 _ (Or.inr (Nat.pos_of_ne_zero hm)))

/-- **C04.** Total correctness: for *every* function with a bracket, `root_brent` succeeds as soon as
`maxiter ≥ b² + 6b + 1`, where `b` is the number of halvings that reduce the start interval to `tolx`. -/
theorem C04_brent_converges (f : α → α) (xa xb tolx tolf : α) (maxiter b : ℕ) (hx : 0 < tolx) (hf : 0 ≤ tolf)
    (hsign : f xa * f xb ≤ 0) (hb : |xb - xa| ≤ tolx * 2 ^ b) (hm : b ^ 2 + 6 * b + 1 ≤ maxiter) :
    ∃ r calls, rootBrent f xa xb tolx tolf maxiter = .ok (r, calls) ∧ r.success = true := by
  unfold rootBrent
  dsimp only
  split_ifs with h1 h2 h3
  · exact ⟨_, _, rfl, rfl⟩
  · exact ⟨_, _, rfl, rfl⟩
  · exact absurd hsign (not_le.mpr h3)
  · have hI : BrentInv f (min xa xb) (max xa xb) ⟨xa, f xa, xb, f xb, xb, f xb, 0, 0⟩ :=
      ⟨rfl, rfl, rfl, ⟨min_le_left _ _, le_max_left _ _⟩, ⟨min_le_right _ _, le_max_right _ _⟩,
        ⟨min_le_right _ _, le_max_right _ _⟩, fun _ => not_lt.mp h3⟩
    have hfb : f xb ≠ 0 := by
      intro h0; rw [h0] at h2; simp at h2; linarith
    have hpos : 0 < f xb * f xb := mul_self_pos.mpr hfb
    have hM : BrentMeas (1 / 2 * tolx) b (b + 2) (b + 2)
        (brentReorder ⟨xa, f xa, xb, f xb, xb, f xb, 0, 0⟩) := by
      rcases brentReorder_len (⟨xa, f xa, xb, f xb, xb, f xb, 0, 0⟩ : BrentState α) with
        ⟨_, r1, r2, r3, _⟩ | ⟨r0, _⟩
      · dsimp only at r1 r2 r3
        have hlt : |xb - xa| < 1 / 2 * tolx * 2 ^ (b + 2) := by
          have hp : (0 : α) < tolx * 2 ^ b := by positivity
          have : 1 / 2 * tolx * 2 ^ (b + 2) = 2 * (tolx * 2 ^ b) := by rw [pow_add]; ring
          rw [this]; linarith
        refine ⟨?_, ?_, ?_, Or.inl rfl⟩
        · rw [r1]
          have : 2 * (1 / 2 * tolx) = tolx := by ring
          rw [this]; exact hb
        · rw [r3]; exact hlt
        · rw [r2]; exact hlt
      · exact absurd r0 (not_le.mpr hpos)
    refine brentLoop_converges f _ _ tolx tolf hx hf maxiter b (2 * b + 4) (b + 2) (b + 2) 0 _ 2 _ hI hM
      (by omega) le_rfl (by omega) ?_
    intro hb0
    have : 1 ≤ b ^ 2 := Nat.one_le_pow _ _ (by omega)
    omega

-- non-vacuity of the C03/C04 hypotheses: x² - 2 on [0, 2], tolx = 1/2 (b = 2), 17 iterations
example : ∃ r calls, rootBrent (fun x : ℚ => x ^ 2 - 2) 0 2 (1 / 2) 0 17 = .ok (r, calls) ∧ r.success = true :=
  C04_brent_converges _ 0 2 (1 / 2) 0 17 2 (by norm_num) le_rfl (by norm_num) (by norm_num) (by norm_num)

example : rootBrent (fun x : ℚ => x ^ 2 + 1) 0 2 (1 / 2) 0 17 = .error .ValueError := by
  norm_num [rootBrent]

end Verif
