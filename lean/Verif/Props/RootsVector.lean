import Verif.Lemmas.RootsVector

/-!
# C05, C06, C73, C74: quasi-Newton solver for systems

`rootvecQNewton f L P jacEval x0 t` is a call of `rootvec_qnewton`. The user function `f`, the Jacobian evaluation `jacEval`
and the linear algebra `L` (QR, triangular solve, Cholesky, Broyden update) are arbitrary functions.
-/

namespace Verif.RootsVector

variable {n : ℕ}

/-- A Jacobian evaluation calls `f` at `n` points (forward differences) or not at all (user supplied `jac`). -/
def JacCalls (P : QParams n) (jacEval : Vec n → Vec n → (Fin n → Fin n → ℝ) × List (Vec n)) : Prop :=
  ∀ x fx, (jacEval x fx).2.length = if P.userJac then 0 else n

/-- **C05**. Every completed call returns an honest result: `success` implies that the reported `f` is the function at the reported
`x` and every scaled component is within `tolf`; unless the global step failed the reported `f` is the function at `x`; the
evaluation counter is the number of calls of `f`, the first of which is at `x0`; the number of iterations is at most `maxiter`. -/
theorem C05_qnewton_certificate (f : Vec n → Vec n) (L : LinAlg n) (P : QParams n)
    (jacEval : Vec n → Vec n → (Fin n → Fin n → ℝ) × List (Vec n)) (x0 : Vec n) (t : ℝ)
    (hj : JacCalls P jacEval) (hscl : ∀ i, 0 < P.sclx i) (htol : 0 ≤ P.tolf) (r : QResult n) (calls : List (Vec n))
    (h : rootvecQNewton f L P jacEval x0 t = some (.ok (r, calls))) :
    (r.success = true → r.f = f r.x ∧ ∀ i, |P.sclf i * f r.x i| ≤ P.tolf) ∧
    (r.success = true ↔ r.message = .tolf ∨ r.message = .x0) ∧
    (r.message ≠ .globalFail → r.f = f r.x) ∧
    (r.niter = 0 → r.message = .x0 ∧ r.x = x0 ∧ ∀ i, |P.sclf i * f x0 i| ≤ P.tolf / 100) ∧
    r.nfeval = calls.length ∧ calls.head? = some x0 ∧ r.niter ≤ P.maxiter := by
  unfold rootvecQNewton at h
  dsimp only at h
  obtain ⟨i1, i2⟩ := newJac_inv f x0 jacEval P.userJac hj x0 (f x0)
    (⟨fun _ _ => 0, none, x0, f x0, true, 0, t, 1, 0, [x0]⟩ : QState n L) rfl rfl
  split_ifs at h with h1
  · simp only [Option.some.injEq, Except.ok.injEq, Prod.mk.injEq] at h
    obtain ⟨rfl, rfl⟩ := h
    refine ⟨fun _ => ⟨rfl, fun i => (h1 i).trans (by linarith)⟩, by simp, fun _ => rfl,
      fun _ => ⟨rfl, rfl, fun i => (h1 i).trans (by linarith)⟩, i1, i2, Nat.zero_le _⟩
  · obtain ⟨q, h3, h4⟩ := qnLoop_spec f P jacEval x0 hj hscl P.maxiter 0 _ r calls ⟨rfl, i1, i2⟩ h
    refine ⟨fun hs => ?_, ?_, q.coherent, fun h0 => by omega, q.count, q.head, by omega⟩
    · obtain ⟨a, b⟩ := q.ok hs
      exact ⟨b, fun i => by rw [← b]; exact a i⟩
    · constructor
      · intro hs; exact Or.inl (q.msg.mp hs)
      · rintro (hs | hs)
        · exact q.msg.mpr hs
        · exfalso
          exact qnLoop_not_x0 f P jacEval _ _ _ _ _ h hs

/-- **C05** (partial). When the last global step failed, the reported `f` is the function at a point whose distance to the reported
`x` is below `tolx`, relative to the larger of the two or the typical size. What is missing is `r.f = f r.x`, which is false
(see `C05_failed_step_coherence_false`). -/
theorem C05_failed_step_partial (f : Vec n → Vec n) (L : LinAlg n) (P : QParams n)
    (jacEval : Vec n → Vec n → (Fin n → Fin n → ℝ) × List (Vec n)) (x0 : Vec n) (t : ℝ)
    (hj : JacCalls P jacEval) (hscl : ∀ i, 0 < P.sclx i) (r : QResult n) (calls : List (Vec n))
    (h : rootvecQNewton f L P jacEval x0 t = some (.ok (r, calls))) (hm : r.message = .globalFail) :
    r.success = false ∧ ∃ x', r.f = f x' ∧ ∀ i, |x' i - r.x i| < P.tolx * max (max |r.x i| |x' i|) (1 / P.sclx i) := by
  unfold rootvecQNewton at h
  dsimp only at h
  obtain ⟨i1, i2⟩ := newJac_inv f x0 jacEval P.userJac hj x0 (f x0)
    (⟨fun _ _ => 0, none, x0, f x0, true, 0, t, 1, 0, [x0]⟩ : QState n L) rfl rfl
  split_ifs at h with h1
  · simp only [Option.some.injEq, Except.ok.injEq, Prod.mk.injEq] at h
    obtain ⟨rfl, rfl⟩ := h
    simp at hm
  · obtain ⟨q, h3, h4⟩ := qnLoop_spec f P jacEval x0 hj hscl P.maxiter 0 _ r calls ⟨rfl, i1, i2⟩ h
    refine ⟨?_, q.near hm⟩
    by_contra hc
    rw [q.msg.mp (by simpa using hc)] at hm
    simp at hm

/-- **C05**. With the line search and directions along which the quasi-Newton model does not increase (`gc · p ≤ 0`, which exact
linear algebra guarantees), no completed run ends at a point with a larger scaled residual norm than `x0`. -/
theorem C05_linesearch_never_worse (f : Vec n → Vec n) (L : LinAlg n) (P : QParams n)
    (jacEval : Vec n → Vec n → (Fin n → Fin n → ℝ) × List (Vec n)) (x0 : Vec n) (t : ℝ) (hgm : P.gm = .lineSearch)
    (hscl : ∀ i, 0 < P.sclx i) (hmax : 0 ≤ P.maxlen) (hdesc : ∀ S fc p gc S', L.solve S fc = .ok (p, gc, S') → ∑ i, gc i * p i ≤ 0)
    (r : QResult n) (calls : List (Vec n))
    (h : rootvecQNewton f L P jacEval x0 t = some (.ok (r, calls))) :
    ∑ i, (P.sclf i * f r.x i) ^ 2 ≤ ∑ i, (P.sclf i * f x0 i) ^ 2 := by
  unfold rootvecQNewton at h
  dsimp only at h
  split_ifs at h with h1
  · simp only [Option.some.injEq, Except.ok.injEq, Prod.mk.injEq] at h
    obtain ⟨rfl, rfl⟩ := h
    exact le_rfl
  · have := qnLoop_merit f P jacEval (merit P.sclf (f x0)) ?_ hscl P.maxiter 0 _ r calls rfl (by exact le_rfl) h
    · unfold merit at this; linarith
    · intro S fc p gc S' xc t' o hs hB ho hok
      rw [hgm] at ho
      unfold globalStep at ho
      dsimp only at ho
      rw [Option.map_eq_some_iff] at ho
      obtain ⟨a, e1, e2⟩ := ho
      simp only [Except.ok.injEq] at e2
      subst e2
      have hslope := lineSearch_slope gc p P.sclx P.maxlen hmax (hdesc _ _ _ _ _ hs)
      unfold lineSearch at e1
      dsimp only at e1
      obtain ⟨s1, _, _⟩ := lsLoop_spec _ _ _ _ _ _ _ _ _ _ _ _ _ _ _ _ (by norm_num) (fun _ => le_rfl) (fun _ => rfl) e1
      obtain ⟨lam, l1, _, _, _, l2⟩ := s1 hok
      have : 1 / 10 ^ 4 * lam * dot gc (if norm2 P.sclx p > P.maxlen then fun i => p i * (P.maxlen / norm2 P.sclx p) else p) ≤ 0 :=
        mul_nonpos_of_nonneg_of_nonpos (by positivity) hslope
      linarith

/-- **C05**. The same with the dogleg method, if every step is non-zero, the gradient is not annihilated by `R`, and the model does not increase
along the Newton direction. -/
theorem C05_dogleg_never_worse (f : Vec n → Vec n) (L : LinAlg n) (P : QParams n)
    (jacEval : Vec n → Vec n → (Fin n → Fin n → ℝ) × List (Vec n)) (x0 : Vec n) (t : ℝ) (hgm : P.gm = .dogleg)
    (hscl : ∀ i, 0 < P.sclx i) (hmax : 0 < P.maxlen)
    (hlin : ∀ S fc p gc S', L.solve S fc = .ok (p, gc, S') → p ≠ 0 ∧ gc ≠ 0 ∧
      (fun i => ∑ j, L.Rmat S' i j * (gc j / P.sclx j ^ 2)) ≠ 0 ∧ ∑ i, gc i * p i ≤ 0)
    (r : QResult n) (calls : List (Vec n)) (h : rootvecQNewton f L P jacEval x0 t = some (.ok (r, calls))) :
    ∑ i, (P.sclf i * f r.x i) ^ 2 ≤ ∑ i, (P.sclf i * f x0 i) ^ 2 := by
  unfold rootvecQNewton at h
  dsimp only at h
  split_ifs at h with h1
  · simp only [Option.some.injEq, Except.ok.injEq, Prod.mk.injEq] at h
    obtain ⟨rfl, rfl⟩ := h
    exact le_rfl
  · have := qnLoop_merit f P jacEval (merit P.sclf (f x0)) ?_ hscl P.maxiter 0 _ r calls rfl (by exact le_rfl) h
    · unfold merit at this; linarith
    · intro S fc p gc S' xc t' o hs hB ho hok
      rw [hgm] at ho
      unfold globalStep at ho
      dsimp only at ho
      rw [Option.map_eq_some_iff] at ho
      obtain ⟨a, e1, e2⟩ := ho
      simp only [Except.ok.injEq] at e2
      subst e2
      obtain ⟨a, b, c, d⟩ := hlin _ _ _ _ _ hs
      unfold dogleg at e1
      refine le_trans (dlLoop_merit f P.sclf (merit P.sclf fc) xc gc p (L.Rmat S') P.sclx P.tolx P.maxlen hscl
        (norm2_pos _ _ (fun i => (hscl i).ne') a) (norm2_pos _ _ (fun _ => one_ne_zero) ?_)
        (norm2_pos _ _ (fun _ => one_ne_zero) c) d hmax _ _ _ _ _ _ _ _ _ _ (Or.inr ⟨rfl, hmax⟩) (by simp) e1 hok) hB
      intro h0; apply b; funext i
      have := congrFun h0 i
      simp only [Pi.zero_apply, div_eq_zero_iff] at this
      exact this.resolve_right (hscl i).ne'

/-- **C05**. The reported reason is the true reason. Every completed run has a history of global steps, each starting where the previous one ended, such that
the reported `x` is its end, the number of iterations its length (one more if the factorisation failed), and the message says what happened: all iterations
used; a successful step that is short relative to the size of `x`; with a global method, five steps of maximal length in a row; two failed steps in a row (or a
failed first step). At no earlier step was there a reason to stop. -/
theorem C05_reasons (f : Vec n → Vec n) (L : LinAlg n) (P : QParams n)
    (jacEval : Vec n → Vec n → (Fin n → Fin n → ℝ) × List (Vec n)) (x0 : Vec n) (t : ℝ) (hscl : ∀ i, 0 < P.sclx i) (r : QResult n) (calls : List (Vec n))
    (h : rootvecQNewton f L P jacEval x0 t = some (.ok (r, calls))) :
    ∃ hist, History f L P x0 hist ∧ Explains P x0 hist r := by
  unfold rootvecQNewton at h
  dsimp only at h
  split_ifs at h with h1
  · simp only [Option.some.injEq, Except.ok.injEq, Prod.mk.injEq] at h
    obtain ⟨rfl, rfl⟩ := h
    exact ⟨[], .nil, rfl, fun _ => rfl, by simp, by simp, trivial, by simp, by simp, by simp, by simp⟩
  · exact qnLoop_tracks f P jacEval x0 hscl P.maxiter [] _ r calls ⟨.nil, trivial, rfl, rfl, by simp [newJac], rfl⟩ (by simp) h

/-- **C05**. Misuse is refused: an unknown global method raises `ValueError` as soon as a step has been computed (so that the only completed runs stop at `x0`
because the factorisation failed), and `maxiter = 0` raises
`NameError` whatever the function, unless `x0` already solves the system. -/
theorem C05_refusal (f : Vec n → Vec n) (L : LinAlg n) (P : QParams n)
    (jacEval : Vec n → Vec n → (Fin n → Fin n → ℝ) × List (Vec n)) (x0 : Vec n) (t : ℝ)
    (h0 : ∃ i, P.tolf / 100 < |P.sclf i * f x0 i|) :
    (P.maxiter = 0 → rootvecQNewton f L P jacEval x0 t = some (.error .NameError)) ∧
    (P.gm = .unknown → 0 < P.maxiter → ∀ r calls, rootvecQNewton f L P jacEval x0 t = some (.ok (r, calls)) →
      r.message = .qr ∧ r.x = x0) ∧
    (∀ S out, P.gm = .unknown → 0 < P.maxiter → L.factor (jacEval x0 (f x0)).1 = some S → L.solve S (f x0) = .ok out →
      rootvecQNewton f L P jacEval x0 t = some (.error .ValueError)) := by
  have h1 : ¬ scaledNormLe P.sclf (f x0) (1 / 100 * P.tolf) := by
    obtain ⟨i, hi⟩ := h0
    intro h
    have := h i
    linarith
  constructor
  · intro hm
    unfold rootvecQNewton
    dsimp only
    rw [if_neg h1, hm]
    simp [qnLoop]
  refine ⟨?_, ?_⟩
  · intro hg hm r calls h
    unfold rootvecQNewton at h
    dsimp only at h
    rw [if_neg h1] at h
    obtain ⟨k, hk⟩ : ∃ k, P.maxiter = k + 1 := ⟨P.maxiter - 1, by omega⟩
    rw [hk] at h
    unfold qnLoop pass at h
    rw [hg] at h
    unfold globalStep at h
    split at h
    · simp at h
    · simp at h
    · rename_i hp
      simp only [Option.some.injEq, Except.ok.injEq, Prod.mk.injEq] at h
      obtain ⟨rfl, rfl⟩ := h
      split at hp
      · simp only [Option.some.injEq, Pass.stop.injEq] at hp
        obtain ⟨rfl, rfl⟩ := hp
        exact ⟨rfl, rfl⟩
      · split at hp <;> simp at hp
    · rename_i hp
      split at hp
      · simp at hp
      · split at hp <;> simp at hp
  · intro S out hg hm hfac hsol
    obtain ⟨p, gc, S'⟩ := out
    unfold rootvecQNewton
    dsimp only
    rw [if_neg h1]
    obtain ⟨k, hk⟩ : ∃ k, P.maxiter = k + 1 := ⟨P.maxiter - 1, by omega⟩
    rw [hk]
    unfold qnLoop pass
    simp only [newJac, or_true, if_true, hfac, hsol, hg, globalStep]

/-- **C05**. The solver always comes to an end, for any function: with line search (and model-descent directions) there is a
number of inner iterations after which nothing changes and a result or an exception is delivered. -/
theorem C05_linesearch_terminates (f : Vec n → Vec n) (L : LinAlg n) (P : QParams n)
    (jacEval : Vec n → Vec n → (Fin n → Fin n → ℝ) × List (Vec n)) (x0 : Vec n) (t : ℝ) (hgm : P.gm = .lineSearch)
    (hmax : 0 ≤ P.maxlen) (htolx : 0 < P.tolx)
    (hdesc : ∀ S fc p gc S', L.solve S fc = .ok (p, gc, S') → ∑ i, gc i * p i ≤ 0) :
    ∃ N out, ∀ fuel, N ≤ fuel → rootvecQNewton f L { P with fuel := fuel } jacEval x0 t = some out := by
  have hg : ∀ S fc p gc S' xc t, L.solve S fc = .ok (p, gc, S') → ∃ N o,
      globalStep P.gm N f P.sclf xc fc gc p (L.Rmat S') P.tolx P.sclx P.maxlen t = some o := by
    intro S fc p gc S' xc t' hs
    rw [hgm]
    unfold globalStep
    dsimp only
    have hslope := lineSearch_slope gc p P.sclx P.maxlen hmax (hdesc _ _ _ _ _ hs)
    obtain ⟨k, hk⟩ := belowMin_eventually P.tolx htolx
      (relMax (if norm2 P.sclx p > P.maxlen then fun i => p i * (P.maxlen / norm2 P.sclx p) else p) xc P.sclx)
      (relMax_nonneg _ _ _)
    obtain ⟨o, ho, _⟩ := lsLoop_terminates f P.sclf xc _ (merit P.sclf fc) _ P.tolx _
      (if norm2 P.sclx p > P.maxlen then P.maxlen else norm2 P.sclx p) P.maxlen k (k + 2) hslope le_rfl hk
    refine ⟨k + 2, .ok o, ?_⟩
    unfold lineSearch
    dsimp only
    rw [ho]; rfl
  unfold rootvecQNewton
  dsimp only
  split_ifs with h1
  · exact ⟨0, _, fun _ _ => rfl⟩
  · exact qnLoop_terminates f P jacEval hg P.maxiter 0 _

/-- **C05**. The same with the dogleg method, if every step and gradient is non-zero and `R` does not annihilate the gradient. -/
theorem C05_dogleg_terminates (f : Vec n → Vec n) (L : LinAlg n) (P : QParams n)
    (jacEval : Vec n → Vec n → (Fin n → Fin n → ℝ) × List (Vec n)) (x0 : Vec n) (t : ℝ) (hgm : P.gm = .dogleg)
    (hscl : ∀ i, 0 < P.sclx i) (hmax : 0 < P.maxlen) (htolx : 0 < P.tolx)
    (hlin : ∀ S fc p gc S', L.solve S fc = .ok (p, gc, S') → p ≠ 0 ∧ gc ≠ 0 ∧
      (fun i => ∑ j, L.Rmat S' i j * (gc j / P.sclx j ^ 2)) ≠ 0) :
    ∃ N out, ∀ fuel, N ≤ fuel → rootvecQNewton f L { P with fuel := fuel } jacEval x0 t = some out := by
  have hg : ∀ S fc p gc S' xc t, L.solve S fc = .ok (p, gc, S') → ∃ N o,
      globalStep P.gm N f P.sclf xc fc gc p (L.Rmat S') P.tolx P.sclx P.maxlen t = some o := by
    intro S fc p gc S' xc t' hs
    rw [hgm]
    unfold globalStep
    dsimp only
    obtain ⟨a, b, c⟩ := hlin _ _ _ _ _ hs
    obtain ⟨N, hN⟩ := dogleg_terminates f P.sclf xc gc p (L.Rmat S') P.sclx P.tolx P.maxlen hscl
      (norm2_pos _ _ (fun i => (hscl i).ne') a)
      (norm2_pos _ _ (fun _ => one_ne_zero) (by
        intro h0; apply b; funext i
        have := congrFun h0 i
        simp only [Pi.zero_apply, div_eq_zero_iff] at this
        exact this.resolve_right (hscl i).ne'))
      (norm2_pos _ _ (fun _ => one_ne_zero) c) fc hmax htolx t'
    obtain ⟨o, ho⟩ := hN N le_rfl
    exact ⟨N, .ok o, by rw [ho]; rfl⟩
  unfold rootvecQNewton
  dsimp only
  split_ifs with h1
  · exact ⟨0, _, fun _ _ => rfl⟩
  · exact qnLoop_terminates f P jacEval hg P.maxiter 0 _

/-! ### Line search -/

/-- **C06**. A successful line search returns `xp = xc + λ p'`, `0 < λ ≤ 1`, where `p'` is the given direction shortened to scaled
length at most `maxlen`, with `fp = f xp` and the sufficient decrease (Armijo) condition; a failed one returns `xc`. -/
theorem C06_line_search_armijo (fuel : ℕ) (f : Vec n → Vec n) (sclf xc fc gc p : Vec n) (tolx : ℝ) (sclx : Vec n)
    (maxlen : ℝ) (hmax : 0 ≤ maxlen) (hdesc : ∑ i, gc i * p i ≤ 0) (o : GMOut n)
    (h : lineSearch fuel f sclf xc fc gc p tolx sclx maxlen = some o) :
    (o.success = true → ∃ lam c : ℝ, 0 < lam ∧ lam ≤ 1 ∧ 0 ≤ c ∧ c ≤ 1 ∧ (√(∑ i, (sclx i * p i) ^ 2) ≤ maxlen → c = 1) ∧
      √(∑ i, (sclx i * (c * p i)) ^ 2) ≤ maxlen ∧
      o.xp = (fun i => xc i + lam * (c * p i)) ∧ o.fp = f o.xp ∧
      1 / 2 * ∑ i, (sclf i * f o.xp i) ^ 2 ≤ 1 / 2 * ∑ i, (sclf i * fc i) ^ 2 + 1 / 10 ^ 4 * lam * ∑ i, gc i * (c * p i)) ∧
    (o.success = false → o.xp = xc) ∧ o.nfeval = o.calls.length ∧ 1 ≤ o.nfeval := by
  have hslope := lineSearch_slope gc p sclx maxlen hmax hdesc
  unfold lineSearch at h
  dsimp only at h
  obtain ⟨s1, s2, new, s3, s4, s5⟩ :=
    lsLoop_spec _ _ _ _ _ _ _ _ _ _ _ _ _ _ _ _ (by norm_num) (fun _ => le_rfl) (fun _ => rfl) h
  refine ⟨fun hs => ?_, fun hs => (s2 hs).1, ?_, ?_⟩
  · obtain ⟨lam, l1, l2, l3, l4, l5⟩ := s1 hs
    have hc : ∃ c : ℝ, 0 ≤ c ∧ c ≤ 1 ∧ (√(∑ i, (sclx i * p i) ^ 2) ≤ maxlen → c = 1) ∧
        √(∑ i, (sclx i * (c * p i)) ^ 2) ≤ maxlen ∧
        (if norm2 sclx p > maxlen then fun i => p i * (maxlen / norm2 sclx p) else p) = fun i => c * p i := by
      by_cases hn : norm2 sclx p > maxlen
      · have hn0 : 0 < norm2 sclx p := lt_of_le_of_lt hmax hn
        refine ⟨maxlen / norm2 sclx p, by positivity, ?_, fun h' => absurd hn (not_lt.mpr h'), ?_, ?_⟩
        · rw [div_le_one hn0]; exact hn.le
        · have := norm2_smul sclx p (maxlen / norm2 sclx p) (by positivity)
          rw [div_mul_cancel₀ _ hn0.ne'] at this
          exact this.le
        · rw [if_pos hn]; funext i; ring
      · refine ⟨1, by norm_num, le_rfl, fun _ => rfl, ?_, ?_⟩
        · simp only [one_mul]; exact not_lt.mp hn
        · rw [if_neg hn]; funext i; ring
    obtain ⟨c, c1, c2, c3, c4, c5⟩ := hc
    rw [c5] at l3 l5 hslope
    refine ⟨lam, c, l1, l2 (by rw [c5]; exact hslope), c1, c2, c3, c4, l3, l4, ?_⟩
    rw [← l4]
    exact l5
  · rw [s4, s3]; simp
  · rw [s4]; omega

/-- **C06**. Every backtrack multiplies the step by a factor in `[0.1, 0.51]` (first) or `[0.1, 0.5]` (later). -/
theorem C06_backtrack_factor (slope fNc fNp lam : ℝ) (hl : 0 < lam) :
    (slope ≤ 0 → fNc + 1 / 10 ^ 4 * 1 * slope < fNp →
      1 / 10 ≤ nextLambda 1 (lambdaTemp slope fNc 1 fNp none) ∧
        nextLambda 1 (lambdaTemp slope fNc 1 fNp none) ≤ 51 / 100) ∧
    (∀ q, 1 / 10 * lam ≤ nextLambda lam (lambdaTemp slope fNc lam fNp (some q)) ∧
      nextLambda lam (lambdaTemp slope fNc lam fNp (some q)) ≤ 1 / 2 * lam) := by
  refine ⟨fun hs hA => ⟨?_, nextLambda_first _ _ _ hs (not_le.mpr hA)⟩, fun q => ⟨nextLambda_ge _ _, nextLambda_later _ _ _ _ hl _⟩⟩
  have := nextLambda_ge 1 (lambdaTemp slope fNc 1 fNp none)
  linarith

/-- **C06**. The line search stops: if `p = 0`, or `0.51 · 2⁻ᵏ` times the largest relative component of the step is below `tolx`,
at most `k + 2` evaluations of `f` are made, for any function. -/
theorem C06_line_search_terminates (f : Vec n → Vec n) (sclf xc fc gc p : Vec n) (tolx : ℝ) (sclx : Vec n)
    (maxlen : ℝ) (hmax : 0 ≤ maxlen) (htol : 0 < tolx) (hscl : ∀ i, 0 < sclx i) (hdesc : ∑ i, gc i * p i ≤ 0) (k : ℕ)
    (hk : 51 / 100 * (1 / 2) ^ k * relMax p xc sclx < tolx) (fuel : ℕ) (hf : k + 2 ≤ fuel) :
    ∃ o, lineSearch fuel f sclf xc fc gc p tolx sclx maxlen = some o ∧ o.nfeval ≤ k + 2 := by
  have hslope := lineSearch_slope gc p sclx maxlen hmax hdesc
  unfold lineSearch
  dsimp only
  apply lsLoop_terminates _ _ _ _ _ _ _ _ _ _ k fuel hslope hf
  intro l hl
  unfold belowMin
  by_cases hM : relMax (if norm2 sclx p > maxlen then fun i => p i * (maxlen / norm2 sclx p) else p) xc sclx = 0
  · rw [if_pos hM]; exact htol
  · rw [if_neg hM]
    have hM0 := lt_of_le_of_ne (relMax_nonneg _ _ _) (Ne.symm hM)
    rw [lt_div_iff₀ hM0]
    have hle : relMax (if norm2 sclx p > maxlen then fun i => p i * (maxlen / norm2 sclx p) else p) xc sclx ≤ relMax p xc sclx := by
      split_ifs with hn
      · have hn0 : 0 < norm2 sclx p := lt_of_le_of_lt hmax hn
        have hc1 : maxlen / norm2 sclx p ≤ 1 := by rw [div_le_one hn0]; exact hn.le
        have hc0 : 0 ≤ maxlen / norm2 sclx p := by positivity
        refine relMax_le _ _ _ _ (relMax_nonneg _ _ _) fun i => le_trans ?_ (le_relMax p xc sclx i)
        refine div_le_div_of_nonneg_right ?_ (scale_pos xc sclx hscl i).le
        rw [abs_mul, abs_of_nonneg hc0]
        nlinarith [abs_nonneg (p i)]
      · exact le_rfl
    have h0 : (0 : ℝ) ≤ 51 / 100 * (1 / 2) ^ k := by positivity
    calc _ ≤ (51 / 100 * (1 / 2) ^ k) * relMax (if norm2 sclx p > maxlen then fun i => p i * (maxlen / norm2 sclx p) else p) xc sclx :=
          mul_le_mul_of_nonneg_right hl hM0.le
      _ ≤ 51 / 100 * (1 / 2) ^ k * relMax p xc sclx := mul_le_mul_of_nonneg_left hle h0
      _ < tolx := hk

/-! ### Dogleg -/

/-- **C73**. A successful dogleg step returns `fp = f xp` with the sufficient decrease condition along the step taken; a failed one
returns the current point. -/
theorem C73_dogleg_decrease (fuel : ℕ) (f : Vec n → Vec n) (sclf xc fc gc p : Vec n) (R : Fin n → Fin n → ℝ) (tolx : ℝ)
    (sclx : Vec n) (maxlen t : ℝ) (o : GMOut n) (h : dogleg fuel f sclf xc fc gc p R tolx sclx maxlen t = some o) :
    (o.success = true → o.fp = f o.xp ∧
      1 / 2 * ∑ i, (sclf i * f o.xp i) ^ 2 <
        1 / 2 * ∑ i, (sclf i * fc i) ^ 2 + 1 / 10 ^ 4 * ∑ i, gc i * (o.xp i - xc i)) ∧
    (o.success = false → o.xp = xc) ∧ o.nfeval = o.calls.length ∧ 1 ≤ o.nfeval := by
  obtain ⟨s1, s2, new, s3, s4, s5⟩ := dlLoop_spec _ _ _ _ _ _ _ _ _ _ _ _ _ _ _ _ _ _ _ _ _ (by intro h; simp at h) h
  refine ⟨fun hs => ?_, fun hs => (s2 hs).1, ?_, ?_⟩
  · obtain ⟨a, b⟩ := s1 hs
    refine ⟨a, ?_⟩
    rw [← a]; exact b
  · rw [s4, s3]; simp
  · rw [s4]; omega

/-- **C73**. Enlarging the trust region never makes things worse: a trial from the exploratory state that is accepted, or explored further, has a merit no larger
than the point explored before (which is returned if the trial is not better). -/
theorem C73_exploration (f : Vec n → Vec n) (sclf : Vec n) (fNc : ℝ) (xc gc : Vec n) (R : Fin n → Fin n → ℝ)
    (s sclx : Vec n) (tolx maxlen trustlen : ℝ) (isnewt : Bool) (xprev : Vec n) (o : TROut n)
    (ho : updateTrust f sclf fNc xc gc R s sclx tolx maxlen trustlen isnewt xprev (f xprev) (1 / 2 * ∑ i, (sclf i * f xprev i) ^ 2) .exploratory = o)
    (h : o.state = .accepted ∨ o.state = .exploratory) :
    o.fp = f o.xp ∧ ∑ i, (sclf i * f o.xp i) ^ 2 ≤ ∑ i, (sclf i * f xprev i) ^ 2 ∧
      (o.xp = xprev ∨ ∑ i, (sclf i * f o.xp i) ^ 2 < ∑ i, (sclf i * f xprev i) ^ 2) := by
  unfold updateTrust at ho
  dsimp only at ho
  split_ifs at ho with h1 h2 h3 h4 h5 h6 <;> subst ho <;> dsimp only at h ⊢
  · exact ⟨rfl, le_rfl, .inl rfl⟩
  · simp at h
  · simp at h
  all_goals
    have hlt : ∑ i, (sclf i * f (fun i => xc i + s i) i) ^ 2 < ∑ i, (sclf i * f xprev i) ^ 2 := by
      by_contra hc
      push Not at hc
      refine h1 ⟨rfl, .inl ?_⟩
      unfold merit
      linarith
    exact ⟨rfl, hlt.le, .inr hlt⟩

/-- **C73**. The dogleg step never leaves the trust region: it is the Newton step when that fits, otherwise its scaled length is
exactly the radius. -/
theorem C73_dogleg_step_length (gc p : Vec n) (R : Fin n → Fin n → ℝ) (sclx : Vec n) (maxlen t : ℝ) (first : Bool)
    (hscl : ∀ i, 0 < sclx i) (ht : 0 < t) (hp : p ≠ 0) (hg : gc ≠ 0)
    (hR : (fun i => ∑ j, R i j * (gc j / sclx j ^ 2)) ≠ 0) :
    let d := doglegStep gc p R sclx (√(∑ i, (sclx i * p i) ^ 2)) maxlen t first
    √(∑ i, (sclx i * d.2.1 i) ^ 2) ≤ t ∧ d.2.2 = √(∑ i, (sclx i * d.2.1 i) ^ 2) ∧
      (√(∑ i, (sclx i * p i) ^ 2) ≤ t → d.2.1 = p) ∧
      (t < √(∑ i, (sclx i * p i) ^ 2) → √(∑ i, (sclx i * d.2.1 i) ^ 2) = t) := by
  intro d
  obtain ⟨l1, l2, l3, l4⟩ := doglegStep_length gc p R sclx maxlen t first hscl (norm2_pos _ _ (fun i => (hscl i).ne') hp)
      (norm2_pos _ _ (fun _ => one_ne_zero) (by
        intro h0; apply hg; funext i
        have := congrFun h0 i
        simp only [Pi.zero_apply, div_eq_zero_iff] at this
        exact this.resolve_right (hscl i).ne'))
      (norm2_pos _ _ (fun _ => one_ne_zero) hR) (Or.inl ht) d rfl
  refine ⟨by rw [show √(∑ i, (sclx i * d.2.1 i) ^ 2) = d.2.2 from l1]; exact l3 ht, l1.symm, ?_, ?_⟩
  · intro h
    simp only [d, doglegStep]
    rw [if_pos h]
  · intro h
    rw [show √(∑ i, (sclx i * d.2.1 i) ^ 2) = d.2.2 from l1]
    apply l4 ht
    simp only [d, doglegStep]
    rw [if_neg (not_le.mpr h)]
    split_ifs <;> rfl

/-- **C73**. Every dogleg step, for any radius, is a direction along which the model does not increase, if the Newton step is. -/
theorem C73_dogleg_descent (gc p : Vec n) (R : Fin n → Fin n → ℝ) (sclx : Vec n) (maxlen t : ℝ) (first : Bool)
    (hscl : ∀ i, 0 < sclx i) (ht : 0 < t) (hp : p ≠ 0) (hg : gc ≠ 0)
    (hR : (fun i => ∑ j, R i j * (gc j / sclx j ^ 2)) ≠ 0) (hdesc : ∑ i, gc i * p i ≤ 0) :
    ∑ i, gc i * (doglegStep gc p R sclx (√(∑ i, (sclx i * p i) ^ 2)) maxlen t first).2.1 i ≤ 0 :=
  doglegStep_slope gc p R sclx maxlen t first hscl (norm2_pos _ _ (fun i => (hscl i).ne') hp)
    (norm2_pos _ _ (fun _ => one_ne_zero) (by
        intro h0; apply hg; funext i
        have := congrFun h0 i
        simp only [Pi.zero_apply, div_eq_zero_iff] at this
        exact this.resolve_right (hscl i).ne'))
    (norm2_pos _ _ (fun _ => one_ne_zero) hR) hdesc (Or.inl ht)

/-! ### Broyden update -/

/-- **C74**. The Broyden update satisfies the secant equation up to the rounding filter: the new scaled Jacobian maps the last step
to the last change of the scaled function, with an error below `eps (|fp| + |fc|)` per scaled component; it agrees with the old
one on all directions orthogonal (in the `x` scaling) to the step. -/
theorem C74_broyden_secant (B : Fin n → Fin n → ℝ) (xc xp fc fp sclx sclf : Vec n) (hne : xp ≠ xc)
    (hx : ∀ i, 0 < sclx i) (hf : ∀ i, 0 < sclf i) :
    (∀ i, |∑ j, broydenUpdate B xc xp fc fp sclx sclf i j * (xp j - xc j) - sclf i * (fp i - fc i)| ≤
      1 / 2 ^ 52 * (sclf i * (|fp i| + |fc i|))) ∧
    (∀ i, ¬ |sclf i * (fp i - fc i) - ∑ j, B i j * (xp j - xc j)| < 1 / 2 ^ 52 * sclf i * (|fp i| + |fc i|) →
      ∑ j, broydenUpdate B xc xp fc fp sclx sclf i j * (xp j - xc j) = sclf i * (fp i - fc i)) ∧
    (∀ z : Vec n, ∑ j, sclx j ^ 2 * (xp j - xc j) * z j = 0 →
      ∀ i, ∑ j, broydenUpdate B xc xp fc fp sclx sclf i j * z j = ∑ j, B i j * z j) := by
  have hst : dot (fun j => xp j - xc j) (fun j => (xp j - xc j) * sclx j ^ 2) ≠ 0 := by
    have : dot (fun j => xp j - xc j) (fun j => (xp j - xc j) * sclx j ^ 2) = norm2 sclx (fun j => xp j - xc j) ^ 2 := by
      rw [norm2_sq]; unfold dot; exact Finset.sum_congr rfl fun i _ => by ring
    rw [this]
    have := norm2_pos sclx (fun j => xp j - xc j) (fun i => (hx i).ne') (by
      intro h; apply hne; funext i; have := congrFun h i; simp only [Pi.zero_apply] at this; linarith)
    positivity
  have key : ∀ (z : Vec n) i, ∑ j, broydenUpdate B xc xp fc fp sclx sclf i j * z j =
      ∑ j, B i j * z j + broydenW B xc xp fc fp sclf i *
        ((∑ j, sclx j ^ 2 * (xp j - xc j) * z j) / dot (fun j => xp j - xc j) (fun j => (xp j - xc j) * sclx j ^ 2)) := by
    intro z i
    rw [div_eq_mul_inv, Finset.sum_mul, Finset.mul_sum, ← Finset.sum_add_distrib]
    refine Finset.sum_congr rfl fun j _ => ?_
    unfold broydenUpdate
    dsimp only
    ring
  have hs : ∑ j, sclx j ^ 2 * (xp j - xc j) * (xp j - xc j) =
      dot (fun j => xp j - xc j) (fun j => (xp j - xc j) * sclx j ^ 2) := by
    unfold dot; exact Finset.sum_congr rfl fun i _ => by ring
  have k2 : ∀ i, ∑ j, broydenUpdate B xc xp fc fp sclx sclf i j * (xp j - xc j) - sclf i * (fp i - fc i) =
      broydenW B xc xp fc fp sclf i - (sclf i * (fp i - fc i) - ∑ j, B i j * (xp j - xc j)) := by
    intro i
    rw [key (fun j => xp j - xc j) i, hs, div_self hst]; ring
  refine ⟨fun i => ?_, fun i hi => ?_, fun z hz i => ?_⟩
  · rw [k2]
    unfold broydenW eps matVec
    dsimp only
    split_ifs with hw
    · rw [zero_sub, abs_neg]; linarith
    · rw [sub_self, abs_zero]
      have := hf i
      positivity
  · have := k2 i
    unfold broydenW eps matVec at this
    dsimp only at this
    rw [if_neg hi, sub_self] at this
    linarith
  · rw [key, hz]; simp

/-! ### Non-vacuity -/

/-- Scalar identity function; exact linear algebra for `J = 1`. -/
def exL : LinAlg 1 where
  S := Unit
  factor := fun _ => some ()
  solve := fun _ fc => .ok (fun i => -fc i, fc, ())
  Rmat := fun _ _ _ => 1
  broyden := fun _ _ _ _ S => .ok S

noncomputable def exP (gm : Global) : QParams 1 :=
  ⟨1 / 10 ^ 9, 1 / 10 ^ 6, fun _ => 1, fun _ => 1, 10, 1000, gm, false, true, 5⟩

/-- `f x = x` from `x0 = 1` is solved in one line search step. -/
theorem exRun : rootvecQNewton (fun x => x) exL (exP .lineSearch) (fun _ _ => (fun _ _ => 1, [])) (fun _ => 1) (-1) =
    some (.ok (⟨true, .tolf, 2, 1, 1, fun _ => 0, fun _ => 0⟩, [fun _ => 1, fun _ => 0])) := by
  have h1 : ¬ scaledNormLe (exP .lineSearch).sclf (fun _ => (1 : ℝ)) (1 / 100 * (exP .lineSearch).tolf) := by
    intro h
    have := h 0
    norm_num [exP] at this
  have hn : norm2 (fun _ : Fin 1 => (1 : ℝ)) (fun _ => -1) = 1 := by simp [norm2]
  have hls : lineSearch 5 (fun x : Vec 1 => x) (fun _ => 1) (fun _ => 1) (fun _ => 1) (fun _ => 1) (fun _ => -1) (1 / 10 ^ 9)
      (fun _ => 1) 1000 = some ⟨true, false, 1, fun _ => 0, fun _ => 0, 0, [fun _ => 0]⟩ := by
    unfold lineSearch
    dsimp only
    rw [hn, if_neg (by norm_num), if_neg (by norm_num)]
    unfold lsLoop
    simp only [merit, dot]
    rw [if_pos (by norm_num)]
    norm_num
  have h2 : scaledNormLe (fun _ : Fin 1 => (1 : ℝ)) (fun _ => 0) (1 / 10 ^ 6) := by intro i; norm_num
  unfold rootvecQNewton
  dsimp only
  rw [if_neg h1]
  show qnLoop (fun x => x) exL (exP .lineSearch) _ 10 0 _ = _
  have hp : ∀ s : QState 1 exL, s.xc = (fun _ => 1) → s.fc = (fun _ => 1) → s.S = none → s.nfeval = 1 → s.njeval = 1 →
      s.calls = [fun _ => 1] →
      pass (fun x => x) exL (exP .lineSearch) (fun _ _ => (fun _ _ => 1, [])) 1 s =
        some (.stop ⟨true, .tolf, 2, 1, 1, fun _ => 0, fun _ => 0⟩ [fun _ => 1, fun _ => 0]) := by
    intro s e1 e2 e3 e4 e5 e6
    unfold pass
    simp only [exP, exL, globalStep, true_or, if_true, e1, e2, hls, Option.map_some]
    unfold afterStep
    simp only [h2, e4, e5, e6]
    simp
  unfold qnLoop
  rw [hp _ rfl rfl rfl rfl rfl rfl]

example : JacCalls (exP .lineSearch) (fun _ _ => (fun _ _ => 1, [])) := fun _ _ => rfl

example : (∀ i, |(1 : ℝ) * (fun _ : Fin 1 => (0 : ℝ)) i| ≤ 1 / 10 ^ 6) :=
  ((C05_qnewton_certificate _ _ _ _ _ _ (fun _ _ => rfl) (fun _ => one_pos) (by norm_num [exP]) _ _ exRun).1 rfl).2

example : ∃ r hist, History (fun x => x) exL (exP .lineSearch) (fun _ => 1) hist ∧ Explains (exP .lineSearch) (fun _ => 1) hist r :=
  ⟨_, C05_reasons _ _ _ _ _ _ (fun _ => one_pos) _ _ exRun⟩

/-- Hypothesis of `C73_exploration`: `f x = x` from `x = 4`; `x = 3` has been explored, the trial `x = 2` is better. -/
example : (updateTrust (fun x : Vec 1 => x) (fun _ => 1) 8 (fun _ => 4) (fun _ => 4) (fun _ _ => 1) (fun _ => -2) (fun _ => 1) (1 / 10 ^ 9) 1000 2 true
    (fun _ => 3) (fun _ => 3) (1 / 2 * ∑ i, ((fun _ => 1 : Vec 1) i * (fun _ => 3 : Vec 1) i) ^ 2) .exploratory).state = .accepted := by
  norm_num [updateTrust, merit, dot]

/-- The hypotheses of the line search theorems hold for this linear algebra. -/
example : ∑ i, ((exP .lineSearch).sclf i * (fun _ => 0 : Vec 1) i) ^ 2 ≤ ∑ i, ((exP .lineSearch).sclf i * (fun _ => 1 : Vec 1) i) ^ 2 :=
  C05_linesearch_never_worse _ _ _ _ _ _ rfl (fun _ => one_pos) (by norm_num [exP]) (fun S fc p gc S' h => by
    simp only [exL, Except.ok.injEq, Prod.mk.injEq] at h
    obtain ⟨rfl, rfl, _⟩ := h
    simp only [Finset.univ_unique, Finset.sum_singleton]
    nlinarith [sq_nonneg (fc default)]) _ _ exRun

example : ∃ N out, ∀ fuel, N ≤ fuel →
    rootvecQNewton (fun x i => Real.sqrt (x i ^ 2 + 1)) exL { exP .lineSearch with fuel := fuel } (fun _ _ => (fun _ _ => 1, []))
      (fun _ => 1) (-1) = some out :=
  C05_linesearch_terminates _ _ _ _ _ _ rfl (by norm_num [exP]) (by norm_num [exP]) (fun S fc p gc S' h => by
    simp only [exL, Except.ok.injEq, Prod.mk.injEq] at h
    obtain ⟨rfl, rfl, _⟩ := h
    simp only [Finset.univ_unique, Finset.sum_singleton]
    nlinarith [sq_nonneg (fc default)])

/-- Linear algebra whose step and gradient never vanish (the solver refuses a zero residual). -/
noncomputable def exL' : LinAlg 1 where
  S := Unit
  factor := fun _ => some ()
  solve := fun _ fc => if fc 0 = 0 then .error .ValueError else .ok (fun i => -fc i, fc, ())
  Rmat := fun _ _ _ => 1
  broyden := fun _ _ _ _ S => .ok S

example : ∃ N out, ∀ fuel, N ≤ fuel →
    rootvecQNewton (fun x i => x i ^ 3 - 2) exL' { exP .dogleg with fuel := fuel } (fun _ _ => (fun _ _ => 1, []))
      (fun _ => 1) (-1) = some out :=
  C05_dogleg_terminates _ _ _ _ _ _ rfl (fun _ => one_pos) (by norm_num [exP]) (by norm_num [exP]) (fun S fc p gc S' h => by
    simp only [exL'] at h
    split_ifs at h with h0
    simp only [Except.ok.injEq, Prod.mk.injEq] at h
    obtain ⟨rfl, rfl, _⟩ := h
    refine ⟨fun h => h0 ?_, fun h => h0 ?_, fun h => h0 ?_⟩
    · have := congrFun h 0; simpa using this
    · have := congrFun h 0; simpa using this
    · have := congrFun h 0; simpa [exL', exP] using this)

/-- `C05_dogleg_never_worse` applies to every run with this linear algebra. -/
example (r : QResult 1) (calls : List (Vec 1)) (h : rootvecQNewton (fun x i => x i ^ 3 - 2) exL' { exP .dogleg with fuel := 100 }
      (fun _ _ => (fun _ _ => 1, [])) (fun _ => 1) (-1) = some (.ok (r, calls))) : |r.x 0 ^ 3 - 2| ≤ 1 := by
  have := C05_dogleg_never_worse _ _ _ _ _ _ rfl (fun _ => one_pos) (by norm_num [exP]) (fun S fc p gc S' h => by
    simp only [exL'] at h
    split_ifs at h with h0
    simp only [Except.ok.injEq, Prod.mk.injEq] at h
    obtain ⟨rfl, rfl, _⟩ := h
    refine ⟨fun h => h0 ?_, fun h => h0 ?_, fun h => h0 ?_, ?_⟩
    · have := congrFun h 0; simpa using this
    · have := congrFun h 0; simpa using this
    · have := congrFun h 0; simpa [exL', exP] using this
    · simp only [Finset.univ_unique, Finset.sum_singleton]
      nlinarith [sq_nonneg (fc default)]) r calls h
  simp only [exP, Finset.univ_unique, Finset.sum_singleton, Fin.default_eq_zero, Fin.isValue, one_mul, one_pow] at this
  rw [← abs_one, ← sq_le_sq]
  linarith

/-- An unknown method raises. -/
example : rootvecQNewton (fun x => x) exL (exP .unknown) (fun _ _ => (fun _ _ => 1, [])) (fun _ => 1) (-1) =
    some (.error .ValueError) :=
  (C05_refusal _ _ _ _ _ _ ⟨0, by norm_num [exP]⟩).2.2 () _ rfl (by norm_num [exP]) rfl rfl

/-- `C06_line_search_terminates` and `C06_line_search_armijo` apply to `f x = x`, `p = -1`. -/
example : ∃ o, lineSearch 40 (fun x : Vec 1 => x) (fun _ => 1) (fun _ => 1) (fun _ => 1) (fun _ => 1) (fun _ => -1) (1 / 10 ^ 9)
      (fun _ => 1) 1000 = some o ∧ o.nfeval ≤ 40 :=
  C06_line_search_terminates _ _ _ _ _ _ _ _ _ (by norm_num) (by norm_num) (fun _ => one_pos) (by simp) 38
    (by norm_num [relMax, List.finRange]) 40 le_rfl

/-- Linear algebra for `J = 10¹²`. -/
noncomputable def badL : LinAlg 1 where
  S := Unit
  factor := fun _ => some ()
  solve := fun _ fc => .ok (fun i => -(fc i / 10 ^ 12), fun i => 10 ^ 12 * fc i, ())
  Rmat := fun _ _ _ => 10 ^ 12
  broyden := fun _ _ _ _ S => .ok S

/-- Jumps from 1 to 2 just left of 0. -/
noncomputable def badF (x : Vec 1) : Vec 1 := fun _ => if x 0 = 0 then 1 else 2

/-- **C05**, negation. After a failed global step the reported `f` need not be the function at the reported `x`: here `x = 0`,
`f(0) = 1`, but the result holds `f = 2`. -/
theorem C05_failed_step_coherence_false :
    ∃ (r : QResult 1) (calls : List (Vec 1)),
      rootvecQNewton badF badL (exP .lineSearch) (fun _ _ => (fun _ _ => 10 ^ 12, [])) (fun _ => 0) (-1) = some (.ok (r, calls)) ∧
      r.success = false ∧ r.message = .globalFail ∧ r.x = (fun _ => 0) ∧ r.f = (fun _ => 2) ∧ badF r.x = (fun _ => 1) := by
  have hf0 : badF (fun _ => 0) = fun _ => 1 := by funext i; simp [badF]
  have hf1 : badF (fun _ => -1 / 10 ^ 12) = fun _ => 2 := by funext i; simp [badF]
  refine ⟨⟨false, .globalFail, 2, 1, 1, fun _ => 0, fun _ => 2⟩, [fun _ => 0, fun _ => -1 / 10 ^ 12], ?_, rfl, rfl, rfl, rfl, hf0⟩
  have h1 : ¬ scaledNormLe (exP .lineSearch).sclf (fun _ => (1 : ℝ)) (1 / 100 * (exP .lineSearch).tolf) := by
    intro h
    have := h 0
    norm_num [exP] at this
  have hn : norm2 (fun _ : Fin 1 => (1 : ℝ)) (fun _ => -(1 / 10 ^ 12)) = 1 / 10 ^ 12 := by
    unfold norm2
    rw [Finset.univ_unique, Finset.sum_singleton,
      show ((1 : ℝ) * -(1 / 10 ^ 12)) ^ 2 = (1 / 10 ^ 12) ^ 2 by ring, Real.sqrt_sq (by positivity)]
  have hr : relMax (fun _ : Fin 1 => -(1 / 10 ^ 12 : ℝ)) (fun _ => 0) (fun _ => 1) = 1 / 10 ^ 12 := by
    simp [relMax, List.finRange]
  have hls : lineSearch 5 badF (fun _ => 1) (fun _ => 0) (fun _ => 1) (fun _ => 10 ^ 12 * 1) (fun _ => -(1 / 10 ^ 12)) (1 / 10 ^ 9)
      (fun _ => 1) 1000 = some ⟨false, false, 1, fun _ => 0, fun _ => 2, 0, [fun _ => -1 / 10 ^ 12]⟩ := by
    have hx : (fun i : Fin 1 => (0 : ℝ) + 1 * -(1 / 10 ^ 12)) = fun _ => -1 / 10 ^ 12 := by funext i; ring
    unfold lineSearch
    dsimp only
    rw [hn, if_neg (by norm_num), if_neg (by norm_num)]
    unfold lsLoop
    dsimp only
    rw [hx, hf1, hr]
    have hb : belowMin 1 (1 / 10 ^ 9) (1 / 10 ^ 12) := by
      unfold belowMin; rw [if_neg (by norm_num)]; norm_num
    rw [if_neg (by norm_num [merit, dot]), if_pos hb]
    rfl
  unfold rootvecQNewton
  dsimp only
  rw [hf0, if_neg h1]
  show qnLoop badF badL (exP .lineSearch) _ 10 0 _ = _
  have hp : ∀ s : QState 1 badL, s.xc = (fun _ => 0) → s.fc = (fun _ => 1) → s.restart = true → s.nfeval = 1 → s.njeval = 1 →
      s.calls = [fun _ => 0] →
      pass badF badL (exP .lineSearch) (fun _ _ => (fun _ _ => 10 ^ 12, [])) 1 s =
        some (.stop ⟨false, .globalFail, 2, 1, 1, fun _ => 0, fun _ => 2⟩ [fun _ => 0, fun _ => -1 / 10 ^ 12]) := by
    intro s e1 e2 e3 e4 e5 e6
    unfold pass
    simp only [exP, badL, globalStep, true_or, if_true, e1, e2, hls, Option.map_some]
    unfold afterStep
    simp only [e3, e4, e5, e6]
    simp
  unfold qnLoop
  rw [hp _ rfl rfl rfl rfl rfl rfl]

/-- `C05_refusal` applies to `f x = x` from `x0 = 1`. -/
example : rootvecQNewton (fun x => x) exL { exP .lineSearch with maxiter := 0 } (fun _ _ => (fun _ _ => 1, [])) (fun _ => 1) (-1) =
    some (.error .NameError) :=
  (C05_refusal _ _ _ _ _ _ ⟨0, by norm_num [exP]⟩).1 rfl

/-- Hypotheses of `C73_dogleg_step_length`: gradient `(1, 1)`, Newton step `(-3, -4)`, identity `R`, radius 2. -/
example :
    √(∑ i, ((fun _ : Fin 2 => (1 : ℝ)) i * (doglegStep (fun _ : Fin 2 => (1 : ℝ)) ![-3, -4] (fun i j => if i = j then 1 else 0)
      (fun _ => 1) (√(∑ i, ((fun _ : Fin 2 => (1 : ℝ)) i * (![-3, -4] : Fin 2 → ℝ) i) ^ 2)) 100 2 true).2.1 i) ^ 2) ≤ 2 :=
  (C73_dogleg_step_length _ _ _ (fun _ => 1) 100 2 true (fun _ => one_pos) (by norm_num)
    (by intro h; have := congrFun h 0; simp at this) (by intro h; have := congrFun h 0; simp at this)
    (by intro h; have := congrFun h 0; norm_num [Fin.sum_univ_two] at this)).1

/-- `C73_dogleg_descent` for the same data. -/
example :
    ∑ i, (1 : ℝ) * (doglegStep (fun _ : Fin 2 => (1 : ℝ)) ![-3, -4] (fun i j => if i = j then 1 else 0)
      (fun _ => 1) (√(∑ i, ((fun _ : Fin 2 => (1 : ℝ)) i * (![-3, -4] : Fin 2 → ℝ) i) ^ 2)) 100 2 true).2.1 i ≤ 0 :=
  C73_dogleg_descent (fun _ => 1) _ _ (fun _ => 1) 100 2 true (fun _ => one_pos) (by norm_num)
    (by intro h; have := congrFun h 0; simp at this) (by intro h; have := congrFun h 0; simp at this)
    (by intro h; have := congrFun h 0; norm_num [Fin.sum_univ_two] at this) (by norm_num [Fin.sum_univ_two])

/-- Hypotheses of `C74_broyden_secant`. -/
example : ∑ j, broydenUpdate (fun _ _ : Fin 1 => (1 : ℝ)) (fun _ => 0) (fun _ => 1) (fun _ => 0) (fun _ => 3) (fun _ => 1) (fun _ => 1)
    0 j * (1 - 0) = 1 * (3 - 0) :=
  (C74_broyden_secant _ _ _ _ _ _ _ (by intro h; have := congrFun h 0; simp at this) (fun _ => one_pos) (fun _ => one_pos)).2.1 0
    (by norm_num)

end Verif.RootsVector
