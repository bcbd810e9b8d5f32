import Verif.Lemmas.FixPoint

/-!
# Properties C07–C09: fixed-point solvers
-/

set_option linter.unusedSectionVars false

namespace Verif.FixPoint

variable {α : Type*} [Field α] [LinearOrder α] [IsStrictOrderedRing α] {n : ℕ}

/-- **C07.** Certificate of `fixpoint_wegstein`: the evaluated points are exactly the bounded Wegstein sequence, the
returned `f` is `g(x) - x` at the returned `x`, it stops at the first converged iterate, success means the scaled residual is within `tolx` in every component,
failure means it is not and the iteration limit was used up. -/
theorem C07_wegstein_certificate (g : (Fin n → α) → (Fin n → α)) (x0 sclx : Fin n → α) (tolx qmin qmax : α)
    (wait maxiter : ℕ) (r : FResult α n) (calls : List (Fin n → α))
    (h : fixpointWegstein g x0 sclx tolx qmin qmax wait maxiter = .ok (r, calls)) :
    r.nfeval = calls.length ∧ r.niter = r.nfeval ∧ 1 ≤ r.niter ∧ r.niter ≤ maxiter ∧
    calls = (List.range r.nfeval).map (wegsteinSeq g qmin qmax (max wait 1) x0) ∧
    calls.getLast? = some r.x ∧ r.f = (fun i => g r.x i - r.x i) ∧
    (∀ j, j + 1 < r.niter → ∃ i, tolx < |sclx i * (g (wegsteinSeq g qmin qmax (max wait 1) x0 j) i -
      wegsteinSeq g qmin qmax (max wait 1) x0 j i)|) ∧
    (r.success = true → r.message = .tolx ∧ ∀ i, |sclx i * (g r.x i - r.x i)| ≤ tolx) ∧
    (r.success = false → r.message = .maxiter ∧ r.niter = maxiter ∧ ∃ i, tolx < |sclx i * (g r.x i - r.x i)|) := by
  obtain ⟨h1, h2, h3, h4, h5, h6, h6', h7, h8⟩ := wegsteinLoop_spec g x0 sclx tolx qmin qmax (max wait 1) maxiter
    maxiter 0 x0 none [] r calls (by simp) (by simp) (by split_ifs <;> rfl) (by simp) (by simp) (by simp) h
  have hl : calls.length = r.niter := by rw [h4]; simp
  refine ⟨by omega, h1.symm, h2, h3, by rw [h1]; exact h4, ?_, h6, h6', ?_, ?_⟩
  · obtain ⟨q, hq⟩ : ∃ q, r.niter = q + 1 := ⟨r.niter - 1, by omega⟩
    rw [h4, h5, hq, List.range_succ, List.map_append]
    simp
  · intro hs; have := h7 hs; rw [h6] at this; exact this
  · intro hs; have := h8 hs; rw [h6] at this; exact this

/-- **C07.** `fixpoint_wegstein` raises (unbound variable) exactly when no iteration is allowed. -/
theorem C07_wegstein_error_iff (g : (Fin n → α) → (Fin n → α)) (x0 sclx : Fin n → α) (tolx qmin qmax : α)
    (wait maxiter : ℕ) :
    (∃ p, fixpointWegstein g x0 sclx tolx qmin qmax wait maxiter = .ok p) ↔ maxiter ≠ 0 := by
  constructor
  · rintro ⟨p, hp⟩ rfl
    simp [fixpointWegstein, wegsteinLoop] at hp
  · intro h
    exact wegsteinLoop_ok _ _ _ _ _ _ _ _ _ _ _ _ _ (Or.inr (Nat.pos_of_ne_zero h))

-- non-vacuity: a run on ℚ that succeeds
example : ∃ r calls, fixpointWegstein (n := 1) (fun x : Fin 1 → ℚ => fun _ => x 0 / 2 + 1) (fun _ => 2) (fun _ => 1) 0
    (-5) 0 1 3 = .ok (r, calls) ∧ r.success = true := by
  refine ⟨⟨true, .tolx, 1, 1, fun _ => 2, fun _ => 0⟩, [fun _ => 2], ?_, rfl⟩
  norm_num [fixpointWegstein, wegsteinLoop, scaledNormLe]

/-- **C08.** Each evaluated point but the first is, per component, an affine combination of the one before and its image, with a weight that is 0 (plain
substitution) or within the bounds; so a component that does not move under `g` is left alone. -/
theorem C08_affine_combination (g : (Fin n → α) → (Fin n → α)) (x0 sclx : Fin n → α) (tolx qmin qmax : α) (hq : qmin ≤ qmax)
    (wait maxiter : ℕ) (r : FResult α n) (calls : List (Fin n → α))
    (h : fixpointWegstein g x0 sclx tolx qmin qmax wait maxiter = .ok (r, calls)) (k : ℕ) (x x' : Fin n → α)
    (hx : calls[k]? = some x) (hx' : calls[k + 1]? = some x') (i : Fin n) :
    (∃ q, (q = 0 ∨ (max wait 1 ≤ k ∧ qmin ≤ q ∧ q ≤ qmax)) ∧ x' i = q * x i + (1 - q) * g x i) ∧
      (k < max wait 1 → x' = g x) ∧ (g x i = x i → x' i = x i) := by
  obtain ⟨_, _, _, _, h5, _⟩ := C07_wegstein_certificate g x0 sclx tolx qmin qmax wait maxiter r calls h
  have hget : ∀ j y, calls[j]? = some y → y = wegsteinSeq g qmin qmax (max wait 1) x0 j := by
    intro j y hy
    rw [h5, List.getElem?_map, Option.map_eq_some_iff] at hy
    obtain ⟨a, e1, e2⟩ := hy
    have := List.getElem?_eq_some_iff.mp e1
    obtain ⟨_, e3⟩ := this
    rw [List.getElem_range] at e3
    rw [← e2, ← e3]
  have ex := hget k x hx
  have ex' := hget (k + 1) x' hx'
  have main : (∃ q, (q = 0 ∨ (max wait 1 ≤ k ∧ qmin ≤ q ∧ q ≤ qmax)) ∧ x' i = q * x i + (1 - q) * g x i) ∧
      (k < max wait 1 → x' = g x) := by
    cases k with
    | zero =>
      have e : x' = g x := by rw [ex', ex]; rfl
      exact ⟨⟨0, .inl rfl, by rw [e]; ring⟩, fun _ => e⟩
    | succ k =>
      rw [wegsteinSeq] at ex'
      dsimp only at ex'
      rw [← ex] at ex'
      split_ifs at ex' with hk
      · exact ⟨⟨0, .inl rfl, by rw [ex']; ring⟩, fun _ => ex'⟩
      · refine ⟨⟨_, .inr ⟨by omega, ?_, ?_⟩, by rw [ex']⟩, fun h => absurd h hk⟩
        all_goals
          split_ifs <;>
            first
              | exact hq
              | exact le_rfl
              | exact le_min (le_max_right _ _) hq
              | exact min_le_right _ _
  refine ⟨main.1, main.2, fun hfix => ?_⟩
  obtain ⟨q, _, e⟩ := main.1
  rw [e, hfix]; ring

/-- **C08.** A fixed point given as start is returned at once. -/
theorem C08_fixed_start (g : (Fin n → α) → (Fin n → α)) (x0 sclx : Fin n → α) (tolx qmin qmax : α) (ht : 0 ≤ tolx)
    (wait maxiter : ℕ) (hm : maxiter ≠ 0) (hfix : g x0 = x0) :
    ∃ r, fixpointWegstein g x0 sclx tolx qmin qmax wait maxiter = .ok (r, [x0]) ∧ r.success = true ∧ r.x = x0 ∧ r.nfeval = 1 := by
  obtain ⟨m, rfl⟩ := Nat.exists_eq_succ_of_ne_zero hm
  refine ⟨⟨true, .tolx, 1, 1, x0, fun i => g x0 i - x0 i⟩, ?_, rfl, rfl, rfl⟩
  unfold fixpointWegstein wegsteinLoop
  dsimp only
  rw [if_pos (by intro i; rw [hfix]; show |sclx i * (x0 i - x0 i)| ≤ tolx; rw [sub_self, mul_zero, abs_zero]; exact ht)]
  rfl

/-- `g(x) = x/2 + 1` from the fixed point 2; and from 0 the second point is `g(0) = 1`. -/
example : ∃ r, fixpointWegstein (n := 1) (fun x : Fin 1 → ℚ => fun _ => x 0 / 2 + 1) (fun _ => 2) (fun _ => 1) 0 (-5) 0 1 3 = .ok (r, [fun _ => 2]) ∧
    r.success = true ∧ r.x = (fun _ => 2) ∧ r.nfeval = 1 :=
  C08_fixed_start _ _ _ _ _ _ le_rfl _ _ (by norm_num) (by funext i; norm_num)

example : ∃ r calls, fixpointWegstein (n := 1) (fun x : Fin 1 → ℚ => fun _ => x 0 / 2 + 1) (fun _ => 0) (fun _ => 1) 0 (-5) 0 1 2 = .ok (r, calls) ∧
    calls[0]? = some (fun _ => 0) ∧ calls[0 + 1]? = some (fun _ => 1) := by
  refine ⟨⟨false, .maxiter, 2, 2, fun _ => 1, fun _ => 1 / 2⟩, [fun _ => 0, fun _ => 1], ?_, rfl, rfl⟩
  norm_num [fixpointWegstein, wegsteinLoop, scaledNormLe, wegsteinNext]

/-- **C08.** On a component-wise affine map `g_i(x) = a_i x_i + b_i` whose factors `a_i/(a_i-1)` lie within the bounds,
the first accelerated iterate is the exact fixed point, so the solver succeeds with at most three evaluations. -/
theorem C08_wegstein_affine_exact (a b x0 sclx : Fin n → α) (tolx qmin qmax : α) (ht : 0 ≤ tolx) (wait maxiter : ℕ)
    (hw : wait ≤ 1) (hm : 3 ≤ maxiter) (ha : ∀ i, a i ≠ 1)
    (hq : ∀ i, qmin ≤ a i / (a i - 1) ∧ a i / (a i - 1) ≤ qmax)
    (hx : ∀ i, eps < |a i * x0 i + b i - x0 i|) :
    ∃ r calls, fixpointWegstein (fun x i => a i * x i + b i) x0 sclx tolx qmin qmax wait maxiter = .ok (r, calls) ∧
      r.success = true ∧ r.nfeval ≤ 3 ∧ (r.nfeval = 3 → ∀ i, r.x i = b i / (1 - a i)) := by
  obtain ⟨p, hp⟩ := (C07_wegstein_error_iff (fun x i => a i * x i + b i) x0 sclx tolx qmin qmax wait maxiter).mpr
    (by omega)
  obtain ⟨r, calls⟩ := p
  obtain ⟨h1, h2, h3, h4, h5, h6, h6', h7, h8⟩ := wegsteinLoop_spec (fun x i => a i * x i + b i) x0 sclx tolx qmin qmax
    (max wait 1) maxiter maxiter 0 x0 none [] r calls (by simp) (by simp) (by split_ifs <;> rfl) (by simp) (by simp)
    (by simp) hp
  have hwait : max wait 1 = 1 := by omega
  rw [hwait] at h4 h5
  have hs2 : wegsteinSeq (fun x i => a i * x i + b i) qmin qmax 1 x0 2 = fun i => b i / (1 - a i) := by
    unfold wegsteinSeq
    dsimp only
    rw [if_neg (by omega)]
    funext i
    have hd : a i * x0 i + b i - x0 i ≠ 0 := by
      intro h
      have h' := hx i
      rw [h, abs_zero] at h'
      exact absurd h' (not_lt.mpr eps_pos.le)
    have hslope : (a i * (a i * x0 i + b i) + b i - (a i * x0 i + b i)) / (a i * x0 i + b i - x0 i) = a i := by
      rw [div_eq_iff hd]; ring
    have e0 : wegsteinSeq (fun x i => a i * x i + b i) qmin qmax 1 x0 (0 + 1) i = a i * x0 i + b i := rfl
    have e1 : wegsteinSeq (fun x i => a i * x i + b i) qmin qmax 1 x0 0 i = x0 i := rfl
    rw [e0, e1, if_pos (hx i), hslope, if_neg (ha i), max_eq_left (hq i).1, min_eq_left (hq i).2]
    have h1 : a i - 1 ≠ 0 := sub_ne_zero.mpr (ha i)
    have h2 : 1 - a i ≠ 0 := sub_ne_zero.mpr (ha i).symm
    rw [show a i - 1 = -(1 - a i) by ring] at *
    field_simp
    ring
  -- the third evaluation has zero residual, hence at most three iterations
  have hle : r.niter ≤ 3 := by
    by_contra hgt
    obtain ⟨i, hi⟩ := h6' 2 (by omega)
    rw [hwait, hs2] at hi
    dsimp only at hi
    have h2 : 1 - a i ≠ 0 := sub_ne_zero.mpr (ha i).symm
    have hz : a i * (b i / (1 - a i)) + b i - b i / (1 - a i) = 0 := by field_simp; ring
    rw [hz, mul_zero, abs_zero] at hi
    exact absurd hi (not_lt.mpr ht)
  refine ⟨r, calls, hp, ?_, by omega, ?_⟩
  · by_contra hns
    have hns : r.success = false := by simpa using hns
    obtain ⟨_, e2, i, hi⟩ := h8 hns
    have e3 : r.niter = 3 := by omega
    rw [h6] at hi
    rw [e3] at h5
    have : r.x = fun i => b i / (1 - a i) := by rw [h5]; exact hs2
    rw [this] at hi
    have h2 : 1 - a i ≠ 0 := sub_ne_zero.mpr (ha i).symm
    have hz : a i * (b i / (1 - a i)) + b i - b i / (1 - a i) = 0 := by field_simp; ring
    dsimp only at hi
    rw [hz, mul_zero, abs_zero] at hi
    exact absurd hi (not_lt.mpr ht)
  · intro h3' i
    have e3 : r.niter = 3 := by omega
    rw [h5, e3]
    exact congrFun hs2 i

example : ∃ r calls, fixpointWegstein (fun (x : Fin 1 → ℚ) i => (1 / 2) * x i + 1) (fun _ => 0) (fun _ => 1) 0 (-5) 0 1 10
      = .ok (r, calls) ∧ r.success = true ∧ r.nfeval ≤ 3 ∧ (r.nfeval = 3 → ∀ i, r.x i = 1 / (1 - 1 / 2)) :=
  C08_wegstein_affine_exact (fun _ => 1 / 2) (fun _ => 1) (fun _ => 0) (fun _ => 1) 0 (-5) 0 le_rfl 1 10 le_rfl
    (by norm_num) (fun _ => by norm_num) (fun _ => by norm_num) (fun _ => by norm_num [eps])

/-- **C09.** Certificate of `fixpoint_anderson`, for every result of the linear-algebra back end. -/
theorem C09_anderson_certificate (g : (Fin n → α) → (Fin n → α)) (ls : ℕ → List (Fin n → α) → (Fin n → α) → LS α)
    (x0 sclx : Fin n → α) (tolx : α) (m maxiter : ℕ) (ht : 0 ≤ tolx) (r : FResult α n) (calls : List (Fin n → α))
    (h : fixpointAnderson g ls x0 sclx tolx m maxiter = .ok (r, calls)) :
    r.nfeval = calls.length ∧ r.nfeval ≤ max maxiter 1 ∧ r.niter ≤ maxiter ∧ calls.head? = some x0 ∧
    calls.getLast? = some r.x ∧ r.f = (fun i => g r.x i - r.x i) ∧
    (r.success = true → r.message = .tolx ∧ ∀ i, |sclx i * (g r.x i - r.x i)| ≤ tolx) ∧
    (r.success = false → (∃ i, tolx < |sclx i * (g r.x i - r.x i)|) ∧
      (r.message = .qr ∨ r.message = .lstsq ∨ (r.message = .maxiter ∧ r.niter = maxiter))) := by
  unfold fixpointAnderson at h
  dsimp only at h
  split_ifs at h with h1
  · simp only [Except.ok.injEq, Prod.mk.injEq] at h
    obtain ⟨rfl, rfl⟩ := h
    refine ⟨rfl, by simp, by simp, rfl, rfl, rfl, fun _ => ⟨rfl, fun i => le_trans (h1 i) ?_⟩, by simp⟩
    linarith
  · have hk : maxiter - 1 + 1 = max maxiter 1 := by omega
    obtain ⟨a1, a2, a3, a4, a5, a6, a7, a8⟩ := andersonLoop_spec g ls sclx tolx (max m 1) maxiter (maxiter - 1) 1 _ _ _
      _ _ [x0] r calls hk le_rfl rfl (by intro _ hh; omega) h
    obtain ⟨t, rfl⟩ := a4
    refine ⟨a1, by omega, a3, rfl, a5, a6, ?_, ?_⟩
    · intro hs; have := a7 hs; rw [a6] at this; exact this
    · intro hs; have := a8 hs; rw [a6] at this; exact this

/-- **C09.** `fixpoint_anderson` raises (unbound `k`) exactly when `maxiter ≤ 1` and the start is not (strictly) solved. -/
theorem C09_anderson_error_iff (g : (Fin n → α) → (Fin n → α)) (ls : ℕ → List (Fin n → α) → (Fin n → α) → LS α)
    (x0 sclx : Fin n → α) (tolx : α) (m maxiter : ℕ) :
    (∃ p, fixpointAnderson g ls x0 sclx tolx m maxiter = .ok p) ↔
      (2 ≤ maxiter ∨ ∀ i, |sclx i * (g x0 i - x0 i)| ≤ 1 / 100 * tolx) := by
  unfold fixpointAnderson
  dsimp only
  split_ifs with h1
  · exact ⟨fun _ => Or.inr h1, fun _ => ⟨_, rfl⟩⟩
  · constructor
    · rintro ⟨p, hp⟩
      left
      by_contra hlt
      have : maxiter - 1 = 0 := by omega
      rw [this] at hp
      simp [andersonLoop] at hp
    · rintro (h | h)
      · exact andersonLoop_ok _ _ _ _ _ _ _ _ _ _ _ _ _ _ _ le_rfl (Or.inr (by omega))
      · exact absurd h h1

/-- **C09.** Finite termination on affine maps `g(x) = A x + b`: if the coefficients returned by the least-squares step of
iteration `K` leave no residual (e.g. because the stored differences span it), the next iterate is an exact fixed point
and the solver stops with success after at most `K + 2` evaluations (unless the linear algebra fails before). -/
theorem C09_anderson_affine_exact (A : (Fin n → α) → (Fin n → α)) (b : Fin n → α)
    (hadd : ∀ u v, A (u + v) = A u + A v) (hsmul : ∀ (c : α) u, A (c • u) = c • A u)
    (ls : ℕ → List (Fin n → α) → (Fin n → α) → LS α) (x0 sclx : Fin n → α) (tolx : α) (ht : 0 ≤ tolx)
    (m maxiter K : ℕ) (hK1 : 1 ≤ K) (hK : K + 1 < maxiter)
    (hres : ∀ D f c, ls K D f = .gamma c → combine c D = f) :
    ∃ r calls, fixpointAnderson (fun x => A x + b) ls x0 sclx tolx m maxiter = .ok (r, calls) ∧
      ((r.success = true ∧ r.nfeval ≤ K + 2 ∧ (r.nfeval = K + 2 → A r.x + b = r.x)) ∨
        r.message = .qr ∨ r.message = .lstsq) := by
  have h0 : A 0 = 0 := by have := hsmul 0 0; simpa using this
  unfold fixpointAnderson
  dsimp only
  split_ifs with h1
  · exact ⟨_, _, rfl, Or.inl ⟨rfl, by simp, by simp⟩⟩
  · refine andersonLoop_affine A b hadd hsmul ls sclx tolx ht (max m 1) maxiter K hK hres (maxiter - 1) 1 _ _ _ _ _ _
      (by omega) le_rfl hK1 ?_ ⟨x0, rfl, rfl⟩
    generalize max m 1 = q
    induction q with
    | zero => exact List.Forall₂.nil
    | succ q ih => exact List.Forall₂.cons (by simp [h0]) ih

/-- The scalar least-squares solution `f/Δf`, an error for a zero column. -/
def scalarLS : ℕ → List (Fin 1 → ℚ) → (Fin 1 → ℚ) → LS ℚ
  | _, [d], f => if d 0 = 0 then .qrError else .gamma [f 0 / d 0]
  | _, _, _ => .qrError

-- non-vacuity: a back end meeting the hypothesis on ℚ¹
example : ∀ D f c, scalarLS 1 D f = .gamma c → combine c D = f := by
  intro D f c h
  unfold scalarLS at h
  split at h
  · split_ifs at h with h0
    simp only [LS.gamma.injEq] at h
    subst h
    funext i
    have : i = 0 := Subsingleton.elim _ _
    subst this
    simp [combine, h0]
  · simp at h

/-- **C09.** For a scalar affine map with slope `a ≠ 1` and a back end that solves the one-column least-squares problem,
the solver finds the exact fixed point `b/(1-a)` with at most three evaluations. -/
theorem C09_anderson_scalar_affine (a b x0 scl tolx : α) (ha : a ≠ 1) (ht : 0 ≤ tolx)
    (ls : ℕ → List (Fin 1 → α) → (Fin 1 → α) → LS α)
    (hls : ∀ d f : Fin 1 → α, d 0 ≠ 0 → ls 1 [d] f = .gamma [f 0 / d 0]) (m maxiter : ℕ) (hm : 3 ≤ maxiter) :
    ∃ r calls, fixpointAnderson (fun (x : Fin 1 → α) _ => a * x 0 + b) ls (fun _ => x0) (fun _ => scl) tolx m maxiter
        = .ok (r, calls) ∧ r.success = true ∧ r.nfeval ≤ 3 ∧ (r.nfeval = 3 → r.x 0 = b / (1 - a)) := by
  obtain ⟨q, rfl⟩ : ∃ q, maxiter = q + 3 := ⟨maxiter - 3, by omega⟩
  have h1a : 1 - a ≠ 0 := sub_ne_zero.mpr ha.symm
  unfold fixpointAnderson
  dsimp only
  split_ifs with h1
  · exact ⟨_, _, rfl, rfl, by simp, by simp⟩
  · have hf0 : a * x0 + b - x0 ≠ 0 := by
      intro h0
      apply h1
      intro i
      dsimp only
      rw [h0]; simp [ht]
    rw [show q + 3 - 1 = (q + 1) + 1 by omega]
    unfold andersonLoop
    dsimp only
    split_ifs with h2 h3
    · exact ⟨_, _, rfl, rfl, by simp, by simp⟩
    · obtain ⟨M, hM⟩ : ∃ M, max m 1 = M + 1 := ⟨max m 1 - 1, by omega⟩
      have hmin : max m 1 - min (max m 1) 1 = M := by omega
      have hdrop : ∀ v : Fin 1 → α, List.drop M ((List.replicate (max m 1) (0 : Fin 1 → α)).tail ++ [v]) = [v] := by
        intro v
        rw [hM, List.replicate_succ, List.tail_cons, List.drop_append]
        simp
      have hd : -(a * x0 + b - x0) + (a * (a * x0 + b) + b - (a * x0 + b)) ≠ 0 := by
        have : -(a * x0 + b - x0) + (a * (a * x0 + b) + b - (a * x0 + b)) = -((1 - a) * (a * x0 + b - x0)) := by ring
        rw [this]
        exact neg_ne_zero.mpr (mul_ne_zero h1a hf0)
      rw [hmin, hdrop, hdrop, hls _ _ hd]
      have hfix : ∀ i : Fin 1, (a * (a * x0 + b) + b) - combine
          [(a * (a * x0 + b) + b - (a * x0 + b)) / (-(a * x0 + b - x0) + (a * (a * x0 + b) + b - (a * x0 + b)))]
          [fun _ : Fin 1 => -(a * x0 + b) + (a * (a * x0 + b) + b)] i = b / (1 - a) := by
        intro i
        simp only [combine, List.zipWith_cons_cons, List.zipWith_nil_left, List.sum_cons, List.sum_nil, add_zero]
        rw [eq_div_iff h1a]
        field_simp
        ring
      have hz : a * (b / (1 - a)) + b - b / (1 - a) = 0 := by field_simp; ring
      dsimp only
      unfold andersonLoop
      dsimp only
      simp only [hfix]
      rw [if_pos]
      · exact ⟨_, _, rfl, rfl, by simp, fun _ => rfl⟩
      · intro i
        dsimp only
        rw [hz]; simp [ht]
    · omega

-- non-vacuity: `scalarLS` is such a back end
example (d f : Fin 1 → ℚ) (hd : d 0 ≠ 0) : scalarLS 1 [d] f = .gamma [f 0 / d 0] := by
  simp [scalarLS, hd]

end Verif.FixPoint
