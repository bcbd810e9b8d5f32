import Verif.Lemmas.Relabel
import Verif.Props.CopoMulti

/-!
# C110: the order in which the components are listed does not matter
-/

namespace Verif.Relabel

open Finset Spec

variable {N : ℕ} (σ : Equiv.Perm (Fin N))

/-! ### Activity coefficient models -/

section Acm

open Acm

theorem checkMat_mat (M : Mat N) (lo hi : ℝ) : checkMat (mat σ M) lo hi = checkMat M lo hi := by
  unfold checkMat mat
  have : (∀ i j, lo ≤ M (σ i) (σ j) ∧ M (σ i) (σ j) ≤ hi) ↔ ∀ i j, lo ≤ M i j ∧ M i j ≤ hi :=
    ⟨fun h i j => by simpa using h (σ.symm i) (σ.symm j), fun h i j => h _ _⟩
  simp only [this]

theorem orFull_mat (o : Option (Mat N)) (v : ℝ) : orFull (o.map (mat σ)) v = mat σ (orFull o v) := by cases o <;> rfl

theorem fillDiag_mat (M : Mat N) : fillDiag (mat σ M) = mat σ (fillDiag M) := by
  funext i j; unfold fillDiag mat; simp only [σ.injective.eq_iff]

theorem enforce_symm {M : Mat N} (h : Symm M) : enforceSymmetry M = M := by
  funext i j; unfold enforceSymmetry; split_ifs
  · exact h j i
  · rfl

theorem symm_orFull {o : Option (Mat N)} {v : ℝ} (h : ∀ M ∈ o, Symm M) : Symm (orFull o v) := by
  cases o with
  | none => exact fun _ _ => rfl
  | some M => exact h M rfl

theorem symm_fill {M : Mat N} (h : Symm M) : Symm (fillDiag M) := by
  intro i j; unfold fillDiag; rw [h i j]; simp only [eq_comm]

theorem sy_mat {o : Option (Mat N)} {v : ℝ} (h : ∀ M ∈ o, Symm M) :
    enforceSymmetry (fillDiag (orFull (o.map (mat σ)) v)) = mat σ (enforceSymmetry (fillDiag (orFull o v))) := by
  have h1 := symm_fill (symm_orFull (v := v) h)
  rw [orFull_mat, fillDiag_mat, enforce_symm h1, enforce_symm (M := mat σ (fillDiag (orFull o v))) fun i j => h1 _ _]

/-- **C110.** NRTL with symmetric `c` and `d`: the constructor accepts or refuses in either order, and excess energy and activity coefficients agree. -/
theorem C110_nrtl (a b c d e f : Option (Mat N)) (hc : ∀ M ∈ c, Symm M) (hd : ∀ M ∈ d, Symm M) :
    let init' := Nrtl.init (a.map (mat σ)) (b.map (mat σ)) (c.map (mat σ)) (d.map (mat σ)) (e.map (mat σ)) (f.map (mat σ))
    (∀ err, init' = .error err ↔ Nrtl.init a b c d e f = .error err) ∧
    ∀ m l m' l', Nrtl.init a b c d e f = .ok (m, l) → init' = .ok (m', l') → ∀ R T x,
      m'.gE R T (vec σ x) = m.gE R T x ∧ m'.gamma T (vec σ x) = vec σ (m.gamma T x) ∧ m'.tau T = mat σ (m.tau T) ∧ m'.alpha T = mat σ (m.alpha T) := by
  unfold Nrtl.init
  simp only [orFull_mat σ, checkMat_mat]
  have hs1 := sy_mat σ (v := 0.3) hc
  have hs2 := sy_mat σ (v := 0) hd
  simp only [orFull_mat σ] at hs1 hs2
  constructor
  · intro err
    cases checkMat (orFull a 0) (-100) 100 <;> cases checkMat (orFull b 0) (-30000) 30000 <;> cases checkMat (orFull c 0.3) 0 1 <;>
      cases checkMat (orFull d 0) (-0.02) 0.02 <;> simp [bind, Except.bind, pure, Except.pure]
  · intro m l m' l' h h' R T x
    cases h1 : checkMat (orFull a 0) (-100) 100 with
    | error _ => simp [h1, bind, Except.bind] at h
    | ok _ =>
    cases h2 : checkMat (orFull b 0) (-30000) 30000 with
    | error _ => simp [h1, h2, bind, Except.bind] at h
    | ok _ =>
    cases h3 : checkMat (orFull c 0.3) 0 1 with
    | error _ => simp [h1, h2, h3, bind, Except.bind] at h
    | ok _ =>
    cases h4 : checkMat (orFull d 0) (-0.02) 0.02 with
    | error _ => simp [h1, h2, h3, h4, bind, Except.bind] at h
    | ok _ =>
    simp only [h1, h2, h3, h4, bind, Except.bind, pure, Except.pure, Except.ok.injEq, Prod.mk.injEq] at h h'
    obtain ⟨rfl, -⟩ := h
    obtain ⟨rfl, -⟩ := h'
    have ht : ∀ T, Nrtl.tau ⟨fillDiag (mat σ (orFull a 0)), fillDiag (mat σ (orFull b 0)), enforceSymmetry (fillDiag (mat σ (orFull c 0.3))),
        enforceSymmetry (fillDiag (mat σ (orFull d 0))), fillDiag (mat σ (orFull e 0)), fillDiag (mat σ (orFull f 0))⟩ T =
        mat σ (Nrtl.tau ⟨fillDiag (orFull a 0), fillDiag (orFull b 0), enforceSymmetry (fillDiag (orFull c 0.3)),
        enforceSymmetry (fillDiag (orFull d 0)), fillDiag (orFull e 0), fillDiag (orFull f 0)⟩ T) := by
      intro T; unfold Nrtl.tau; simp only [fillDiag_mat]; rfl
    have ha : ∀ T, Nrtl.alpha ⟨fillDiag (mat σ (orFull a 0)), fillDiag (mat σ (orFull b 0)), enforceSymmetry (fillDiag (mat σ (orFull c 0.3))),
        enforceSymmetry (fillDiag (mat σ (orFull d 0))), fillDiag (mat σ (orFull e 0)), fillDiag (mat σ (orFull f 0))⟩ T =
        mat σ (Nrtl.alpha ⟨fillDiag (orFull a 0), fillDiag (orFull b 0), enforceSymmetry (fillDiag (orFull c 0.3)),
        enforceSymmetry (fillDiag (orFull d 0)), fillDiag (orFull e 0), fillDiag (orFull f 0)⟩ T) := by
      intro T; unfold Nrtl.alpha; simp only [hs1, hs2]; rfl
    refine ⟨?_, ?_, ht T, ha T⟩
    · unfold Nrtl.gE
      rw [ht, ha]
      exact nrtlGE_vec σ ..
    · unfold Nrtl.gamma
      rw [ht, ha]
      exact nrtlGamma_vec σ ..

/-- **C110.** Wilson. -/
theorem C110_wilson (a b c d : Option (Mat N)) :
    let init' := Wilson.init (a.map (mat σ)) (b.map (mat σ)) (c.map (mat σ)) (d.map (mat σ))
    (∀ err, init' = .error err ↔ Wilson.init a b c d = .error err) ∧
    ∀ m l m' l', Wilson.init a b c d = .ok (m, l) → init' = .ok (m', l') → ∀ R T x,
      m'.gE R T (vec σ x) = m.gE R T x ∧ m'.gamma T (vec σ x) = vec σ (m.gamma T x) ∧ m'.Lambda T = mat σ (m.Lambda T) := by
  unfold Wilson.init
  simp only [orFull_mat σ, checkMat_mat]
  constructor
  · intro err
    cases checkMat (orFull a 0) (-50) 50 <;> cases checkMat (orFull b 0) (-15000) 15000 <;> simp [bind, Except.bind, pure, Except.pure]
  · intro m l m' l' h h' R T x
    cases h1 : checkMat (orFull a 0) (-50) 50 with
    | error _ => simp [h1, bind, Except.bind] at h
    | ok _ =>
    cases h2 : checkMat (orFull b 0) (-15000) 15000 with
    | error _ => simp [h1, h2, bind, Except.bind] at h
    | ok _ =>
    simp only [h1, h2, bind, Except.bind, pure, Except.pure, Except.ok.injEq, Prod.mk.injEq] at h h'
    obtain ⟨rfl, -⟩ := h
    obtain ⟨rfl, -⟩ := h'
    have ht : ∀ T, Wilson.Lambda ⟨fillDiag (mat σ (orFull a 0)), fillDiag (mat σ (orFull b 0)), fillDiag (mat σ (orFull c 0)),
        fillDiag (mat σ (orFull d 0))⟩ T =
        mat σ (Wilson.Lambda ⟨fillDiag (orFull a 0), fillDiag (orFull b 0), fillDiag (orFull c 0), fillDiag (orFull d 0)⟩ T) := by
      intro T; unfold Wilson.Lambda; simp only [fillDiag_mat]; rfl
    refine ⟨?_, ?_, ht T⟩
    · unfold Wilson.gE; rw [ht]; exact wilsonGE_vec σ ..
    · unfold Wilson.gamma; rw [ht]; exact wilsonGamma_vec σ ..

/-- **C110.** UNIQUAC. -/
theorem C110_uniquac (q r : Fin N → ℝ) (a b c d : Option (Mat N)) :
    let init' := Uniquac.init (vec σ q) (vec σ r) (a.map (mat σ)) (b.map (mat σ)) (c.map (mat σ)) (d.map (mat σ))
    (∀ err, init' = .error err ↔ Uniquac.init q r a b c d = .error err) ∧
    ∀ m l m' l', Uniquac.init q r a b c d = .ok (m, l) → init' = .ok (m', l') → ∀ R T x,
      m'.gE R T (vec σ x) = m.gE R T x ∧ m'.gamma T (vec σ x) = vec σ (m.gamma T x) ∧ m'.tau T = mat σ (m.tau T) := by
  unfold Uniquac.init
  simp only [orFull_mat σ, checkMat_mat]
  constructor
  · intro err
    cases checkMat (orFull a 0) (-50) 50 <;> cases checkMat (orFull b 0) (-15000) 15000 <;> simp [bind, Except.bind, pure, Except.pure]
  · intro m l m' l' h h' R T x
    cases h1 : checkMat (orFull a 0) (-50) 50 with
    | error _ => simp [h1, bind, Except.bind] at h
    | ok _ =>
    cases h2 : checkMat (orFull b 0) (-15000) 15000 with
    | error _ => simp [h1, h2, bind, Except.bind] at h
    | ok _ =>
    simp only [h1, h2, bind, Except.bind, pure, Except.pure, Except.ok.injEq, Prod.mk.injEq] at h h'
    obtain ⟨rfl, -⟩ := h
    obtain ⟨rfl, -⟩ := h'
    have ht : ∀ T, Uniquac.tau ⟨vec σ q, vec σ r, fillDiag (mat σ (orFull a 0)), fillDiag (mat σ (orFull b 0)), fillDiag (mat σ (orFull c 0)),
        fillDiag (mat σ (orFull d 0))⟩ T =
        mat σ (Uniquac.tau ⟨q, r, fillDiag (orFull a 0), fillDiag (orFull b 0), fillDiag (orFull c 0), fillDiag (orFull d 0)⟩ T) := by
      intro T; unfold Uniquac.tau; simp only [fillDiag_mat]; rfl
    refine ⟨?_, ?_, ht T⟩
    · unfold Uniquac.gE; rw [ht]; exact uniquacGE_vec σ ..
    · unfold Uniquac.gamma; rw [ht]; exact uniquacGamma_vec σ ..

/-- **C110.** Flory-Huggins with symmetric matrices. -/
theorem C110_flory_huggins (a b c d e : Option (Mat N)) (ha : ∀ M ∈ a, Symm M) (hb : ∀ M ∈ b, Symm M) (hc : ∀ M ∈ c, Symm M) (hd : ∀ M ∈ d, Symm M)
    (he : ∀ M ∈ e, Symm M) :
    let init' := FloryHuggins.init (a.map (mat σ)) (b.map (mat σ)) (c.map (mat σ)) (d.map (mat σ)) (e.map (mat σ))
    (∀ err, init' = .error err ↔ FloryHuggins.init a b c d e = .error err) ∧
    ∀ m l m' l', FloryHuggins.init a b c d e = .ok (m, l) → init' = .ok (m', l') → ∀ R T phi n,
      m'.chi T = mat σ (m.chi T) ∧ fhDgmix R T (vec σ phi) (vec σ n) (m'.chi T) = fhDgmix R T phi n (m.chi T) ∧
      fhActivity (vec σ phi) (vec σ n) (m'.chi T) = vec σ (fhActivity phi n (m.chi T)) := by
  unfold FloryHuggins.init
  have s1 := sy_mat σ (v := 0) ha
  have s2 := sy_mat σ (v := 0) hb
  have s3 := sy_mat σ (v := 0) hc
  have s4 := sy_mat σ (v := 0) hd
  have s5 := sy_mat σ (v := 0) he
  simp only [orFull_mat σ] at s1 s2 s3 s4 s5
  simp only [orFull_mat σ, checkMat_mat]
  constructor
  · intro err
    cases checkMat (orFull a 0) (-100) 100 <;> cases checkMat (orFull b 0) (-1000000) 1000000 <;> cases checkMat (orFull c 0) (-1000000) 1000000 <;>
      cases checkMat (orFull d 0) (-1000000) 1000000 <;> cases checkMat (orFull e 0) (-1000000) 1000000 <;>
      simp [bind, Except.bind, pure, Except.pure]
  · intro m l m' l' h h' R T phi n
    cases h1 : checkMat (orFull a 0) (-100) 100 with
    | error _ => simp [h1, bind, Except.bind] at h
    | ok _ =>
    cases h2 : checkMat (orFull b 0) (-1000000) 1000000 with
    | error _ => simp [h1, h2, bind, Except.bind] at h
    | ok _ =>
    cases h3 : checkMat (orFull c 0) (-1000000) 1000000 with
    | error _ => simp [h1, h2, h3, bind, Except.bind] at h
    | ok _ =>
    cases h4 : checkMat (orFull d 0) (-1000000) 1000000 with
    | error _ => simp [h1, h2, h3, h4, bind, Except.bind] at h
    | ok _ =>
    cases h5 : checkMat (orFull e 0) (-1000000) 1000000 with
    | error _ => simp [h1, h2, h3, h4, h5, bind, Except.bind] at h
    | ok _ =>
    simp only [h1, h2, h3, h4, h5, bind, Except.bind, pure, Except.pure, Except.ok.injEq, Prod.mk.injEq] at h h'
    obtain ⟨rfl, -⟩ := h
    obtain ⟨rfl, -⟩ := h'
    have ht : FloryHuggins.chi ⟨enforceSymmetry (fillDiag (mat σ (orFull a 0))), enforceSymmetry (fillDiag (mat σ (orFull b 0))),
        enforceSymmetry (fillDiag (mat σ (orFull c 0))), enforceSymmetry (fillDiag (mat σ (orFull d 0))),
        enforceSymmetry (fillDiag (mat σ (orFull e 0)))⟩ T =
        mat σ (FloryHuggins.chi ⟨enforceSymmetry (fillDiag (orFull a 0)), enforceSymmetry (fillDiag (orFull b 0)),
        enforceSymmetry (fillDiag (orFull c 0)), enforceSymmetry (fillDiag (orFull d 0)), enforceSymmetry (fillDiag (orFull e 0))⟩ T) := by
      unfold FloryHuggins.chi; simp only [s1, s2, s3, s4, s5]; rfl
    refine ⟨ht, ?_, ?_⟩
    · rw [ht]; exact fhDgmix_vec σ ..
    · rw [ht]; exact fhActivity_vec σ ..

/-- **C110** (finding). A non-symmetric `c` is accepted without complaint and its lower triangle ignored: listing the same two components in the other
order, with the same matrix, gives other non-randomness factors. -/
theorem C110_nrtl_false : ∃ (c : Mat 2) (m m' : Nrtl 2) (l l' : List (Option (Mat 2))), Nrtl.init none none (some c) none none none = .ok (m, l) ∧
    Nrtl.init none none (some (mat (Equiv.swap 0 1) c)) none none none = .ok (m', l') ∧ m'.alpha 300 ≠ mat (Equiv.swap 0 1) (m.alpha 300) := by
  have key : ∀ c : Mat 2, (∀ i j, 0 ≤ c i j ∧ c i j ≤ 1) → ∃ m l, Nrtl.init none none (some c) none none none = .ok (m, l) ∧
      m.alpha 300 0 1 = c 0 1 := by
    intro c hc
    have hk : ∀ lo hi : ℝ, lo ≤ 0 → 0 ≤ hi → checkMat (orFull (none : Option (Mat 2)) 0) lo hi = .ok () := fun lo hi h1 h2 => if_pos fun _ _ => ⟨h1, h2⟩
    have hk' : checkMat (orFull (some c) 0.3) 0 1 = .ok () := if_pos hc
    refine ⟨⟨fillDiag (orFull none 0), fillDiag (orFull none 0), enforceSymmetry (fillDiag (orFull (some c) 0.3)), enforceSymmetry (fillDiag (orFull none 0)),
      fillDiag (orFull none 0), fillDiag (orFull none 0)⟩, [none, none, some (enforceSymmetry (fillDiag c)), none, none, none], ?_, ?_⟩
    · unfold Nrtl.init
      rw [hk _ _ (by norm_num) (by norm_num), hk _ _ (by norm_num) (by norm_num), hk _ _ (by norm_num) (by norm_num), hk']
      rfl
    · simp [Nrtl.alpha, enforceSymmetry, fillDiag, orFull]
  have h0 : ∀ i j : Fin 2, (0 : ℝ) ≤ ![![0, 0.3], ![0.5, 0]] i j ∧ (![![0, 0.3], ![0.5, 0]] : Mat 2) i j ≤ 1 := by
    intro i j; fin_cases i <;> fin_cases j <;> norm_num
  obtain ⟨m, l, h1, h2⟩ := key ![![0, 0.3], ![0.5, 0]] h0
  obtain ⟨m', l', h1', h2'⟩ := key (mat (Equiv.swap 0 1) ![![0, 0.3], ![0.5, 0]]) fun i j => h0 _ _
  have hs : m.alpha 300 1 0 = m.alpha 300 0 1 := by
    have hsym : ∀ c : Mat 2, ∀ m l, Nrtl.init none none (some c) none none none = .ok (m, l) → m.alpha 300 1 0 = m.alpha 300 0 1 := by
      intro c m l h
      unfold Nrtl.init at h
      cases h1 : checkMat (orFull (none : Option (Mat 2)) 0) (-100) 100 with
      | error _ => simp [h1, bind, Except.bind] at h
      | ok _ =>
      cases h2 : checkMat (orFull (none : Option (Mat 2)) 0) (-30000) 30000 with
      | error _ => simp [h1, h2, bind, Except.bind] at h
      | ok _ =>
      cases h3 : checkMat (orFull (some c) 0.3) 0 1 with
      | error _ => simp [h1, h2, h3, bind, Except.bind] at h
      | ok _ =>
      cases h4 : checkMat (orFull (none : Option (Mat 2)) 0) (-0.02) 0.02 with
      | error _ => simp [h1, h2, h3, h4, bind, Except.bind] at h
      | ok _ =>
      simp only [h1, h2, h3, h4, bind, Except.bind, pure, Except.pure, Except.ok.injEq, Prod.mk.injEq] at h
      obtain ⟨rfl, -⟩ := h
      simp [Nrtl.alpha, enforceSymmetry]
    exact hsym _ _ _ h1
  refine ⟨_, m, m', l, l', h1, h1', fun h => ?_⟩
  have := congrFun (congrFun h 0) 1
  simp only [mat, Equiv.swap_apply_left, Equiv.swap_apply_right] at this h2'
  rw [h2', hs, h2] at this
  norm_num at this

example : mat (Equiv.swap 0 1) (![![0, 1], ![2, 0]] : Mat 2) = ![![0, 2], ![1, 0]] := by
  funext i j; fin_cases i <;> fin_cases j <;> simp [mat]

end Acm

/-! ### Equations of state -/

section Eos

open Eos

/-- The same fluids in the new order. -/
def cubicVec (e : Cubic N) : Cubic N := ⟨e.kind, vec σ e.Tc, vec σ e.Pc, vec σ e.w, e.k.map (mat σ)⟩

/-- The same for a virial equation. -/
def virialVec (e : Virial N) : Virial N := ⟨vec σ e.Tc, vec σ e.Pc, vec σ e.Zc, vec σ e.w⟩

variable (R : ℝ) (e : Cubic N)

theorem a_vec (T : ℝ) : a R (cubicVec σ e) T = vec σ (a R e T) := by
  funext i; unfold a alpha cubicVec vec
  cases e.kind with
  | RK => rfl
  | SRK g => cases g <;> rfl
  | PR => rfl

theorem b_vec : b R (cubicVec σ e) = vec σ (b R e) := rfl

theorem am_vec (hk : ∀ k ∈ e.k, Symm k) (T : ℝ) (z : Fin N → ℝ) : am R (cubicVec σ e) T (vec σ z) = am R e T z := by
  unfold am; rw [a_vec]; exact geometric_vec σ z _ _ hk

theorem bm_vec (z : Fin N → ℝ) : bm R (cubicVec σ e) (vec σ z) = bm R e z := dot_vec σ z (b R e)

theorem delta_vec (hk : ∀ k ∈ e.k, Symm k) (T : ℝ) (z : Fin N → ℝ) : delta R (cubicVec σ e) T (vec σ z) = vec σ (delta R e T z) := by
  funext i
  have h := am_vec σ R e hk T z
  have h' := a_vec σ R e T
  unfold delta
  rw [h, h']
  unfold vec
  have : (cubicVec σ e).k = e.k.map (mat σ) := rfl
  rw [this]
  cases e.k with
  | none => rfl
  | some k => exact sum_vec σ fun j => z j * √(a R e T j) * (1 - k (σ i) j)

theorem lnPhi_vec (hk : ∀ k ∈ e.k, Symm k) (T P : ℝ) (z : Fin N → ℝ) (Z : ℝ) : lnPhi R (cubicVec σ e) T P (vec σ z) Z = vec σ (lnPhi R e T P z Z) := by
  funext i
  unfold lnPhi
  rw [am_vec σ R e hk, bm_vec, delta_vec σ R e hk, b_vec]
  rfl

/-- **C110.** Cubic equations of state with symmetric interaction parameters: pressure, compressibility factors, second virial coefficient and Helmholtz
departure are the same, fugacity coefficients and K-values come in the new order, and the same errors are raised. -/
theorem C110_cubic (npRoots : ℝ → ℝ → ℝ → List (ℝ × ℝ)) (hk : ∀ k ∈ e.k, Symm k) (T : ℝ) (z : Fin N → ℝ) :
    am R (cubicVec σ e) T (vec σ z) = am R e T z ∧ bm R (cubicVec σ e) (vec σ z) = bm R e z ∧
    cubicBm R (cubicVec σ e) T (vec σ z) = cubicBm R e T z ∧
    (∀ v, cubicP R (cubicVec σ e) T v (vec σ z) = cubicP R e T v z) ∧
    (∀ P, cubicZ npRoots R (cubicVec σ e) T P (vec σ z) = cubicZ npRoots R e T P z) ∧
    (∀ P ph, cubicPhi npRoots R (cubicVec σ e) T P (vec σ z) ph = (cubicPhi npRoots R e T P z ph).map (vec σ)) ∧
    (∀ P y, cubicK npRoots R (cubicVec σ e) T P (vec σ z) (vec σ y) = (cubicK npRoots R e T P z y).map (vec σ)) ∧
    ∀ V v0, cubicDA R (cubicVec σ e) T V (vec σ z) v0 = cubicDA R e T V z v0 := by
  have ham := am_vec σ R e hk T
  have hbm := bm_vec σ R e
  have hZ : ∀ P z, cubicZ npRoots R (cubicVec σ e) T P (vec σ z) = cubicZ npRoots R e T P z := by
    intro P z; unfold cubicZ; rw [ham, hbm]; rfl
  have hphi : ∀ P z ph, cubicPhi npRoots R (cubicVec σ e) T P (vec σ z) ph = (cubicPhi npRoots R e T P z ph).map (vec σ) := by
    intro P z ph
    unfold cubicPhi
    simp only [hZ, lnPhi_vec σ R e hk]
    cases cubicZ npRoots R e T P z with
    | error _ => rfl
    | ok Z => cases ph <;> rfl
  refine ⟨ham z, hbm z, by unfold cubicBm; rw [ham, hbm], fun v => by unfold cubicP; rw [ham, hbm]; rfl, fun P => hZ P z, fun P ph => hphi P z ph, fun P y => ?_,
    fun V v0 => ?_⟩
  · unfold cubicK
    rw [hphi, hphi]
    cases cubicPhi npRoots R e T P y .V with
    | error _ => rfl
    | ok _ =>
      cases cubicPhi npRoots R e T P z .L with
      | error _ => rfl
      | ok _ => rfl
  · unfold cubicDA
    have hs : ∑ i, vec σ z i = ∑ i, z i := sum_vec σ z
    have hz : (fun i => vec σ z i / ∑ i, z i) = vec σ fun i => z i / ∑ i, z i := rfl
    simp only [hs, hz, ham, hbm]
    rfl

/-- A symmetric interaction matrix, and a mixture parameter that does depend on which fluid is which. -/
example : (∀ k ∈ (some (fun i j => if i = j then 0 else 0.1) : Option (Fin 3 → Fin 3 → ℝ)), Symm k) ∧
    bm 8 (⟨.RK, ![100, 200], ![1, 1], fun _ => 0, none⟩ : Cubic 2) ![1 / 4, 3 / 4] ≠ bm 8 ⟨.RK, ![200, 100], ![1, 1], fun _ => 0, none⟩ ![1 / 4, 3 / 4] := by
  refine ⟨fun k hk => ?_, ?_⟩
  · obtain rfl := Option.mem_some_iff.1 hk
    intro i j; simp only [eq_comm]
  · norm_num [bm, b, Kind.Ωb, Fin.sum_univ_two]

/-- **C110** (finding). A non-symmetric matrix of interaction parameters is accepted, and then the order matters: only the upper triangle enters the mixture
parameter. -/
theorem C110_cubic_false : ∃ (k : Fin 2 → Fin 2 → ℝ), ∀ (kind : Kind) (T : ℝ), 0 < T →
    am 8 (cubicVec (Equiv.swap 0 1) ⟨kind, fun _ => T, fun _ => 1, fun _ => 0, some k⟩) T (vec (Equiv.swap 0 1) fun _ => 1 / 2) ≠
      am 8 ⟨kind, fun _ => T, fun _ => 1, fun _ => 0, some k⟩ T fun _ => 1 / 2 := by
  refine ⟨![![0, 1], ![0, 0]], fun kind T hT => ?_⟩
  have ha : ∀ k i, 0 < a 8 (⟨kind, fun _ => T, fun _ => 1, fun _ => 0, k⟩ : Cubic 2) T i := by
    intro k i
    have h1 : alpha (⟨kind, fun _ => T, fun _ => 1, fun _ => 0, k⟩ : Cubic 2) T i = 1 := by
      unfold alpha; rcases kind with _ | g | _
      · simp [div_self hT.ne']
      · cases g <;> simp [div_self hT.ne']
      · simp [div_self hT.ne']
    unfold a
    rw [h1]
    have : 0 < kind.Ωa := by cases kind <;> norm_num [Kind.Ωa]
    simp only
    positivity
  have h2 := ha (some ![![0, 1], ![0, 0]])
  unfold am
  rw [a_vec]
  have e01 : a 8 (⟨kind, fun _ => T, fun _ => 1, fun _ => 0, some ![![0, 1], ![0, 0]]⟩ : Cubic 2) T 1 =
    a 8 (⟨kind, fun _ => T, fun _ => 1, fun _ => 0, some ![![0, 1], ![0, 0]]⟩ : Cubic 2) T 0 := rfl
  have h0 := h2 0
  generalize a 8 (⟨kind, fun _ => T, fun _ => 1, fun _ => 0, some ![![0, 1], ![0, 0]]⟩ : Cubic 2) T = A at *
  have hk1 : (cubicVec (Equiv.swap 0 1) (⟨kind, fun _ => T, fun _ => 1, fun _ => 0, some ![![0, 1], ![0, 0]]⟩ : Cubic 2)).k =
    some (mat (Equiv.swap 0 1) ![![0, 1], ![0, 0]]) := rfl
  rw [hk1]
  have f0 : (univ.filter fun j : Fin 2 => (0 : Fin 2) < j) = {1} := by decide
  have f1 : (univ.filter fun j : Fin 2 => (1 : Fin 2) < j) = ∅ := by decide
  simp only [Mixing.geometric, Fin.sum_univ_two, f0, f1, sum_singleton, sum_empty, vec, mat, Equiv.swap_apply_left, Equiv.swap_apply_right, e01]
  rw [Real.sqrt_mul_self h0.le]
  simp only [Matrix.cons_val_zero, Matrix.cons_val_one]
  intro h
  norm_num at h
  linarith

/-- **C110.** Virial equation of state. -/
theorem C110_virial (e : Virial N) (T : ℝ) (y : Fin N → ℝ) :
    virialB R (virialVec σ e) T = mat σ (virialB R e T) ∧ virialBm R (virialVec σ e) T (vec σ y) = virialBm R e T y ∧
    (∀ P, virialZ R (virialVec σ e) T P (vec σ y) = virialZ R e T P y) ∧ (∀ v, virialP R (virialVec σ e) T v (vec σ y) = virialP R e T v y) ∧
    (∀ P, virialPhi R (virialVec σ e) T P (vec σ y) = vec σ (virialPhi R e T P y)) ∧
    ∀ V v0, virialDA R (virialVec σ e) T V (vec σ y) v0 = virialDA R e T V y v0 := by
  have hB : virialB R (virialVec σ e) T = mat σ (virialB R e T) := bMixture_vec σ ..
  have hm : ∀ y, virialBm R (virialVec σ e) T (vec σ y) = virialBm R e T y := by
    intro y; unfold virialBm; rw [hB]; exact quadratic_vec σ ..
  refine ⟨hB, hm y, fun P => by unfold virialZ; rw [hm], fun v => by unfold virialP; rw [hm], fun P => ?_, fun V v0 => ?_⟩
  · funext i
    unfold virialPhi
    rw [hm, hB, wilsonS_vec]; rfl
  · unfold virialDA
    have hs : ∑ i, vec σ y i = ∑ i, y i := sum_vec σ y
    have hz : (fun i => vec σ y i / ∑ i, y i) = vec σ fun i => y i / ∑ i, y i := rfl
    simp only [hs, hz, hm]

example : (virialVec (Equiv.swap 0 1) ⟨![1, 2], ![3, 4], ![5, 6], ![7, 8]⟩).Tc 0 = 2 := by simp [virialVec, vec]

end Eos

/-! ### Mixture properties -/

section Mix

open Transport

/-- **C110.** Mixing rules and mixture correlations. -/
theorem C110_mixtures (R NA T P v : ℝ) (y M Tc Pc Zc w dm q : Fin N → ℝ) (hc : Bool) :
    (∀ Q, Mixing.quadratic (vec σ y) (mat σ Q) = Mixing.quadratic y Q) ∧
    (∀ k, (∀ k' ∈ k, Symm k') → Mixing.geometric (vec σ y) (vec σ q) (k.map (mat σ)) = Mixing.geometric y q k) ∧
    (∀ w : Option (Fin N → ℝ), Mixing.pseudocritical R (vec σ y) (vec σ Tc) (vec σ Pc) (vec σ Zc) (w.map (vec σ)) = Mixing.pseudocritical R y Tc Pc Zc w) ∧
    Mixing.bMixture R T (vec σ Tc) (vec σ Pc) (vec σ Zc) (vec σ w) = mat σ (Mixing.bMixture R T Tc Pc Zc w) ∧
    mulmx2Perry (vec σ y) (vec σ q) hc = mulmx2Perry y q hc ∧
    muvmx2HerningZipperer (vec σ y) (vec σ q) (vec σ M) = muvmx2HerningZipperer y q M ∧
    muvmxpcDeanStiel R v (vec σ y) (vec σ M) (vec σ Tc) (vec σ Pc) (vec σ Zc) = muvmxpcDeanStiel R v y M Tc Pc Zc ∧
    muvmxLucas R T P (vec σ y) (vec σ M) (vec σ Tc) (vec σ Pc) (vec σ Zc) (vec σ dm) = muvmxLucas R T P y M Tc Pc Zc dm ∧
    klmx2Li (vec σ y) (vec σ q) (vec σ M) = klmx2Li y q M ∧
    kvmxpc R NA v (vec σ y) (vec σ M) (vec σ Tc) (vec σ Pc) (vec σ Zc) (vec σ w) = kvmxpc R NA v y M Tc Pc Zc w ∧
    kvmx2Wassilijewa (vec σ y) (vec σ q) (vec σ M) = kvmx2Wassilijewa y q M ∧
    dvmx (vec σ y) (vec σ q) = dvmx y q := by
  have hpc : ∀ w : Option (Fin N → ℝ), Mixing.pseudocritical R (vec σ y) (vec σ Tc) (vec σ Pc) (vec σ Zc) (w.map (vec σ)) = Mixing.pseudocritical R y Tc Pc Zc w := by
    intro w
    unfold Mixing.pseudocritical
    have hv : ∑ i, vec σ y i * (vec σ Zc i * R * vec σ Tc i / vec σ Pc i) = ∑ i, y i * (Zc i * R * Tc i / Pc i) :=
      sum_vec σ fun i => y i * (Zc i * R * Tc i / Pc i)
    simp only [dot_vec, hv]
    cases w with
    | none => rfl
    | some w => simp only [Option.map_some, dot_vec]
  have hsm : ∀ q, sqrtMean (vec σ y) (vec σ q) (vec σ M) = sqrtMean y q M := by
    intro q
    unfold sqrtMean
    have h1 : ∑ i, vec σ y i * √(vec σ M i) = ∑ i, y i * √(M i) := sum_vec σ fun i => y i * √(M i)
    have h2 : ∑ i, vec σ y i * √(vec σ M i) / (∑ i, y i * √(M i)) * vec σ q i = ∑ i, y i * √(M i) / (∑ i, y i * √(M i)) * q i :=
      sum_vec σ fun i => y i * √(M i) / (∑ i, y i * √(M i)) * q i
    simp only [h1, h2]
  refine ⟨fun Q => quadratic_vec σ y Q, fun k hk => geometric_vec σ y q k hk, hpc, bMixture_vec σ .., ?_, hsm q, ?_, ?_, ?_, ?_, hsm q, ?_⟩
  · unfold mulmx2Perry
    have h1 : ∑ i, vec σ y i * vec σ q i ^ (1 / 3 : ℝ) = ∑ i, y i * q i ^ (1 / 3 : ℝ) := sum_vec σ fun i => y i * q i ^ (1 / 3 : ℝ)
    have h2 : ∑ i, vec σ y i * Real.log (vec σ q i) = ∑ i, y i * Real.log (q i) := sum_vec σ fun i => y i * Real.log (q i)
    rw [h1, h2]
  · unfold muvmxpcDeanStiel
    have := hpc none
    simp only [Option.map_none] at this
    simp only [dot_vec, this]
  · unfold muvmxLucas
    have h1 : ∑ i, vec σ y i * (R * vec σ Tc i * vec σ Zc i / vec σ Pc i) = ∑ i, y i * (R * Tc i * Zc i / Pc i) :=
      sum_vec σ fun i => y i * (R * Tc i * Zc i / Pc i)
    have h2 : odot (vec σ y) (fun i => lucasFP0 (T / vec σ Tc i) (vec σ Tc i) (vec σ Pc i) (vec σ Zc i) (vec σ dm i)) =
        odot y fun i => lucasFP0 (T / Tc i) (Tc i) (Pc i) (Zc i) (dm i) := by
      unfold odot
      have hall : (∀ i, (lucasFP0 (T / vec σ Tc i) (vec σ Tc i) (vec σ Pc i) (vec σ Zc i) (vec σ dm i)).isSome) ↔
          ∀ i, (lucasFP0 (T / Tc i) (Tc i) (Pc i) (Zc i) (dm i)).isSome :=
        ⟨fun h i => by simpa [vec] using h (σ.symm i), fun h i => h (σ i)⟩
      have hsum : ∑ i, vec σ y i * (lucasFP0 (T / vec σ Tc i) (vec σ Tc i) (vec σ Pc i) (vec σ Zc i) (vec σ dm i)).getD 0 =
          ∑ i, y i * (lucasFP0 (T / Tc i) (Tc i) (Pc i) (Zc i) (dm i)).getD 0 :=
        sum_vec σ fun i => y i * (lucasFP0 (T / Tc i) (Tc i) (Pc i) (Zc i) (dm i)).getD 0
      rw [hsum]
      by_cases h : ∀ i, (lucasFP0 (T / Tc i) (Tc i) (Pc i) (Zc i) (dm i)).isSome
      · rw [if_pos h, if_pos (hall.2 h)]
      · rw [if_neg h, if_neg fun h' => h (hall.1 h')]
    simp only [dot_vec, h1, h2]
  · unfold klmx2Li
    have h1 : ∑ i, vec σ y i / vec σ M i = ∑ i, y i / M i := sum_vec σ fun i => y i / M i
    simp only [h1]
    rw [show Mixing.quadratic (fun i => vec σ y i / vec σ M i / ∑ i, y i / M i) (fun i j => 2 / (1 / vec σ q j + 1 / vec σ q i)) = _ from
      quadratic_vec σ (fun i => y i / M i / ∑ i, y i / M i) fun i j => 2 / (1 / q j + 1 / q i)]
  · unfold kvmxpc
    have h1 := kvmx_vec σ y (fun i => Zc i * R * Tc i / Pc i) Tc
    have hv : (fun i => vec σ Zc i * R * vec σ Tc i / vec σ Pc i) = vec σ fun i => Zc i * R * Tc i / Pc i := rfl
    simp only [hv, h1, dot_vec]
  · unfold dvmx
    have h1 : ∑ i, vec σ y i = ∑ i, y i := sum_vec σ y
    have h2 : ∑ i, vec σ y i / vec σ q i = ∑ i, y i / q i := sum_vec σ fun i => y i / q i
    rw [h1, h2]

example : vec (Equiv.swap 0 2) (![1, 2, 3] : Fin 3 → ℝ) = ![3, 2, 1] := by
  funext i; fin_cases i
  · simp [vec]
  · simp [vec, Equiv.swap_apply_of_ne_of_ne]
  · simp [vec]

end Mix

/-! ### Flash -/

section Flash

open Flash

/-- A flash result in the new order. -/
def resultVec (r : FlashResult N) : FlashResult N :=
  ⟨r.success, r.message, r.T, r.P, r.F, r.L, r.V, r.beta, vec σ r.z, vec σ r.x, vec σ r.y, vec σ r.K⟩

/-- **C110.** Rachford-Rice. -/
theorem C110_rachford_rice (K z : Fin N → ℝ) (b0 : Option ℝ) (m : ℕ) (atol : ℝ) : solveRR (vec σ K) (vec σ z) b0 m atol = solveRR K z b0 m atol :=
  solveRR_vec σ K z b0 m atol

theorem init_vec (o : Option (Vec N)) (z : Vec N) : ((o.map (vec σ)).map Flash.normalize).getD (vec σ z) = vec σ ((o.map Flash.normalize).getD z) := by
  cases o with
  | none => rfl
  | some x => exact normalize_vec σ x

/-- **C110.** The three flashes: feed, starting values and K-value function in the new order give the result in the new order, or the same error. -/
theorem C110_flash {Kc Kc' : KFun N} (hK : ∀ T P x y, Kc' T P (vec σ x) (vec σ y) = vec σ (Kc T P x y)) (F : ℝ) (z : Vec N) (x0 y0 : Option (Vec N)) (m : ℕ)
    (atol rtol : ℝ) :
    (∀ P T b0 alpha, flashPT F (vec σ z) P T Kc' (x0.map (vec σ)) (y0.map (vec σ)) b0 m atol rtol alpha =
      (flashPT F z P T Kc x0 y0 b0 m atol rtol alpha).map (resultVec σ)) ∧
    (∀ P beta T0, flashPV F (vec σ z) P beta Kc' (x0.map (vec σ)) (y0.map (vec σ)) T0 m atol rtol =
      (flashPV F z P beta Kc x0 y0 T0 m atol rtol).map (resultVec σ)) ∧
    ∀ T beta P0, flashTV F (vec σ z) T beta Kc' (x0.map (vec σ)) (y0.map (vec σ)) P0 m atol rtol =
      (flashTV F z T beta Kc x0 y0 P0 m atol rtol).map (resultVec σ) := by
  have hK' : KRel σ Kc Kc' := hK
  refine ⟨fun P T b0 alpha => ?_, fun P beta T0 => ?_, fun T beta P0 => ?_⟩
  · unfold flashPT
    simp only [normalize_vec, init_vec, hK]
    have := ptLoop_vec hK' (Flash.normalize z) P T m atol rtol alpha m ⟨false, .empty, b0.map fun b => clip b 0 1, (x0.map Flash.normalize).getD (Flash.normalize z),
      (y0.map Flash.normalize).getD (Flash.normalize z), Kc T P ((x0.map Flash.normalize).getD (Flash.normalize z)) ((y0.map Flash.normalize).getD (Flash.normalize z))⟩
    unfold ptVec at this
    simp only at this
    rw [this]
    cases ptLoop Kc (Flash.normalize z) P T m atol rtol alpha m ⟨false, .empty, b0.map fun b => clip b 0 1, (x0.map Flash.normalize).getD (Flash.normalize z),
      (y0.map Flash.normalize).getD (Flash.normalize z), Kc T P ((x0.map Flash.normalize).getD (Flash.normalize z)) ((y0.map Flash.normalize).getD (Flash.normalize z))⟩ <;> rfl
  · unfold flashPV
    simp only [normalize_vec, init_vec, hK, phaseX_vec, phaseY_vec, paramsPVall_vec hK']
    generalize Kc T0 P _ _ = K
    generalize paramsPVall T0 P _ _ beta Kc 300 = q
    have := pvLoop_vec hK' (Flash.normalize z) P beta 300 q.2.2.2 q.2.1 m atol rtol m ⟨false, .empty, T0, phaseX (Flash.normalize z) K beta,
      phaseY (Flash.normalize z) K beta, K, q.1, q.2.2.1⟩
    unfold ioVec at this
    simp only at this
    rw [this]
    cases pvLoop Kc (Flash.normalize z) P beta 300 q.2.2.2 q.2.1 m atol rtol m ⟨false, .empty, T0, phaseX (Flash.normalize z) K beta,
      phaseY (Flash.normalize z) K beta, K, q.1, q.2.2.1⟩ <;> rfl
  · unfold flashTV
    simp only [normalize_vec, init_vec, hK, phaseX_vec, phaseY_vec, paramsTVall_vec hK']
    generalize Kc T P0 _ _ = K
    generalize paramsTVall T P0 _ _ beta Kc 100000 = q
    have := tvLoop_vec hK' (Flash.normalize z) T beta 100000 q.2.2.2 q.2.1 m atol rtol m ⟨false, .empty, P0, phaseX (Flash.normalize z) K beta,
      phaseY (Flash.normalize z) K beta, K, q.1, q.2.2.1⟩
    unfold ioVec at this
    simp only at this
    rw [this]
    cases tvLoop Kc (Flash.normalize z) T beta 100000 q.2.2.2 q.2.1 m atol rtol m ⟨false, .empty, P0, phaseX (Flash.normalize z) K beta,
      phaseY (Flash.normalize z) K beta, K, q.1, q.2.2.1⟩ <;> rfl

/-- Raoult's law with vapour pressures `p` satisfies the hypothesis, with the vapour pressures in the new order. -/
example (p : Fin N → ℝ → ℝ) (T P : ℝ) (x y : Vec N) : (fun i => vec σ p i T / P) = vec σ ((fun T P _ _ i => p i T / P : KFun N) T P x y) := rfl

end Flash

/-! ### Copolymerisation -/

section Copo

open CopoMulti

variable {α : Type*} [Field α] [LinearOrder α] [IsStrictOrderedRing α] {n : ℕ} (τ : Equiv.Perm (Fin (n + 1)))

/-- **C110.** Multicomponent copolymerisation: transition probabilities, copolymer composition and radical fractions, though the code replaces the equation of the
last monomer. -/
theorem C110_copolymer (solve : Matrix (Fin (n + 1)) (Fin (n + 1)) α → (Fin (n + 1) → α) → Option (Fin (n + 1) → α)) (hsolve : IsSolve solve)
    (f : Fin (n + 1) → α) (r : Matrix (Fin (n + 1)) (Fin (n + 1)) α) (hf : ∀ i, 0 ≤ f i) (hf0 : ∃ i, 0 < f i) (hr : ∀ i j, 0 < r i j) :
    transitionsMulti (vec τ f) (mat τ r) = mat τ (transitionsMulti f r) ∧
    (∃ F, instMulti solve (some f) (some r) none = .ok (some F) ∧ instMulti solve (some (vec τ f)) (some (mat τ r)) none = .ok (some (vec τ F))) ∧
    ∃ p, radMulti solve f r = some p ∧ radMulti solve (vec τ f) (mat τ r) = some (vec τ p) := by
  have hs : ∀ g : Fin (n + 1) → α, ∑ i, g (τ i) = ∑ i, g i := fun g => Equiv.sum_comp τ g
  have hf' : ∀ i, 0 ≤ vec τ f i := fun i => hf _
  have hf0' : ∃ i, 0 < vec τ f i := by obtain ⟨i, h⟩ := hf0; exact ⟨τ.symm i, by simpa [vec] using h⟩
  have hr' : ∀ i j, 0 < mat τ r i j := fun i j => hr _ _
  refine ⟨?_, ?_, ?_⟩
  · funext i j
    unfold transitionsMulti vec mat
    simp only
    rw [hs fun k => f k / r (τ i) k]
  · obtain ⟨F, h1, -, h2, -, h3, -⟩ := C33_stationary solve hsolve f r hf hf0 hr
    obtain ⟨G, g1, -, -, -, -, g2⟩ := C33_stationary solve hsolve (vec τ f) (mat τ r) hf' hf0' hr'
    refine ⟨F, h1, ?_⟩
    rw [g1, ← g2 (vec τ F)]
    · exact (hs F).trans h2
    · intro j
      have h := h3 (τ j)
      rw [← hs fun i => F i * (f (τ j) / r i (τ j) / ∑ k, f k / r i k)] at h
      simp only [← hs fun k => f k / r _ k] at h
      exact h
  · obtain ⟨F, h1, -, h2, h3, -⟩ := C34_multi solve hsolve f r hf hf0 hr
    obtain ⟨G, g1, -, -, -, g2⟩ := C34_multi solve hsolve (vec τ f) (mat τ r) hf' hf0' hr'
    refine ⟨F, h1, ?_⟩
    rw [g1, ← g2 (vec τ F)]
    · exact (hs F).trans h2
    · intro i
      have := h3 (τ i)
      rw [← hs, ← hs fun j => r j (τ i) * F j * f (τ i)] at this
      exact this

/-- The hypotheses hold with one monomer absent; the transition probabilities really depend on the order. -/
example : (∀ i, 0 ≤ (![1 / 2, 1 / 2, 0] : Fin 3 → ℚ) i) ∧ (∃ i, 0 < (![1 / 2, 1 / 2, 0] : Fin 3 → ℚ) i) ∧
    transitionsMulti (![1 / 2, 1 / 2, 0] : Fin 3 → ℚ) (fun _ _ => 1) 0 0 ≠ transitionsMulti (vec (Equiv.swap 0 2) ![1 / 2, 1 / 2, 0] : Fin 3 → ℚ) (fun _ _ => 1) 0 0 := by
  refine ⟨fun i => by fin_cases i <;> norm_num, ⟨0, by norm_num⟩, ?_⟩
  have h2 : (![1 / 2, 1 / 2, 0] : Fin 3 → ℚ) 2 = 0 := rfl
  have h1 : (Equiv.swap (0 : Fin 3) 2) 1 = 1 := by decide
  norm_num [transitionsMulti, vec, Fin.sum_univ_three, h1, h2]

/-- **C110.** The explicit ternary formulas: exchanging the first two, or the last two, monomers. -/
theorem C110_ternary (f1 f2 r12 r21 r13 r31 r23 r32 : α) (h1 : 0 < f1) (h2 : 0 < f2) (h3 : f1 + f2 < 1) (k12 : 0 < r12) (k21 : 0 < r21)
    (k13 : 0 < r13) (k31 : 0 < r31) (k23 : 0 < r23) (k32 : 0 < r32) :
    let F := instTernary f1 f2 r12 r21 r13 r31 r23 r32
    let p := radTernary f1 f2 r12 r21 r13 r31 r23 r32
    instTernary f2 f1 r21 r12 r23 r32 r13 r31 = (F.2.1, F.1, F.2.2) ∧
    instTernary f1 (1 - (f1 + f2)) r13 r31 r12 r21 r32 r23 = (F.1, F.2.2, F.2.1) ∧
    radTernary f2 f1 r21 r12 r23 r32 r13 r31 = (p.2.1, p.1, p.2.2) ∧
    radTernary f1 (1 - (f1 + f2)) r13 r31 r12 r21 r32 r23 = (p.1, p.2.2, p.2.1) := by
  obtain ⟨f3, hf3⟩ : ∃ f3, f3 = 1 - (f1 + f2) := ⟨_, rfl⟩
  have hf2 : f2 = 1 - (f1 + f3) := by rw [hf3]; ring
  have p3 : 0 < f3 := by rw [hf3]; linarith
  have h12 : 1 - (f2 + f1) = f3 := by rw [hf3]; ring
  refine ⟨?_, ?_, ?_, ?_⟩
  · have hA : f2 / (r12 * r32) + f1 / (r12 * r31) + f3 / (r32 * r13) = f1 / (r12 * r31) + f2 / (r12 * r32) + f3 / (r13 * r32) := by ring
    have hC : f2 / (r21 * r32) + f1 / (r21 * r31) + f3 / (r23 * r31) = f1 / (r21 * r31) + f2 / (r21 * r32) + f3 / (r31 * r23) := by ring
    have hE : f2 / (r23 * r12) + f1 / (r13 * r21) + f3 / (r23 * r13) = f1 / (r13 * r21) + f2 / (r23 * r12) + f3 / (r13 * r23) := by ring
    have hG : f3 + f2 / r32 + f1 / r31 = f3 + f1 / r31 + f2 / r32 := by ring
    simp only [instTernary, ← hf3, h12, hA, hC, hE, hG]
    generalize f1 * (f1 / (r21 * r31) + f2 / (r21 * r32) + f3 / (r31 * r23)) * (f1 + f2 / r12 + f3 / r13) = X
    generalize f2 * (f1 / (r12 * r31) + f2 / (r12 * r32) + f3 / (r13 * r32)) * (f2 + f1 / r21 + f3 / r23) = Y
    rw [add_comm Y X, add_comm (Y / _)]
  · have d : 0 < f1 * (f1 / (r21 * r31) + f2 / (r21 * r32) + f3 / (r31 * r23)) * (f1 + f2 / r12 + f3 / r13) +
        f2 * (f1 / (r12 * r31) + f2 / (r12 * r32) + f3 / (r13 * r32)) * (f2 + f1 / r21 + f3 / r23) +
        f3 * (f1 / (r13 * r21) + f2 / (r23 * r12) + f3 / (r13 * r23)) * (f3 + f1 / r31 + f2 / r32) := by positivity
    have hA : f1 / (r31 * r21) + f3 / (r31 * r23) + f2 / (r21 * r32) = f1 / (r21 * r31) + f2 / (r21 * r32) + f3 / (r31 * r23) := by ring
    have hB : f1 + f3 / r13 + f2 / r12 = f1 + f2 / r12 + f3 / r13 := by ring
    have hC : f1 / (r13 * r21) + f3 / (r13 * r23) + f2 / (r12 * r23) = f1 / (r13 * r21) + f2 / (r23 * r12) + f3 / (r13 * r23) := by ring
    have hE : f1 / (r12 * r31) + f3 / (r32 * r13) + f2 / (r12 * r32) = f1 / (r12 * r31) + f2 / (r12 * r32) + f3 / (r13 * r32) := by ring
    simp only [instTernary, ← hf3, ← hf2, hA, hB, hC, hE]
    generalize f1 * (f1 / (r21 * r31) + f2 / (r21 * r32) + f3 / (r31 * r23)) * (f1 + f2 / r12 + f3 / r13) = X at *
    generalize f2 * (f1 / (r12 * r31) + f2 / (r12 * r32) + f3 / (r13 * r32)) * (f2 + f1 / r21 + f3 / r23) = Y at *
    generalize f3 * (f1 / (r13 * r21) + f2 / (r23 * r12) + f3 / (r13 * r23)) * (f3 + f1 / r31 + f2 / r32) = Z at *
    rw [show X + Z + Y = X + Y + Z by ring]
    refine Prod.ext rfl (Prod.ext ?_ ?_)
    · simp only; field_simp; ring
    · simp only; field_simp; ring
  · simp only [radTernary, ← hf3, h12]
    refine Prod.ext ?_ (Prod.ext ?_ ?_) <;> simp only <;> congr 1 <;> ring
  · simp only [radTernary, ← hf3, ← hf2]
    refine Prod.ext ?_ (Prod.ext ?_ ?_) <;> simp only <;> congr 1 <;> ring

/-- Styrene, methyl methacrylate and a third monomer. -/
example : (instTernary (1 / 2) (1 / 4) (1 / 2) (1 / 2) 1 1 1 1 : ℚ × ℚ × ℚ).1 ≠ (instTernary (1 / 4) (1 / 2) (1 / 2) (1 / 2) 1 1 1 1 : ℚ × ℚ × ℚ).1 := by
  norm_num [instTernary]

end Copo

end Verif.Relabel
