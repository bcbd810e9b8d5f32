import Verif.Lemmas.CopoMulti
import Verif.Lemmas.Copo
import Mathlib.Data.Fin.VecNotation
import Mathlib.LinearAlgebra.Matrix.Notation

/-!
# C33-C36: multicomponent copolymerization

`solve` is any function with the contract of `np.linalg.solve` (`IsSolve`).
-/

namespace Verif.CopoMulti

open Verif.Copo

variable {α : Type*} [Field α] [LinearOrder α] [IsStrictOrderedRing α]

/-! ### C35 -/

/-- **C35.** For any number of monomers, `f ≥ 0` not all zero, positive `r`: the entries are probabilities, the rows sum to one,
and the odds of adding `j` rather than `k` to radical `i` are `(f_j/r_ij) : (f_k/r_ik)`. -/
theorem C35_stochastic {n : ℕ} (f : Fin n → α) (r : Matrix (Fin n) (Fin n) α) (hf : ∀ i, 0 ≤ f i) (hf0 : ∃ i, 0 < f i)
    (hr : ∀ i j, 0 < r i j) :
    (∀ i j, 0 ≤ transitionsMulti f r i j ∧ transitionsMulti f r i j ≤ 1) ∧ (∀ i, ∑ j, transitionsMulti f r i j = 1) ∧
    ∀ i j k, transitionsMulti f r i j * (f k / r i k) = transitionsMulti f r i k * (f j / r i j) := by
  have h := transitions_doeblin f r hf hf0 hr
  refine ⟨fun i j => ⟨h.nonneg i j, ?_⟩, h.rows, fun i j k => ?_⟩
  · rw [← h.rows i]
    exact Finset.single_le_sum (fun k _ => h.nonneg i k) (Finset.mem_univ j)
  · unfold transitionsMulti; ring

/-- **C35.** For two monomers the matrix is that of `TerminalModel.transitions`. -/
theorem C35_terminal (f1 r1 r2 : α) (h0 : 0 < f1) (h1 : f1 < 1) (hr1 : 0 < r1) (hr2 : 0 < r2) :
    transitions r1 r2 f1 = .ok (some
      ⟨transitionsMulti ![f1, 1 - f1] !![1, r1; r2, 1] 0 0, transitionsMulti ![f1, 1 - f1] !![1, r1; r2, 1] 0 1,
       transitionsMulti ![f1, 1 - f1] !![1, r1; r2, 1] 1 0, transitionsMulti ![f1, 1 - f1] !![1, r1; r2, 1] 1 1⟩) := by
  rw [transitions_eq h0.le h1.le hr1.le hr2.le (fun _ => hr1.ne') (fun _ => hr2.ne')]
  have h2 : 0 < 1 - f1 := sub_pos.mpr h1
  have e1 : 0 < r1 * f1 + (1 - f1) := by positivity
  have e2 : 0 < r2 * (1 - f1) + f1 := by positivity
  have e3 : 0 < f1 + (1 - f1) / r1 := by positivity
  have e4 : 0 < f1 / r2 + (1 - f1) := by positivity
  simp only [transitionsMulti, Fin.sum_univ_two, Matrix.cons_val_zero, Matrix.cons_val_one, Matrix.of_apply, div_one]
  have q1 : f1 + (1 - f1) / r1 = (r1 * f1 + (1 - f1)) / r1 := by field_simp
  have q2 : f1 / r2 + (1 - f1) = (r2 * (1 - f1) + f1) / r2 := by field_simp; ring
  rw [q1, q2]
  congr 3 <;> field_simp <;> ring

/-! ### C33 -/

/-- **C33.** Exactly two combinations of arguments are accepted. -/
theorem C33_arguments {n : ℕ} (solve : Matrix (Fin (n + 1)) (Fin (n + 1)) α → (Fin (n + 1) → α) → Option (Fin (n + 1) → α))
    (f : Option (Fin (n + 1) → α)) (r P : Option (Matrix (Fin (n + 1)) (Fin (n + 1)) α)) :
    instMulti solve f r P = .error .ValueError ↔
      ¬((f.isSome ∧ r.isSome ∧ P = none) ∨ (f = none ∧ r = none ∧ P.isSome)) := by
  cases f <;> cases r <;> cases P <;> simp [instMulti]

/-- **C33.** Given a row-stochastic matrix with a positive column, the result is the unique stationary distribution of the chain. -/
theorem C33_stationary_P {n : ℕ} (solve : Matrix (Fin (n + 1)) (Fin (n + 1)) α → (Fin (n + 1) → α) → Option (Fin (n + 1) → α))
    (hsolve : IsSolve solve) (P : Matrix (Fin (n + 1)) (Fin (n + 1)) α) (hP : ∀ i j, 0 ≤ P i j) (hrow : ∀ i, ∑ j, P i j = 1)
    (hcol : ∃ j, ∀ i, 0 < P i j) :
    ∃ F, instMulti solve none none (some P) = .ok (some F) ∧ (∀ i, 0 ≤ F i) ∧ ∑ i, F i = 1 ∧ (∀ j, ∑ i, F i * P i j = F j) ∧
      ∀ G : Fin (n + 1) → α, ∑ i, G i = 1 → (∀ j, ∑ i, G i * P i j = G j) → G = F := by
  have hD : Doeblin P := ⟨hP, hrow, hcol⟩
  obtain ⟨F, hF⟩ := hsolve.total (compMatrix P) lastOne (compMatrix_det P hD)
  obtain ⟨h1, h2⟩ := (comp_solution_iff P hrow F).mp (hsolve.sound _ _ _ hF)
  refine ⟨F, by simp only [instMulti, hF], ?_, h2, h1, fun G g1 g2 => ?_⟩
  · exact stationary_nonneg P hD (fun _ => 1) F (fun _ => one_pos) h1 (by simpa using h2)
  · exact stationary_unique P hD (fun _ => 1) G F (fun _ => one_pos) g2 h1 (by simp [g1, h2])

/-- **C33.** Given compositions and reactivity ratios: the stationary distribution of the propagation chain with transition
probabilities proportional to `f_j/r_ij`; absent monomers do not occur in the copolymer. -/
theorem C33_stationary {n : ℕ} (solve : Matrix (Fin (n + 1)) (Fin (n + 1)) α → (Fin (n + 1) → α) → Option (Fin (n + 1) → α))
    (hsolve : IsSolve solve) (f : Fin (n + 1) → α) (r : Matrix (Fin (n + 1)) (Fin (n + 1)) α) (hf : ∀ i, 0 ≤ f i)
    (hf0 : ∃ i, 0 < f i) (hr : ∀ i j, 0 < r i j) :
    ∃ F, instMulti solve (some f) (some r) none = .ok (some F) ∧ (∀ i, 0 ≤ F i) ∧ ∑ i, F i = 1 ∧ (∀ i, F i = 0 ↔ f i = 0) ∧
      (∀ j, ∑ i, F i * ((f j / r i j) / ∑ k, f k / r i k) = F j) ∧
      ∀ G : Fin (n + 1) → α, ∑ i, G i = 1 → (∀ j, ∑ i, G i * ((f j / r i j) / ∑ k, f k / r i k) = G j) → G = F := by
  have hD := transitions_doeblin f r hf hf0 hr
  obtain ⟨F, hF, h0, h1, h2, h3⟩ := C33_stationary_P solve hsolve _ hD.nonneg hD.rows hD.col
  refine ⟨F, hF, h0, h1, fun i => ⟨fun hi => ?_, fun hi => ?_⟩, h2, h3⟩
  · have e := h2 i
    rw [hi] at e
    by_contra hne
    have hp : 0 < f i := lt_of_le_of_ne (hf i) (Ne.symm hne)
    have hs : ∀ l, 0 < ∑ k, f k / r l k := fun l =>
      Finset.sum_pos' (fun k _ => div_nonneg (hf k) (hr l k).le) ⟨i, Finset.mem_univ _, div_pos hp (hr l i)⟩
    have hz : ∀ l, F l = 0 := fun l => by
      have := (Finset.sum_eq_zero_iff_of_nonneg (fun l _ => mul_nonneg (h0 l) (hD.nonneg l i))).mp e l (Finset.mem_univ _)
      exact (mul_eq_zero.mp this).resolve_right (div_pos (div_pos hp (hr l i)) (hs l)).ne'
    rw [Finset.sum_eq_zero fun l _ => hz l] at h1
    exact zero_ne_one h1
  · rw [← h2 i]
    apply Finset.sum_eq_zero
    intro l _
    simp [transitionsMulti, hi]

/-- **C33.** Two monomers: `F_0` is the value of `inst_copolymer_binary`. -/
theorem C33_binary (solve : Matrix (Fin 2) (Fin 2) α → (Fin 2 → α) → Option (Fin 2 → α)) (hsolve : IsSolve solve)
    (f1 r1 r2 : α) (h0 : 0 ≤ f1) (h1 : f1 ≤ 1) (hr1 : 0 < r1) (hr2 : 0 < r2) :
    ∃ F, instMulti solve (some ![f1, 1 - f1]) (some !![1, r1; r2, 1]) none = .ok (some F) ∧ instBinary f1 r1 r2 = some (F 0) ∧
      F 1 = 1 - F 0 := by
  have h2 : 0 ≤ 1 - f1 := sub_nonneg.mpr h1
  have hd := den_pos h0 h1 hr1.le hr2.le (fun _ => hr1.ne') (fun _ => hr2.ne')
  have e1 := tden_pos h0 h1 hr1.le (fun _ => hr1.ne')
  have e2 := tden_pos (f := 1 - f1) (r := r2) h2 (by linarith) hr2.le (fun _ => hr2.ne')
  rw [sub_sub_cancel] at e2
  have z1 : ∀ i, 0 ≤ (![f1, 1 - f1] : Fin 2 → α) i := by intro i; fin_cases i <;> simpa using by assumption
  have z2 : ∃ i, 0 < (![f1, 1 - f1] : Fin 2 → α) i := by
    rcases h0.eq_or_lt with rfl | h
    · exact ⟨1, by simp⟩
    · exact ⟨0, by simpa using h⟩
  have z3 : ∀ i j, 0 < (!![1, r1; r2, 1] : Matrix (Fin 2) (Fin 2) α) i j := by
    intro i j; fin_cases i <;> fin_cases j <;> simp [hr1, hr2]
  obtain ⟨F, hF, _, hs, _, hst, _⟩ := C33_stationary (n := 1) solve hsolve ![f1, 1 - f1] !![1, r1; r2, 1] z1 z2 z3
  refine ⟨F, hF, ?_, ?_⟩
  · rw [instBinary_eq h0 h1 hr1.le hr2.le (fun _ => hr1.ne') (fun _ => hr2.ne')]
    have q1 : f1 + (1 - f1) / r1 = (r1 * f1 + (1 - f1)) / r1 := by field_simp
    have q2 : f1 / r2 + (1 - f1) = (r2 * (1 - f1) + f1) / r2 := by field_simp; ring
    have := comp_unique 2 _ _ z1 z2 z3 F ![(r1 * f1 ^ 2 + f1 * (1 - f1)) / (r1 * f1 ^ 2 + 2 * f1 * (1 - f1) + r2 * (1 - f1) ^ 2),
      1 - (r1 * f1 ^ 2 + f1 * (1 - f1)) / (r1 * f1 ^ 2 + 2 * f1 * (1 - f1) + r2 * (1 - f1) ^ 2)] hs hst
      (by simp [Fin.sum_univ_two])
      (by
        have c : 1 - (r1 * f1 ^ 2 + f1 * (1 - f1)) / (r1 * f1 ^ 2 + 2 * f1 * (1 - f1) + r2 * (1 - f1) ^ 2) =
            (1 - f1) * (r2 * (1 - f1) + f1) / (r1 * f1 ^ 2 + 2 * f1 * (1 - f1) + r2 * (1 - f1) ^ 2) := by
          rw [eq_div_iff hd.ne', sub_mul, div_mul_cancel₀ _ hd.ne']; ring
        have c' : (r1 * f1 ^ 2 + f1 * (1 - f1)) = f1 * (r1 * f1 + (1 - f1)) := by ring
        intro j
        rw [c, c']
        fin_cases j <;> simp only [Fin.sum_univ_two, Matrix.cons_val_zero, Matrix.cons_val_one, Matrix.of_apply, div_one, q1, q2,
          Fin.zero_eta, Fin.mk_one]
        all_goals
          generalize hD : r1 * f1 ^ 2 + 2 * f1 * (1 - f1) + r2 * (1 - f1) ^ 2 = D at hd ⊢
          generalize hE1 : r1 * f1 + (1 - f1) = E1 at e1 ⊢
          generalize hE2 : r2 * (1 - f1) + f1 = E2 at e2 ⊢
          field_simp
          first | (rw [← hE1]; ring) | (rw [← hE2]; ring))
    rw [this]; rfl
  · have hs : F 0 + F 1 = 1 := (Fin.sum_univ_two F).symm.trans hs
    linear_combination hs

/-- **C33.** Three monomers: the result is that of `inst_copolymer_ternary`. -/
theorem C33_ternary (solve : Matrix (Fin 3) (Fin 3) α → (Fin 3 → α) → Option (Fin 3 → α)) (hsolve : IsSolve solve)
    (f1 f2 r12 r21 r13 r31 r23 r32 : α) (h1 : 0 < f1) (h2 : 0 < f2) (h3 : f1 + f2 < 1) (k12 : 0 < r12) (k21 : 0 < r21)
    (k13 : 0 < r13) (k31 : 0 < r31) (k23 : 0 < r23) (k32 : 0 < r32) :
    ∃ F, instMulti solve (some ![f1, f2, 1 - (f1 + f2)]) (some !![1, r12, r13; r21, 1, r23; r31, r32, 1]) none = .ok (some F) ∧
      instTernary f1 f2 r12 r21 r13 r31 r23 r32 = (F 0, F 1, F 2) := by
  have h4 : 0 < 1 - (f1 + f2) := by linarith
  have z1 : ∀ i, 0 ≤ (![f1, f2, 1 - (f1 + f2)] : Fin 3 → α) i := by
    intro i; fin_cases i <;> simp [h1.le, h2.le]; linarith
  have z2 : ∃ i, 0 < (![f1, f2, 1 - (f1 + f2)] : Fin 3 → α) i := ⟨0, by simpa using h1⟩
  have z3 : ∀ i j, 0 < (!![1, r12, r13; r21, 1, r23; r31, r32, 1] : Matrix (Fin 3) (Fin 3) α) i j := by
    intro i j; fin_cases i <;> fin_cases j <;> simp [k12, k21, k13, k31, k23, k32]
  obtain ⟨F, hF, _, hs, _, hst, _⟩ := C33_stationary (n := 2) solve hsolve _ _ z1 z2 z3
  refine ⟨F, hF, ?_⟩
  have := comp_unique 3 _ _ z1 z2 z3 F ![(instTernary f1 f2 r12 r21 r13 r31 r23 r32).1, (instTernary f1 f2 r12 r21 r13 r31 r23 r32).2.1,
      (instTernary f1 f2 r12 r21 r13 r31 r23 r32).2.2] hs hst ?_ ?_
  · rw [this]; rfl
  · simp [Fin.sum_univ_three, instTernary]
  · unfold instTernary
    dsimp only
    generalize hf3 : 1 - (f1 + f2) = f3 at h4 ⊢
    have pb : 0 < f1 + f2 / r12 + f3 / r13 := by positivity
    have pd : 0 < f2 + f1 / r21 + f3 / r23 := by positivity
    have pg : 0 < f3 + f1 / r31 + f2 / r32 := by positivity
    have ea : 0 < f1 / (r21 * r31) + f2 / (r21 * r32) + f3 / (r31 * r23) := by positivity
    have ec : 0 < f1 / (r12 * r31) + f2 / (r12 * r32) + f3 / (r13 * r32) := by positivity
    have ee : 0 < f1 / (r13 * r21) + f2 / (r23 * r12) + f3 / (r13 * r23) := by positivity
    generalize ha : f1 / (r21 * r31) + f2 / (r21 * r32) + f3 / (r31 * r23) = a at ea ⊢
    generalize hc : f1 / (r12 * r31) + f2 / (r12 * r32) + f3 / (r13 * r32) = c at ec ⊢
    generalize he : f1 / (r13 * r21) + f2 / (r23 * r12) + f3 / (r13 * r23) = e at ee ⊢
    have sb : f1 / 1 + f2 / r12 + f3 / r13 = f1 + f2 / r12 + f3 / r13 := by rw [div_one]
    have sd : f1 / r21 + f2 / 1 + f3 / r23 = f2 + f1 / r21 + f3 / r23 := by rw [div_one]; ring
    have sg : f1 / r31 + f2 / r32 + f3 / 1 = f3 + f1 / r31 + f2 / r32 := by rw [div_one]; ring
    -- the three balances
    have B1 : f1 * a * f1 + f2 * c * (f1 / r21) + f3 * e * (f1 / r31) = f1 * a * (f1 + f2 / r12 + f3 / r13) := by
      rw [← ha, ← hc, ← he]; simp only [div_eq_mul_inv, mul_inv]; ring
    have B2 : f1 * a * (f2 / r12) + f2 * c * f2 + f3 * e * (f2 / r32) = f2 * c * (f2 + f1 / r21 + f3 / r23) := by
      rw [← ha, ← hc, ← he]; simp only [div_eq_mul_inv, mul_inv]; ring
    have B3 : f1 * a * (f3 / r13) + f2 * c * (f3 / r23) + f3 * e * f3 = f3 * e * (f3 + f1 / r31 + f2 / r32) := by
      rw [← ha, ← hc, ← he]; simp only [div_eq_mul_inv, mul_inv]; ring
    generalize hb : f1 + f2 / r12 + f3 / r13 = b at *
    generalize hd : f2 + f1 / r21 + f3 / r23 = d at *
    generalize hg : f3 + f1 / r31 + f2 / r32 = g at *
    have hD : 0 < f1 * a * b + f2 * c * d + f3 * e * g := by positivity
    have c3 : 1 - (f1 * a * b / (f1 * a * b + f2 * c * d + f3 * e * g) + f2 * c * d / (f1 * a * b + f2 * c * d + f3 * e * g)) =
        f3 * e * g / (f1 * a * b + f2 * c * d + f3 * e * g) := by field_simp; ring
    rw [c3]
    generalize f1 * a * b + f2 * c * d + f3 * e * g = D at hD ⊢
    have t : ∀ x y z : α, 0 < z → x * z / D * (y / z) = x * y / D := fun x y z hz => by field_simp
    intro j
    fin_cases j
    · simp only [Fin.sum_univ_three, Matrix.cons_val_zero, Matrix.cons_val_one, Matrix.cons_val, Matrix.of_apply, Fin.zero_eta, sb, sd, sg]
      rw [t _ _ _ pb, t _ _ _ pd, t _ _ _ pg, ← add_div, ← add_div, div_one, B1]
    · simp only [Fin.sum_univ_three, Matrix.cons_val_zero, Matrix.cons_val_one, Matrix.cons_val, Matrix.of_apply, Fin.mk_one, sb, sd, sg]
      rw [t _ _ _ pb, t _ _ _ pd, t _ _ _ pg, ← add_div, ← add_div, div_one, B2]
    · simp only [Fin.sum_univ_three, Matrix.cons_val_zero, Matrix.cons_val_one, Matrix.cons_val, Matrix.of_apply, Fin.reduceFinMk, sb, sd, sg]
      rw [t _ _ _ pb, t _ _ _ pd, t _ _ _ pg, ← add_div, ← add_div, div_one, B3]

-- non-vacuity: a solver with the contract exists, and the hypotheses hold for three equal monomers
/-- The exact solver. -/
noncomputable def exactSolve {n : ℕ} (A : Matrix (Fin n) (Fin n) ℚ) (b : Fin n → ℚ) : Option (Fin n → ℚ) :=
  if A.det = 0 then none else some (A⁻¹.mulVec b)

theorem exactSolve_isSolve (n : ℕ) : IsSolve (exactSolve (n := n)) := by
  refine ⟨fun A b x h => ?_, fun A b h => ⟨_, if_neg h⟩, fun A b h => if_pos h⟩
  unfold exactSolve at h
  split_ifs at h with hd
  simp only [Option.some.injEq] at h
  rw [← h, Matrix.mulVec_mulVec, Matrix.mul_nonsing_inv A (isUnit_iff_ne_zero.mpr hd), Matrix.one_mulVec]

example : ∃ F, instMulti (exactSolve (n := 3)) (some fun _ => (1 / 3 : ℚ)) (some fun _ _ => 1) none = .ok (some F) ∧
    ∑ i, F i = 1 := by
  obtain ⟨F, h, _, h1, _⟩ := C33_stationary (n := 2) _ (exactSolve_isSolve 3) (fun _ => (1 / 3 : ℚ)) (fun _ _ => 1)
    (fun _ => by norm_num) ⟨0, by norm_num⟩ (fun _ _ => one_pos)
  exact ⟨F, h, h1⟩

example : instMulti (exactSolve (n := 3)) (some fun _ => (1 / 3 : ℚ)) none none = .error .ValueError := rfl

/-! ### C34 -/

/-- **C34.** `radical_fractions_multi`, any number of monomers: fractions that are non-negative, sum to one and satisfy the steady-state
balance of every radical, `Σ_j k_ij p_i f_j = Σ_j k_ji p_j f_i`; they are the only such fractions. -/
theorem C34_multi {n : ℕ} (solve : Matrix (Fin (n + 1)) (Fin (n + 1)) α → (Fin (n + 1) → α) → Option (Fin (n + 1) → α))
    (hsolve : IsSolve solve) (f : Fin (n + 1) → α) (k : Matrix (Fin (n + 1)) (Fin (n + 1)) α) (hf : ∀ i, 0 ≤ f i)
    (hf0 : ∃ i, 0 < f i) (hk : ∀ i j, 0 < k i j) :
    ∃ p, radMulti solve f k = some p ∧ (∀ i, 0 ≤ p i) ∧ ∑ i, p i = 1 ∧
      (∀ i, ∑ j, k i j * p i * f j = ∑ j, k j i * p j * f i) ∧
      ∀ q : Fin (n + 1) → α, ∑ i, q i = 1 → (∀ i, ∑ j, k i j * q i * f j = ∑ j, k j i * q j * f i) → q = p := by
  have hs := radOut_pos f k hf hf0 hk
  obtain ⟨p, hp⟩ := hsolve.total (radMatrix f k) lastOne (radMatrix_det f k hf hf0 hk)
  obtain ⟨h1, h2⟩ := (rad_solution_iff f k hf hf0 hk p).mp (hsolve.sound _ _ _ hp)
  have conv : ∀ (q : Fin (n + 1) → α) i, (∑ j, k i j * q i * f j = ∑ j, k j i * q j * f i) ↔
      ∑ j, k j i * f i * q j = (∑ l, k i l * f l) * q i := by
    intro q i
    have a : ∑ j, k i j * q i * f j = (∑ l, k i l * f l) * q i := by
      rw [Finset.sum_mul]; exact Finset.sum_congr rfl fun _ _ => by ring
    have b : ∑ j, k j i * q j * f i = ∑ j, k j i * f i * q j := Finset.sum_congr rfl fun _ _ => by ring
    rw [a, b]; exact eq_comm
  refine ⟨p, hp, fun i => ?_, h2, fun i => (conv p i).mpr (h1 i), fun q g1 g2 => ?_⟩
  · have := stationary_nonneg _ (rad_doeblin f k hf hf0 hk) (fun i => 1 / radOut f k i) (fun j => radOut f k j * p j)
      (fun i => one_div_pos.mpr (hs i)) (fun i => (rad_balance_iff f k hs p i).mp (h1 i))
      (by rw [rad_weight f k hs, h2]) i
    exact nonneg_of_mul_nonneg_right this (hs i)
  · exact rad_unique _ f k hf hf0 hk q p g1 (fun i => (conv q i).mp (g2 i)) h2 h1

/-- **C34.** `radical_fractions_ternary` satisfies the same balances (whatever the homopropagation coefficients `d1, d2, d3`) and
agrees with `radical_fractions_multi`. -/
theorem C34_ternary (solve : Matrix (Fin 3) (Fin 3) α → (Fin 3 → α) → Option (Fin 3 → α)) (hsolve : IsSolve solve)
    (f1 f2 k12 k21 k13 k31 k23 k32 d1 d2 d3 : α) (h1 : 0 < f1) (h2 : 0 < f2) (h3 : f1 + f2 < 1) (k12p : 0 < k12) (k21p : 0 < k21)
    (k13p : 0 < k13) (k31p : 0 < k31) (k23p : 0 < k23) (k32p : 0 < k32) (d1p : 0 < d1) (d2p : 0 < d2) (d3p : 0 < d3) :
    ∃ p, radMulti (n := 2) solve ![f1, f2, 1 - (f1 + f2)] !![d1, k12, k13; k21, d2, k23; k31, k32, d3] = some p ∧
      radTernary f1 f2 k12 k21 k13 k31 k23 k32 = (p 0, p 1, p 2) := by
  have h4 : 0 < 1 - (f1 + f2) := by linarith
  have z1 : ∀ i, 0 ≤ (![f1, f2, 1 - (f1 + f2)] : Fin 3 → α) i := by
    intro i; fin_cases i <;> simp [h1.le, h2.le]; linarith
  have z2 : ∃ i, 0 < (![f1, f2, 1 - (f1 + f2)] : Fin 3 → α) i := ⟨0, by simpa using h1⟩
  have z3 : ∀ i j, 0 < (!![d1, k12, k13; k21, d2, k23; k31, k32, d3] : Matrix (Fin 3) (Fin 3) α) i j := by
    intro i j; fin_cases i <;> fin_cases j <;> simp [k12p, k21p, k13p, k31p, k23p, k32p, d1p, d2p, d3p]
  obtain ⟨p, hp⟩ := hsolve.total (radMatrix (n := 2) _ _) lastOne (radMatrix_det (n := 2) _ _ z1 z2 z3)
  obtain ⟨e1, e2⟩ := (rad_solution_iff (n := 2) _ _ z1 z2 z3 p).mp (hsolve.sound _ _ _ hp)
  refine ⟨p, hp, ?_⟩
  have := rad_unique 3 _ _ z1 z2 z3 p ![(radTernary f1 f2 k12 k21 k13 k31 k23 k32).1, (radTernary f1 f2 k12 k21 k13 k31 k23 k32).2.1,
    (radTernary f1 f2 k12 k21 k13 k31 k23 k32).2.2] e2 e1 ?_ ?_
  · rw [this]; rfl
  all_goals
    unfold radTernary
    dsimp only
    generalize hf3 : 1 - (f1 + f2) = f3 at h4 ⊢
    have hD : 0 < k21 * k31 * f1 ^ 2 + k21 * k32 * f1 * f2 + k23 * k31 * f1 * f3 +
      (k12 * k31 * f1 * f2 + k12 * k32 * f2 ^ 2 + k13 * k32 * f2 * f3) +
      (k12 * k23 * f2 * f3 + k13 * k21 * f1 * f3 + k13 * k23 * f3 ^ 2) := by positivity
  · simp only [Fin.sum_univ_three, Matrix.cons_val_zero, Matrix.cons_val_one, Matrix.cons_val]
    rw [← add_div, ← add_div, div_self hD.ne']
  · generalize k21 * k31 * f1 ^ 2 + k21 * k32 * f1 * f2 + k23 * k31 * f1 * f3 +
      (k12 * k31 * f1 * f2 + k12 * k32 * f2 ^ 2 + k13 * k32 * f2 * f3) +
      (k12 * k23 * f2 * f3 + k13 * k21 * f1 * f3 + k13 * k23 * f3 ^ 2) = D at hD ⊢
    intro i
    fin_cases i
    all_goals
      simp only [Fin.sum_univ_three, Matrix.cons_val_zero, Matrix.cons_val_one, Matrix.cons_val, Matrix.of_apply, Fin.zero_eta,
        Fin.mk_one, Fin.reduceFinMk]
      field_simp
      ring

-- non-vacuity
example : ∃ p, radMulti (exactSolve (n := 3)) (fun _ => (1 / 3 : ℚ)) (fun _ _ => 1) = some p ∧ ∑ i, p i = 1 := by
  obtain ⟨p, h, _, h1, _⟩ := C34_multi (n := 2) _ (exactSolve_isSolve 3) (fun _ => (1 / 3 : ℚ)) (fun _ _ => 1)
    (fun _ => by norm_num) ⟨0, by norm_num⟩ (fun _ _ => one_pos)
  exact ⟨p, h, h1⟩

/-! ### C36 -/

/-- **C36.** For every self-transition probability in `[0, 1)`: the sequence length distribution is a probability distribution over
`k ≥ 1`; it has mean `1/(1 - P)`, and the value reported for `k = None` is below it by a relative error of at most `eps/(1 - P)`. -/
theorem C36_sequence (P : ℝ) (h0 : 0 ≤ P) (h1 : P < 1) :
    (∀ k, 1 ≤ k → 0 ≤ seqProb P k) ∧ HasSum (fun k => seqProb P (k + 1)) 1 ∧
    HasSum (fun k : ℕ => ((k + 1 : ℕ) : ℝ) * seqProb P (k + 1)) (1 / (1 - P)) ∧
    seqMean P ≤ 1 / (1 - P) ∧ 1 / (1 - P) ≤ seqMean P * (1 + eps / (1 - P)) := by
  have a : 0 < 1 - P := sub_pos.mpr h1
  have he : (0 : ℝ) < eps := eps_pos
  refine ⟨fun k _ => mul_nonneg a.le (pow_nonneg h0 _), hasSum_geom P h0 h1,
    hasSum_of_eq (hasSum_geom_mean P h0 h1) (fun k => by simp [seqProb]) rfl, ?_, ?_⟩
  · exact one_div_le_one_div_of_le a (by linarith)
  · unfold seqMean
    apply le_of_eq
    field_simp

/-- **C36.** The guard keeps the reported mean finite also for `P = 1` (then it is `1/eps`). -/
theorem C36_mean_guard : seqMean (1 : ℝ) = 2 ^ 52 := by
  unfold seqMean eps; norm_num

example : seqProb (1 / 4 : ℚ) 3 = 3 / 64 := by norm_num [seqProb]

end Verif.CopoMulti
