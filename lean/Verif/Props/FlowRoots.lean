import Verif.Lemmas.FlowRoots

/-!
# C86: the implicit equations of `vt_sphere` and `fD_Colebrook`
-/

namespace Verif.Flow

open Real

/-- Drag coefficient times the squared Reynolds number. -/
noncomputable def dragRe (R : ℝ) : ℝ := R ^ 2 * cdSphere R

theorem dragRe_eq {R : ℝ} (h : 0 < R) :
    dragRe R = 24 * R * (1 + 0.173 * R ^ (0.657 : ℝ)) + 0.413 * (R ^ 2 / (1 + 16300 * R ^ (-1.09 : ℝ))) := by
  unfold dragRe cdSphere
  generalize R ^ (0.657 : ℝ) = a
  generalize 1 + 16300 * R ^ (-1.09 : ℝ) = b
  field_simp

theorem dragRe_strictMono {a b : ℝ} (ha : 0 < a) (hab : a < b) : dragRe a < dragRe b := by
  have hb := ha.trans hab
  rw [dragRe_eq ha, dragRe_eq hb]
  have h1 : a ^ (0.657 : ℝ) < b ^ (0.657 : ℝ) := rpow_lt_rpow ha.le hab (by norm_num)
  have h1' := rpow_pos_of_pos ha (0.657 : ℝ)
  have h2 : b ^ (-1.09 : ℝ) < a ^ (-1.09 : ℝ) := rpow_lt_rpow_of_neg ha hab (by norm_num)
  have h2' := rpow_pos_of_pos hb (-1.09 : ℝ)
  have h3 : a ^ 2 / (1 + 16300 * a ^ (-1.09 : ℝ)) < b ^ 2 / (1 + 16300 * b ^ (-1.09 : ℝ)) :=
    div_lt_div₀ (pow_lt_pow_left₀ hab ha.le (by norm_num)) (by linarith) (by positivity) (by positivity)
  have h4 : 24 * a * (1 + 0.173 * a ^ (0.657 : ℝ)) < 24 * b * (1 + 0.173 * b ^ (0.657 : ℝ)) := by
    refine mul_lt_mul'' (by linarith) (by linarith) (by positivity) (by positivity)
  linarith

theorem dragRe_surj {c : ℝ} (hc : 0 < c) : ∃ R, 0 < R ∧ dragRe R = c := by
  -- small Reynolds number: `dragRe R ≤ 29 R`
  have hlo : ∃ a, 0 < a ∧ a ≤ 1 ∧ dragRe a ≤ c := by
    refine ⟨min 1 (c / 29), by positivity, min_le_left _ _, ?_⟩
    have h0 : 0 < min 1 (c / 29) := by positivity
    have h1 : min 1 (c / 29) ≤ 1 := min_le_left _ _
    have h2 : min 1 (c / 29) ≤ c / 29 := min_le_right _ _
    generalize min 1 (c / 29) = a at h0 h1 h2
    rw [dragRe_eq h0]
    have h3 : a ^ (0.657 : ℝ) ≤ 1 := rpow_le_one h0.le h1 (by norm_num)
    have h4 := rpow_pos_of_pos h0 (-1.09 : ℝ)
    have h5 : a ^ 2 / (1 + 16300 * a ^ (-1.09 : ℝ)) ≤ a ^ 2 := div_le_self (by positivity) (by linarith)
    have h6 : 24 * a * (1 + 0.173 * a ^ (0.657 : ℝ)) ≤ 24 * a * 1.173 := mul_le_mul_of_nonneg_left (by linarith) (by positivity)
    nlinarith
  obtain ⟨a, ha, ha1, hla⟩ := hlo
  have hb : c ≤ dragRe (max 1 (c / 24)) := by
    have h0 : 0 < max 1 (c / 24) := by positivity
    have h1 : c / 24 ≤ max 1 (c / 24) := le_max_right _ _
    generalize max 1 (c / 24) = b at h0 h1
    have := cdSphere_pos h0
    have h2 : b ^ 2 * (24 / b) ≤ dragRe b := mul_le_mul_of_nonneg_left this.le (by positivity)
    have h3 : b ^ 2 * (24 / b) = 24 * b := by field_simp
    linarith
  have hab : a ≤ max 1 (c / 24) := ha1.trans (le_max_left _ _)
  have hcont : ContinuousOn dragRe (Set.Icc a (max 1 (c / 24))) := by
    intro x hx
    have hx0 : 0 < x := ha.trans_le hx.1
    refine ContinuousAt.continuousWithinAt ?_
    unfold dragRe cdSphere
    have c1 : ContinuousAt (fun R : ℝ => R ^ (0.657 : ℝ)) x := continuousAt_rpow_const _ _ (Or.inl hx0.ne')
    have c2 : ContinuousAt (fun R : ℝ => R ^ (-1.09 : ℝ)) x := continuousAt_rpow_const _ _ (Or.inl hx0.ne')
    have h2 := rpow_pos_of_pos hx0 (-1.09 : ℝ)
    refine (continuousAt_id.pow 2).mul (ContinuousAt.add (ContinuousAt.mul (continuousAt_const.div continuousAt_id hx0.ne') (continuousAt_const.add (continuousAt_const.mul c1)))
      (continuousAt_const.div (continuousAt_const.add (continuousAt_const.mul c2)) (by positivity)))
  obtain ⟨R, hR, hRc⟩ := intermediate_value_Icc hab hcont ⟨hla, hb⟩
  exact ⟨R, ha.trans_le hR.1, hRc⟩

/-- The drag balance of a settling sphere, in real numbers: the equation `vt_sphere` is meant to solve. -/
def Settles (g Dp rhop rho mu v : ℝ) : Prop := 0 < v ∧ v = √(4 * Dp * g * (rhop - rho) / (3 * cdSphere (rho * v * Dp / mu) * rho))

theorem settles_iff {g Dp rhop rho mu v : ℝ} (hg : 0 < g) (hDp : 0 < Dp) (hr : rho < rhop) (hrho : 0 < rho) (hmu : 0 < mu) (hv : 0 < v) :
    Settles g Dp rhop rho mu v ↔ dragRe (rho * v * Dp / mu) = 4 * Dp ^ 3 * g * (rhop - rho) * rho / (3 * mu ^ 2) := by
  have hR : 0 < rho * v * Dp / mu := by positivity
  have hC : 0 < cdSphere (rho * v * Dp / mu) := lt_trans (by positivity) (cdSphere_pos hR)
  have hd : 0 < rhop - rho := by linarith
  have hpos : 0 < 4 * Dp * g * (rhop - rho) / (3 * cdSphere (rho * v * Dp / mu) * rho) := by positivity
  unfold Settles dragRe
  rw [and_iff_right hv, eq_comm, sqrt_eq_iff_mul_self_eq hpos.le hv.le, div_pow, div_mul_eq_mul_div]
  rw [div_eq_div_iff (by positivity) (by positivity), eq_comm, eq_div_iff (by positivity)]
  generalize cdSphere (rho * v * Dp / mu) = C
  constructor
  · intro h
    have : (v * v * (3 * C * rho) - 4 * Dp * g * (rhop - rho)) * (rho * Dp ^ 2 * mu ^ 2) = 0 := by rw [h]; ring
    nlinarith
  · intro h
    have h2 : (v * v * (3 * C * rho) - 4 * Dp * g * (rhop - rho)) * (rho * Dp ^ 2 * mu ^ 2) = 0 := by nlinarith
    rcases mul_eq_zero.1 h2 with h3 | h3
    · linarith
    · exact absurd h3 (by positivity)

/-- **C86.** A sphere denser than the fluid has exactly one terminal velocity. -/
theorem C86_terminal_unique {g Dp rhop rho mu : ℝ} (hg : 0 < g) (hDp : 0 < Dp) (hr : rho < rhop) (hrho : 0 < rho) (hmu : 0 < mu) :
    ∃! v, Settles g Dp rhop rho mu v := by
  have hd : 0 < rhop - rho := by linarith
  obtain ⟨R, hR, hRe⟩ := dragRe_surj (show 0 < 4 * Dp ^ 3 * g * (rhop - rho) * rho / (3 * mu ^ 2) by positivity)
  have hv : 0 < R * mu / (rho * Dp) := by positivity
  refine ⟨R * mu / (rho * Dp), ?_, fun v' h' => ?_⟩
  · show Settles _ _ _ _ _ _
    rw [settles_iff hg hDp hr hrho hmu hv, ← hRe]
    congr 1
    field_simp
  · have h2 := (settles_iff hg hDp hr hrho hmu h'.1).1 h'
    rw [← hRe] at h2
    have hR' : 0 < rho * v' * Dp / mu := by have := h'.1; positivity
    rcases lt_trichotomy (rho * v' * Dp / mu) R with h | h | h
    · exact absurd h2 (dragRe_strictMono hR' h).ne
    · rw [← h]; field_simp
    · exact absurd h2 (dragRe_strictMono hR h).ne'

/-- **C86.** It is below the Stokes velocity. -/
theorem C86_below_Stokes {g Dp rhop rho mu v : ℝ} (hg : 0 < g) (hDp : 0 < Dp) (hr : rho < rhop) (hrho : 0 < rho) (hmu : 0 < mu) (h : Settles g Dp rhop rho mu v) :
    v < vtStokes g Dp rhop rho mu := by
  have hv := h.1
  have h2 := (settles_iff hg hDp hr hrho hmu hv).1 h
  have hR : 0 < rho * v * Dp / mu := by positivity
  have h3 := mul_lt_mul_of_pos_left (cdSphere_pos hR) (sq_pos_of_pos hR)
  change _ < dragRe _ at h3
  rw [h2, show (rho * v * Dp / mu) ^ 2 * (24 / (rho * v * Dp / mu)) = 24 * (rho * v * Dp / mu) by field_simp, lt_div_iff₀ (by positivity)] at h3
  unfold vtStokes
  rw [lt_div_iff₀ (by positivity)]
  have h4 : 24 * (rho * v * Dp / mu) * (3 * mu ^ 2) = 72 * mu * v * (rho * Dp) := by field_simp; ring
  rw [h4] at h3
  have h5 : (v * (18 * mu)) * (4 * (rho * Dp)) < (Dp ^ 2 * g * (rhop - rho)) * (4 * (rho * Dp)) := by nlinarith
  exact lt_of_mul_lt_mul_right h5 (by positivity)

/-- **C86.** What `vt_sphere` returns satisfies the stopping test of `root_newton` for the drag balance evaluated at `vt + i eps`. -/
theorem C86_certificate {g Dp rhop rho mu v : ℝ} (h : vtSphere g Dp rhop rho mu = .ok v) :
    |(vtEq g Dp rhop rho mu (v, eps)).1| ≤ 1e-6 ∨
      eps < |(vtEq g Dp rhop rho mu (v, eps)).2 / eps| ∧ |(vtEq g Dp rhop rho mu (v, eps)).1 / ((vtEq g Dp rhop rho mu (v, eps)).2 / eps)| ≤ 1e-6 := by
  unfold vtSphere at h
  cases hs : rootNewton (vtEq g Dp rhop rho mu) 1 1e-6 1e-6 50 with
  | error e => rw [hs] at h; cases h
  | ok sol =>
    rw [hs, ok_bind] at h
    split_ifs at h with hb
    · injection h with h
      obtain ⟨-, -, -, -, -, -, h7, h8, -⟩ := C01_newton_certificate _ _ _ _ _ sol.1 sol.2 hs
      rw [h] at h7 h8
      rw [h7] at h8
      rcases h8 hb with h9 | h9
      · exact Or.inl h9.2
      · exact Or.inr h9.2

/-- The Colebrook equation in real numbers. -/
def Colebrook (Re er f : ℝ) : Prop := 0 < f ∧ 1 / √f = -2 * logb 10 (er / 3.7 + 2.51 / (Re * √f))

/-- **C86.** The Colebrook equation has at most one solution. -/
theorem C86_colebrook_unique {Re er f f' : ℝ} (hRe : 0 < Re) (h0 : 0 ≤ er) (h : Colebrook Re er f) (h' : Colebrook Re er f') : f = f' := by
  have key : ∀ {a b : ℝ}, Colebrook Re er a → Colebrook Re er b → ¬ a < b := by
    intro a b ha hb hab
    have hsa := sqrt_pos.2 ha.1
    have hs := sqrt_lt_sqrt ha.1.le hab
    have h1 : 1 / √b < 1 / √a := one_div_lt_one_div_of_lt hsa hs
    have hsb := hsa.trans hs
    have h2 : er / 3.7 + 2.51 / (Re * √b) < er / 3.7 + 2.51 / (Re * √a) := by gcongr
    have h3 : logb 10 (er / 3.7 + 2.51 / (Re * √b)) < logb 10 (er / 3.7 + 2.51 / (Re * √a)) := logb_lt_logb (by norm_num) (by positivity) h2
    rw [ha.2, hb.2] at h1
    linarith
  rcases lt_trichotomy f f' with hl | hl | hl
  · exact absurd hl (key h h')
  · exact hl
  · exact absurd hl (key h' h)

/-- **C86.** The friction factor solving the Colebrook equation grows with the roughness and decreases with the Reynolds number. -/
theorem C86_colebrook_monotone {Re Re' er er' f f' : ℝ} (hRe : 0 < Re) (hRR : Re ≤ Re') (h0 : 0 ≤ er') (hee : er' ≤ er) (h : Colebrook Re er f)
    (h' : Colebrook Re' er' f') : f' ≤ f := by
  by_contra hcon
  push Not at hcon
  have hsa := sqrt_pos.2 h.1
  have hs := sqrt_lt_sqrt h.1.le hcon
  have h1 : 1 / √f' < 1 / √f := one_div_lt_one_div_of_lt hsa hs
  have hsb := hsa.trans hs
  have hRe' := hRe.trans_le hRR
  have h2 : er' / 3.7 + 2.51 / (Re' * √f') ≤ er / 3.7 + 2.51 / (Re * √f) := by gcongr
  have h3 : logb 10 (er' / 3.7 + 2.51 / (Re' * √f')) ≤ logb 10 (er / 3.7 + 2.51 / (Re * √f)) := logb_le_logb_of_le (by norm_num) (by positivity) h2
  rw [h.2, h'.2] at h1
  linarith

/-- **C86.** It has a solution for every `0 ≤ er ≤ 1` and `Re ≥ 2300`. -/
theorem C86_colebrook_exists {Re er : ℝ} (hRe : 2300 ≤ Re) (h0 : 0 ≤ er) (h1 : er ≤ 1) : ∃ f, Colebrook Re er f := by
  have hR0 : 0 < Re := by linarith
  have h10 := log10_pos
  have hlo : 1 + 2 * logb 10 (er / 3.7 + 2.51 * 1 / Re) ≤ 0 := by
    have h2 : 2.51 * 1 / Re ≤ 2.51 / 2300 := by rw [mul_one]; exact div_le_div_of_nonneg_left (by norm_num) (by norm_num) hRe
    have h3 : er / 3.7 ≤ 1 / 3.7 := div_le_div_of_nonneg_right h1 (by norm_num)
    have h4 : er / 3.7 + 2.51 * 1 / Re ≤ 0.3 := (add_le_add h3 h2).trans (by norm_num)
    have h5 : logb 10 (er / 3.7 + 2.51 * 1 / Re) ≤ logb 10 0.3 := logb_le_logb_of_le (by norm_num) (by positivity) h4
    have h6 : logb 10 (0.3 : ℝ) ≤ -(1 / 2) := by
      rw [logb_le_iff_le_rpow (by norm_num) (by norm_num)]
      have h7 : (0.3 : ℝ) = ((0.3 : ℝ) ^ (2 : ℕ)) ^ ((1 : ℝ) / 2) := by rw [← rpow_natCast, ← rpow_mul (by norm_num)]; norm_num
      have h8 : (10 : ℝ) ^ (-(1 / 2) : ℝ) = ((1 : ℝ) / 10) ^ ((1 : ℝ) / 2) := by rw [one_div (10 : ℝ), inv_rpow (by norm_num), rpow_neg (by norm_num)]
      rw [h7, h8]
      exact rpow_le_rpow (by norm_num) (by norm_num) (by norm_num)
    linarith
  have hS : 0 < Re / 2.51 := by positivity
  have hhi : 0 ≤ Re / 2.51 + 2 * logb 10 (er / 3.7 + 2.51 * (Re / 2.51) / Re) := by
    rw [show 2.51 * (Re / 2.51) / Re = 1 by field_simp]
    have h2 : 0 ≤ er / 3.7 := by positivity
    have : 0 ≤ logb 10 (er / 3.7 + 1) := logb_nonneg (by norm_num) (by linarith)
    linarith
  -- in terms of `s = 1/√f`
  have hcont : ContinuousOn (fun s : ℝ => s + 2 * logb 10 (er / 3.7 + 2.51 * s / Re)) (Set.Icc 1 (Re / 2.51)) := by
    intro s hs
    have : 0 < er / 3.7 + 2.51 * s / Re := by have := hs.1; positivity
    refine ContinuousAt.continuousWithinAt ?_
    have c1 : ContinuousAt (fun s : ℝ => er / 3.7 + 2.51 * s / Re) s := by fun_prop
    have c2 : ContinuousAt (fun s : ℝ => logb 10 (er / 3.7 + 2.51 * s / Re)) s := (c1.log this.ne').div_const _
    exact continuousAt_id.add (continuousAt_const.mul c2)
  obtain ⟨s, hs, hs0⟩ := intermediate_value_Icc (by rw [le_div_iff₀ (by norm_num)]; linarith) hcont ⟨hlo, hhi⟩
  have hs1 : 0 < s := by linarith [hs.1]
  refine ⟨1 / s ^ 2, by positivity, ?_⟩
  simp only at hs0
  rw [sqrt_div' _ (by positivity), sqrt_one, sqrt_sq hs1.le, one_div_one_div]
  have : 2.51 / (Re * (1 / s)) = 2.51 * s / Re := by field_simp
  rw [this]
  linarith

/-- **C86.** What `fD_Colebrook` returns satisfies the stopping test of `root_newton` for the equation evaluated at `f + i eps`. -/
theorem C86_colebrook_certificate {Re er f : ℝ} (h : fDColebrook Re er = .ok f) :
    |(colebrookEq Re er (f, eps)).1| ≤ 1e-6 ∨
      eps < |(colebrookEq Re er (f, eps)).2 / eps| ∧ |(colebrookEq Re er (f, eps)).1 / ((colebrookEq Re er (f, eps)).2 / eps)| ≤ 1e-6 := by
  unfold fDColebrook at h
  cases hs : rootNewton (colebrookEq Re er) (fDHaaland Re er) 1e-6 1e-6 50 with
  | error e => rw [hs] at h; cases h
  | ok sol =>
    rw [hs, ok_bind] at h
    split_ifs at h with hb
    · injection h with h
      obtain ⟨-, -, -, -, -, -, h7, h8, -⟩ := C01_newton_certificate _ _ _ _ _ sol.1 sol.2 hs
      rw [h] at h7 h8
      rw [h7] at h8
      rcases h8 hb with h9 | h9
      · exact Or.inl h9.2
      · exact Or.inr h9.2

/-- **C86.** On the real axis the equation passed to the solver by `vt_sphere` is the drag balance: its real zeros are the terminal velocities. -/
theorem C86_equation {g Dp rhop rho mu v : ℝ} (hg : 0 < g) (hDp : 0 < Dp) (hr : rho < rhop) (hrho : 0 < rho) (hmu : 0 < mu) (hv : 0 < v) :
    vtEq g Dp rhop rho mu (v, 0) = (0, 0) ↔ Settles g Dp rhop rho mu v := by
  have hd : 0 < rhop - rho := by linarith
  have hR : 0 < rho * v * Dp / mu := by positivity
  have hC : 0 < cdSphere (rho * v * Dp / mu) := lt_trans (by positivity) (cdSphere_pos hR)
  have hpos : 0 < 4 * Dp * g * (rhop - rho) / (3 * cdSphere (rho * v * Dp / mu) * rho) := by positivity
  have e1 : toC (v, 0) = (v : ℂ) := rfl
  have e2 : (rho * v * Dp / mu : ℂ) = ((rho * v * Dp / mu : ℝ) : ℂ) := by push_cast; ring
  have e3 : vtEq g Dp rhop rho mu (v, 0) = (v - √(4 * Dp * g * (rhop - rho) / (3 * cdSphere (rho * v * Dp / mu) * rho)), 0) := by
    unfold vtEq
    simp only [e1, e2]
    have e4 : (24 / ((rho * v * Dp / mu : ℝ) : ℂ) * (1 + 0.173 * ((rho * v * Dp / mu : ℝ) : ℂ) ^ (0.657 : ℂ)) +
        0.413 / (1 + 16300 * ((rho * v * Dp / mu : ℝ) : ℂ) ^ (-1.09 : ℂ))) = (cdSphere (rho * v * Dp / mu) : ℝ) := by
      unfold cdSphere
      push_cast [Complex.ofReal_cpow hR.le]
      norm_num
    rw [e4]
    have e5 : ((4 * Dp * g * (rhop - rho) : ℝ) : ℂ) / (3 * (cdSphere (rho * v * Dp / mu) : ℝ) * rho) =
        ((4 * Dp * g * (rhop - rho) / (3 * cdSphere (rho * v * Dp / mu) * rho) : ℝ) : ℂ) := by push_cast; ring
    rw [e5, sqrtC hpos.le, ← Complex.ofReal_sub]
    rfl
  rw [e3, Prod.mk.injEq]
  unfold Settles
  constructor
  · exact fun h => ⟨hv, by linarith [h.1]⟩
  · exact fun h => ⟨by linarith [h.2], rfl⟩

/-- **C86.** On the real axis the equation passed to the solver by `fD_Colebrook` is the Colebrook equation. -/
theorem C86_colebrook_equation {Re er f : ℝ} (hRe : 0 < Re) (h0 : 0 ≤ er) (hf : 0 < f) : colebrookEq Re er (f, 0) = (0, 0) ↔ Colebrook Re er f := by
  have e1 : toC (f, 0) = (f : ℂ) := rfl
  have hs := sqrt_pos.2 hf
  have hpos : 0 < er / 3.7 + 2.51 / (Re * √f) := by positivity
  have e3 : colebrookEq Re er (f, 0) = (2 * logb 10 (er / 3.7 + 2.51 / (Re * √f)) + 1 / √f, 0) := by
    unfold colebrookEq
    simp only [e1]
    rw [sqrtC hf.le]
    have e5 : ((er / 3.7 : ℝ) : ℂ) + 2.51 / (Re * (√f : ℝ)) = ((er / 3.7 + 2.51 / (Re * √f) : ℝ) : ℂ) := by push_cast; norm_num
    rw [e5, ← Complex.ofReal_log hpos.le]
    have e6 : (2 * (((log (er / 3.7 + 2.51 / (Re * √f)) : ℝ) : ℂ) / (log 10 : ℝ)) + 1 / ((√f : ℝ) : ℂ)) =
      ((2 * logb 10 (er / 3.7 + 2.51 / (Re * √f)) + 1 / √f : ℝ) : ℂ) := by unfold logb; push_cast; ring
    rw [e6]
    rfl
  rw [e3, Prod.mk.injEq]
  unfold Colebrook
  constructor
  · exact fun h => ⟨hf, by linarith [h.1]⟩
  · exact fun h => ⟨by linarith [h.2], rfl⟩

/-- A one-millimetre sand grain in water has exactly one terminal velocity. -/
example : ∃! v, Settles 9.81 0.001 2600 1000 0.001 v :=
  C86_terminal_unique (by norm_num) (by norm_num) (by norm_num) (by norm_num) (by norm_num)

example : ∃ f, Colebrook 2300 0 f := C86_colebrook_exists le_rfl le_rfl zero_le_one

end Verif.Flow
