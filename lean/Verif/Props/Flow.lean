import Verif.Lemmas.Flow
import Verif.Props.RootsScalar

/-!
# C59, C85, C86: pressure drop, its dependence on the flow, and terminal velocity
-/

namespace Verif.Flow

open Real

/-! ### C59 -/

/-- **C59 (partial).** `DP_tube` in laminar flow is the Hagen-Poiseuille law — for non-zero flow. -/
theorem C59_laminar_partial {Q D L rho mu er : ℝ} (hQ : Q ≠ 0) (hD : 0 < D) (hrho : 0 < rho) (hmu : 0 < mu) (hRe : 4 * rho * Q / (π * D * mu) < 2300) :
    dpTube Q D L rho mu er = dpHagenPoiseuille Q D L mu ∧ dpTube Q D L rho mu er = .ok (128 * mu * Q * L / (π * D ^ 4)) := by
  have hpi := pi_pos
  have h : dpTube Q D L rho mu er = .ok (128 * mu * Q * L / (π * D ^ 4)) := by
    rw [dpTube_eq hQ hD hrho hmu, phi, if_pos hRe]
    refine congrArg Except.ok ?_
    field_simp
    ring
  exact ⟨by rw [h, dpHagenPoiseuille, pdiv_ok (by positivity)], h⟩

example : dpTube 1 1 1 1 1 0 = .ok (128 / π) := by
  have h := pi_gt_three
  rw [(C59_laminar_partial one_ne_zero one_pos one_pos one_pos (by rw [div_lt_iff₀ (by positivity)]; linarith)).2]
  norm_num

/-- **C59 (false as stated).** `DP_tube` raises `ZeroDivisionError` for zero flow, where the Hagen-Poiseuille law gives zero. -/
theorem C59_laminar_false {D L rho mu er : ℝ} (hD : 0 < D) (hmu : 0 < mu) :
    dpTube 0 D L rho mu er = .error .ZeroDivisionError ∧ dpHagenPoiseuille 0 D L mu = .ok 0 := by
  have hpi := pi_pos
  constructor
  · unfold dpTube
    rw [pdiv_ok (by positivity), ok_bind, pdiv_ok hmu.ne', ok_bind]
    norm_num [fDtube, pdiv]
    rfl
  · rw [dpHagenPoiseuille, pdiv_ok (by positivity)]; norm_num

/-- **C59.** The pressure drop of a tube is proportional to its length. -/
theorem C59_length (c Q D L rho mu er : ℝ) : dpTube Q D (c * L) rho mu er = (dpTube Q D L rho mu er).map fun p => c * p := by
  unfold dpTube dpDarcyWeisbach
  cases pdiv (4 * Q) (π * D ^ 2) with
  | error e => rfl
  | ok v =>
    simp only [ok_bind]
    cases pdiv (rho * v * D) mu with
    | error e => rfl
    | ok Re =>
      simp only [ok_bind]
      cases fDtube Re er with
      | error e => rfl
      | ok f =>
        simp only [ok_bind]
        cases pdiv (f * rho / 2 * v ^ 2) D with
        | error e => rfl
        | ok q => simp only [ok_bind]; exact congrArg Except.ok (by ring)

/-- **C59.** The friction factor of Haaland decreases with the Reynolds number and increases with the relative roughness. -/
theorem C59_haaland {Re Re' er er' : ℝ} (hR : 2300 ≤ Re) (hRR : Re ≤ Re') (h0 : 0 ≤ er') (hee : er' ≤ er) (h1 : er ≤ 1) :
    fDHaaland Re' er' ≤ fDHaaland Re er := by
  have hle : harg Re' er' ≤ harg Re er :=
    add_le_add (rpow_le_rpow (by positivity) (div_le_div_of_nonneg_right hee (by norm_num)) (by norm_num)) (div_le_div_of_nonneg_left (by norm_num) (by linarith) hRR)
  have hl := log_le_log (harg_pos (by linarith) h0) hle
  have hl1 := log_harg hR (h0.trans hee) h1
  have h10 := log10_pos
  rw [fDHaaland_eq, fDHaaland_eq, ← sq_abs, ← sq_abs (1 / (1.8 * logb 10 (harg Re er)))]
  refine pow_le_pow_left₀ (abs_nonneg _) ?_ 2
  have e : ∀ t : ℝ, t < 0 → |1 / (1.8 * (t / log 10))| = log 10 / 1.8 * (1 / -t) := fun t ht => by
    rw [abs_of_neg (one_div_neg.2 (mul_neg_of_pos_of_neg (by norm_num) (div_neg_of_neg_of_pos ht h10)))]
    have : t ≠ 0 := ht.ne
    field_simp
  rw [logb, logb, e _ (by linarith), e _ (by linarith)]
  exact mul_le_mul_of_nonneg_left (one_div_le_one_div_of_le (by linarith) (by linarith)) (by positivity)

/-- Sum of a viscous term, linear in the mass flux, and an inertial term growing with its 11/6-th power. -/
theorem C59_packed_bed {G L Dp eps rho mu : ℝ} (hG : 0 < G) (hDp : 0 < Dp) (he0 : 0 < eps) (he1 : eps < 1) (hrho : 0 < rho) (hmu : 0 < mu) :
    dpPackedBed G L Dp eps rho mu = .ok (150 * mu * (1 - eps) ^ 2 / (rho * Dp ^ 2 * eps ^ 3) * L * G +
      4.2 * (1 - eps) * (mu * (1 - eps) / Dp) ^ ((1 : ℝ) / 6) / (rho * Dp * eps ^ 3) * L * G ^ ((11 : ℝ) / 6)) := by
  have h1 : 0 < 1 - eps := by linarith
  have hRep : 0 < Dp * G / (mu * (1 - eps)) := by positivity
  unfold dpPackedBed
  rw [pdiv_ok (by positivity), ok_bind, pdiv_ok hRep.ne', ok_bind, pdiv_ok (rpow_pos_of_pos hRep _).ne', ok_bind, pdiv_ok (by positivity)]
  refine congrArg Except.ok ?_
  have e1 : (Dp * G / (mu * (1 - eps))) ^ ((1 : ℝ) / 6) = G ^ ((1 : ℝ) / 6) / (mu * (1 - eps) / Dp) ^ ((1 : ℝ) / 6) := by
    rw [← div_rpow hG.le (by positivity)]
    congr 1
    field_simp
  have e2 : G ^ 2 = G ^ ((11 : ℝ) / 6) * G ^ ((1 : ℝ) / 6) := by
    rw [← rpow_add hG, ← rpow_natCast]; norm_num
  have p1 := rpow_pos_of_pos hG ((1 : ℝ) / 6)
  have p2 := rpow_pos_of_pos (show 0 < mu * (1 - eps) / Dp by positivity) ((1 : ℝ) / 6)
  rw [e1]
  have e3 : G ^ 2 * (1 - eps) * (150 / (Dp * G / (mu * (1 - eps))) + 4.2 / (G ^ ((1 : ℝ) / 6) / (mu * (1 - eps) / Dp) ^ ((1 : ℝ) / 6))) * L / (rho * Dp * eps ^ 3) =
      (1 - eps) * L / (rho * Dp * eps ^ 3) * (G ^ 2 * (150 / (Dp * G / (mu * (1 - eps)))) + 4.2 * (mu * (1 - eps) / Dp) ^ ((1 : ℝ) / 6) * (G ^ 2 / G ^ ((1 : ℝ) / 6))) := by
    rw [div_div_eq_mul_div]
    field_simp
  rw [e3, show G ^ 2 / G ^ ((1 : ℝ) / 6) = G ^ ((11 : ℝ) / 6) by rw [e2, mul_div_assoc, div_self p1.ne', mul_one]]
  field_simp

example : dpPackedBed 1 1 1 (1 / 2) 1 2 = .ok (150 * 2 * (1 / 2) ^ 2 / (1 / 2) ^ 3 + 4.2 * (1 / 2) / (1 / 2) ^ 3) := by
  rw [C59_packed_bed one_pos one_pos (by norm_num) (by norm_num) one_pos two_pos]
  norm_num

/-- Pressure gradient of one phase flowing alone. -/
noncomputable def single (mdot D rho mu er : ℝ) : ℝ := mu ^ 2 / (2 * rho * D ^ 3) * phi (4 * mdot / (π * D * mu)) er

theorem single_spec {mdot D rho mu er : ℝ} (hm : 0 < mdot) (hD : 0 < D) (hrho : 0 < rho) (hmu : 0 < mu) (L : ℝ) :
    dpTube (mdot / rho) D L rho mu er = .ok (single mdot D rho mu er * L) := by
  rw [dpTube_eq (div_pos hm hrho).ne' hD hrho hmu, single]
  refine congrArg Except.ok ?_
  rw [show 4 * rho * (mdot / rho) / (π * D * mu) = 4 * mdot / (π * D * mu) by field_simp]
  ring

theorem single_pos {mdot D rho mu er : ℝ} (hm : 0 < mdot) (hD : 0 < D) (hrho : 0 < rho) (hmu : 0 < mu) (h0 : 0 ≤ er) (h1 : er ≤ 1) :
    0 < single mdot D rho mu er := by
  have hpi := pi_pos
  have := phi_strictMono h0 h1 (show 0 < 4 * mdot / (π * D * mu) by positivity)
  rw [phi, if_pos (by norm_num), mul_zero] at this
  exact mul_pos (by positivity) this

theorem lmPhase_eq {mdot D rho mu er : ℝ} (hm : 0 < mdot) (hD : 0 < D) (hrho : 0 < rho) (hmu : 0 < mu) :
    lmPhase mdot D rho mu er = .ok (single mdot D rho mu er, some (4 * mdot / (π * D * mu))) := by
  have hpi := pi_pos
  have hRe : rho * (mdot / (π / 4 * D ^ 2 * rho)) * D / mu = 4 * mdot / (π * D * mu) := by field_simp
  have hRe0 : 4 * mdot / (π * D * mu) ≠ 0 := by positivity
  rw [lmPhase, if_pos hm, pdiv_ok (by positivity), ok_bind, pdiv_ok hmu.ne', ok_bind, hRe, fDtube, single, phi]
  split_ifs with h
  · rw [pdiv_ok hRe0, ok_bind, dpDarcyWeisbach, pdiv_ok hD.ne', ok_bind]
    refine congrArg (fun t => Except.ok (t, some (4 * mdot / (π * D * mu)))) ?_
    field_simp
  · rw [ok_bind, dpDarcyWeisbach, pdiv_ok hD.ne', ok_bind]
    refine congrArg (fun t => Except.ok (t, some (4 * mdot / (π * D * mu)))) ?_
    field_simp

/-- **C59.** The Lockhart-Martinelli pressure drop with only one phase flowing is that of `DP_tube` for this phase. -/
theorem C59_lockhart_martinelli_single {m D L rhoL rhoG muL muG er : ℝ} (hm : 0 < m) (hD : 0 < D) (hrhoL : 0 < rhoL) (hrhoG : 0 < rhoG) (hmuL : 0 < muL)
    (hmuG : 0 < muG) (h0 : 0 ≤ er) (h1 : er ≤ 1) :
    dpLockhartMartinelli m 0 D L rhoL rhoG muL muG er = dpTube (m / rhoL) D L rhoL muL er ∧
    dpLockhartMartinelli 0 m D L rhoL rhoG muL muG er = dpTube (m / rhoG) D L rhoG muG er := by
  have z : ∀ rho mu, lmPhase 0 D rho mu er = .ok (0, none) := fun rho mu => if_neg (lt_irrefl _)
  have hg := single_pos hm hD hrhoG hmuG h0 h1
  constructor
  · rw [single_spec hm hD hrhoL hmuL, dpLockhartMartinelli, lmPhase_eq hm hD hrhoL hmuL, z]
    simp [ok_bind]
  · rw [single_spec hm hD hrhoG hmuG, dpLockhartMartinelli, lmPhase_eq hm hD hrhoG hmuG, z]
    simp [ok_bind, hg.ne']

/-- The coefficient of the Chisholm correlation. -/
noncomputable def chisholm (ReL ReG : ℝ) : ℝ := if ReL > 1000 then (if ReG > 1000 then 20 else 10) else (if ReG > 1000 then 12 else 5)

/-- **C59.** With both phases flowing it is `dPL + C √(dPL dPG) + dPG` per unit length, hence at least the sum of the single-phase pressure drops. -/
theorem C59_lockhart_martinelli {mL mG D L rhoL rhoG muL muG er : ℝ} (hmL : 0 < mL) (hmG : 0 < mG) (hD : 0 < D) (hrhoL : 0 < rhoL) (hrhoG : 0 < rhoG)
    (hmuL : 0 < muL) (hmuG : 0 < muG) (h0 : 0 ≤ er) (h1 : er ≤ 1) :
    ∃ pL pG, dpTube (mL / rhoL) D 1 rhoL muL er = .ok pL ∧ dpTube (mG / rhoG) D 1 rhoG muG er = .ok pG ∧ 0 < pL ∧ 0 < pG ∧
      dpLockhartMartinelli mL mG D L rhoL rhoG muL muG er =
        .ok ((pL + chisholm (4 * mL / (π * D * muL)) (4 * mG / (π * D * muG)) * √(pL * pG) + pG) * L) := by
  have hl := single_pos hmL hD hrhoL hmuL h0 h1
  have hg := single_pos hmG hD hrhoG hmuG h0 h1
  refine ⟨_, _, single_spec hmL hD hrhoL hmuL 1, single_spec hmG hD hrhoG hmuG 1, by rwa [mul_one], by rwa [mul_one], ?_⟩
  rw [mul_one, mul_one, dpLockhartMartinelli, lmPhase_eq hmL hD hrhoL hmuL, ok_bind, lmPhase_eq hmG hD hrhoG hmuG, ok_bind]
  simp only [if_neg hg.ne', if_neg hl.ne', pdiv_ok hg.ne', ok_bind, lmC]
  refine congrArg Except.ok ?_
  change (1 + chisholm (4 * mL / (π * D * muL)) (4 * mG / (π * D * muG)) / _ + _) * _ * L = _
  congr 1
  have hX : √(single mL D rhoL muL er / single mG D rhoG muG er) ≠ 0 := (sqrt_pos.2 (div_pos hl hg)).ne'
  rw [sq_sqrt (div_pos hl hg).le, add_mul, add_mul, one_mul]
  have e1 : 1 / (single mL D rhoL muL er / single mG D rhoG muG er) * single mL D rhoL muL er = single mG D rhoG muG er := by field_simp
  have e2 : single mL D rhoL muL er / √(single mL D rhoL muL er / single mG D rhoG muG er) = √(single mL D rhoL muL er * single mG D rhoG muG er) := by
    rw [div_eq_iff hX, ← sqrt_mul (mul_pos hl hg).le]
    rw [show single mL D rhoL muL er * single mG D rhoG muG er * (single mL D rhoL muL er / single mG D rhoG muG er) = single mL D rhoL muL er ^ 2 by field_simp]
    rw [sqrt_sq hl.le]
  rw [e1, div_mul_eq_mul_div, mul_div_assoc, e2]

/-- Pressure gradient of a single phase according to Müller-Steinhagen and Heck: laminar up to Re = 1187, Blasius above. -/
noncomputable def msh (mdot D rho mu : ℝ) : ℝ :=
  let Re := 4 * mdot / (π * D * mu)
  mu ^ 2 / (2 * rho * D ^ 3) * (Re ^ 2 * (if Re ≤ 1187 then 64 / Re else 0.3164 / Re ^ (0.25 : ℝ)))

theorem mbGrad_eq {m D rho mu : ℝ} (hm : 0 < m) (hD : 0 < D) (hrho : 0 < rho) (hmu : 0 < mu) :
    mbGrad (m / (π / 4 * D ^ 2)) D rho mu = .ok (msh m D rho mu) := by
  have hpi := pi_pos
  have hRe : m / (π / 4 * D ^ 2) * D / mu = 4 * m / (π * D * mu) := by field_simp
  have hRe0 : 0 < 4 * m / (π * D * mu) := by positivity
  rw [mbGrad, pdiv_ok hmu.ne', ok_bind, hRe, msh]
  split_ifs with h
  · rw [pdiv_ok hRe0.ne', ok_bind, pdiv_ok (by positivity)]
    refine congrArg Except.ok ?_
    field_simp
  · rw [pdiv_ok (rpow_pos_of_pos hRe0 _).ne', ok_bind, pdiv_ok (by positivity)]
    refine congrArg Except.ok ?_
    generalize 0.3164 / (4 * m / (π * D * mu)) ^ (0.25 : ℝ) = F
    field_simp

/-- **C59.** `DP_GL_Mueller_Bonn` with only one phase flowing is the single-phase pressure drop of this phase; in laminar flow it is the one of `DP_tube`. -/
theorem C59_mueller_bonn_single {m D L rhoL rhoG muL muG : ℝ} (hm : 0 < m) (hD : 0 < D) (hrhoL : 0 < rhoL) (hrhoG : 0 < rhoG) (hmuL : 0 < muL) (hmuG : 0 < muG) :
    dpMuellerBonn m 0 D L rhoL rhoG muL muG = .ok (msh m D rhoL muL * L) ∧ dpMuellerBonn 0 m D L rhoL rhoG muL muG = .ok (msh m D rhoG muG * L) ∧
    (4 * m / (π * D * muL) ≤ 1187 → ∀ er, dpMuellerBonn m 0 D L rhoL rhoG muL muG = dpTube (m / rhoL) D L rhoL muL er) ∧
    (4 * m / (π * D * muG) ≤ 1187 → ∀ er, dpMuellerBonn 0 m D L rhoL rhoG muL muG = dpTube (m / rhoG) D L rhoG muG er) := by
  have hpi := pi_pos
  have hl : dpMuellerBonn m 0 D L rhoL rhoG muL muG = .ok (msh m D rhoL muL * L) := by
    rw [dpMuellerBonn]
    simp only [add_zero]
    rw [pdiv_ok hm.ne', ok_bind, pdiv_ok (by positivity), ok_bind, mbGrad_eq hm hD hrhoL hmuL, ok_bind, mbGrad_eq hm hD hrhoG hmuG, ok_bind]
    refine congrArg Except.ok ?_
    norm_num
  have hg : dpMuellerBonn 0 m D L rhoL rhoG muL muG = .ok (msh m D rhoG muG * L) := by
    rw [dpMuellerBonn]
    simp only [zero_add]
    rw [pdiv_ok hm.ne', ok_bind, pdiv_ok (by positivity), ok_bind, mbGrad_eq hm hD hrhoL hmuL, ok_bind, mbGrad_eq hm hD hrhoG hmuG, ok_bind]
    refine congrArg Except.ok ?_
    rw [div_self hm.ne', sub_self, zero_rpow (by norm_num)]
    ring
  have lam : ∀ {rho mu : ℝ}, 0 < mu → 4 * m / (π * D * mu) ≤ 1187 → ∀ er, msh m D rho mu = single m D rho mu er := by
    intro rho mu hmu h er
    have hR : 0 < 4 * m / (π * D * mu) := by positivity
    simp only [msh, single, phi, if_pos h, if_pos (lt_of_le_of_lt h (by norm_num : (1187 : ℝ) < 2300))]
    congr 1
    field_simp
  refine ⟨hl, hg, fun h er => ?_, fun h er => ?_⟩
  · rw [hl, single_spec hm hD hrhoL hmuL, lam hmuL h er]
  · rw [hg, single_spec hm hD hrhoG hmuG, lam hmuG h er]

/-! ### C85: more flow, more pressure drop -/

/-- **C85.** The pressure drop of a tube grows with the flow rate, also across the laminar-turbulent transition, where it jumps upwards. -/
theorem C85_tube_increasing {Q Q' D L rho mu er : ℝ} (hQ : 0 < Q) (hQQ : Q < Q') (hD : 0 < D) (hL : 0 < L) (hrho : 0 < rho) (hmu : 0 < mu) (h0 : 0 ≤ er) (h1 : er ≤ 1) :
    ∃ p p', dpTube Q D L rho mu er = .ok p ∧ dpTube Q' D L rho mu er = .ok p' ∧ 0 < p ∧ p < p' := by
  have hpi := pi_pos
  have hpos := phi_strictMono h0 h1 (show 0 < 4 * rho * Q / (π * D * mu) by positivity)
  rw [phi, if_pos (by norm_num), mul_zero] at hpos
  exact ⟨_, _, dpTube_eq hQ.ne' hD hrho hmu, dpTube_eq (hQ.trans hQQ).ne' hD hrho hmu, mul_pos (by positivity) hpos,
    mul_lt_mul_of_pos_left (phi_strictMono h0 h1 (by gcongr)) (by positivity)⟩

/-- **C85.** The pressure drop of a packed bed grows with the mass flux. -/
theorem C85_packed_bed_increasing {G G' L Dp eps rho mu : ℝ} (hG : 0 < G) (hGG : G < G') (hL : 0 < L) (hDp : 0 < Dp) (he0 : 0 < eps) (he1 : eps < 1) (hrho : 0 < rho) (hmu : 0 < mu) :
    ∃ p p', dpPackedBed G L Dp eps rho mu = .ok p ∧ dpPackedBed G' L Dp eps rho mu = .ok p' ∧ 0 < p ∧ p < p' := by
  have h1 : 0 < 1 - eps := by linarith
  refine ⟨_, _, C59_packed_bed hG hDp he0 he1 hrho hmu, C59_packed_bed (hG.trans hGG) hDp he0 he1 hrho hmu, by positivity, ?_⟩
  exact add_lt_add (mul_lt_mul_of_pos_left hGG (by positivity)) (mul_lt_mul_of_pos_left (rpow_lt_rpow hG.le hGG (by norm_num)) (by positivity))

theorem chisholm_pos (a b : ℝ) : 0 < chisholm a b := by unfold chisholm; split_ifs <;> norm_num

theorem chisholm_mono {a a' b b' : ℝ} (h : a ≤ a') (h' : b ≤ b') : chisholm a b ≤ chisholm a' b' := by
  unfold chisholm
  split_ifs <;> linarith

theorem single_lt {m m' D rho mu er : ℝ} (hmm : m < m') (hD : 0 < D) (hrho : 0 < rho) (hmu : 0 < mu) (h0 : 0 ≤ er) (h1 : er ≤ 1) :
    single m D rho mu er < single m' D rho mu er := by
  have hpi := pi_pos
  exact mul_lt_mul_of_pos_left (phi_strictMono h0 h1 (by gcongr)) (by positivity)

/-- **C85.** The Lockhart-Martinelli pressure drop grows with the flow of each phase. -/
theorem C85_lockhart_martinelli_increasing {mL mG mL' mG' D L rhoL rhoG muL muG er : ℝ} (hmL : 0 < mL) (hmG : 0 < mG) (hL : mL ≤ mL') (hG : mG ≤ mG')
    (hne : mL < mL' ∨ mG < mG') (hD : 0 < D) (hLen : 0 < L) (hrhoL : 0 < rhoL) (hrhoG : 0 < rhoG) (hmuL : 0 < muL) (hmuG : 0 < muG) (h0 : 0 ≤ er) (h1 : er ≤ 1) :
    ∃ p p', dpLockhartMartinelli mL mG D L rhoL rhoG muL muG er = .ok p ∧ dpLockhartMartinelli mL' mG' D L rhoL rhoG muL muG er = .ok p' ∧ 0 < p ∧ p < p' := by
  have hpi := pi_pos
  have hmL' := hmL.trans_le hL
  have hmG' := hmG.trans_le hG
  obtain ⟨pL, pG, a1, a2, a3, a4, a5⟩ := C59_lockhart_martinelli (L := L) hmL hmG hD hrhoL hrhoG hmuL hmuG h0 h1
  obtain ⟨pL', pG', b1, b2, b3, b4, b5⟩ := C59_lockhart_martinelli (L := L) hmL' hmG' hD hrhoL hrhoG hmuL hmuG h0 h1
  rw [single_spec hmL hD hrhoL hmuL] at a1
  rw [single_spec hmG hD hrhoG hmuG] at a2
  rw [single_spec hmL' hD hrhoL hmuL] at b1
  rw [single_spec hmG' hD hrhoG hmuG] at b2
  injection a1 with a1; injection a2 with a2; injection b1 with b1; injection b2 with b2
  have hl : pL ≤ pL' := by
    rcases hL.eq_or_lt with h | h
    · rw [← a1, ← b1, h]
    · rw [← a1, ← b1, mul_one, mul_one]; exact (single_lt h hD hrhoL hmuL h0 h1).le
  have hg : pG ≤ pG' := by
    rcases hG.eq_or_lt with h | h
    · rw [← a2, ← b2, h]
    · rw [← a2, ← b2, mul_one, mul_one]; exact (single_lt h hD hrhoG hmuG h0 h1).le
  have hlt : pL + pG < pL' + pG' := by
    rcases hne with h | h
    · have : pL < pL' := by rw [← a1, ← b1, mul_one, mul_one]; exact single_lt h hD hrhoL hmuL h0 h1
      linarith
    · have : pG < pG' := by rw [← a2, ← b2, mul_one, mul_one]; exact single_lt h hD hrhoG hmuG h0 h1
      linarith
  have hC := chisholm_mono (a := 4 * mL / (π * D * muL)) (a' := 4 * mL' / (π * D * muL)) (b := 4 * mG / (π * D * muG)) (b' := 4 * mG' / (π * D * muG)) (by gcongr) (by gcongr)
  have hC0 := chisholm_pos (4 * mL / (π * D * muL)) (4 * mG / (π * D * muG))
  have hs : √(pL * pG) ≤ √(pL' * pG') := sqrt_le_sqrt (by gcongr)
  have hs0 := sqrt_nonneg (pL * pG)
  have hm := mul_le_mul hC hs hs0 (hC0.le.trans hC)
  refine ⟨_, _, a5, b5, mul_pos (by positivity) hLen, mul_lt_mul_of_pos_right ?_ hLen⟩
  linarith

/-- **C85 (false for `DP_GL_Mueller_Bonn`).** The friction factor drops at Re = 1187: raising the (liquid) flow from 1187 to 1187.01 lowers the pressure drop. -/
theorem C85_mueller_bonn_false : ∃ p p', dpMuellerBonn 1187 0 1 1 1 1 (4 / π) 1 = .ok p ∧ dpMuellerBonn 1187.01 0 1 1 1 1 (4 / π) 1 = .ok p' ∧ p' < p := by
  have hpi := pi_pos
  refine ⟨_, _, (C59_mueller_bonn_single (by norm_num) one_pos one_pos one_pos (by positivity) one_pos).1,
    (C59_mueller_bonn_single (by norm_num) one_pos one_pos one_pos (by positivity) one_pos).1, ?_⟩
  rw [mul_one, mul_one]
  have e : ∀ m : ℝ, 4 * m / (π * 1 * (4 / π)) = m := fun m => by field_simp
  simp only [msh, e]
  rw [if_neg (by norm_num), if_pos (le_refl _)]
  refine mul_lt_mul_of_pos_left ?_ (by positivity)
  have hc : (5.8696 : ℝ) < 1187.01 ^ (0.25 : ℝ) := by
    have : (5.8696 : ℝ) = (5.8696 ^ (4 : ℕ)) ^ (0.25 : ℝ) := by
      rw [← rpow_natCast, ← rpow_mul (by norm_num)]; norm_num
    rw [this]
    exact rpow_lt_rpow (by norm_num) (by norm_num) (by norm_num)
  calc (1187.01 : ℝ) ^ 2 * (0.3164 / 1187.01 ^ (0.25 : ℝ)) < 1187.01 ^ 2 * (0.3164 / 5.8696) :=
        mul_lt_mul_of_pos_left (div_lt_div_of_pos_left (by norm_num) (by norm_num) hc) (by norm_num)
    _ < _ := by norm_num

/-- Turbulent water in a rough tube: doubling the flow raises the pressure drop. -/
example : ∃ p p', dpTube 1 0.1 1 1000 0.001 0.01 = .ok p ∧ dpTube 2 0.1 1 1000 0.001 0.01 = .ok p' ∧ 0 < p ∧ p < p' :=
  C85_tube_increasing one_pos one_lt_two (by norm_num) one_pos (by norm_num) (by norm_num) (by norm_num) (by norm_num)

example : ∃ p p', dpPackedBed 1 1 1 0.4 1 1 = .ok p ∧ dpPackedBed 2 1 1 0.4 1 1 = .ok p' ∧ 0 < p ∧ p < p' :=
  C85_packed_bed_increasing one_pos one_lt_two one_pos one_pos (by norm_num) (by norm_num) one_pos one_pos

example : ∃ p p', dpLockhartMartinelli 1 1 1 1 1000 1 0.001 1e-5 0 = .ok p ∧ dpLockhartMartinelli 1 2 1 1 1000 1 0.001 1e-5 0 = .ok p' ∧ 0 < p ∧ p < p' :=
  C85_lockhart_martinelli_increasing one_pos one_pos le_rfl one_le_two (Or.inr one_lt_two) one_pos one_pos (by norm_num) one_pos (by norm_num) (by norm_num)
    le_rfl zero_le_one

example : fDHaaland 10000 0 ≤ fDHaaland 3000 0.01 := C59_haaland (by norm_num) (by norm_num) le_rfl (by norm_num) (by norm_num)

end Verif.Flow
