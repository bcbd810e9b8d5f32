import Verif.Lemmas.Units
import Verif.Model.Flow
import Verif.Model.Rheology
import Verif.Model.Prv
import Verif.Model.Rtd
import Verif.Model.Diffusion
import Mathlib.Analysis.SpecialFunctions.Sqrt
import Mathlib.MeasureTheory.Integral.IntervalIntegral.Basic
import Mathlib.Tactic.NormNum

/-! # Change of units -/

namespace Verif.Units

open Verif.Flow

variable {m l t : ℝ}

/-! ## Pressure drop -/

/-- C122: laminar pressure drop in other units of mass, length and time. -/
theorem C122_hagen_poiseuille (hm : 0 < m) (hl : 0 < l) (ht : 0 < t) (Q D L mu : ℝ) :
    dpHagenPoiseuille (l ^ 3 / t * Q) (l * D) (l * L) (m / (l * t) * mu) = (dpHagenPoiseuille Q D L mu).map (m / (l * t ^ 2) * ·) := by
  unfold dpHagenPoiseuille
  refine pdiv_scale (l ^ 4) (by positivity) (by ring) ?_
  field_simp

/-- Feet instead of metres, pounds instead of kilograms, minutes instead of seconds. -/
example : (0 : ℝ) < 2.2046 ∧ (0 : ℝ) < 3.28084 ∧ (0 : ℝ) < 1 / 60 := by norm_num

theorem darcy_scale (hm : 0 < m) (hl : 0 < l) (ht : 0 < t) (v D L rho fD : ℝ) :
    dpDarcyWeisbach (l / t * v) (l * D) (l * L) (m / l ^ 3 * rho) fD = (dpDarcyWeisbach v D L rho fD).map (m / (l * t ^ 2) * ·) := by
  unfold dpDarcyWeisbach
  rw [pdiv_scale (c := m / (l ^ 2 * t ^ 2)) (a := fD * rho / 2 * v ^ 2) (b := D) l hl.ne' rfl (by field_simp)]
  cases pdiv (fD * rho / 2 * v ^ 2) D with
  | error _ => rfl
  | ok q =>
    show Except.ok _ = Except.ok _
    congr 1
    field_simp

/-- C122: Darcy–Weisbach pressure drop in other units. -/
theorem C122_darcy_weisbach (hm : 0 < m) (hl : 0 < l) (ht : 0 < t) (v D L rho fD : ℝ) :
    dpDarcyWeisbach (l / t * v) (l * D) (l * L) (m / l ^ 3 * rho) fD = (dpDarcyWeisbach v D L rho fD).map (m / (l * t ^ 2) * ·) :=
  darcy_scale hm hl ht v D L rho fD

/-- Millimetres instead of metres at the same mass and time. -/
example (v D L rho fD : ℝ) : dpDarcyWeisbach (1000 / 1 * v) (1000 * D) (1000 * L) (1 / 1000 ^ 3 * rho) fD =
    (dpDarcyWeisbach v D L rho fD).map (1 / (1000 * 1 ^ 2) * ·) :=
  C122_darcy_weisbach one_pos (by norm_num) one_pos v D L rho fD

/-- C122: pressure drop in a tube; the friction factor and the choice of regime do not change. -/
theorem C122_tube (hm : 0 < m) (hl : 0 < l) (ht : 0 < t) (Q D L rho mu er : ℝ) :
    dpTube (l ^ 3 / t * Q) (l * D) (l * L) (m / l ^ 3 * rho) (m / (l * t) * mu) er = (dpTube Q D L rho mu er).map (m / (l * t ^ 2) * ·) := by
  unfold dpTube
  rw [pdiv_scale (c := l / t) (a := 4 * Q) (b := Real.pi * D ^ 2) (l ^ 2) (by positivity) (by ring) (by field_simp), map_bind, bind_map]
  refine bind_congr _ _ _ fun v _ => ?_
  rw [pdiv_same (a := rho * v * D) (b := mu) (m / (l * t)) (by positivity) rfl (by field_simp), bind_map]
  refine bind_congr _ _ _ fun Re _ => ?_
  rw [bind_map]
  exact bind_congr _ _ _ fun fD _ => darcy_scale hm hl ht v D L rho fD

/-- A tube with the flow in litres: the length unit is a decimetre. -/
example (er : ℝ) : dpTube (10 ^ 3 / 1 * 0.001) (10 * 0.05) (10 * 7) (1 / 10 ^ 3 * 1000) (1 / (10 * 1) * 0.001) er =
    (dpTube 0.001 0.05 7 1000 0.001 er).map (1 / (10 * 1 ^ 2) * ·) :=
  C122_tube one_pos (by norm_num) one_pos _ _ _ _ _ er

/-- C122: pressure drop of a packed bed in other units. -/
theorem C122_packed_bed (hm : 0 < m) (hl : 0 < l) (ht : 0 < t) (G L Dp eps rho mu : ℝ) :
    dpPackedBed (m / (l ^ 2 * t) * G) (l * L) (l * Dp) eps (m / l ^ 3 * rho) (m / (l * t) * mu) =
      (dpPackedBed G L Dp eps rho mu).map (m / (l * t ^ 2) * ·) := by
  unfold dpPackedBed
  rw [pdiv_same (a := Dp * G) (b := mu * (1 - eps)) (m / (l * t)) (by positivity) (by ring) (by field_simp), bind_map]
  refine bind_congr _ _ _ fun Re _ => ?_
  rw [bind_map]
  refine bind_congr _ _ _ fun a _ => ?_
  rw [bind_map]
  refine bind_congr _ _ _ fun b _ => ?_
  refine pdiv_scale (m / l ^ 2) (by positivity) (by field_simp) ?_
  field_simp

/-- A packed bed in grams, centimetres and seconds. -/
example (G L Dp eps rho mu : ℝ) : dpPackedBed (1000 / (100 ^ 2 * 1) * G) (100 * L) (100 * Dp) eps (1000 / 100 ^ 3 * rho) (1000 / (100 * 1) * mu) =
    (dpPackedBed G L Dp eps rho mu).map (1000 / (100 * 1 ^ 2) * ·) :=
  C122_packed_bed (by norm_num) (by norm_num) one_pos G L Dp eps rho mu

theorem lmPhase_scale (hm : 0 < m) (hl : 0 < l) (ht : 0 < t) (mdot D rho mu er : ℝ) :
    lmPhase (m / t * mdot) (l * D) (m / l ^ 3 * rho) (m / (l * t) * mu) er =
      (lmPhase mdot D rho mu er).map fun r => (m / (l ^ 2 * t ^ 2) * r.1, r.2) := by
  unfold lmPhase
  have hk : 0 < m / t := by positivity
  by_cases h : mdot > 0
  · rw [if_pos h, if_pos (mul_pos hk h),
      pdiv_scale (c := l / t) (a := mdot) (b := Real.pi / 4 * D ^ 2 * rho) (m / l) (by positivity) (by field_simp) (by field_simp), map_bind]
    cases hv : pdiv mdot (Real.pi / 4 * D ^ 2 * rho) with
    | error e => rfl
    | ok v =>
      show (pdiv _ _ >>= _) = Except.map _ (pdiv _ _ >>= _)
      rw [pdiv_same (a := rho * v * D) (b := mu) (m / (l * t)) (by positivity) rfl (by field_simp)]
      cases pdiv (rho * v * D) mu with
      | error e => rfl
      | ok Re =>
        show (fDtube Re er >>= _) = Except.map _ (fDtube Re er >>= _)
        cases fDtube Re er with
        | error e => rfl
        | ok f =>
          show (dpDarcyWeisbach _ _ 1 _ _ >>= _) = Except.map _ (dpDarcyWeisbach _ _ 1 _ _ >>= _)
          have e1 := darcy_scale hm hl ht v D (1 / l) rho f
          rw [mul_one_div_cancel hl.ne'] at e1
          rw [e1]
          have e2 : dpDarcyWeisbach v D (1 / l) rho f = (dpDarcyWeisbach v D 1 rho f).map (1 / l * ·) := by
            unfold dpDarcyWeisbach
            cases pdiv (f * rho / 2 * v ^ 2) D with
            | error _ => rfl
            | ok q => show Except.ok _ = Except.ok _; congr 1; ring
          rw [e2]
          cases dpDarcyWeisbach v D 1 rho f with
          | error _ => rfl
          | ok q => 
            show Except.ok _ = Except.ok _
            congr 2
            field_simp
  · rw [if_neg h, if_neg (by push Not at h ⊢; exact mul_nonpos_of_nonneg_of_nonpos hk.le h)]
    show Except.ok _ = Except.ok _
    simp

/-- C122: two-phase pressure drop of Lockhart and Martinelli; the regimes do not change. -/
theorem C122_lockhart_martinelli (hm : 0 < m) (hl : 0 < l) (ht : 0 < t) (mdotL mdotG D L rhoL rhoG muL muG er : ℝ) :
    dpLockhartMartinelli (m / t * mdotL) (m / t * mdotG) (l * D) (l * L) (m / l ^ 3 * rhoL) (m / l ^ 3 * rhoG) (m / (l * t) * muL) (m / (l * t) * muG) er =
      (dpLockhartMartinelli mdotL mdotG D L rhoL rhoG muL muG er).map (m / (l * t ^ 2) * ·) := by
  unfold dpLockhartMartinelli
  rw [lmPhase_scale hm hl ht, lmPhase_scale hm hl ht]
  cases lmPhase mdotL D rhoL muL er with
  | error _ => rfl
  | ok a =>
    cases lmPhase mdotG D rhoG muG er with
    | error _ => rfl
    | ok b =>
      obtain ⟨pl, rl⟩ := a
      obtain ⟨pg, rg⟩ := b
      have hk : m / (l ^ 2 * t ^ 2) ≠ 0 := by positivity
      simp only [Except.map, bind, Except.bind, pure, Except.pure]
      by_cases h1 : pg = 0
      · simp only [h1, mul_zero, if_true]
        congr 1
        field_simp
      · rw [if_neg h1, if_neg (mul_ne_zero hk h1)]
        by_cases h2 : pl = 0
        · simp only [h2, mul_zero, if_true]
          congr 1
          field_simp
        · rw [if_neg h2, if_neg (mul_ne_zero hk h2), pdiv_same _ hk rfl rfl]
          cases pdiv pl pg with
          | error _ => rfl
          | ok q =>
            cases lmC rl rg with
            | error _ => rfl
            | ok C => 
              show Except.ok _ = Except.ok _
              congr 1
              generalize (1 + C / √q + 1 / √q ^ 2) = y
              field_simp

theorem mbGrad_scale (hm : 0 < m) (hl : 0 < l) (ht : 0 < t) (vm D rho mu : ℝ) :
    mbGrad (m / (l ^ 2 * t) * vm) (l * D) (m / l ^ 3 * rho) (m / (l * t) * mu) = (mbGrad vm D rho mu).map (m / (l ^ 2 * t ^ 2) * ·) := by
  unfold mbGrad
  rw [pdiv_same (a := vm * D) (b := mu) (m / (l * t)) (by positivity) rfl (by field_simp), bind_map]
  refine bind_congr _ _ _ fun Re _ => ?_
  rw [bind_map]
  refine bind_congr _ _ _ fun f _ => ?_
  exact pdiv_scale (m / l ^ 2) (by positivity) (by field_simp) (by field_simp)

/-- C122: two-phase pressure drop of Müller-Steinhagen and Heck (Bonn) in other units. -/
theorem C122_mueller_bonn (hm : 0 < m) (hl : 0 < l) (ht : 0 < t) (mdotL mdotG D L rhoL rhoG muL muG : ℝ) :
    dpMuellerBonn (m / t * mdotL) (m / t * mdotG) (l * D) (l * L) (m / l ^ 3 * rhoL) (m / l ^ 3 * rhoG) (m / (l * t) * muL) (m / (l * t) * muG) =
      (dpMuellerBonn mdotL mdotG D L rhoL rhoG muL muG).map (m / (l * t ^ 2) * ·) := by
  unfold dpMuellerBonn
  dsimp only
  rw [pdiv_same (a := mdotG) (b := mdotL + mdotG) (m / t) (by positivity) (by ring) rfl, bind_map]
  refine bind_congr _ _ _ fun x _ => ?_
  rw [pdiv_scale (c := m / (l ^ 2 * t)) (a := mdotL + mdotG) (b := Real.pi / 4 * D ^ 2) (l ^ 2) (by positivity) (by ring) (by field_simp), map_bind, bind_map]
  refine bind_congr _ _ _ fun v _ => ?_
  rw [mbGrad_scale hm hl ht, mbGrad_scale hm hl ht, map_bind, bind_map]
  refine bind_congr _ _ _ fun p _ => ?_
  rw [map_bind, bind_map]
  refine bind_congr _ _ _ fun q _ => ?_
  show Except.ok _ = Except.ok _
  congr 1
  generalize (1 - x) ^ ((1 : ℝ) / 3) = y
  field_simp

/-- C122: terminal velocity of Stokes in other units. -/
theorem C122_stokes (hm : 0 < m) (hl : 0 < l) (ht : 0 < t) (g Dp rhop rho mu : ℝ) :
    vtStokes (l / t ^ 2 * g) (l * Dp) (m / l ^ 3 * rhop) (m / l ^ 3 * rho) (m / (l * t) * mu) = l / t * vtStokes g Dp rhop rho mu := by
  unfold vtStokes
  by_cases h : mu = 0
  · simp [h]
  · field_simp

/-- Ten litres per hour, in other units: the hypotheses hold. -/
example : (0 : ℝ) < 1000 ∧ (0 : ℝ) < 100 ∧ (0 : ℝ) < 1 / 3600 := by norm_num

/-! ## Viscosity -/

open Verif.Rheology

theorem ppow_scale {x c : ℝ} (y : ℝ) (hx : 0 ≤ x) (hc : 0 < c) : ppow (c * x) y = (ppow x y).map (c ^ y * ·) := by
  unfold ppow
  by_cases h : x = 0 ∧ y < 0
  · rw [if_pos h, if_pos ⟨by rw [h.1, mul_zero], h.2⟩]; rfl
  · rw [if_neg h, if_neg (fun h' => h ⟨(mul_eq_zero.1 h'.1).resolve_left hc.ne', h'.2⟩), Real.mul_rpow hc.le hx]; rfl

/-- C122: power-law viscosity; the consistency has the unit viscosity · time^(n-1). -/
theorem C122_power_law (hm : 0 < m) (hl : 0 < l) (ht : 0 < t) {gdot : ℝ} (hg : 0 ≤ gdot) (K n : ℝ) :
    muPowerLaw (1 / t * gdot) (m / (l * t) * t ^ (n - 1) * K) n = (muPowerLaw gdot K n).map (m / (l * t) * ·) := by
  unfold muPowerLaw
  rw [ppow_scale _ hg (by positivity), map_bind, bind_map]
  refine bind_congr _ _ _ fun p _ => ?_
  show Except.ok _ = Except.ok _
  have h : t ^ (n - 1) * (1 / t) ^ (n - 1) = 1 := by
    rw [← Real.mul_rpow ht.le (by positivity), mul_one_div_cancel ht.ne', Real.one_rpow]
  congr 1
  linear_combination m / (l * t) * K * p * h

/-- A shear rate of 10 per second is 600 per minute. -/
example (K n : ℝ) : muPowerLaw (1 / (1 / 60) * 10) (1 / (1 * (1 / 60)) * (1 / 60) ^ (n - 1) * K) n = (muPowerLaw 10 K n).map (1 / (1 * (1 / 60)) * ·) :=
  C122_power_law one_pos one_pos (by norm_num) (by norm_num) K n

/-- C122: Cross viscosity in other units. -/
theorem C122_cross (hm : 0 < m) (hl : 0 < l) (ht : 0 < t) (gdot mu0 lmbda n : ℝ) :
    muCross (1 / t * gdot) (m / (l * t) * mu0) (t * lmbda) n = (muCross gdot mu0 lmbda n).map (m / (l * t) * ·) := by
  unfold muCross
  rw [show t * lmbda * (1 / t * gdot) = lmbda * gdot by field_simp, bind_map]
  refine bind_congr _ _ _ fun p _ => ?_
  exact pdiv_scale 1 one_ne_zero (by ring) (by ring)

/-- C122: modified Cross viscosity; `C` is a reciprocal stress. -/
theorem C122_cross_modified (hm : 0 < m) (hl : 0 < l) (ht : 0 < t) (gdot mu0 C n : ℝ) :
    muCrossModified (1 / t * gdot) (m / (l * t) * mu0) (l * t ^ 2 / m * C) n = (muCrossModified gdot mu0 C n).map (m / (l * t) * ·) := by
  unfold muCrossModified
  rw [show l * t ^ 2 / m * C * (m / (l * t) * mu0) * (1 / t * gdot) = C * mu0 * gdot by field_simp, bind_map]
  refine bind_congr _ _ _ fun p _ => ?_
  exact pdiv_scale 1 one_ne_zero (by ring) (by ring)

/-- C122: Carreau–Yasuda viscosity in other units. -/
theorem C122_carreau_yasuda (ht : 0 < t) (s gdot mu0 muinf lmbda n a : ℝ) :
    muCarreauYasuda (1 / t * gdot) (s * mu0) (s * muinf) (t * lmbda) n a = (muCarreauYasuda gdot mu0 muinf lmbda n a).map (s * ·) := by
  unfold muCarreauYasuda
  rw [show t * lmbda * (1 / t * gdot) = lmbda * gdot by field_simp, bind_map]
  refine bind_congr _ _ _ fun p _ => ?_
  rw [bind_map]
  refine bind_congr _ _ _ fun e _ => ?_
  rw [bind_map]
  refine bind_congr _ _ _ fun q _ => ?_
  show Except.ok _ = Except.ok _
  congr 1
  ring

/-- C122: the WLF shift factor with temperatures and `C2` in other units of temperature difference. -/
theorem C122_WLF {s : ℝ} (hs : 0 < s) (T T0 C1 C2 : ℝ) : aTWLF (s * T) (s * T0) (some C1) (some (s * C2)) = aTWLF T T0 (some C1) (some C2) := by
  unfold aTWLF
  show (pdiv _ _ >>= _) = (pdiv _ _ >>= _)
  rw [pdiv_same (a := -C1 * (T - T0)) (b := C2 + T - T0) s hs.ne' (by ring) (by ring)]

/-! ## Heat transfer and diffusion -/

/-- C122: overall heat transfer coefficient of a plane wall in other units. -/
theorem C122_plane_wall {κ : ℝ} (hκ : 0 < κ) (hl : 0 < l) (h1 h2 L k Rf1 Rf2 : ℝ) :
    uPlane (κ * h1) (κ * h2) (l * L) (κ * l * k) (1 / κ * Rf1) (1 / κ * Rf2) = (uPlane h1 h2 L k Rf1 Rf2).map (κ * ·) := by
  unfold uPlane
  rw [pdiv_scale (c := 1 / κ) (a := 1) (b := h1) κ hκ.ne' rfl (by field_simp), map_bind, bind_map]
  refine bind_congr _ _ _ fun a _ => ?_
  rw [pdiv_scale (c := 1 / κ) (a := 1) (b := h2) κ hκ.ne' rfl (by field_simp), map_bind, bind_map]
  refine bind_congr _ _ _ fun b _ => ?_
  rw [pdiv_scale (c := 1 / κ) (a := L) (b := k) (κ * l) (by positivity) rfl (by field_simp), map_bind, bind_map]
  refine bind_congr _ _ _ fun c _ => ?_
  exact pdiv_scale (1 / κ) (by positivity) (by ring) (by field_simp)

/-- Kilowatts instead of watts and millimetres instead of metres. -/
example (h1 h2 L k Rf1 Rf2 : ℝ) : uPlane (1e-9 * h1) (1e-9 * h2) (1000 * L) (1e-9 * 1000 * k) (1 / 1e-9 * Rf1) (1 / 1e-9 * Rf2) =
    (uPlane h1 h2 L k Rf1 Rf2).map (1e-9 * ·) :=
  C122_plane_wall (by norm_num) (by norm_num) h1 h2 L k Rf1 Rf2

/-- C122: overall heat transfer coefficient of a tube wall in other units. -/
theorem C122_cylindrical_wall {κ : ℝ} (hκ : 0 < κ) (hl : 0 < l) (hi ho di dO k Rfi Rfo : ℝ) :
    uCyl (κ * hi) (κ * ho) (l * di) (l * dO) (κ * l * k) (1 / κ * Rfi) (1 / κ * Rfo) = (uCyl hi ho di dO k Rfi Rfo).map (κ * ·) := by
  unfold uCyl
  rw [pdiv_scale (c := 1 / κ) (a := dO) (b := hi * di) (κ * l) (by positivity) (by ring) (by field_simp), map_bind, bind_map]
  refine bind_congr _ _ _ fun a _ => ?_
  rw [pdiv_scale (c := 1 / κ) (a := 1) (b := ho) κ hκ.ne' rfl (by field_simp), map_bind, bind_map]
  refine bind_congr _ _ _ fun b _ => ?_
  rw [pdiv_scale (c := 1 / κ) (a := Rfi * dO) (b := di) l hl.ne' rfl (by field_simp), map_bind, bind_map]
  refine bind_congr _ _ _ fun c _ => ?_
  rw [pdiv_scale (c := 1 / κ) (a := dO) (b := 2 * k) (κ * l) (by positivity) (by ring) (by field_simp), map_bind, bind_map]
  refine bind_congr _ _ _ fun d _ => ?_
  rw [pdiv_same (a := dO) (b := di) l hl.ne' rfl rfl, bind_map]
  refine bind_congr _ _ _ fun r _ => ?_
  show Except.ok _ = Except.ok _
  congr 1
  rw [show 1 / κ * a + 1 / κ * b + 1 / κ * c + 1 / κ * Rfo + 1 / κ * d * Real.log r = 1 / κ * (a + b + c + Rfo + d * Real.log r) by ring]
  rw [one_div_mul_eq_div, one_div_div]
  ring

/-- C122: diffusivity of a composite in other units. -/
theorem C122_composite {s : ℝ} (hs : 0 < s) (Dd Dc fd sh : ℝ) : dComposite (s * Dd) (s * Dc) fd sh = (dComposite Dd Dc fd sh).map (s * ·) := by
  unfold dComposite
  rw [bind_map]
  refine bind_congr _ _ _ fun q _ => ?_
  dsimp only
  rw [pdiv_same (a := Dd - Dc) (b := Dd + (q - 1) * Dc) s hs.ne' (by ring) (by ring), bind_map]
  refine bind_congr _ _ _ fun Y _ => ?_
  exact pdiv_scale 1 one_ne_zero (by ring) (by ring)

open Verif.Diffusion in
/-- C122: the concentration profile does not depend on the units of length and time. -/
theorem C122_semiinf (hl : 0 < l) (ht : 0 < t) (time x D : ℝ) :
    profileSemiinf (t * time) (l * x) (l ^ 2 / t * D) = profileSemiinf time x D := by
  unfold profileSemiinf
  have e : l ^ 2 / t * D * (t * time) = l ^ 2 * (D * time) := by field_simp
  rw [e, Real.sqrt_mul (by positivity), Real.sqrt_sq hl.le]
  by_cases h : D * time = 0
  · rw [if_pos h, if_pos (by rw [h, mul_zero])]
    by_cases hx : x = 0
    · rw [if_pos hx, if_pos (by rw [hx, mul_zero])]
    · rw [if_neg hx, if_neg (mul_ne_zero hl.ne' hx)]
      congr 1
      simp [hl]
  · rw [if_neg h, if_neg (mul_ne_zero (by positivity) h)]
    congr 2
    rw [show 2 * (l * √(D * time)) = l * (2 * √(D * time)) by ring, mul_div_mul_left _ _ hl.ne']

/-! ## Residence time -/

open Verif.Rtd

theorem q_scale {s : ℝ} (hs : 0 < s) (x y : ℝ) : s * x / (s * y) = x / y := mul_div_mul_left _ _ hs.ne'

/-- C122: residence-time densities have the unit 1/time. -/
theorem C122_rtd_density {s : ℝ} (hs : 0 < s) (time : WithTop ℝ) (tavg Pe : ℝ) (N : ℕ) :
    ECstr (time.map (s * ·)) (s * tavg) = 1 / s * ECstr time tavg ∧
    ETanks (time.map (s * ·)) (s * tavg) N = 1 / s * ETanks time tavg N ∧
    ELaminar (time.map (s * ·)) (s * tavg) = 1 / s * ELaminar time tavg ∧
    EDisp (time.map (s * ·)) (s * tavg) Pe = 1 / s * EDisp time tavg Pe := by
  cases time with
  | top => simp [ECstr, ETanks, ELaminar, EDisp]
  | coe x =>
    refine ⟨?_, ?_, ?_, ?_⟩
    · simp only [WithTop.map_coe, ECstr]
      rw [neg_div, q_scale hs, neg_div, ← mul_assoc]
      congr 1
      rw [one_div_mul_one_div]
    · simp only [WithTop.map_coe, ETanks]
      rw [q_scale hs, mul_comm s tavg, ← div_div]
      ring
    · simp only [WithTop.map_coe, ELaminar]
      rw [q_scale hs]
      split_ifs
      · simp
      · rw [mul_pow, mul_pow, show (0.5 : ℝ) * (s ^ 2 * tavg ^ 2) = s ^ 2 * (0.5 * tavg ^ 2) by ring, show s ^ 3 * x ^ 3 = s ^ 2 * (s * x ^ 3) by ring,
          mul_div_mul_left _ _ (by positivity), one_div_mul_eq_div, div_div, mul_comm s]
    · simp only [WithTop.map_coe, EDisp]
      rw [q_scale hs, show 2 * (s * tavg) = 2 * tavg * s by ring]
      split_ifs
      · simp
      · rw [← div_div]; ring
      · rw [← div_div]; ring

/-- C122: cumulative residence-time distributions have no unit. -/
theorem C122_rtd_cumulative {s : ℝ} (hs : 0 < s) (time : WithTop ℝ) (tavg Pe : ℝ) (N : ℕ) :
    FCstr (time.map (s * ·)) (s * tavg) = FCstr time tavg ∧
    FTanks (time.map (s * ·)) (s * tavg) N = FTanks time tavg N ∧
    FLaminar (time.map (s * ·)) (s * tavg) = FLaminar time tavg ∧
    FDisp (time.map (s * ·)) (s * tavg) Pe = FDisp time tavg Pe := by
  cases time with
  | top => simp [FCstr, FTanks, FLaminar, FDisp]
  | coe x =>
    refine ⟨?_, ?_, ?_, ?_⟩
    · simp only [WithTop.map_coe, FCstr]
      rw [neg_div, q_scale hs, neg_div]
    · simp only [WithTop.map_coe, FTanks]
      rw [q_scale hs]
    · simp only [WithTop.map_coe, FLaminar]
      rw [q_scale hs]
    · simp only [WithTop.map_coe, FDisp]
      rw [q_scale hs]
      congr 2
      have h := intervalIntegral.smul_integral_comp_mul_left (fun y => EDisp (y : ℝ) (s * tavg) Pe) s (a := 0) (b := x)
      rw [mul_zero] at h
      rw [← h, smul_eq_mul, ← intervalIntegral.integral_const_mul]
      congr 1
      funext y
      have := (C122_rtd_density hs (y : WithTop ℝ) tavg Pe 1).2.2.2
      rw [WithTop.map_coe] at this
      rw [this]
      field_simp

/-! ## Relief valves -/

open Verif.Prv

/-- A sizing result in other units. -/
def resize (p a : ℝ) (r : Result) : Result := ⟨r.Pcf.map (p * ·), r.critical, a * r.A⟩

/-- C122: gas relief valves: flow, pressure, temperature and molar mass rescaled; the critical/subcritical decision is unchanged. -/
theorem C122_relief_gas {w p τ μ : ℝ} (hw : 0 < w) (hp : 0 < p) (hτ : 0 < τ) (hμ : 0 < μ) (W P1 P2 T k M Z Kd Kb Kc KSH : ℝ) :
    areaGas (w * W) (p * P1) (p * P2) (τ * T) k (μ * M) Z false Kd Kb Kc KSH =
      (areaGas W P1 P2 T k M Z false Kd Kb Kc KSH).map (resize p (w / p * √(τ / μ))) := by
  have ep : gasPcf (p * P1 * 100) k = (gasPcf (P1 * 100) k).map (p * ·) := by
    unfold gasPcf
    rw [bind_map]
    refine bind_congr _ _ _ fun a _ => ?_
    rw [bind_map]
    refine bind_congr _ _ _ fun b _ => ?_
    show Except.ok _ = Except.ok _
    congr 1
    ring
  have ec : gasCrit (w * W) (p * P1 * 100) (τ * T) k (μ * M) Z false Kd Kb Kc KSH = (gasCrit W (P1 * 100) T k M Z false Kd Kb Kc KSH).map (w / p * √(τ / μ) * ·) := by
    unfold gasCrit
    simp only [Bool.false_eq_true, if_false]
    rw [bind_map]
    refine bind_congr _ _ _ fun a _ => ?_
    rw [bind_map]
    refine bind_congr _ _ _ fun b _ => ?_
    rw [pdiv_scale (c := τ / μ) (a := T * Z) (b := M) μ hμ.ne' rfl (by field_simp), map_bind, bind_map]
    refine bind_congr _ _ _ fun q _ => ?_
    show Except.ok _ = Except.ok _
    congr 1
    rw [Real.sqrt_mul (x := τ / μ) (by positivity)]
    generalize √(k * a ^ b) = y
    rw [show 0.03948 * y * Kd * (p * P1 * 100) * Kb * Kc = p * (0.03948 * y * Kd * (P1 * 100) * Kb * Kc) by ring, mul_div_mul_comm]
    ring
  have es : gasSub (w * W) (p * P1 * 100) (p * P2 * 100) (τ * T) k (μ * M) Z Kd Kc = (gasSub W (P1 * 100) (P2 * 100) T k M Z Kd Kc).map (w / p * √(τ / μ) * ·) := by
    unfold gasSub
    rw [pdiv_same (a := P2 * 100) (b := P1 * 100) p hp.ne' (by ring) (by ring), bind_map]
    refine bind_congr _ _ _ fun r _ => ?_
    rw [bind_map]
    refine bind_congr _ _ _ fun a _ => ?_
    rw [bind_map]
    refine bind_congr _ _ _ fun b _ => ?_
    rw [bind_map]
    refine bind_congr _ _ _ fun c _ => ?_
    rw [bind_map]
    refine bind_congr _ _ _ fun d _ => ?_
    dsimp only
    rw [pdiv_scale (c := (1 / p) ^ 2 * (τ / μ)) (a := T * Z) (b := M * (P1 * 100) * (P1 * 100 - P2 * 100)) (μ * p ^ 2) (by positivity) (by ring) (by field_simp),
      map_bind, bind_map]
    refine bind_congr _ _ _ fun q _ => ?_
    show Except.ok _ = Except.ok _
    congr 1
    rw [Real.sqrt_mul (x := (1 / p) ^ 2 * (τ / μ)) (by positivity), Real.sqrt_mul (x := (1 / p) ^ 2) (by positivity), Real.sqrt_sq (by positivity)]
    ring
  unfold areaGas
  dsimp only
  rw [ep, ec, es]
  cases gasPcf (P1 * 100) k with
  | error _ => rfl
  | ok pc =>
    have hc : p * P2 * 100 ≤ p * pc ↔ P2 * 100 ≤ pc := by rw [mul_assoc]; exact mul_le_mul_iff_of_pos_left hp
    simp only [Except.map, bind, Except.bind]
    simp only [hc]
    by_cases h : P2 * 100 ≤ pc
    · simp only [if_pos h]
      cases gasCrit W (P1 * 100) T k M Z false Kd Kb Kc KSH with
      | error _ => rfl
      | ok A => simp [Except.map, pure, Except.pure, resize, mul_div_assoc]
    · simp only [if_neg h]
      cases gasSub W (P1 * 100) (P2 * 100) T k M Z Kd Kc with
      | error _ => rfl
      | ok A => simp [Except.map, pure, Except.pure, resize, mul_div_assoc]

/-- Pounds per hour and psi instead of kg per hour and bar, at the same temperature and molar mass. -/
example (W P1 P2 T k M Z Kd Kb Kc KSH : ℝ) : areaGas (2.2046 * W) (14.5038 * P1) (14.5038 * P2) (1 * T) k (1 * M) Z false Kd Kb Kc KSH =
    (areaGas W P1 P2 T k M Z false Kd Kb Kc KSH).map (resize 14.5038 (2.2046 / 14.5038 * √(1 / 1))) :=
  C122_relief_gas (by norm_num) (by norm_num) one_pos one_pos W P1 P2 T k M Z Kd Kb Kc KSH

/-- C122: two-phase relief valves. -/
theorem C122_relief_2phase {w p ν : ℝ} (hw : 0 < w) (hp : 0 < p) (hν : 0 < ν) (W P1 P2 v1 v9 Kd Kb Kc Kv : ℝ) :
    area2phase (w * W) (p * P1) (p * P2) (ν * v1) (ν * v9) Kd Kb Kc Kv = (area2phase W P1 P2 v1 v9 Kd Kb Kc Kv).map (resize p (w * √(ν / p))) := by
  unfold area2phase
  dsimp only
  rw [pdiv_same (a := v9) (b := v1) ν hν.ne' rfl rfl]
  cases pdiv v9 v1 with
  | error _ => rfl
  | ok x =>
    simp only [Except.map, bind, Except.bind, pure, Except.pure, throw, throwThe, MonadExceptOf.throw]
    by_cases h : 9 * (x - 1) ≤ 0
    · simp only [if_pos h]
    · simp only [if_neg h]
      generalize 9 * (x - 1) = y
      generalize omegaEta y = e
      have hc : p * P2 * 100000 ≤ p * P1 * 100000 * e ↔ P2 * 100000 ≤ P1 * 100000 * e := by
        rw [show p * P2 * 100000 = p * (P2 * 100000) by ring, show p * P1 * 100000 * e = p * (P1 * 100000 * e) by ring]
        exact mul_le_mul_iff_of_pos_left hp
      have hG : omegaG (p * P1 * 100000) (p * P2 * 100000) (ν * v1) y e = √(p / ν) * omegaG (P1 * 100000) (P2 * 100000) v1 y e := by
        unfold omegaG
        simp only [hc]
        rw [show p * P2 * 100000 / (p * P1 * 100000) = P2 * 100000 / (P1 * 100000) by
              rw [mul_assoc, mul_assoc, q_scale hp],
          show p * P1 * 100000 / (ν * v1 * y) = p / ν * (P1 * 100000 / (v1 * y)) by rw [mul_assoc, mul_assoc ν, mul_div_mul_comm],
          show p * P1 * 100000 / (ν * v1) = p / ν * (P1 * 100000 / v1) by rw [mul_assoc, mul_div_mul_comm],
          Real.sqrt_mul (x := p / ν) (by positivity), Real.sqrt_mul (x := p / ν) (by positivity)]
        split_ifs <;> ring
      rw [hG]
      simp only [resize, hc, Option.map_some]
      congr 2
      · congr 1; ring
      · rw [show Kd * Kb * Kc * Kv * (√(p / ν) * omegaG (P1 * 100000) (P2 * 100000) v1 y e) = √(p / ν) * (Kd * Kb * Kc * Kv * omegaG (P1 * 100000) (P2 * 100000) v1 y e) by ring,
          show 277.8 * (w * W) = w * (277.8 * W) by ring, mul_div_mul_comm]
        congr 1
        rw [← inv_div p ν, Real.sqrt_inv, div_eq_mul_inv]

/-- C122: relief valves for subcooled liquids. -/
theorem C122_relief_subcooled {q p ρ : ℝ} (hq : 0 < q) (hp : 0 < p) (hρ : 0 < ρ) (Q P1 P2 Ps rho1 rho9 Kd Kb Kc Kv : ℝ) :
    areaSubcooled (q * Q) (p * P1) (p * P2) (p * Ps) (ρ * rho1) (ρ * rho9) Kd Kb Kc Kv =
      (areaSubcooled Q P1 P2 Ps rho1 rho9 Kd Kb Kc Kv).map (resize p (q * √(ρ / p))) := by
  have hs : ρ / √(ρ * p) = √(ρ / p) := by
    rw [Real.sqrt_mul hρ.le, Real.sqrt_div hρ.le, ← div_div, Real.div_sqrt]
  have hs0 : √(ρ * p) ≠ 0 := by positivity
  have key : ∀ K G : ℝ, 16.67 * (q * Q) * (ρ * rho1) / (K * (√(ρ * p) * G)) = q * √(ρ / p) * (16.67 * Q * rho1 / (K * G)) := fun K G => by
    rw [← hs, show K * (√(ρ * p) * G) = √(ρ * p) * (K * G) by ring, show 16.67 * (q * Q) * (ρ * rho1) = q * ρ * (16.67 * Q * rho1) by ring, mul_div_mul_comm, mul_div_assoc]
  have le1 : ∀ a b : ℝ, p * a * 100000 ≤ p * b * 100000 ↔ a * 100000 ≤ b * 100000 := fun a b => by
    rw [mul_assoc, mul_assoc]; exact mul_le_mul_iff_of_pos_left hp
  unfold areaSubcooled
  dsimp only
  rw [pdiv_same (a := rho1) (b := rho9) ρ hρ.ne' rfl rfl, pdiv_same (a' := p * Ps * 100000) (b' := p * P1 * 100000) (a := Ps * 100000) (b := P1 * 100000) p hp.ne' (by ring) (by ring),
    pdiv_same (a' := p * P2 * 100000) (b' := p * P1 * 100000) (a := P2 * 100000) (b := P1 * 100000) p hp.ne' (by ring) (by ring)]
  cases pdiv rho1 rho9 with
  | error _ => rfl
  | ok x =>
    simp only [bind, Except.bind]
    cases pdiv (2 * (9 * (x - 1))) (1 + 2 * (9 * (x - 1))) with
    | error _ => rfl
    | ok est =>
      cases pdiv (Ps * 100000) (P1 * 100000) with
      | error _ => rfl
      | ok es =>
        cases pdiv (P2 * 100000) (P1 * 100000) with
        | error _ => rfl
        | ok ea =>
          dsimp only
          by_cases h : es < est
          · simp only [if_pos h, pure, Except.pure, Except.map, resize, Option.map_none, le1]
            congr 2
            have hP : (if P2 * 100000 ≤ Ps * 100000 then p * Ps * 100000 else p * P2 * 100000) = p * (if P2 * 100000 ≤ Ps * 100000 then Ps * 100000 else P2 * 100000) := by
              split_ifs <;> ring
            rw [hP]
            generalize (if P2 * 100000 ≤ Ps * 100000 then Ps * 100000 else P2 * 100000) = P
            rw [show ρ * rho1 * (p * P1 * 100000 - p * P) = ρ * p * (rho1 * (P1 * 100000 - P)) by ring, Real.sqrt_mul (by positivity),
              show 1.414 * (√(ρ * p) * √(rho1 * (P1 * 100000 - P))) = √(ρ * p) * (1.414 * √(rho1 * (P1 * 100000 - P))) by ring]
            exact key _ _
          · simp only [if_neg h]
            cases subEta_ (9 * (x - 1)) es with
            | error _ => rfl
            | ok ec_ =>
              simp only [pure, Except.pure, Except.map, resize, Option.map_some]
              generalize (if es > est then ec_ else es) = ec
              have hc : p * P2 * 100000 ≤ p * P1 * 100000 * ec ↔ P2 * 100000 ≤ P1 * 100000 * ec := by
                rw [show p * P2 * 100000 = p * (P2 * 100000) by ring, show p * P1 * 100000 * ec = p * (P1 * 100000 * ec) by ring]
                exact mul_le_mul_iff_of_pos_left hp
              simp only [hc]
              generalize (if P2 * 100000 ≤ P1 * 100000 * ec then ec else ea) = e
              congr 2
              · congr 1; ring
              · have hG : subG (p * P1 * 100000) (ρ * rho1) (9 * (x - 1)) es e = √(ρ * p) * subG (P1 * 100000) rho1 (9 * (x - 1)) es e := by
                  unfold subG
                  rw [show p * P1 * 100000 * (ρ * rho1) = ρ * p * (P1 * 100000 * rho1) by ring, Real.sqrt_mul (x := ρ * p) (by positivity)]
                  ring
                rw [hG]
                exact key _ _

theorem liqKv_scale {q γ a : ℝ} (hq : 0 < q) (hγ : 0 < γ) (ha : 0 < a) (Q Gl mu A : ℝ) :
    liqKv (q * Q) (γ * Gl) (q * γ / √a * mu) (a * A) = liqKv Q Gl mu A := by
  unfold liqKv nsqrt
  have hsa : √a ≠ 0 := by positivity
  by_cases h : A < 0
  · rw [if_pos h, if_pos (mul_neg_of_pos_of_neg ha h)]; rfl
  · rw [if_neg h, if_neg (by push Not at h ⊢; positivity)]
    show (ndiv _ _ >>= _) = (ndiv _ _ >>= _)
    have : ndiv (18800 * (q * Q) * (γ * Gl)) (q * γ / √a * mu * √(a * A)) = ndiv (18800 * Q * Gl) (mu * √A) := by
      rw [Real.sqrt_mul ha.le, show q * γ / √a * mu * (√a * √A) = q * γ * (mu * √A) by field_simp,
        show 18800 * (q * Q) * (γ * Gl) = q * γ * (18800 * Q * Gl) by ring]
      unfold ndiv
      have hk : q * γ ≠ 0 := by positivity
      by_cases h0 : mu * √A = 0
      · rw [if_pos h0, if_pos (by rw [h0, mul_zero])]
      · rw [if_neg h0, if_neg (mul_ne_zero hk h0), mul_div_mul_left _ _ hk]
    rw [this]

theorem liqLoop_scale {q γ b : ℝ} (hq : 0 < q) (hγ : 0 < γ) (hb : 0 < b) (Q Gl mu K c : ℝ) (n : ℕ) : ∀ A : ℝ,
    liqLoop (q * Q) (γ * Gl) (q * γ / √(q * b) * mu) K (b * c) n (q * b * A) = (liqLoop Q Gl mu K c n A).map (q * b * ·) := by
  have hk : q * b ≠ 0 := by positivity
  induction n with
  | zero => intro A; rfl
  | succ n ih =>
    intro A
    simp only [liqLoop]
    rw [liqKv_scale hq hγ (by positivity)]
    cases liqKv Q Gl mu A with
    | none => rfl
    | some Kv =>
      dsimp only
      have h1 : ndiv (11.78 * (q * Q)) (K * Kv) = (ndiv (11.78 * Q) (K * Kv)).map (q * ·) := by
        unfold ndiv
        split_ifs
        · rfl
        · simp only [Option.map_some]; congr 1; ring
      rw [h1]
      cases ndiv (11.78 * Q) (K * Kv) with
      | none => rfl
      | some r =>
        simp only [Option.map_some]
        rw [show q * r * (b * c) = q * b * (r * c) by ring]
        have h2 : ndiv (q * b * (r * c) - q * b * A) (q * b * (r * c)) = ndiv (r * c - A) (r * c) := by
          unfold ndiv
          by_cases h0 : r * c = 0
          · rw [if_pos h0, if_pos (by rw [h0, mul_zero])]
          · rw [if_neg h0, if_neg (mul_ne_zero hk h0), ← mul_sub, mul_div_mul_left _ _ hk]
        rw [h2]
        cases ndiv (r * c - A) (r * c) with
        | none => rfl
        | some e =>
          dsimp only
          split_ifs
          · rfl
          · exact ih _

/-- C122: liquid relief valves, with the viscosity rescaled so that the Reynolds number is unchanged. -/
theorem C122_relief_liquid {q p γ : ℝ} (hq : 0 < q) (hp : 0 < p) (hγ : 0 < γ) (Q P1 P2 mu Gl Kd Kw Kc : ℝ) :
    areaLiquid (q * Q) (p * P1) (p * P2) (q * γ / √(q * √(γ / p)) * mu) (γ * Gl) Kd Kw Kc =
      (areaLiquid Q P1 P2 mu Gl Kd Kw Kc).map (q * √(γ / p) * ·) := by
  unfold areaLiquid
  dsimp only
  rw [pdiv_scale (c := q) (a := 11.78 * Q) (b := Kd * Kw * Kc * 1) 1 one_ne_zero (by ring) (by ring), map_bind, bind_map]
  refine bind_congr _ _ _ fun r _ => ?_
  rw [pdiv_scale (c := γ / p) (a := Gl) (b := P1 * 100 - P2 * 100) p hp.ne' (by ring) (by field_simp), map_bind, bind_map]
  refine bind_congr _ _ _ fun d _ => ?_
  have hk : 0 < γ / p := by positivity
  have h1 : nsqrt (γ / p * d) = (nsqrt d).map (√(γ / p) * ·) := by
    unfold nsqrt
    by_cases h : d < 0
    · rw [if_pos h, if_pos (mul_neg_of_pos_of_neg hk h)]; rfl
    · rw [if_neg h, if_neg (by push Not at h ⊢; positivity), Real.sqrt_mul hk.le]; rfl
  rw [h1]
  cases nsqrt d with
  | none => rfl
  | some c =>
    simp only [Option.map_some]
    rw [show q * r * (√(γ / p) * c) = q * √(γ / p) * (r * c) by ring]
    exact liqLoop_scale hq hγ (by positivity) Q Gl mu _ c 49 _

end Verif.Units
