import Verif.Lemmas.Vaporization

/-! # C67: vapour-pressure and enthalpy-of-vaporisation estimates -/

namespace Verif.Vaporization

open Real

/-! ## Lee-Kesler -/

/-- The acentric factor that reproduces the normal boiling point in the Lee-Kesler correlation. -/
noncomputable def omegaLK (Tb Tc Pc : ℝ) : ℝ := (log (Pc / 101325) + (fLK (Tb / Tc)).1) / -(fLK (Tb / Tc)).2

theorem leeKesler_eq {T Tb Tc Pc : ℝ} (hc : 0 < Tc) (h0 : 0 < Tb) (h1 : Tb ≤ 0.9999 * Tc) :
    plLeeKesler T Tb Tc Pc = some (Pc * exp ((fLK (T / Tc)).1 + omegaLK Tb Tc Pc * (fLK (T / Tc)).2)) := by
  have hb := fLK_neg (div_pos h0 hc) ((div_le_iff₀ hc).2 h1)
  have e : odiv (-log (Pc / 101325) - (fLK (Tb / Tc)).1) (fLK (Tb / Tc)).2 = some (omegaLK Tb Tc Pc) := by
    rw [odiv, if_neg hb.ne, omegaLK, div_neg, ← neg_div]
    congr 2; ring
  show (odiv _ _).bind _ = _
  rw [e]; rfl

/-- C67. `PL_Lee_Kesler` returns exactly one atmosphere at the normal boiling point it was given. -/
theorem C67_lee_kesler_boiling {Tb Tc Pc : ℝ} (hc : 0 < Tc) (hP : 0 < Pc) (h0 : 0 < Tb) (h1 : Tb ≤ 0.9999 * Tc) :
    plLeeKesler Tb Tb Tc Pc = some 101325 := by
  rw [leeKesler_eq hc h0 h1]
  have hb := fLK_neg (div_pos h0 hc) ((div_le_iff₀ hc).2 h1)
  have e : (fLK (Tb / Tc)).1 + omegaLK Tb Tc Pc * (fLK (Tb / Tc)).2 = -log (Pc / 101325) := by
    unfold omegaLK
    generalize (fLK (Tb / Tc)).2 = b at *
    have := hb.ne
    field_simp
    ring
  rw [e, exp_neg, exp_log (by positivity)]
  congr 1
  field_simp

example : plLeeKesler 420 420 644 45.4e5 = some 101325 :=
  C67_lee_kesler_boiling (by norm_num) (by norm_num) (by norm_num) (by norm_num)

/-- C67. `PL_Lee_Kesler` strictly increases with temperature up to the critical point, for every substance with nonnegative acentric factor. -/
theorem C67_lee_kesler_monotone {T T' Tb Tc Pc : ℝ} (hc : 0 < Tc) (hP : 0 < Pc) (h0 : 0 < Tb) (h1 : Tb ≤ 0.9999 * Tc)
    (hw : 0 ≤ omegaLK Tb Tc Pc) (hT : 0 < T) (hTT : T < T') (hT' : T' ≤ Tc) :
    ∃ P P', plLeeKesler T Tb Tc Pc = some P ∧ plLeeKesler T' Tb Tc Pc = some P' ∧ 0 < P ∧ P < P' := by
  refine ⟨_, _, leeKesler_eq hc h0 h1, leeKesler_eq hc h0 h1, by positivity, ?_⟩
  obtain ⟨a, b⟩ := fLK_strictMono (div_pos hT hc) (div_lt_div_of_pos_right hTT hc) ((div_le_one hc).2 hT')
  have := mul_le_mul_of_nonneg_left b.le hw
  exact mul_lt_mul_of_pos_left (exp_lt_exp.2 (by linarith)) hP

/-- Every substance that boils below its critical temperature at more than `exp(-f0)` atm critical pressure is covered, e.g. butyl acrylate. -/
example : 0 ≤ omegaLK 420 644 45.4e5 := by
  have hb : (fLK (420 / 644)).2 < 0 := fLK_neg (by norm_num) (by norm_num)
  refine div_nonneg ?_ (by linarith)
  have l1 : log (644 / 420 : ℝ) ≥ 1 - (644 / 420 : ℝ)⁻¹ := one_sub_inv_le_log_of_pos (by norm_num)
  have l2 : log (420 / 644 : ℝ) = -log (644 / 420 : ℝ) := by rw [← log_inv]; norm_num
  have l3 : 5 * log 2 ≤ log (45.4e5 / 101325) := by
    rw [← log_rpow (by norm_num)]
    exact log_le_log (by norm_num) (by norm_num)
  have := log_two_gt_d9
  simp only [fLK, l2]
  norm_num at *
  linarith

/-- C67. At the critical temperature `PL_Lee_Kesler` returns the critical pressure within 0.01 % (but never exactly it, because of rounded
coefficients). -/
theorem C67_lee_kesler_critical {Tb Tc Pc : ℝ} (hc : 0 < Tc) (hP : 0 < Pc) (h0 : 0 < Tb) (h1 : Tb ≤ 0.9999 * Tc)
    (hw : 0 ≤ omegaLK Tb Tc Pc) (hw1 : omegaLK Tb Tc Pc ≤ 1) :
    ∃ P, plLeeKesler Tc Tb Tc Pc = some P ∧ Pc < P ∧ P < 1.0001 * Pc := by
  refine ⟨_, leeKesler_eq hc h0 h1, ?_⟩
  have e : (fLK (Tc / Tc)).1 + omegaLK Tb Tc Pc * (fLK (Tc / Tc)).2 = 7e-6 + 7e-5 * omegaLK Tb Tc Pc := by
    rw [div_self hc.ne']
    norm_num [fLK]
    ring
  rw [e]
  generalize omegaLK Tb Tc Pc = w at *
  constructor
  · refine lt_mul_of_one_lt_right hP (one_lt_exp_iff.2 ?_)
    norm_num; linarith
  · rw [mul_comm]
    refine mul_lt_mul_of_pos_right ?_ hP
    have a : exp (7e-6 + 7e-5 * w) ≤ exp 7.7e-5 := exp_le_exp.2 (by norm_num at *; linarith)
    have b : exp (-7.7e-5) ≥ 1 - 7.7e-5 := by
      have := add_one_le_exp (-7.7e-5 : ℝ)
      linarith
    rw [exp_neg] at b
    have c : exp 7.7e-5 ≤ (1 - 7.7e-5 : ℝ)⁻¹ := by
      rw [← inv_inv (exp 7.7e-5)]
      exact inv_anti₀ (by norm_num) b
    exact (a.trans c).trans_lt (by norm_num)

/-! ## Wilson -/

/-- C67. `PL_Wilson` returns the critical pressure at the critical temperature. -/
theorem C67_wilson_critical {Tc Pc w : ℝ} (hc : 0 < Tc) : plWilson Tc Tc Pc w = some Pc := by
  rw [wilson_eq hc, div_self hc.ne']; norm_num

/-- C67. `PL_Wilson` strictly increases with temperature whenever the acentric factor exceeds -1. -/
theorem C67_wilson_monotone {T T' Tc Pc w : ℝ} (hc : 0 < Tc) (hP : 0 < Pc) (hw : -1 < w) (hT : 0 < T) (hTT : T < T') :
    ∃ P P', plWilson T Tc Pc w = some P ∧ plWilson T' Tc Pc w = some P' ∧ 0 < P ∧ P < P' := by
  refine ⟨_, _, wilson_eq hT, wilson_eq (hT.trans hTT), by positivity, ?_⟩
  refine mul_lt_mul_of_pos_left (exp_lt_exp.2 ?_) hP
  have : Tc / T' < Tc / T := div_lt_div_of_pos_left hc hT hTT
  have hw' : (0 : ℝ) < 5.373 * (1 + w) := mul_pos (by norm_num) (by linarith)
  exact mul_lt_mul_of_pos_left (by linarith) hw'

/-- C67. `PL_Wilson` is consistent with the definition of the acentric factor, `log10 (P/Pc) = -(1 + w)` at `T = 0.7 Tc`. -/
theorem C67_wilson_acentric {Tc Pc w : ℝ} (hc : 0 < Tc) (hP : 0 < Pc) :
    ∃ P, plWilson (0.7 * Tc) Tc Pc w = some P ∧ |log (P / Pc) + (1 + w) * log 10| ≤ 1.4e-4 * |1 + w| := by
  refine ⟨_, wilson_eq (by positivity), ?_⟩
  rw [mul_div_cancel_left₀ _ hP.ne', log_exp]
  have e : Tc / (0.7 * Tc) = 10 / 7 := by field_simp; norm_num
  obtain ⟨l, u⟩ := log_ten_bounds
  rw [e, show 5.373 * (1 + w) * (1 - 10 / 7) + (1 + w) * log 10 = (log 10 - 5.373 * (3 / 7)) * (1 + w) by ring, abs_mul]
  refine mul_le_mul_of_nonneg_right ?_ (abs_nonneg _)
  rw [abs_le]
  norm_num at *
  constructor <;> linarith

example : ∃ P P', plWilson 268.7 425 43.3e5 0.195 = some P ∧ plWilson 300 425 43.3e5 0.195 = some P' ∧ 0 < P ∧ P < P' :=
  C67_wilson_monotone (by norm_num) (by norm_num) (by norm_num) (by norm_num) (by norm_num)

/-! ## Wagner and Ambrose-Walton -/

/-- Exponent of the Wagner equations with exponents `p`, `q`, `r` as a function of `t = 1 - T/Tc`. -/
noncomputable def wexp (a b c d q r t : ℝ) : ℝ := (a * t + b * t ^ (1.5 : ℝ) + c * t ^ q + d * t ^ r) / (1 - t)

theorem wexp_strictAnti {a b c d q r t t' : ℝ} (hab : a + max b 0 < 0) (hc : c ≤ 0) (hd : d ≤ 0) (hq : 0 < q) (hr : 0 < r)
    (h0 : 0 ≤ t) (h : t < t') (h1 : t' < 1) : wexp a b c d q r t' < wexp a b c d q r t := by
  have eq : ∀ x, wexp a b c d q r x = (a * x + b * x ^ (1.5 : ℝ)) / (1 - x) + c * (x ^ q / (1 - x)) + d * (x ^ r / (1 - x)) := fun x => by
    unfold wexp; ring
  rw [eq, eq]
  have c1 := mul_le_mul_of_nonpos_left (rpow_div_mono hq h0 h h1).le hc
  have d1 := mul_le_mul_of_nonpos_left (rpow_div_mono hr h0 h h1).le hd
  have m : t / (1 - t) < t' / (1 - t') := by
    rw [div_lt_div_iff₀ (by linarith) (by linarith)]; nlinarith
  suffices (a * t' + b * t' ^ (1.5 : ℝ)) / (1 - t') < (a * t + b * t ^ (1.5 : ℝ)) / (1 - t) by linarith
  rcases le_total b 0 with hb | hb
  · rw [max_eq_right hb, add_zero] at hab
    have e : ∀ x, (a * x + b * x ^ (1.5 : ℝ)) / (1 - x) = a * (x / (1 - x)) + b * (x ^ (1.5 : ℝ) / (1 - x)) := fun x => by ring
    rw [e, e]
    have b1 := mul_le_mul_of_nonpos_left (rpow_div_mono (show (0 : ℝ) < 1.5 by norm_num) h0 h h1).le hb
    have a1 := mul_lt_mul_of_neg_left m hab
    linarith
  · rw [max_eq_left hb] at hab
    have e : ∀ x, 0 ≤ x → x < 1 → (a * x + b * x ^ (1.5 : ℝ)) / (1 - x) = (a + b) * (x / (1 - x)) - b * (x / (1 + √x)) := by
      intro x hx0 hx1
      have hs : x ^ (1.5 : ℝ) = x * √x := by
        rw [show (1.5 : ℝ) = 1 + 1 / 2 by norm_num, rpow_add_of_nonneg hx0 (by norm_num) (by norm_num), rpow_one, sqrt_eq_rpow]
      rw [hs]
      have hsq := sq_sqrt hx0
      have hn := sqrt_nonneg x
      generalize √x = u at *
      have h2 : (1 : ℝ) + u ≠ 0 := by linarith
      have h3 : (1 : ℝ) - x ≠ 0 := by linarith
      field_simp
      rw [← hsq]; ring
    rw [e t h0 (h.trans h1), e t' (h0.trans h.le) h1]
    have a1 := mul_lt_mul_of_neg_left m hab
    have b1 : t / (1 + √t) ≤ t' / (1 + √t') := by
      have h0' := h0.trans h.le
      have hs : √t ≤ √t' := sqrt_le_sqrt h.le
      have hsq := sq_sqrt h0
      have hsq' := sq_sqrt h0'
      have hn := sqrt_nonneg t
      generalize √t = u at *
      generalize √t' = v at *
      rw [div_le_div_iff₀ (by linarith) (by linarith), ← hsq, ← hsq']
      have : 0 ≤ (v - u) * (v + u + u * v) := mul_nonneg (by linarith) (by nlinarith)
      nlinarith
    have := mul_le_mul_of_nonneg_left b1 hb
    linarith

theorem wagner25_eq {T a b c d Pc Tc : ℝ} (hT : 0 < T) (h : T ≤ Tc) :
    wagner25 T a b c d Pc Tc = some (Pc * exp (wexp a b c d 2.5 5 (1 - T / Tc))) := by
  have hc := hT.trans_le h
  have h1 : (0 : ℝ) ≤ 1 - T / Tc := sub_nonneg.2 ((div_le_one hc).2 h)
  have hr := div_pos hT hc
  unfold wagner25
  simp only [odiv_pos hc, Option.bind_eq_bind, Option.bind_some, fpow_nonneg h1, odiv_pos hr]
  unfold wexp
  rw [show (1 : ℝ) - (1 - T / Tc) = T / Tc by ring, show (5 : ℝ) = ((5 : ℕ) : ℝ) by norm_num, rpow_natCast]
  rfl

theorem wagner36_eq {T a b c d Pc Tc : ℝ} (hT : 0 < T) (h : T ≤ Tc) :
    wagner36 T a b c d Pc Tc = some (Pc * exp (wexp a b c d 3 6 (1 - T / Tc))) := by
  have hc := hT.trans_le h
  have h1 : (0 : ℝ) ≤ 1 - T / Tc := sub_nonneg.2 ((div_le_one hc).2 h)
  have hr := div_pos hT hc
  unfold wagner36
  simp only [odiv_pos hc, Option.bind_eq_bind, Option.bind_some, fpow_nonneg h1, odiv_pos hr]
  unfold wexp
  rw [show (1 : ℝ) - (1 - T / Tc) = T / Tc by ring, show (3 : ℝ) = ((3 : ℕ) : ℝ) by norm_num, show (6 : ℝ) = ((6 : ℕ) : ℝ) by norm_num,
    rpow_natCast, rpow_natCast]
  rfl

theorem wexp_zero (a b c d : ℝ) {q r : ℝ} (hq : 0 < q) (hr : 0 < r) : wexp a b c d q r 0 = 0 := by
  unfold wexp
  rw [zero_rpow (by norm_num), zero_rpow hq.ne', zero_rpow hr.ne']
  norm_num

/-- C67. `Wagner25` and `Wagner36` return the critical pressure at the critical temperature, whatever the coefficients. -/
theorem C67_wagner_critical {a b c d Pc Tc : ℝ} (hc : 0 < Tc) : wagner25 Tc a b c d Pc Tc = some Pc ∧ wagner36 Tc a b c d Pc Tc = some Pc := by
  rw [wagner25_eq hc le_rfl, wagner36_eq hc le_rfl, div_self hc.ne', sub_self, wexp_zero _ _ _ _ (by norm_num) (by norm_num),
    wexp_zero _ _ _ _ (by norm_num) (by norm_num)]
  norm_num

/-- C67. `Wagner25` and `Wagner36` strictly increase with temperature up to the critical point for coefficients of the usual signs: `a` negative
and dominating `b`, `c` and `d` not positive. -/
theorem C67_wagner_monotone {T T' a b c d Pc Tc : ℝ} (hP : 0 < Pc) (hab : a + max b 0 < 0) (hc : c ≤ 0) (hd : d ≤ 0) (hT : 0 < T)
    (hTT : T < T') (hT' : T' ≤ Tc) :
    (∃ P P', wagner25 T a b c d Pc Tc = some P ∧ wagner25 T' a b c d Pc Tc = some P' ∧ 0 < P ∧ P < P') ∧
      ∃ P P', wagner36 T a b c d Pc Tc = some P ∧ wagner36 T' a b c d Pc Tc = some P' ∧ 0 < P ∧ P < P' := by
  have hc0 := (hT.trans hTT).trans_le hT'
  have h1 : (0 : ℝ) ≤ 1 - T' / Tc := sub_nonneg.2 ((div_le_one hc0).2 hT')
  have h2 : 1 - T' / Tc < 1 - T / Tc := sub_lt_sub_left (div_lt_div_of_pos_right hTT hc0) _
  have h3 : 1 - T / Tc < 1 := sub_lt_self _ (div_pos hT hc0)
  constructor
  · refine ⟨_, _, wagner25_eq hT (hTT.le.trans hT'), wagner25_eq (hT.trans hTT) hT', by positivity, ?_⟩
    exact mul_lt_mul_of_pos_left (exp_lt_exp.2 (wexp_strictAnti hab hc hd (by norm_num) (by norm_num) h1 h2 h3)) hP
  · refine ⟨_, _, wagner36_eq hT (hTT.le.trans hT'), wagner36_eq (hT.trans hTT) hT', by positivity, ?_⟩
    exact mul_lt_mul_of_pos_left (exp_lt_exp.2 (wexp_strictAnti hab hc hd (by norm_num) (by norm_num) h1 h2 h3)) hP

/-- Coefficients of the size tabulated for hydrocarbons. -/
example : ∃ P P', wagner25 300 (-6.9) 1.3 (-1.6) (-4.2) 48.9e5 562 = some P ∧ wagner25 350 (-6.9) 1.3 (-1.6) (-4.2) 48.9e5 562 = some P' ∧ 0 < P ∧ P < P' :=
  (C67_wagner_monotone (by norm_num) (by norm_num) (by norm_num) (by norm_num) (by norm_num) (by norm_num) (by norm_num)).1

/-- Ambrose-Walton is a Wagner equation with coefficients depending on the acentric factor. -/
theorem ambroseWalton_eq {T Tc Pc w : ℝ} (hT : 0 < T) (h : T ≤ Tc) :
    plAmbroseWalton T Tc Pc w = some (Pc * exp (wexp (-5.97616 - 5.03365 * w - 0.64771 * w ^ 2) (1.29874 + 1.11505 * w + 2.41539 * w ^ 2)
      (-0.60394 - 5.41217 * w - 4.26979 * w ^ 2) (-1.06841 - 7.46628 * w + 3.25259 * w ^ 2) 2.5 5 (1 - T / Tc))) := by
  have hc := hT.trans_le h
  have h1 : (0 : ℝ) ≤ 1 - T / Tc := sub_nonneg.2 ((div_le_one hc).2 h)
  have hr := div_pos hT hc
  unfold plAmbroseWalton
  simp only [odiv_pos hc, Option.bind_eq_bind, Option.bind_some, fpow_nonneg h1, odiv_pos hr]
  unfold wexp
  rw [show (1 : ℝ) - (1 - T / Tc) = T / Tc by ring, show (5 : ℝ) = ((5 : ℕ) : ℝ) by norm_num, rpow_natCast]
  show some _ = some _
  congr 3
  ring

/-- C67. `PL_Ambrose_Walton` returns the critical pressure at the critical temperature, and no real number above it. -/
theorem C67_ambrose_walton_critical {T Tc Pc w : ℝ} (hc : 0 < Tc) :
    plAmbroseWalton Tc Tc Pc w = some Pc ∧ (Tc < T → plAmbroseWalton T Tc Pc w = none) := by
  constructor
  · rw [ambroseWalton_eq hc le_rfl, div_self hc.ne', sub_self, wexp_zero _ _ _ _ (by norm_num) (by norm_num)]
    norm_num
  · intro h
    have : 1 - T / Tc < 0 := sub_neg.2 ((one_lt_div hc).2 h)
    unfold plAmbroseWalton
    simp only [odiv_pos hc, Option.bind_eq_bind, Option.bind_some]
    rw [fpow, if_pos this]; rfl

/-- C67. `PL_Ambrose_Walton` strictly increases with temperature up to the critical point for acentric factors in `[0, 2]`. -/
theorem C67_ambrose_walton_monotone {T T' Tc Pc w : ℝ} (hP : 0 < Pc) (hw0 : 0 ≤ w) (hw : w ≤ 2) (hT : 0 < T) (hTT : T < T') (hT' : T' ≤ Tc) :
    ∃ P P', plAmbroseWalton T Tc Pc w = some P ∧ plAmbroseWalton T' Tc Pc w = some P' ∧ 0 < P ∧ P < P' := by
  have hc0 := (hT.trans hTT).trans_le hT'
  have h1 : (0 : ℝ) ≤ 1 - T' / Tc := sub_nonneg.2 ((div_le_one hc0).2 hT')
  have h2 : 1 - T' / Tc < 1 - T / Tc := sub_lt_sub_left (div_lt_div_of_pos_right hTT hc0) _
  have h3 : 1 - T / Tc < 1 := sub_lt_self _ (div_pos hT hc0)
  refine ⟨_, _, ambroseWalton_eq hT (hTT.le.trans hT'), ambroseWalton_eq (hT.trans hTT) hT', by positivity, ?_⟩
  refine mul_lt_mul_of_pos_left (exp_lt_exp.2 (wexp_strictAnti ?_ ?_ ?_ (by norm_num) (by norm_num) h1 h2 h3)) hP
  · rw [max_eq_left (by positivity)]
    norm_num; nlinarith
  · norm_num; nlinarith
  · norm_num; nlinarith

example : ∃ P P', plAmbroseWalton 268.7 425 43.3e5 0.195 = some P ∧ plAmbroseWalton 300 425 43.3e5 0.195 = some P' ∧ 0 < P ∧ P < P' :=
  C67_ambrose_walton_monotone (by norm_num) (by norm_num) (by norm_num) (by norm_num) (by norm_num) (by norm_num)

/-- C67. `PL_Ambrose_Walton` is consistent with the definition of the acentric factor, `log10 (P/Pc) = -(1 + w)` at `T = 0.7 Tc`. -/
theorem C67_ambrose_walton_acentric {Tc Pc w : ℝ} (hc : 0 < Tc) (hP : 0 < Pc) :
    ∃ P, plAmbroseWalton (0.7 * Tc) Tc Pc w = some P ∧ |log (P / Pc) + (1 + w) * log 10| ≤ 1e-5 * (1 + |w| + w ^ 2) := by
  refine ⟨_, ambroseWalton_eq (by positivity) (by linarith), ?_⟩
  rw [mul_div_cancel_left₀ _ hP.ne', log_exp, mul_div_assoc, div_self hc.ne', mul_one]
  have e : (1 : ℝ) - 0.7 = 0.3 := by norm_num
  have hs : (0.3 : ℝ) ^ (1.5 : ℝ) = 0.3 * √0.3 := by
    rw [show (1.5 : ℝ) = 1 + 1 / 2 by norm_num, rpow_add_of_nonneg (by norm_num) (by norm_num) (by norm_num), rpow_one, sqrt_eq_rpow]
  have hs2 : (0.3 : ℝ) ^ (2.5 : ℝ) = 0.3 ^ 2 * √0.3 := by
    rw [show (2.5 : ℝ) = 2 + 1 / 2 by norm_num, rpow_add_of_nonneg (by norm_num) (by norm_num) (by norm_num), rpow_two, sqrt_eq_rpow]
  have hs3 : (0.3 : ℝ) ^ (5 : ℝ) = 0.3 ^ 5 := by
    rw [show (5 : ℝ) = ((5 : ℕ) : ℝ) by norm_num, rpow_natCast]
  unfold wexp
  rw [e, hs, hs2, hs3]
  obtain ⟨l, u⟩ := log_ten_bounds
  have b1 : 0.5477225 ≤ √0.3 := le_sqrt_of_sq_le (by norm_num)
  have b2 : √0.3 ≤ 0.5477226 := (sqrt_le_left (by norm_num)).2 (by norm_num)
  generalize √0.3 = s at *
  generalize log 10 = L at *
  obtain ⟨x0, hx0⟩ : ∃ x, x = (-5.97616 * 0.3 + 1.29874 * (0.3 * s) - 0.60394 * (0.3 ^ 2 * s) - 1.06841 * 0.3 ^ 5) / 0.7 + L := ⟨_, rfl⟩
  obtain ⟨x1, hx1⟩ : ∃ x, x = (-5.03365 * 0.3 + 1.11505 * (0.3 * s) - 5.41217 * (0.3 ^ 2 * s) - 7.46628 * 0.3 ^ 5) / 0.7 + L := ⟨_, rfl⟩
  obtain ⟨x2, hx2⟩ : ∃ x, x = (-0.64771 * 0.3 + 2.41539 * (0.3 * s) - 4.26979 * (0.3 ^ 2 * s) + 3.25259 * 0.3 ^ 5) / 0.7 := ⟨_, rfl⟩
  have k0 : |x0| ≤ 1e-5 := by rw [abs_le, hx0]; norm_num at *; constructor <;> linarith
  have k1 : |x1| ≤ 1e-5 := by rw [abs_le, hx1]; norm_num at *; constructor <;> linarith
  have k2 : |x2| ≤ 1e-5 := by rw [abs_le, hx2]; norm_num at *; constructor <;> linarith
  have key : ((-5.97616 - 5.03365 * w - 0.64771 * w ^ 2) * 0.3 + (1.29874 + 1.11505 * w + 2.41539 * w ^ 2) * (0.3 * s) +
      (-0.60394 - 5.41217 * w - 4.26979 * w ^ 2) * (0.3 ^ 2 * s) + (-1.06841 - 7.46628 * w + 3.25259 * w ^ 2) * 0.3 ^ 5) / (1 - 0.3) + (1 + w) * L =
      x0 + x1 * w + x2 * w ^ 2 := by
    rw [hx0, hx1, hx2, show (1 : ℝ) - 0.3 = 0.7 by norm_num]
    ring
  rw [key]
  have t1 : |x1 * w| ≤ 1e-5 * |w| := by rw [abs_mul]; exact mul_le_mul_of_nonneg_right k1 (abs_nonneg _)
  have t2 : |x2 * w ^ 2| ≤ 1e-5 * w ^ 2 := by rw [abs_mul, abs_of_nonneg (sq_nonneg w)]; exact mul_le_mul_of_nonneg_right k2 (sq_nonneg _)
  have := abs_add_three x0 (x1 * w) (x2 * w ^ 2)
  linarith

/-! ## Antoine -/

/-- C67. `Antoine` is positive and strictly increasing with temperature above its pole `T = -C` for `B > 0`, in either base. -/
theorem C67_antoine_monotone {T T' A B C : ℝ} (base10 : Bool) (hB : 0 < B) (hT : -C < T) (hTT : T < T') :
    ∃ P P', antoine T A B C base10 = some P ∧ antoine T' A B C base10 = some P' ∧ 0 < P ∧ P < P' := by
  have h1 : 0 < T + C := by linarith
  have h2 : 0 < T' + C := by linarith
  have h : A - B / (T + C) < A - B / (T' + C) := sub_lt_sub_left (div_lt_div_of_pos_left hB h1 (by linarith)) _
  unfold antoine
  simp only [odiv_pos h1, odiv_pos h2, Option.bind_eq_bind, Option.bind_some]
  refine ⟨_, _, rfl, rfl, ?_⟩
  cases base10
  · exact ⟨exp_pos _, exp_lt_exp.2 h⟩
  · exact ⟨rpow_pos_of_pos (by norm_num) _, rpow_lt_rpow_of_exponent_lt (by norm_num) h⟩

/-- C67. The two bases of `Antoine` are the same equation with `A` and `B` multiplied by `ln 10`. -/
theorem C67_antoine_base (T A B C : ℝ) : antoine T A B C true = antoine T (A * log 10) (B * log 10) C false := by
  unfold antoine odiv
  by_cases h : T + C = 0
  · simp [h]
  · simp only [if_neg h, Option.bind_eq_bind, Option.bind_some]
    simp only [if_true, Bool.false_eq_true, if_false]
    rw [rpow_def_of_pos (by norm_num)]
    show some _ = some _
    congr 2; ring

example : ∃ P P', antoine 300 10.1 1700 (-40) true = some P ∧ antoine 310 10.1 1700 (-40) true = some P' ∧ 0 < P ∧ P < P' :=
  C67_antoine_monotone true (by norm_num) (by norm_num) (by norm_num)

/-! ## Enthalpy of vaporisation -/

/-- C67. `DHVL_Watson` returns its input at the same temperature, zero at the critical temperature, and going from `T1` to `T3` through `T2` gives
the same as going directly. -/
theorem C67_watson_composes {h1 T1 T2 T3 Tc : ℝ} (hc : 0 < Tc) (hT1 : T1 < Tc) (hT2 : T2 < Tc) (hT3 : T3 ≤ Tc) :
    dhvlWatson h1 T1 T1 Tc = some h1 ∧ dhvlWatson h1 T1 Tc Tc = some 0 ∧
      ∃ h2, dhvlWatson h1 T1 T2 Tc = some h2 ∧ dhvlWatson h2 T2 T3 Tc = dhvlWatson h1 T1 T3 Tc := by
  have a : 0 < 1 - T1 / Tc := sub_pos.2 ((div_lt_one hc).2 hT1)
  have b : 0 < 1 - T2 / Tc := sub_pos.2 ((div_lt_one hc).2 hT2)
  have c : 0 ≤ 1 - T3 / Tc := sub_nonneg.2 ((div_le_one hc).2 hT3)
  refine ⟨?_, ?_, _, watson_eq hc hT1 hT2.le, ?_⟩
  · rw [watson_eq hc hT1 hT1.le, div_self a.ne', one_rpow, mul_one]
  · rw [watson_eq hc hT1 le_rfl, div_self hc.ne', sub_self, zero_div, zero_rpow (by norm_num), mul_zero]
  · rw [watson_eq hc hT2 hT3, watson_eq hc hT1 hT3, mul_assoc, ← mul_rpow (by positivity) (by positivity)]
    congr 3
    generalize 1 - T2 / Tc = y at *
    field_simp

/-- C67. `DHVL_Watson` strictly decreases with the target temperature. -/
theorem C67_watson_decreasing {h1 T1 T2 T3 Tc : ℝ} (hc : 0 < Tc) (h : 0 < h1) (hT1 : T1 < Tc) (hT2 : T2 < T3) (hT3 : T3 ≤ Tc) :
    ∃ x y, dhvlWatson h1 T1 T2 Tc = some x ∧ dhvlWatson h1 T1 T3 Tc = some y ∧ 0 ≤ y ∧ y < x := by
  have a : 0 < 1 - T1 / Tc := sub_pos.2 ((div_lt_one hc).2 hT1)
  have c : 0 ≤ 1 - T3 / Tc := sub_nonneg.2 ((div_le_one hc).2 hT3)
  have d : 1 - T3 / Tc < 1 - T2 / Tc := sub_lt_sub_left (div_lt_div_of_pos_right hT2 hc) _
  refine ⟨_, _, watson_eq hc hT1 (hT2.le.trans hT3), watson_eq hc hT1 hT3, by positivity, ?_⟩
  exact mul_lt_mul_of_pos_left (rpow_lt_rpow (by positivity) (div_lt_div_of_pos_right d a) (by norm_num)) h

example : ∃ x y, dhvlWatson 22.9 258 323.15 425 = some x ∧ dhvlWatson 22.9 258 400 425 = some y ∧ 0 ≤ y ∧ y < x :=
  C67_watson_decreasing (by norm_num) (by norm_num) (by norm_num) (by norm_num) (by norm_num)

/-- C67 fails beyond the critical point: with both temperatures supercritical, where there is no vaporisation, `DHVL_Watson` silently returns a
positive enthalpy, which increases with temperature. -/
theorem C67_watson_supercritical_false : ∃ x, dhvlWatson 10 500 700 400 = some x ∧ 10 < x := by
  refine ⟨10 * (3 : ℝ) ^ (0.38 : ℝ), ?_, ?_⟩
  · norm_num [dhvlWatson, odiv, fpow]
  · have : (1 : ℝ) < 3 ^ (0.38 : ℝ) := one_lt_rpow (by norm_num) (by norm_num)
    linarith

/-- C67. `DHVL_Pitzer` is zero at the critical temperature, and for nonnegative acentric factors positive and strictly decreasing below it. -/
theorem C67_pitzer {R T T' Tc w : ℝ} (hR : 0 < R) (hc : 0 < Tc) (hw : 0 ≤ w) (hTT : T < T') (hT' : T' ≤ Tc) :
    dhvlPitzer R Tc Tc w = some 0 ∧ ∃ x y, dhvlPitzer R T Tc w = some x ∧ dhvlPitzer R T' Tc w = some y ∧ 0 ≤ y ∧ y < x := by
  have e : ∀ S, S ≤ Tc → dhvlPitzer R S Tc w = some (R * Tc * (7.08 * (1 - S / Tc) ^ (0.354 : ℝ) + 10.95 * w * (1 - S / Tc) ^ (0.456 : ℝ))) := by
    intro S hS
    have b : 0 ≤ 1 - S / Tc := sub_nonneg.2 ((div_le_one hc).2 hS)
    unfold dhvlPitzer
    simp only [odiv_pos hc, Option.bind_eq_bind, Option.bind_some, fpow_nonneg b]
    rfl
  have c : 0 ≤ 1 - T' / Tc := sub_nonneg.2 ((div_le_one hc).2 hT')
  have d : 1 - T' / Tc < 1 - T / Tc := sub_lt_sub_left (div_lt_div_of_pos_right hTT hc) _
  refine ⟨?_, _, _, e T (hTT.le.trans hT'), e T' hT', by positivity, ?_⟩
  · rw [e Tc le_rfl, div_self hc.ne', sub_self, zero_rpow (by norm_num), zero_rpow (by norm_num)]
    norm_num
  · have p : (1 - T' / Tc) ^ (0.354 : ℝ) < (1 - T / Tc) ^ (0.354 : ℝ) := rpow_lt_rpow c d (by norm_num)
    have q : (1 - T' / Tc) ^ (0.456 : ℝ) ≤ (1 - T / Tc) ^ (0.456 : ℝ) := (rpow_lt_rpow c d (by norm_num)).le
    have r := mul_le_mul_of_nonneg_left q (show (0 : ℝ) ≤ 10.95 * w by positivity)
    refine mul_lt_mul_of_pos_left ?_ (mul_pos hR hc)
    norm_num at *
    linarith

example : ∃ x y, dhvlPitzer 8.314 323.15 425 0.122 = some x ∧ dhvlPitzer 8.314 400 425 0.122 = some y ∧ 0 ≤ y ∧ y < x :=
  (C67_pitzer (by norm_num) (by norm_num) (by norm_num) (by norm_num) (by norm_num)).2

/-- C67. `DHVL_Vetere` is positive for substances boiling between half and all of the critical temperature with at least 2 bar critical pressure. -/
theorem C67_vetere_pos {R Tb Tc Pc : ℝ} (hR : 0 < R) (hc : 0 < Tc) (h0 : Tc / 2 ≤ Tb) (h1 : Tb ≤ Tc) (hP : 2e5 ≤ Pc) :
    ∃ x, dhvlVetere R Tb Tc Pc = some x ∧ 0 < x := by
  have hr0 : 1 / 2 ≤ Tb / Tc := by rw [le_div_iff₀ hc]; linarith
  have hr1 : Tb / Tc ≤ 1 := (div_le_one hc).2 h1
  have hl : log 2 ≤ log (Pc / 1e5) := log_le_log (by norm_num) (by rw [le_div_iff₀ (by norm_num)]; norm_num at *; linarith)
  have hl2 := log_two_gt_d9
  have hPp : 0 < Pc := by norm_num at hP; linarith
  have hr2 : 0 < (Tb / Tc) ^ 2 := by positivity
  have hr3 : 0 < Tb / Tc := by linarith
  have hd : 0 < 0.37691 - 0.37306 * (Tb / Tc) + 0.15075 / (Pc / 1e5) / (Tb / Tc) ^ 2 := by
    have : 0 ≤ 0.15075 / (Pc / 1e5) / (Tb / Tc) ^ 2 := by positivity
    norm_num at *; linarith
  unfold dhvlVetere
  simp only [odiv_pos hc, Option.bind_eq_bind, Option.bind_some, odiv_pos hr2, odiv_pos hd]
  refine ⟨_, rfl, div_pos (mul_pos (by positivity) ?_) hd⟩
  norm_num at *
  linarith

example : ∃ x, dhvlVetere 8.314 259.8 425 51.5e5 = some x ∧ 0 < x :=
  C67_vetere_pos (by norm_num) (by norm_num) (by norm_num) (by norm_num) (by norm_num)

/-- C67. `DHVL_Kistiakowsky_Vetere` raises exactly when the kind is unknown or needs a missing molar mass. -/
theorem C67_kistiakowsky_errors (R Tb : ℝ) (M : Option ℝ) (kind : Kind) :
    (∃ h, dhvlKV R Tb M kind = .ok h) ↔ kind = .any ∨ (M ≠ none ∧ kind ≠ .other) := by
  cases M <;> cases kind <;> simp [dhvlKV]

/-- C67. The value for esters is 1.03 times that for polar compounds. -/
theorem C67_kistiakowsky_ester {R Tb M : ℝ} (hM : 0 < M) :
    ∃ x, dhvlKV R Tb (some M) .polar = .ok (some x) ∧ dhvlKV R Tb (some M) .ester = .ok (some (1.03 * x)) := by
  have h : 0 < M * 1e3 := by positivity
  have key : ∀ x : ℝ, x * 1.03 * Tb = 1.03 * (x * Tb) := fun x => by ring
  refine ⟨(44.367 + 15.33 * log10 Tb + 0.39137 * Tb / (M * 1e3) + 4.330e-3 / (M * 1e3) * Tb ^ 2 - 5.627e-6 / (M * 1e3) * Tb ^ 3) * Tb, ?_, ?_⟩
  · unfold dhvlKV
    rw [if_neg (by decide)]
    dsimp only
    rw [if_neg (by decide), if_pos (by decide), odiv_pos h, odiv_pos h, odiv_pos h]
    rfl
  · unfold dhvlKV
    rw [if_neg (by decide)]
    dsimp only
    rw [if_neg (by decide), if_pos (by decide), odiv_pos h, odiv_pos h, odiv_pos h, ← key]
    rfl

example : ∃ x, dhvlKV 8.314 350 (some 0.088) .polar = .ok (some x) ∧ dhvlKV 8.314 350 (some 0.088) .ester = .ok (some (1.03 * x)) :=
  C67_kistiakowsky_ester (by norm_num)

/-- C67. The entropy of vaporisation of each kind, with the molar mass in g/mol: the correlations of Reid, Prausnitz and Poling, 4th edition, p. 231;
for hydrocarbons from the boiling point `(263 M)^0.581` upwards. -/
theorem C67_kistiakowsky_values {R Tb M : ℝ} (hM : 0 < M) :
    (∀ m, dhvlKV R Tb m .any = .ok (some (Tb * (30.6 + R * log Tb)))) ∧
      ((263 * M) ^ (0.581 : ℝ) ≤ Tb → dhvlKV R Tb (some (M / 1000)) .hydrocarbon =
        .ok (some (Tb * (58.20 + 13.7 * (log M / log 10) + 6.49 / M * (Tb - (263 * M) ^ (0.581 : ℝ)) ^ (1.037 : ℝ))))) ∧
      dhvlKV R Tb (some (M / 1000)) .polar =
        .ok (some (Tb * (44.367 + 15.33 * (log Tb / log 10) + (0.39137 * Tb + 4.330e-3 * Tb ^ 2 - 5.627e-6 * Tb ^ 3) / M))) ∧
      dhvlKV R Tb (some (M / 1000)) .acid_alcohol =
        .ok (some (Tb * (81.119 + 13.083 * (log Tb / log 10) + (-25.769 * Tb + 0.146528 * Tb ^ 2 - 2.1362e-4 * Tb ^ 3) / M))) := by
  have e : M / 1000 * 1e3 = M := by norm_num
  have h5 : fpow (263 * M) 0.581 = some ((263 * M) ^ (0.581 : ℝ)) := fpow_nonneg (by positivity)
  refine ⟨fun m => ?_, fun h => ?_, ?_, ?_⟩
  · unfold dhvlKV
    rw [if_pos rfl, mul_comm]
  · have h6 : fpow (Tb - (263 * M) ^ (0.581 : ℝ)) 1.037 = some ((Tb - (263 * M) ^ (0.581 : ℝ)) ^ (1.037 : ℝ)) := fpow_nonneg (by linarith)
    unfold dhvlKV
    rw [if_neg (by decide)]
    dsimp only
    rw [if_pos rfl, e, h5, odiv_pos hM]
    simp only [Option.bind_eq_bind, Option.bind_some, h6, log10]
    rw [mul_comm]
    rfl
  · unfold dhvlKV
    rw [if_neg (by decide)]
    dsimp only
    rw [if_neg (by decide), if_pos (by decide), e, odiv_pos hM, odiv_pos hM, odiv_pos hM]
    simp only [Option.bind_eq_bind, Option.bind_some, log10, if_neg (show ¬Kind.polar = Kind.ester by decide), pure]
    congr 2
    ring
  · unfold dhvlKV
    rw [if_neg (by decide)]
    dsimp only
    rw [if_neg (by decide), if_neg (by decide), if_pos rfl, e, odiv_pos hM, odiv_pos hM, odiv_pos hM]
    simp only [Option.bind_eq_bind, Option.bind_some, log10, pure]
    congr 2
    ring

/-- C67. The documented example: 22.4 kJ/mol for butadiene, i.e. between 22350 and 22450 J/mol. -/
theorem C67_kistiakowsky_butadiene (R : ℝ) :
    ∃ x, dhvlKV R 268.6 (some (54.1 / 1000)) .hydrocarbon = .ok (some x) ∧ 22350 ≤ x ∧ x ≤ 22450 := by
  have le1 : ∀ (a b c d n : ℕ), 0 < b → 0 < d → a ^ n * d ^ 1000 ≤ c ^ 1000 * b ^ n → ((a / b : ℝ)) ^ (n / 1000 : ℝ) ≤ c / d := by
    intro a b c d n hb hd h
    refine le_of_pow_le_pow_left₀ (n := 1000) (by norm_num) (by positivity) ?_
    rw [← rpow_natCast, ← rpow_mul (by positivity), show (n / 1000 : ℝ) * (1000 : ℕ) = n by push_cast; field_simp, rpow_natCast, div_pow, div_pow,
      div_le_div_iff₀ (by positivity) (by positivity)]
    exact_mod_cast h
  have ge1 : ∀ (a b c d n : ℕ), 0 < b → 0 < d → c ^ 1000 * b ^ n ≤ a ^ n * d ^ 1000 → (c / d : ℝ) ≤ ((a / b : ℝ)) ^ (n / 1000 : ℝ) := by
    intro a b c d n hb hd h
    refine le_of_pow_le_pow_left₀ (n := 1000) (by norm_num) (by positivity) ?_
    rw [← rpow_natCast _ 1000, ← rpow_natCast (_ ^ _) 1000, ← rpow_mul (by positivity), show (n / 1000 : ℝ) * (1000 : ℕ) = n by push_cast; field_simp,
      rpow_natCast, rpow_natCast, div_pow, div_pow, div_le_div_iff₀ (by positivity) (by positivity)]
    exact_mod_cast h
  have q1 := le1 142283 10 25882 100 581 (by norm_num) (by norm_num) (by decide +kernel)
  have q0 := ge1 142283 10 25850 100 581 (by norm_num) (by norm_num) (by decide +kernel)
  have r0 := ge1 978 100 106 10 1037 (by norm_num) (by norm_num) (by decide +kernel)
  have r1 := le1 1010 100 111 10 1037 (by norm_num) (by norm_num) (by decide +kernel)
  have t : 0 < log (10 : ℝ) := log_pos (by norm_num)
  have l0 : 1.733 ≤ log (54.1 : ℝ) / log 10 := by
    rw [le_div_iff₀ t, ← log_rpow (by norm_num)]
    refine log_le_log (by positivity) ?_
    have := le1 10 1 541 10 1733 (by norm_num) (by norm_num) (by decide +kernel)
    norm_num at this ⊢
    exact this
  have l1 : log (54.1 : ℝ) / log 10 ≤ 1.75 := by
    rw [div_le_iff₀ t, ← log_rpow (by norm_num)]
    refine log_le_log (by norm_num) ?_
    have := ge1 10 1 541 10 1750 (by norm_num) (by norm_num) (by decide +kernel)
    norm_num at this ⊢
    exact this
  have eq : (263 * 54.1 : ℝ) ^ (0.581 : ℝ) = (((142283 : ℕ) / (10 : ℕ) : ℝ)) ^ (((581 : ℕ) : ℝ) / 1000) := by norm_num
  rw [← eq] at q0 q1
  set q := (263 * 54.1 : ℝ) ^ (0.581 : ℝ) with hq
  have h := (C67_kistiakowsky_values (R := R) (Tb := 268.6) (M := 54.1) (by norm_num)).2.1 (by norm_num at q1 ⊢; linarith)
  refine ⟨_, h, ?_⟩
  have s0 : (10.6 : ℝ) ≤ (268.6 - q) ^ (1.037 : ℝ) := by
    refine le_trans ?_ (rpow_le_rpow (x := 9.78) (by norm_num) (by norm_num at q1 ⊢; linarith) (by norm_num))
    norm_num at r0 ⊢
    exact r0
  have s1 : (268.6 - q) ^ (1.037 : ℝ) ≤ 11.1 := by
    refine le_trans (rpow_le_rpow (y := 10.1) (by norm_num at q1 ⊢; linarith) (by norm_num at q0 ⊢; linarith) (by norm_num)) ?_
    norm_num at r1 ⊢
    exact r1
  rw [← hq]
  generalize (268.6 - q) ^ (1.037 : ℝ) = r at s0 s1
  generalize log (54.1 : ℝ) / log 10 = l at l0 l1
  clear * - s0 s1 l0 l1
  norm_num at *
  constructor <;> linarith

example (R : ℝ) : dhvlKV R 350 (some (46 / 1000)) .acid_alcohol =
    .ok (some (350 * (81.119 + 13.083 * (log 350 / log 10) + (-25.769 * 350 + 0.146528 * 350 ^ 2 - 2.1362e-4 * 350 ^ 3) / 46))) :=
  (C67_kistiakowsky_values (by norm_num)).2.2.2

/-- C67 fails for branched hydrocarbons: for isooctane (2,2,4-trimethylpentane, 372.39 K, 114.23 g/mol) `DHVL_Kistiakowsky_Vetere` returns no real
number, because it raises a negative difference to a fractional power. -/
theorem C67_hydrocarbon_false (R : ℝ) : dhvlKV R 372.39 (some 0.11423) .hydrocarbon = .ok none := by
  have h : (372.39 : ℝ) < (263 * (0.11423 * 1e3)) ^ (0.581 : ℝ) := by
    have a : (372.39 : ℝ) < (30042 : ℝ) ^ (29 / 50 : ℝ) := by
      refine lt_of_pow_lt_pow_left₀ 50 (by positivity) ?_
      rw [← rpow_natCast ((30042 : ℝ) ^ (29 / 50 : ℝ)), ← rpow_mul (by norm_num)]
      norm_num
    refine a.trans_le ((rpow_le_rpow_of_exponent_le (by norm_num) (show (29 / 50 : ℝ) ≤ 0.581 by norm_num)).trans ?_)
    exact rpow_le_rpow (by norm_num) (by norm_num) (by norm_num)
  have hn : fpow (263 * (0.11423 * 1e3)) 0.581 = some ((263 * (0.11423 * 1e3)) ^ (0.581 : ℝ)) := fpow_nonneg (by norm_num)
  have h2 : fpow (372.39 - (263 * (0.11423 * 1e3)) ^ (0.581 : ℝ)) 1.037 = none := if_pos (by linarith)
  unfold dhvlKV
  rw [if_neg (by decide)]
  dsimp only
  rw [if_pos rfl]
  simp only [hn, Option.bind_eq_bind, Option.bind_some, h2, Option.bind_none]

end Verif.Vaporization
