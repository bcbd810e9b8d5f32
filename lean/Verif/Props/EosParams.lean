import Verif.Props.Eos

/-!
# C112: second virial coefficient and attraction as functions of temperature
-/

namespace Verif.Eos

open Mixing

/-! ### Second virial coefficient -/

section Virial

variable {R Tc Pc w : ℝ}

/-- **C112.** `B_pure` grows with temperature. -/
theorem C112_B_increasing (hR : 0 < R) (hTc : 0 < Tc) (hPc : 0 < Pc) (hw : 0 ≤ w) : StrictMonoOn (fun T => bPure R T Tc Pc w) (Set.Ioi 0) := by
  intro T hT T' hT' h
  have hT0 : 0 < T := hT
  have hr : 0 < T / Tc := div_pos hT hTc
  have hlt : T / Tc < T' / Tc := div_lt_div_of_pos_right h hTc
  have h1 : (T / Tc) ^ (1.6 : ℝ) < (T' / Tc) ^ (1.6 : ℝ) := Real.rpow_lt_rpow hr.le hlt (by norm_num)
  have h2 : (T / Tc) ^ (4.2 : ℝ) < (T' / Tc) ^ (4.2 : ℝ) := Real.rpow_lt_rpow hr.le hlt (by norm_num)
  have p1 := Real.rpow_pos_of_pos hr 1.6
  have p2 := Real.rpow_pos_of_pos hr 4.2
  have d1 : 0.422 / (T' / Tc) ^ (1.6 : ℝ) < 0.422 / (T / Tc) ^ (1.6 : ℝ) := div_lt_div_of_pos_left (by norm_num) p1 h1
  have d2 : 0.172 / (T' / Tc) ^ (4.2 : ℝ) < 0.172 / (T / Tc) ^ (4.2 : ℝ) := div_lt_div_of_pos_left (by norm_num) p2 h2
  unfold bPure
  refine mul_lt_mul_of_pos_left ?_ (by positivity)
  have := mul_le_mul_of_nonneg_left d2.le hw
  simp only [mul_sub]
  linarith

/-- **C112.** There is exactly one Boyle temperature; it lies between `Tc` and `4 Tc`; below it the gas is more compressible than an ideal gas, above it less, at all
pressures. -/
theorem C112_boyle (hR : 0 < R) (hTc : 0 < Tc) (hPc : 0 < Pc) (hw : 0 ≤ w) : ∃ TB, Tc < TB ∧ TB < 4 * Tc ∧ ∀ T, 0 < T →
    (bPure R T Tc Pc w = 0 ↔ T = TB) ∧ (bPure R T Tc Pc w < 0 ↔ T < TB) ∧
    ∀ Zc P : ℝ, 0 < P → (virialZ R ⟨fun _ : Fin 1 => Tc, fun _ => Pc, fun _ => Zc, fun _ => w⟩ T P (fun _ => 1) < 1 ↔ T < TB) := by
  have hmono := C112_B_increasing hR hTc hPc hw
  have hk : 0 < R * Tc / Pc := by positivity
  have hneg : bPure R Tc Tc Pc w < 0 := by
    unfold bPure
    simp only [div_self hTc.ne', Real.one_rpow, div_one]
    refine mul_neg_of_pos_of_neg hk ?_
    have : w * (0.139 - 0.172) ≤ 0 := mul_nonpos_of_nonneg_of_nonpos hw (by norm_num)
    norm_num at this ⊢
    linarith
  have hpos : 0 < bPure R (4 * Tc) Tc Pc w := by
    unfold bPure
    rw [mul_div_assoc, div_self hTc.ne', mul_one]
    refine mul_pos hk ?_
    have h1 : (8 : ℝ) ≤ 4 ^ (1.6 : ℝ) := by
      have : (8 : ℝ) = 4 ^ (1.5 : ℝ) := by
        rw [show (4 : ℝ) = 2 ^ (2 : ℝ) by norm_num, ← Real.rpow_mul (by norm_num)]; norm_num
      rw [this]
      exact Real.rpow_le_rpow_of_exponent_le (by norm_num) (by norm_num)
    have h2 : (4 : ℝ) ≤ 4 ^ (4.2 : ℝ) := by
      nth_rw 1 [show (4 : ℝ) = 4 ^ (1 : ℝ) by norm_num]
      exact Real.rpow_le_rpow_of_exponent_le (by norm_num) (by norm_num)
    have d1 : 0.422 / (4 : ℝ) ^ (1.6 : ℝ) ≤ 0.422 / 8 := div_le_div_of_nonneg_left (by norm_num) (by norm_num) h1
    have d2 : 0.172 / (4 : ℝ) ^ (4.2 : ℝ) ≤ 0.172 / 4 := div_le_div_of_nonneg_left (by norm_num) (by norm_num) h2
    have : 0 ≤ w * (0.139 - 0.172 / 4 ^ (4.2 : ℝ)) := mul_nonneg hw (by norm_num at d2 ⊢; linarith)
    norm_num at d1 this ⊢
    linarith
  have hcont : ContinuousOn (fun T => bPure R T Tc Pc w) (Set.Icc Tc (4 * Tc)) := by
    unfold bPure
    have hne : ∀ T ∈ Set.Icc Tc (4 * Tc), T / Tc ≠ 0 := fun T hT => (div_pos (lt_of_lt_of_le hTc hT.1) hTc).ne'
    have hd : ContinuousOn (fun T : ℝ => T / Tc) (Set.Icc Tc (4 * Tc)) := by fun_prop
    have c1 : ∀ p : ℝ, ContinuousOn (fun T : ℝ => (T / Tc) ^ p) (Set.Icc Tc (4 * Tc)) := fun p => hd.rpow_const fun T hT => Or.inl (hne T hT)
    have n1 : ∀ p : ℝ, ∀ T ∈ Set.Icc Tc (4 * Tc), (T / Tc) ^ p ≠ 0 := fun p T hT =>
      (Real.rpow_pos_of_pos (div_pos (lt_of_lt_of_le hTc hT.1) hTc) p).ne'
    exact continuousOn_const.mul ((continuousOn_const.sub (continuousOn_const.div (c1 _) (n1 _))).add
      (continuousOn_const.mul (continuousOn_const.sub (continuousOn_const.div (c1 _) (n1 _)))))
  obtain ⟨TB, hTB, h0⟩ := intermediate_value_Icc (by linarith) hcont ⟨hneg.le, hpos.le⟩
  simp only at h0
  have hB0 : 0 < TB := lt_of_lt_of_le hTc hTB.1
  have hiff : ∀ T, 0 < T → (bPure R T Tc Pc w < 0 ↔ T < TB) := fun T hT => by
    rw [← h0]; exact hmono.lt_iff_lt hT hB0
  refine ⟨TB, lt_of_le_of_ne hTB.1 fun h => ?_, lt_of_le_of_ne hTB.2 fun h => ?_, fun T hT => ⟨?_, hiff T hT, fun Zc P hP => ?_⟩⟩
  · rw [← h] at h0; linarith
  · rw [h] at h0; linarith
  · rw [← h0]; exact hmono.injOn.eq_iff hT hB0
  · have hbm : virialBm R ⟨fun _ : Fin 1 => Tc, fun _ => Pc, fun _ => Zc, fun _ => w⟩ T (fun _ => 1) = bPure R T Tc Pc w := by
      simp [virialBm, virialB, bMixture, quadratic]
    rw [← hiff T hT]
    unfold virialZ
    rw [hbm]
    have hd : 0 < P / (R * T) := by positivity
    constructor
    · intro h
      by_contra hc
      push Not at hc
      have := mul_nonneg hc hd.le
      rw [mul_div_assoc] at h
      linarith
    · intro h
      have := mul_neg_of_neg_of_pos h hd
      rw [mul_div_assoc]
      linarith

/-- Nitrogen. -/
example : ∃ TB, (126.2 : ℝ) < TB ∧ TB < 4 * 126.2 ∧ bPure 8.314 TB 126.2 3.4e6 0.037 = 0 := by
  obtain ⟨TB, h1, h2, h3⟩ := C112_boyle (R := 8.314) (Tc := 126.2) (Pc := 3.4e6) (w := 0.037) (by norm_num) (by norm_num) (by norm_num) (by norm_num)
  exact ⟨TB, h1, h2, (h3 TB (by linarith)).1.2 rfl⟩

/-- **C112.** At high temperature `B` tends to the excluded volume of the correlation. -/
theorem C112_B_limit (hTc : 0 < Tc) : Filter.Tendsto (fun T => bPure R T Tc Pc w) Filter.atTop (nhds (R * Tc / Pc * (0.083 + 0.139 * w))) := by
  have h1 : ∀ p : ℝ, 0 < p → ∀ c : ℝ, Filter.Tendsto (fun T => c / (T / Tc) ^ p) Filter.atTop (nhds 0) := fun p hp c =>
    tendsto_const_nhds.div_atTop ((tendsto_rpow_atTop hp).comp (Filter.tendsto_id.atTop_div_const hTc))
  have h := ((h1 1.6 (by norm_num) 0.422).const_sub 0.083).add (((h1 4.2 (by norm_num) 0.172).const_sub 0.139).const_mul w)
  have h' := h.const_mul (R * Tc / Pc)
  rw [sub_zero, sub_zero, mul_comm w] at h'
  exact h'

end Virial

/-! ### Fugacity -/

section Fugacity

variable {N : ℕ}

/-- **C112.** The fugacities of an ideal gas are the partial pressures; those of the virial equation approach them at low pressure, and add up to less than the pressure for a
pure gas below its Boyle temperature. -/
theorem C112_fugacity (R T : ℝ) (y : Fin N → ℝ) (e : Virial N) : (∀ P i, fug idealPhi y P i = y i * P) ∧ (∑ i, y i = 1 → ∀ P, ∑ i, fug idealPhi y P i = P) ∧
    (∀ i, Filter.Tendsto (fun P => fug (virialPhi R e T P y) y P i / P) (nhdsWithin 0 (Set.Ioi 0)) (nhds (y i))) ∧
    ∀ i P, y = Pi.single i 1 → 0 < R * T → 0 < P → (fug (virialPhi R e T P y) y P i < P ↔ bPure R T (e.Tc i) (e.Pc i) (e.w i) < 0) := by
  refine ⟨fun P i => by simp [fug, idealPhi], fun hy P => ?_, fun i => ?_, fun i P hy hRT hP => ?_⟩
  · simp only [fug, idealPhi, one_mul]; rw [← Finset.sum_mul, hy, one_mul]
  · have hc : Continuous fun P => virialPhi R e T P y i * y i := by unfold virialPhi; fun_prop
    have h0 : virialPhi R e T 0 y i * y i = y i := by simp [virialPhi]
    have h := (hc.tendsto 0).mono_left (nhdsWithin_le_nhds (s := Set.Ioi 0))
    rw [h0] at h
    refine h.congr' ?_
    filter_upwards [self_mem_nhdsWithin] with P hP
    have : (0 : ℝ) < P := hP
    unfold fug
    field_simp
  · have hb : virialB R e T i i = bPure R T (e.Tc i) (e.Pc i) (e.w i) := by simp [virialB, bMixture]
    have hm : virialBm R e T y = bPure R T (e.Tc i) (e.Pc i) (e.w i) := by
      simp [virialBm, quadratic, hy, Pi.single_apply, Finset.sum_ite_eq', hb]
    have hs : ∑ j, virialB R e T i j * y j = bPure R T (e.Tc i) (e.Pc i) (e.w i) := by
      simp [hy, Pi.single_apply, hb]
    have hyi : y i = 1 := by simp [hy]
    unfold fug virialPhi
    rw [hs, hm, hyi, mul_one, show ∀ b : ℝ, 2 * b - b = b by intro b; ring]
    generalize bPure R T (e.Tc i) (e.Pc i) (e.w i) = b
    have hd : 0 < P / (R * T) := div_pos hP hRT
    rw [show ∀ x : ℝ, x * P < P ↔ x < 1 from fun x => by constructor <;> intro h <;> nlinarith, Real.exp_lt_one_iff, mul_div_assoc]
    exact ⟨fun h => by by_contra hc; push Not at hc; exact absurd h (not_lt.2 (mul_nonneg hc hd.le)), fun h => mul_neg_of_neg_of_pos h hd⟩

example : ∑ i, fug idealPhi ![0.2, 0.8] 5 i = 5 := (C112_fugacity 8 300 ![0.2, 0.8] ⟨![1, 1], ![1, 1], ![1, 1], ![1, 1]⟩).2.1 (by norm_num [Fin.sum_univ_two]) 5

end Fugacity

/-! ### Attraction -/

section Attraction

variable {N : ℕ}

/-- **C112.** At the critical temperature the attraction is that of the critical point, whatever the acentric factor. -/
theorem C112_alpha_critical (e : Cubic N) (i : Fin N) (h : 0 < e.Tc i) : alpha e (e.Tc i) i = 1 := by
  unfold alpha
  cases e.kind with
  | RK => simp [div_self h.ne']
  | SRK g => cases g <;> simp [div_self h.ne']
  | PR => simp [div_self h.ne']

/-- The slope of the Soave functions. -/
noncomputable def slope : Kind → ℝ → ℝ
  | .RK, _ => 0
  | .SRK true, w => 0.48508 + 1.55171 * w - 0.1561 * w ^ 2
  | .SRK false, w => 0.48 + 1.574 * w - 0.176 * w ^ 2
  | .PR, w => 0.37464 + 1.54226 * w - 0.26992 * w ^ 2

theorem alpha_soave (e : Cubic N) (h : e.kind ≠ .RK) (T : ℝ) (i : Fin N) : alpha e T i = (1 + slope e.kind (e.w i) * (1 - √(T / e.Tc i))) ^ 2 := by
  unfold alpha slope
  generalize e.kind = k at h ⊢
  rcases k with _ | g | _
  · exact absurd rfl h
  · cases g <;> rfl
  · rfl

theorem slope_mono (k : Kind) (h : k ≠ .RK) {w w' : ℝ} (h0 : 0 ≤ w) (hw : w < w') (h2 : w' ≤ 2) : slope k w < slope k w' := by
  have hs : w + w' < 4 := by linarith
  have key : ∀ p q r : ℝ, 0 ≤ r → 4 * r ≤ q → 0 < q → p + q * w - r * w ^ 2 < p + q * w' - r * w' ^ 2 := by
    intro p q r hr hq hq0
    have : 0 < (w' - w) * (q - r * (w + w')) := by
      refine mul_pos (by linarith) ?_
      rcases hr.eq_or_lt with rfl | hr'
      · simpa using hq0
      · have := mul_lt_mul_of_pos_left hs hr'; linarith
    nlinarith
  rcases k with _ | g | _
  · exact absurd rfl h
  · cases g
    · exact key _ _ _ (by norm_num) (by norm_num) (by norm_num)
    · exact key _ _ _ (by norm_num) (by norm_num) (by norm_num)
  · exact key _ _ _ (by norm_num) (by norm_num) (by norm_num)

theorem slope_pos (k : Kind) (h : k ≠ .RK) {w : ℝ} (h0 : 0 ≤ w) (h2 : w ≤ 2) : 0 < slope k w := by
  have hz : 0 < slope k 0 := by
    rcases k with _ | g | _
    · exact absurd rfl h
    · cases g <;> norm_num [slope]
    · norm_num [slope]
  rcases h0.eq_or_lt with rfl | h'
  · exact hz
  · exact hz.trans (slope_mono k h le_rfl h' h2)

/-- **C112.** Below the critical temperature, attraction grows with the acentric factor (Soave-Redlich-Kwong with either set of constants, Peng-Robinson). -/
theorem C112_alpha_acentric (k : Kind) (hk : k ≠ .RK) (Tc Pc w w' : Fin N → ℝ) (K) (i : Fin N) (T : ℝ) (hT : 0 < T) (hTc : T < Tc i) (h0 : 0 ≤ w i) (hw : w i < w' i)
    (h2 : w' i ≤ 2) : alpha ⟨k, Tc, Pc, w, K⟩ T i < alpha ⟨k, Tc, Pc, w', K⟩ T i := by
  rw [alpha_soave _ hk, alpha_soave _ hk]
  have hs : √(T / Tc i) < 1 := by
    rw [Real.sqrt_lt' one_pos, one_pow]; exact (div_lt_one (hT.trans hTc)).2 hTc
  have h1 := slope_mono k hk h0 hw h2
  have p := slope_pos k hk h0 (hw.le.trans h2)
  simp only
  have hd : 0 < 1 - √(T / Tc i) := by linarith
  exact pow_lt_pow_left₀ (by have := mul_lt_mul_of_pos_right h1 hd; linarith) (by have := mul_pos p hd; linarith) (by norm_num)

/-- **C112.** Attraction falls with temperature: Redlich-Kwong everywhere, the others up to `Tc (1 + 1/m)²`, where it has fallen to zero. -/
theorem C112_alpha_falls (e : Cubic N) (i : Fin N) (hTc : 0 < e.Tc i) (h0 : 0 ≤ e.w i) (h2 : e.w i ≤ 2) :
    (e.kind = .RK → StrictAntiOn (fun T => alpha e T i) (Set.Ioi 0)) ∧
    (e.kind ≠ .RK → StrictAntiOn (fun T => alpha e T i) (Set.Icc 0 (e.Tc i * (1 + 1 / slope e.kind (e.w i)) ^ 2)) ∧
      alpha e (e.Tc i * (1 + 1 / slope e.kind (e.w i)) ^ 2) i = 0) := by
  constructor
  · intro hk T hT T' hT' h
    simp only [alpha, hk]
    have hT0 : 0 < T := hT
    exact Real.sqrt_lt_sqrt (div_nonneg hTc.le (hT0.trans h).le) (div_lt_div_of_pos_left hTc hT0 h)
  · intro hk
    have hm := slope_pos e.kind hk h0 h2
    set m := slope e.kind (e.w i) with hmdef
    have hlim : √(e.Tc i * (1 + 1 / m) ^ 2 / e.Tc i) = 1 + 1 / m := by
      rw [mul_comm, mul_div_assoc, div_self hTc.ne', mul_one, Real.sqrt_sq (by positivity)]
    have hz : 1 + m * (1 - (1 + 1 / m)) = 0 := by field_simp; ring
    refine ⟨fun T hT T' hT' h => ?_, ?_⟩
    · simp only [alpha_soave e hk, ← hmdef]
      have h1 : √(T / e.Tc i) < √(T' / e.Tc i) := Real.sqrt_lt_sqrt (div_nonneg hT.1 hTc.le) (div_lt_div_of_pos_right h hTc)
      have h3 : √(T' / e.Tc i) ≤ 1 + 1 / m := by rw [← hlim]; exact Real.sqrt_le_sqrt (div_le_div_of_nonneg_right hT'.2 hTc.le)
      have h4 := mul_lt_mul_of_pos_left h1 hm
      have h5 := mul_le_mul_of_nonneg_left h3 hm.le
      exact pow_lt_pow_left₀ (by linarith) (by linarith) (by norm_num)
    · rw [alpha_soave e hk, ← hmdef, hlim, hz]; norm_num

/-- **C112** (finding). The documented functions are used without limit: for Soave-Redlich-Kwong and Peng-Robinson attraction grows again at high temperature, for every fluid. -/
theorem C112_alpha_rises (e : Cubic N) (i : Fin N) (hk : e.kind ≠ .RK) (hTc : 0 < e.Tc i) (h0 : 0 ≤ e.w i) (h2 : e.w i ≤ 2) :
    StrictMonoOn (fun T => alpha e T i) (Set.Ici (e.Tc i * (1 + 1 / slope e.kind (e.w i)) ^ 2)) := by
  have hm := slope_pos e.kind hk h0 h2
  set m := slope e.kind (e.w i) with hmdef
  have hlim : √(e.Tc i * (1 + 1 / m) ^ 2 / e.Tc i) = 1 + 1 / m := by
    rw [mul_comm, mul_div_assoc, div_self hTc.ne', mul_one, Real.sqrt_sq (by positivity)]
  have hz : 1 + m * (1 - (1 + 1 / m)) = 0 := by field_simp; ring
  intro T hT T' hT' h
  simp only [alpha_soave e hk, ← hmdef]
  have hT0 : 0 ≤ T := le_trans (by positivity) hT
  have h1 : √(T / e.Tc i) < √(T' / e.Tc i) := Real.sqrt_lt_sqrt (div_nonneg hT0 hTc.le) (div_lt_div_of_pos_right h hTc)
  have h3 : 1 + 1 / m ≤ √(T / e.Tc i) := by rw [← hlim]; exact Real.sqrt_le_sqrt (div_le_div_of_nonneg_right hT hTc.le)
  have h4 := mul_lt_mul_of_pos_left h1 hm
  have h5 := mul_le_mul_of_nonneg_left h3 hm.le
  have := pow_lt_pow_left₀ (show -(1 + m * (1 - √(T / e.Tc i))) < -(1 + m * (1 - √(T' / e.Tc i))) by linarith) (by linarith) (two_ne_zero)
  rwa [neg_sq, neg_sq] at this

/-- Methane, Peng-Robinson. -/
example : let e : Cubic 1 := ⟨.PR, fun _ => 190.6, fun _ => 4.6e6, fun _ => 0.011, none⟩; e.kind ≠ .RK ∧ 0 < e.Tc 0 ∧ 0 ≤ e.w 0 ∧ e.w 0 ≤ 2 := by
  refine ⟨by simp, ?_, ?_, ?_⟩ <;> norm_num

end Attraction

end Verif.Eos
