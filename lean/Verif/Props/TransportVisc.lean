import Verif.Lemmas.TransportVisc

/-! # C92: gas viscosities and thermal conductivities -/

namespace Verif.Transport

open Finset Real Verif.Vaporization

variable {N : ℕ}

/-! ## Lucas viscosity -/

/-- The reduced dipole moment of the Lucas method (dm in debye, Pc in Pa, Tc in K). -/
noncomputable def reducedDipole (Tc Pc dm : ℝ) : ℝ := 52.46 * dm ^ 2 * (Pc / 1e5) / Tc ^ 2

/-- C92. `MUV_Lucas` returns a real number exactly for nonpolar substances and for polar ones with `Zc ≤ 0.292`. -/
theorem C92_lucas_defined (T P M Tc Pc Zc dm : ℝ) :
    (∃ mu, muvLucas T P M Tc Pc Zc dm = some mu) ↔ reducedDipole Tc Pc dm ≤ 0.022 ∨ Zc ≤ 0.292 := by
  unfold muvLucas lucasFP0 fpow
  dsimp only
  rw [← reducedDipole]
  by_cases h1 : reducedDipole Tc Pc dm ≤ 0.022
  · simp only [if_pos h1, h1, true_or, iff_true]
    exact ⟨_, rfl⟩
  · simp only [if_neg h1, h1, false_or]
    by_cases h2 : 0.292 - Zc < 0
    · simp only [if_pos h2]
      constructor
      · rintro ⟨_, h⟩; cases h
      · intro h; linarith
    · simp only [if_neg h2]
      exact ⟨fun _ => by linarith, fun _ => ⟨_, rfl⟩⟩

/-- C92. `MUV_Lucas` is positive above the critical temperature at any pressure, and below it up to the critical pressure. -/
theorem C92_lucas_pos {T P M Tc Pc Zc dm mu : ℝ} (hT : 0 < T) (hP : 0 ≤ P) (hM : 0 < M) (hTc : 0 < Tc) (hPc : 0 < Pc) (h : Tc < T ∨ P < Pc)
    (e : muvLucas T P M Tc Pc Zc dm = some mu) : 0 < mu := by
  unfold muvLucas at e
  dsimp only at e
  cases hf : lucasFP0 (T / Tc) Tc Pc Zc dm with
  | none => rw [hf] at e; cases e
  | some f =>
    rw [hf] at e
    injection e with e
    rw [← e]
    have h1 := fp0_some hf
    have hTr := div_pos hT hTc
    have hPr := div_nonneg hP hPc.le
    have hz := lucasZ_pos hTr
    have hZ1 : 0 < lucasZ (T / Tc) * f := mul_pos hz (by linarith)
    unfold lucasMu
    dsimp only
    have key : ∀ Z2 : ℝ, 0 < Z2 → 0 < Z2 * ((1 + (f - 1) / (Z2 / (lucasZ (T / Tc) * f)) ^ 3) / f) /
        (0.176e7 * (Tc / ((M * 1e3) ^ 3 * (Pc / 1e5) ^ 4)) ^ (1 / 6 : ℝ)) := by
      intro Z2 hZ
      have : 0 ≤ (f - 1) / (Z2 / (lucasZ (T / Tc) * f)) ^ 3 := div_nonneg (by linarith) (by positivity)
      positivity
    refine key _ ?_
    split_ifs with hc
    · have a := rpow_nonneg hPr (3.262 + 14.98 * (P / Pc) ^ (5.508 : ℝ))
      have b := mul_nonneg (rpow_nonneg hPr (1.390 + 5.746 * (P / Pc))) (sub_nonneg.2 hc.1)
      generalize (P / Pc) ^ (3.262 + 14.98 * (P / Pc) ^ (5.508 : ℝ)) = u at *
      generalize (P / Pc) ^ (1.390 + 5.746 * (P / Pc)) = v at *
      generalize T / Tc = r at *
      norm_num at *
      nlinarith
    · refine mul_pos hZ1 (lt_of_lt_of_le one_pos (lucasHigh_ge ?_ hPr))
      rcases h with h | h
      · exact (one_lt_div hTc).2 h
      · by_contra hn
        exact hc ⟨not_lt.1 hn, (div_lt_one hPc).2 h⟩

/-- C92. For a nonpolar gas above its critical temperature, `MUV_Lucas` at any pressure is at least its value at zero pressure. -/
theorem C92_lucas_dilute {T P M Tc Pc Zc dm : ℝ} (hP : 0 ≤ P) (hM : 0 < M) (hTc : 0 < Tc) (hPc : 0 < Pc) (h : Tc < T)
    (hd : reducedDipole Tc Pc dm ≤ 0.022) :
    ∃ mu0 mu, muvLucas T 0 M Tc Pc Zc dm = some mu0 ∧ muvLucas T P M Tc Pc Zc dm = some mu ∧ 0 < mu0 ∧ mu0 ≤ mu := by
  have hTr : 1 < T / Tc := (one_lt_div hTc).2 h
  have hf : lucasFP0 (T / Tc) Tc Pc Zc dm = some (0 + 1) := if_pos hd
  have e : ∀ Q, muvLucas T Q M Tc Pc Zc dm = some (lucasZ (T / Tc) * lucasHigh (T / Tc) (Q / Pc) /
      (0.176e7 * (Tc / ((M * 1e3) ^ 3 * (Pc / 1e5) ^ 4)) ^ (1 / 6 : ℝ))) := by
    intro Q
    unfold muvLucas
    dsimp only
    rw [hf]
    show some _ = some _
    unfold lucasMu
    dsimp only
    rw [if_neg (fun hc => absurd hc.1 (not_le.2 hTr))]
    norm_num
  have hx : 0 < (0.176e7 : ℝ) * (Tc / ((M * 1e3) ^ 3 * (Pc / 1e5) ^ 4)) ^ (1 / 6 : ℝ) := by positivity
  have hz := lucasZ_pos (one_pos.trans hTr)
  refine ⟨_, _, e 0, e P, ?_, ?_⟩
  · rw [zero_div, lucasHigh_zero _ (one_pos.trans hTr)]
    positivity
  · refine div_le_div_of_nonneg_right (mul_le_mul_of_nonneg_left ?_ hz.le) hx.le
    rw [zero_div, lucasHigh_zero _ (one_pos.trans hTr)]
    exact lucasHigh_ge hTr (div_nonneg hP hPc.le)

/-- Nitrogen at 300 K and 100 bar. -/
example : ∃ mu0 mu, muvLucas 300 0 0.028 126.2 34e5 0.29 0 = some mu0 ∧ muvLucas 300 1e7 0.028 126.2 34e5 0.29 0 = some mu ∧ 0 < mu0 ∧ mu0 ≤ mu :=
  C92_lucas_dilute (by norm_num) (by norm_num) (by norm_num) (by norm_num) (by norm_num) (by norm_num [reducedDipole])

/-- C92. A mixture of copies of one substance has the viscosity of that substance, and a mixture containing only component `k` has the viscosity of `k`
provided the correction factors of the absent components are real. -/
theorem C92_lucas_mixture {R T P : ℝ} (hR : 0 < R) :
    (∀ (y : Fin N → ℝ) (M Tc Pc Zc dm : ℝ), ∑ i, y i = 1 → 0 < Tc → 0 < Pc → 0 < Zc →
      muvmxLucas R T P y (fun _ => M) (fun _ => Tc) (fun _ => Pc) (fun _ => Zc) (fun _ => dm) = muvLucas T P M Tc Pc Zc dm) ∧
    ∀ (k : Fin N) (M Tc Pc Zc dm : Fin N → ℝ), 0 < Tc k → 0 < Pc k → 0 < Zc k →
      (∀ i, reducedDipole (Tc i) (Pc i) (dm i) ≤ 0.022 ∨ Zc i ≤ 0.292) →
      muvmxLucas R T P (Pi.single k 1) M Tc Pc Zc dm = muvLucas T P (M k) (Tc k) (Pc k) (Zc k) (dm k) := by
  constructor
  · intro y M Tc Pc Zc dm hy hTc hPc hZc
    unfold muvmxLucas muvLucas
    simp only [← sum_mul, hy, one_mul]
    have e : R * Tc * Zc / (R * Tc * Zc / Pc) = Pc := by field_simp
    rw [e]
    cases hf : lucasFP0 (T / Tc) Tc Pc Zc dm with
    | none =>
      have hN : ∃ i : Fin N, True := by
        by_contra h
        have : (univ : Finset (Fin N)) = ∅ := by ext i; exact absurd ⟨i, trivial⟩ h
        rw [this, sum_empty] at hy; norm_num at hy
      obtain ⟨i, -⟩ := hN
      have : odot y (fun _ : Fin N => (none : Option ℝ)) = none := if_neg (fun h => by simpa using h i)
      rw [this]
    | some f =>
      have : odot y (fun _ : Fin N => some f) = some f := by
        unfold odot
        rw [if_pos (fun _ => Option.isSome_some)]
        simp only [Option.getD_some, ← sum_mul, hy, one_mul]
      rw [this]
  · intro k M Tc Pc Zc dm hTc hPc hZc hd
    have hs : ∀ f : Fin N → ℝ, ∑ i, (Pi.single k (1 : ℝ) : Fin N → ℝ) i * f i = f k := fun f => by
      rw [sum_eq_single k (fun i _ hi => by rw [Pi.single_eq_of_ne hi, zero_mul]) (fun h => absurd (mem_univ k) h), Pi.single_eq_same, one_mul]
    unfold muvmxLucas muvLucas
    simp only [hs]
    have e : R * Tc k * Zc k / (R * Tc k * Zc k / Pc k) = Pc k := by field_simp
    rw [e]
    have hall : ∀ i, ∃ f, lucasFP0 (T / Tc i) (Tc i) (Pc i) (Zc i) (dm i) = some f := fun i => by
      obtain ⟨mu, hm⟩ := (C92_lucas_defined T P 1 (Tc i) (Pc i) (Zc i) (dm i)).2 (hd i)
      unfold muvLucas at hm
      dsimp only at hm
      cases hf : lucasFP0 (T / Tc i) (Tc i) (Pc i) (Zc i) (dm i) with
      | none => rw [hf] at hm; cases hm
      | some f => exact ⟨f, rfl⟩
    have : odot (Pi.single k 1) (fun i => lucasFP0 (T / Tc i) (Tc i) (Pc i) (Zc i) (dm i)) = lucasFP0 (T / Tc k) (Tc k) (Pc k) (Zc k) (dm k) := by
      obtain ⟨f, hf⟩ := hall k
      unfold odot
      rw [if_pos (fun i => by obtain ⟨g, hg⟩ := hall i; beta_reduce; rw [hg]; rfl), hs]; beta_reduce; rw [hf]; rfl
    rw [this]

/-- C92 fails without that proviso: adding a component with mole fraction zero to pure nitrogen makes `MUVMX_Lucas` return no real number. -/
theorem C92_lucas_absent_false : (∃ mu, muvLucas 300 1e5 0.028 126.2 34e5 0.29 0 = some mu) ∧
    muvmxLucas 8.314 300 1e5 ![1, 0] ![0.028, 0.02] ![126.2, 461] ![34e5, 65e5] ![0.29, 0.3] ![0, 1.8] = none := by
  constructor
  · exact (C92_lucas_defined _ _ _ _ _ _ _).2 (Or.inl (by norm_num [reducedDipole]))
  · unfold muvmxLucas
    have : lucasFP0 (300 / 461) 461 65e5 0.3 1.8 = none := by
      unfold lucasFP0 fpow
      dsimp only
      rw [if_neg (by norm_num), if_pos (by norm_num)]; rfl
    have h2 : odot ![1, 0] (fun i : Fin 2 => lucasFP0 (300 / (![126.2, 461] : Fin 2 → ℝ) i) ((![126.2, 461] : Fin 2 → ℝ) i)
        ((![34e5, 65e5] : Fin 2 → ℝ) i) ((![0.29, 0.3] : Fin 2 → ℝ) i) ((![0, 1.8] : Fin 2 → ℝ) i)) = none := by
      refine if_neg fun h => ?_
      have := h 1
      simp [‹lucasFP0 _ _ _ _ _ = none›] at this
    dsimp only
    rw [h2]; rfl

/-! ## Pressure corrections -/

/-- C92. The Jossi correction is positive and strictly increases with the reduced density. -/
theorem C92_jossi {r r' M Tc Pc : ℝ} (hM : 0 < M) (hT : 0 < Tc) (hP : 0 < Pc) (h0 : 0 ≤ r) (h : r < r') :
    0 < muvpcJossi r M Tc Pc ∧ muvpcJossi r M Tc Pc < muvpcJossi r' M Tc Pc := by
  have hx : 0 < (6.872969367e8 : ℝ) * (Tc / (M ^ 3 * Pc ^ 4)) ^ (1 / 6 : ℝ) := by positivity
  -- the slope polynomial is positive
  have hm : ∀ s t : ℝ, 0 ≤ s → s < t → 1.0230 + 0.23364 * s + 0.58533 * s ^ 2 - 0.40758 * s ^ 3 + 0.093324 * s ^ 4 <
      1.0230 + 0.23364 * t + 0.58533 * t ^ 2 - 0.40758 * t ^ 3 + 0.093324 * t ^ 4 := by
    intro s t hs hst
    have q : 0 < 0.23364 + 0.58533 * (s + t) - 0.40758 * (s ^ 2 + s * t + t ^ 2) + 0.093324 * ((s + t) * (s ^ 2 + t ^ 2)) := by
      have hp : 0 ≤ s + t := by linarith
      have hm0 : 0 ≤ s * t := mul_nonneg hs (by linarith)
      have hm4 : s * t ≤ (s + t) ^ 2 / 4 := by nlinarith [sq_nonneg (s - t)]
      have e : 0.23364 + 0.58533 * (s + t) - 0.40758 * (s ^ 2 + s * t + t ^ 2) + 0.093324 * ((s + t) * (s ^ 2 + t ^ 2)) =
          0.23364 + 0.58533 * (s + t) - 0.40758 * (s + t) ^ 2 + 0.093324 * (s + t) ^ 3 + s * t * (0.40758 - 0.186648 * (s + t)) := by ring
      rw [e]
      generalize s * t = m at *
      generalize s + t = p at *
      rcases le_total (0.186648 * p) 0.40758 with hc | hc
      · have a := mul_nonneg hm0 (sub_nonneg.2 hc)
        have b := mul_nonneg hp (sq_nonneg (p - 2.184))
        norm_num at *
        nlinarith
      · have a := mul_le_mul_of_nonpos_right hm4 (sub_nonpos.2 hc)
        have b := mul_nonneg hp (sq_nonneg (p - 3.2755))
        norm_num at *
        nlinarith
    have := mul_pos (sub_pos.2 hst) q
    norm_num at *
    nlinarith
  have h1 : ∀ s : ℝ, 0 ≤ s → 1.0230 ≤ 1.0230 + 0.23364 * s + 0.58533 * s ^ 2 - 0.40758 * s ^ 3 + 0.093324 * s ^ 4 := by
    intro s hs
    rcases hs.eq_or_lt with e | e
    · rw [← e]; norm_num
    · have := hm 0 s le_rfl e
      norm_num at *
      linarith
  have a := h1 r h0
  have b := hm r r' h0 h
  unfold muvpcJossi
  dsimp only
  generalize 1.0230 + 0.23364 * r + 0.58533 * r ^ 2 - 0.40758 * r ^ 3 + 0.093324 * r ^ 4 = u at *
  generalize 1.0230 + 0.23364 * r' + 0.58533 * r' ^ 2 - 0.40758 * r' ^ 3 + 0.093324 * r' ^ 4 = v at *
  have hu : (1 : ℝ) < u := by norm_num at a; linarith
  constructor
  · exact div_pos (sub_pos.2 (one_lt_pow₀ hu (by norm_num))) hx
  · exact div_lt_div_of_pos_right (sub_lt_sub_right (pow_lt_pow_left₀ b (by linarith) (by norm_num)) _) hx

example : 0 < muvpcJossi 1 0.03 300 5e6 ∧ muvpcJossi 1 0.03 300 5e6 < muvpcJossi 2 0.03 300 5e6 :=
  C92_jossi (by norm_num) (by norm_num) (by norm_num) (by norm_num) (by norm_num)

/-- C92. A correction for density should vanish at zero density, but the Jossi correction does not: its constant term is 1.023 instead of 1. -/
theorem C92_jossi_rest_false {M Tc Pc : ℝ} (hM : 0 < M) (hT : 0 < Tc) (hP : 0 < Pc) : 0 < muvpcJossi 0 M Tc Pc :=
  (C92_jossi hM hT hP le_rfl one_pos).1

/-- C92. The Dean-Stiel correction is positive and strictly decreases with the molar volume. -/
theorem C92_dean_stiel {R v v' : ℝ} {y M Tc Pc Zc : Fin N → ℝ} (hR : 0 < R) (hy : ∀ i, 0 ≤ y i) {k : Fin N} (hk : 0 < y k) (hM : ∀ i, 0 < M i)
    (hT : ∀ i, 0 < Tc i) (hP : ∀ i, 0 < Pc i) (hZ : ∀ i, 0 < Zc i) (hv : 0 < v) (h : v < v') :
    0 < muvmxpcDeanStiel R v' y M Tc Pc Zc ∧ muvmxpcDeanStiel R v' y M Tc Pc Zc < muvmxpcDeanStiel R v y M Tc Pc Zc := by
  have pos : ∀ f : Fin N → ℝ, (∀ i, 0 < f i) → 0 < ∑ i, y i * f i := fun f hf =>
    sum_pos' (fun i _ => mul_nonneg (hy i) (hf i).le) ⟨k, mem_univ _, mul_pos hk (hf k)⟩
  have pM := pos M hM
  have pT := pos Tc hT
  have pZ := pos Zc hZ
  have pv := pos (fun i => Zc i * R * Tc i / Pc i) fun i => div_pos (mul_pos (mul_pos (hZ i) hR) (hT i)) (hP i)
  rw [deanStiel_eq, deanStiel_eq]
  generalize ∑ i, y i * (Zc i * R * Tc i / Pc i) = V at *
  generalize ∑ i, y i * M i = m at *
  generalize ∑ i, y i * Tc i = t at *
  generalize ∑ i, y i * Zc i = z at *
  have hx : 0 < 6.87e4 * t ^ (1 / 6 : ℝ) / (√m * (R * z * t / V) ^ (2 / 3 : ℝ)) := by
    have := sqrt_pos.2 pM
    positivity
  have hv' := hv.trans h
  have hr : V / v' < V / v := div_lt_div_of_pos_left pv hv h
  have hr0 : 0 < V / v' := div_pos pv hv'
  generalize V / v' = r at *
  generalize V / v = s at *
  have e1 : exp (1.439 * r) < exp (1.439 * s) := exp_lt_exp.2 (mul_lt_mul_of_pos_left hr (by norm_num))
  have e2 : exp (-1.111 * s ^ (1.858 : ℝ)) < exp (-1.111 * r ^ (1.858 : ℝ)) := exp_lt_exp.2
    (mul_lt_mul_of_neg_left (rpow_lt_rpow hr0.le hr (by norm_num)) (by norm_num))
  have e3 : 1 < exp (1.439 * r) := one_lt_exp_iff.2 (by positivity)
  have e4 : exp (-1.111 * r ^ (1.858 : ℝ)) < 1 := exp_lt_one_iff.2 (mul_neg_of_neg_of_pos (by norm_num) (by positivity))
  refine ⟨div_pos (mul_pos (by norm_num) (by linarith)) hx, div_lt_div_of_pos_right (mul_lt_mul_of_pos_left (by linarith) (by norm_num)) hx⟩

example : 0 < muvmxpcDeanStiel 8.314 2e-4 ![0.4, 0.6] ![0.016, 0.044] ![190, 370] ![46e5, 42e5] ![0.288, 0.281] ∧
    muvmxpcDeanStiel 8.314 2e-4 ![0.4, 0.6] ![0.016, 0.044] ![190, 370] ![46e5, 42e5] ![0.288, 0.281] <
    muvmxpcDeanStiel 8.314 1e-4 ![0.4, 0.6] ![0.016, 0.044] ![190, 370] ![46e5, 42e5] ![0.288, 0.281] :=
  C92_dean_stiel (by norm_num) (by intro i; fin_cases i <;> norm_num) (k := 0) (by norm_num) (by intro i; fin_cases i <;> norm_num)
    (by intro i; fin_cases i <;> norm_num) (by intro i; fin_cases i <;> norm_num) (by intro i; fin_cases i <;> norm_num) (by norm_num) (by norm_num)

end Verif.Transport
