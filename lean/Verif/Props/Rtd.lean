import Verif.Lemmas.RtdAux

/-!
# C46, C79: residence time distributions
-/

namespace Verif.Rtd

open MeasureTheory Set Filter Real Verif.Dist

/-! ### C46 -/

/-- **C46.** Tanks in series, any number of tanks. -/
theorem C46_tanks (τ : ℝ) (hτ : 0 < τ) (N : ℕ) (hN : 1 ≤ N) : IsRtd (fun t : ℝ => ETanks t τ N) (fun t : ℝ => FTanks t τ N) τ := by
  obtain ⟨n, rfl⟩ := Nat.exists_eq_add_of_le' hN
  have hN0 : (0 : ℝ) < (n + 1 : ℕ) := by positivity
  have lin : ∀ t : ℝ, HasDerivAt (fun t : ℝ => ((n + 1 : ℕ) : ℝ) * (t / τ)) ((n + 1 : ℕ) / τ) t := fun t => by
    refine (((hasDerivAt_id t).div_const τ).const_mul ((n + 1 : ℕ) : ℝ)).congr_deriv ?_
    ring
  have top : Tendsto (fun t : ℝ => ((n + 1 : ℕ) : ℝ) * (t / τ)) atTop atTop :=
    (tendsto_id.atTop_div_const hτ).const_mul_atTop hN0
  simp_rw [ETanks_eq, FTanks_eq]
  have dF : ∀ k : ℕ, ∀ t : ℝ, HasDerivAt (fun t : ℝ => 1 - exp (-((n + 1 : ℕ) * (t / τ))) * S (k + 1) ((n + 1 : ℕ) * (t / τ)))
      (exp (-((n + 1 : ℕ) * (t / τ))) * (((n + 1 : ℕ) * (t / τ)) ^ k / Gamma ((k : ℝ) + 1)) * ((n + 1 : ℕ) / τ)) t :=
    fun k t => by
      have := (S_hasDerivAt k _).comp t (lin t)
      exact this
  refine isRtd_of (M := fun t => τ * (1 - exp (-((n + 1 : ℕ) * (t / τ))) * S (n + 1 + 1) ((n + 1 : ℕ) * (t / τ)))) ?_ ?_ ?_ ?_ ?_ ?_ ?_ ?_ ?_
  · simp only [zero_div, mul_zero, S_zero, neg_zero, exp_zero]; ring
  · exact (dF n 0).continuousAt.continuousWithinAt
  · exact fun t _ => dF n t
  · intro t ht
    have := Gamma_pos_of_pos (show (0 : ℝ) < n + 1 by positivity)
    positivity
  · exact (S_tendsto (n + 1)).comp top
  · simp only [zero_div, mul_zero, S_zero, neg_zero, exp_zero]; ring
  · exact ((dF (n + 1) 0).const_mul τ).continuousAt.continuousWithinAt
  · intro t ht
    refine ((dF (n + 1) t).const_mul τ).congr_deriv ?_
    rw [Nat.cast_add_one, Gamma_add_one (by positivity : ((n : ℝ) + 1) ≠ 0)]
    have := (Gamma_pos_of_pos (show (0 : ℝ) < n + 1 by positivity)).ne'
    rw [pow_succ]
    field_simp
  · simpa using ((S_tendsto (n + 1 + 1)).comp top).const_mul τ

/-- **C46.** One tank in series is the CSTR, also at infinite time. -/
theorem C46_one_tank (t : WithTop ℝ) (τ : ℝ) : ETanks t τ 1 = ECstr t τ ∧ FTanks t τ 1 = FCstr t τ := by
  cases t with
  | top => exact ⟨by simp [ETanks, ECstr], by simp [FTanks, FCstr]⟩
  | coe t =>
    constructor
    · simp only [ETanks, ECstr]
      simp [neg_div]
      ring
    · simp only [FTanks, FCstr]
      split_ifs with h
      · rw [neg_div, h]; simp
      · simp [neg_div]

/-- **C46.** CSTR. -/
theorem C46_cstr (τ : ℝ) (hτ : 0 < τ) : IsRtd (fun t : ℝ => ECstr t τ) (fun t : ℝ => FCstr t τ) τ := by
  have := C46_tanks τ hτ 1 le_rfl
  simp_rw [fun t : ℝ => (C46_one_tank t τ).1, fun t : ℝ => (C46_one_tank t τ).2] at this
  exact this

/-- **C46.** For CSTR and tanks `E` is the derivative of `F` at every positive time. -/
theorem C46_derivative (τ : ℝ) (_hτ : 0 < τ) (N : ℕ) (hN : 1 ≤ N) (t : ℝ) :
    HasDerivAt (fun t : ℝ => FTanks t τ N) (ETanks t τ N) t := by
  obtain ⟨n, rfl⟩ := Nat.exists_eq_add_of_le' hN
  simp_rw [ETanks_eq, FTanks_eq]
  have lin : HasDerivAt (fun t : ℝ => ((n + 1 : ℕ) : ℝ) * (t / τ)) ((n + 1 : ℕ) / τ) t := by
    refine (((hasDerivAt_id t).div_const τ).const_mul ((n + 1 : ℕ) : ℝ)).congr_deriv ?_
    ring
  have := (S_hasDerivAt n _).comp t lin
  exact this

/-- **C46.** `E` is the derivative of `F` except at half the average, where it is the right derivative. -/
theorem C46_laminar_derivative (τ : ℝ) (hτ : 0 < τ) (t : ℝ) :
    (t ≠ τ / 2 → HasDerivAt (fun t : ℝ => FLaminar t τ) (ELaminar t τ) t) ∧
      HasDerivWithinAt (fun t : ℝ => FLaminar t τ) (ELaminar t τ) (Ici t) t := by
  have left : ∀ t < τ / 2, HasDerivAt (fun t : ℝ => FLaminar t τ) (ELaminar t τ) t := by
    intro t ht
    rw [laminar_E τ hτ, if_pos ht]
    refine (hasDerivAt_const t (0 : ℝ)).congr_of_eventuallyEq ?_
    filter_upwards [Iio_mem_nhds ht] with x hx
    rw [laminar_F τ hτ, if_pos (le_of_lt hx)]
  have right : ∀ t, τ / 2 < t → HasDerivAt (fun t : ℝ => FLaminar t τ) (ELaminar t τ) t := by
    intro t ht
    rw [laminar_E τ hτ, if_neg ht.le.not_gt]
    refine (laminar_deriv τ t (by have : 0 < τ / 2 := by positivity
                                  linarith)).congr_of_eventuallyEq ?_
    filter_upwards [Ioi_mem_nhds ht] with x hx
    rw [laminar_F' τ hτ x (le_of_lt hx)]
  refine ⟨fun h => (lt_or_gt_of_ne h).elim (left t) (right t), ?_⟩
  rcases lt_trichotomy t (τ / 2) with h | h | h
  · exact (left t h).hasDerivWithinAt
  · have h0 : t ≠ 0 := by rw [h]; positivity
    rw [laminar_E τ hτ, if_neg h.ge.not_gt]
    exact (laminar_deriv τ t h0).hasDerivWithinAt.congr (fun x hx => laminar_F' τ hτ x (h.symm.le.trans hx)) (laminar_F' τ hτ t h.ge)
  · exact (right t h).hasDerivWithinAt

/-- **C46.** Laminar flow in a tube. -/
theorem C46_laminar (τ : ℝ) (hτ : 0 < τ) : IsRtd (fun t : ℝ => ELaminar t τ) (fun t : ℝ => FLaminar t τ) τ := by
  have h2 : 0 < τ / 2 := by positivity
  have hE : ∀ t : ℝ, 0 ≤ t → 0 ≤ ELaminar t τ := fun t ht => by
    rw [laminar_E τ hτ]; split_ifs <;> positivity
  have h0 : FLaminar (0 : ℝ) τ = 0 := by rw [laminar_F τ hτ, if_pos h2.le]
  have hc : ContinuousOn (fun t : ℝ => FLaminar t τ) (Ici 0) := by
    have e : (fun t : ℝ => FLaminar t τ) = fun t : ℝ => 1 - τ ^ 2 / (4 * (max t (τ / 2)) ^ 2) := by
      funext t
      rcases le_total t (τ / 2) with h | h
      · rw [max_eq_right h, laminar_F τ hτ, if_pos h]; field_simp; norm_num
      · rw [max_eq_left h, laminar_F' τ hτ t h]
    rw [e]
    refine Continuous.continuousOn (continuous_const.sub (continuous_const.div (by fun_prop) fun x => ?_))
    have : 0 < max x (τ / 2) := lt_max_of_lt_right h2
    positivity
  obtain ⟨c1, c2⟩ := core h0 hc (fun t _ => (C46_laminar_derivative τ hτ t).2.mono Ioi_subset_Ici_self) fun t ht => hE t ht.le
  have lim : Tendsto (fun t : ℝ => 1 - τ ^ 2 / (4 * t ^ 2)) atTop (nhds 1) := by
    have : Tendsto (fun t : ℝ => τ ^ 2 / (4 * t ^ 2)) atTop (nhds 0) :=
      tendsto_const_nhds.div_atTop ((tendsto_pow_atTop two_ne_zero).const_mul_atTop four_pos)
    simpa using this.const_sub 1
  have zero : ∀ g : ℝ → ℝ, (∫ t in Ioi (0 : ℝ), g t * ELaminar t τ) = ∫ t in Ioi (τ / 2), g t * (τ ^ 2 / (2 * t ^ 3)) := by
    intro g
    rw [integral_Ici_eq_integral_Ioi.symm, setIntegral_eq_of_subset_of_forall_sdiff_eq_zero measurableSet_Ici (s := Ici (τ / 2)) (fun x hx => h2.le.trans hx),
      integral_Ici_eq_integral_Ioi]
    · refine setIntegral_congr_fun measurableSet_Ioi fun x hx => ?_
      simp only [laminar_E τ hτ, if_neg (le_of_lt (show τ / 2 < x from hx)).not_gt]
    · intro x hx
      have : x < τ / 2 := not_le.1 hx.2
      rw [laminar_E τ hτ, if_pos this, mul_zero]
  have md : ∀ x ∈ Ici (τ / 2), HasDerivAt (fun t => -(τ ^ 2 / (2 * t))) (x * (τ ^ 2 / (2 * x ^ 3))) x := by
    intro x hx
    have hx0 : x ≠ 0 := (h2.trans_le hx).ne'
    have h1 : HasDerivAt (fun t : ℝ => 2 * t) 2 x := by simpa using (hasDerivAt_id x).const_mul 2
    refine ((hasDerivAt_const x (τ ^ 2)).div h1 (by positivity)).neg.congr_deriv ?_
    field_simp
    ring
  have mpos : ∀ x ∈ Ioi (τ / 2), 0 ≤ x * (τ ^ 2 / (2 * x ^ 3)) := fun x hx => by
    have : 0 < x := h2.trans hx
    positivity
  have ml : Tendsto (fun t : ℝ => -(τ ^ 2 / (2 * t))) atTop (nhds 0) := by
    have : Tendsto (fun t : ℝ => τ ^ 2 / (2 * t)) atTop (nhds 0) := tendsto_const_nhds.div_atTop (tendsto_id.const_mul_atTop two_pos)
    simpa using this.neg
  refine ⟨h0, c2, ?_, hE, c1, ?_, ?_, ?_⟩
  · refine lim.congr' ?_
    filter_upwards [Ici_mem_atTop (τ / 2)] with t ht
    exact (laminar_F' τ hτ t ht).symm
  · have := zero fun _ => 1
    simp only [one_mul] at this
    rw [this, integral_Ioi_of_hasDerivAt_of_nonneg' (fun x hx => laminar_deriv τ x (h2.trans_le hx).ne') (fun x hx => ?_) lim]
    · field_simp; norm_num
    · have : 0 < x := h2.trans hx
      positivity
  · have hi := integrableOn_Ioi_deriv_of_nonneg' md mpos ml
    have hs : Ioi (0 : ℝ) = Ioc 0 (τ / 2) ∪ Ioi (τ / 2) := (Ioc_union_Ioi_eq_Ioi h2.le).symm
    rw [hs]
    refine IntegrableOn.union ?_ (hi.congr_fun (fun x hx => ?_) measurableSet_Ioi)
    · rw [integrableOn_Ioc_iff_integrableOn_Ioo]
      refine (integrableOn_zero (s := Ioo (0 : ℝ) (τ / 2))).congr_fun (fun x hx => ?_) measurableSet_Ioo
      simp only [laminar_E τ hτ, if_pos hx.2, mul_zero]
    · simp only [laminar_E τ hτ, if_neg (le_of_lt (show τ / 2 < x from hx)).not_gt]
  · rw [zero fun t => t, integral_Ioi_of_hasDerivAt_of_nonneg' md mpos ml]
    field_simp
    norm_num

/-- **C46.** The functions accept an infinite time and return the limits there. -/
theorem C46_infinite_time (τ : ℝ) (N : ℕ) : (ECstr ⊤ τ = 0 ∧ FCstr ⊤ τ = 1) ∧ (ETanks ⊤ τ N = 0 ∧ FTanks ⊤ τ N = 1) ∧
    (ELaminar ⊤ τ = 0 ∧ FLaminar ⊤ τ = 1) := by
  simp [ECstr, FCstr, ETanks, FTanks, ELaminar, FLaminar]

example : (0 : ℝ) < 2 ∧ 1 ≤ 5 := by norm_num

/-! ### C79 -/

/-- **C79.** The open-open dispersion model (`0 < Pe ≤ 100`) is a consistent residence time distribution; its average is `τ (1 + 2/Pe)`. -/
theorem C79_open_open (τ P : ℝ) (hτ : 0 < τ) (hP : 0 < P) (hP' : P ≤ 100) :
    IsRtd (fun t : ℝ => EDisp t τ P) (fun t : ℝ => FDisp t τ P) (τ * (1 + 2 / P)) := by
  have h : ¬ P > 1e2 := by norm_num; linarith
  have hE0 : EDisp (0 : ℝ) τ P = 0 := by
    show (if (0 : ℝ) / τ = 0 then (0 : ℝ) else _) = _
    rw [if_pos (zero_div τ)]
  have lin : ∀ t : ℝ, HasDerivAt (fun t : ℝ => t / τ) (1 / τ) t := fun t => (hasDerivAt_id t).div_const τ
  have top : Tendsto (fun t : ℝ => t / τ) atTop atTop := tendsto_id.atTop_div_const hτ
  have zero : Tendsto (fun t : ℝ => t / τ) (nhdsWithin 0 (Ioi 0)) (nhdsWithin 0 (Ioi 0)) := by
    refine tendsto_nhdsWithin_iff.2 ⟨?_, ?_⟩
    · have := (lin 0).continuousAt.tendsto
      rw [zero_div] at this
      exact this.mono_left nhdsWithin_le_nhds
    · filter_upwards [self_mem_nhdsWithin] with t ht
      exact div_pos ht hτ
  -- closed forms
  have build : ∀ (G g : ℝ → ℝ) (L T : ℝ), (∀ q, 0 < q → HasDerivAt G (g q) q) → Tendsto G (nhdsWithin 0 (Ioi 0)) (nhds L) →
      Tendsto G atTop (nhds T) → (ContinuousWithinAt (fun t : ℝ => if t ≤ 0 then 0 else G (t / τ) - L) (Ici 0) 0) ∧
      (∀ t : ℝ, 0 < t → HasDerivAt (fun t : ℝ => if t ≤ 0 then 0 else G (t / τ) - L) (g (t / τ) / τ) t) ∧
      Tendsto (fun t : ℝ => if t ≤ 0 then 0 else G (t / τ) - L) atTop (nhds (T - L)) := by
    intro G g L T hG hL hT
    refine ⟨?_, fun t ht => ?_, ?_⟩
    · rw [← Ioi_insert, continuousWithinAt_insert_self]
      show Tendsto _ _ (nhds (if (0 : ℝ) ≤ 0 then 0 else _))
      rw [if_pos le_rfl]
      have := (hL.comp zero).sub_const L
      rw [sub_self] at this
      refine this.congr' ?_
      filter_upwards [self_mem_nhdsWithin] with t ht
      rw [if_neg (not_le.2 ht)]
      rfl
    · have := ((hG (t / τ) (by positivity)).comp t (lin t)).sub_const L
      rw [mul_one_div] at this
      refine this.congr_of_eventuallyEq ?_
      filter_upwards [Ioi_mem_nhds ht] with x hx
      rw [if_neg (not_le.2 hx)]
      rfl
    · refine ((hT.comp top).sub_const L).congr' ?_
      filter_upwards [Ioi_mem_atTop 0] with x hx
      rw [if_neg (not_le.2 hx)]
      rfl
  obtain ⟨c1, c2, c3⟩ := build (Gp P) (fP P) _ _ (fun q hq => Gp_deriv hP hq) (G_zero hP).1 (G_top hP).1
  have dM : ∀ q, 0 < q → HasDerivAt (fun q => τ * (2 / P * Gp P q + Gm P q - 4 / P * Hp P q)) (τ * (q * fP P q)) q := by
    intro q hq
    refine (((((Gp_deriv hP hq).const_mul (2 / P)).add (Gm_deriv hP hq)).sub ((Hp_deriv hP hq).const_mul (4 / P))).const_mul τ).congr_deriv ?_
    field_simp
    ring
  obtain ⟨m1, m2, m3⟩ := build _ _ _ _ dM
    (((((G_zero hP).1.const_mul (2 / P)).add (G_zero hP).2).sub ((H_zero hP).const_mul (4 / P))).const_mul τ)
    (((((G_top hP).1.const_mul (2 / P)).add (G_top hP).2).sub ((H_top hP).const_mul (4 / P))).const_mul τ)
  have fpos : ∀ q, 0 < q → 0 ≤ fP P q := fun q hq => mul_nonneg (by positivity) (exp_pos _).le
  have hE : ∀ t : ℝ, 0 ≤ t → 0 ≤ EDisp t τ P := by
    intro t ht
    rcases ht.eq_or_lt with rfl | ht
    · rw [hE0]
    · rw [disp_E hτ hP hP' ht]
      have := fpos (t / τ) (by positivity)
      positivity
  have c3' := c3
  rw [show (1 + exp P) / 2 - (-1 + exp P) / 2 = 1 by ring] at c3'
  have r := isRtd_of (E := fun t : ℝ => EDisp t τ P) (F := fun t : ℝ => if t ≤ 0 then 0 else Gp P (t / τ) - (-1 + exp P) / 2)
    (M := fun t : ℝ => if t ≤ 0 then 0 else τ * (2 / P * Gp P (t / τ) + Gm P (t / τ) - 4 / P * Hp P (t / τ)) -
      τ * (2 / P * ((-1 + exp P) / 2) + (-1 - exp P) / 2 - 4 / P * 0)) (μ := τ * (1 + 2 / P)) (if_pos le_rfl) c1
    (fun t ht => by rw [disp_E hτ hP hP' ht]; exact c2 t ht) hE c3' (if_pos le_rfl) m1
    (fun t ht => by
      rw [disp_E hτ hP hP' ht]
      refine (m2 t ht).congr_deriv ?_
      field_simp) (by
      refine m3.trans (le_of_eq (congrArg nhds ?_))
      ring)
  have eF : ∀ t : ℝ, 0 ≤ t → FDisp t τ P = (if t ≤ 0 then 0 else Gp P (t / τ) - (-1 + exp P) / 2) := by
    intro t ht
    have e := r.cum t ht
    rw [e]
    show (if t / τ = 0 then (0 : ℝ) else if P > 1e2 then _ else ∫ x in (0 : ℝ)..t, EDisp x τ P) = _
    split_ifs with h1
    · have : t = 0 := by rcases div_eq_zero_iff.1 h1 with h | h
                         · exact h
                         · exact absurd h hτ.ne'
      rw [this, intervalIntegral.integral_same]
    · rfl
  refine ⟨(eF 0 le_rfl).trans r.zero, ?_, ?_, r.nonneg, ?_, r.mass, r.finite, r.mean⟩
  · intro a ha b hb hab
    show FDisp a τ P ≤ FDisp b τ P
    rw [eF a ha, eF b hb]
    exact r.mono ha hb hab
  · refine r.lim.congr' ?_
    filter_upwards [Ici_mem_atTop 0] with t ht
    exact (eF t ht).symm
  · exact fun t ht => (eF t ht).trans (r.cum t ht)

/-- **C79.** The parameter documented as the average residence time is not the average for `Pe ≤ 100`. -/
theorem C79_average_false (τ P : ℝ) (hτ : 0 < τ) (hP : 0 < P) (hP' : P ≤ 100) : τ < ∫ t in Ioi (0 : ℝ), t * EDisp t τ P := by
  rw [(C79_open_open τ P hτ hP hP').mean]
  have : 0 < τ * (2 / P) := by positivity
  linarith

/-- **C79.** For `Pe > 100`, `E` is the derivative of `F` at every positive time, `F` is nondecreasing and tends to one. Missing: `F` does not
start at zero, see `C79_start_false`. -/
theorem C79_small_deviation_partial (τ P : ℝ) (hτ : 0 < τ) (hP : 100 < P) :
    (∀ t : ℝ, 0 < t → HasDerivAt (fun t : ℝ => FDisp t τ P) (EDisp t τ P) t) ∧ MonotoneOn (fun t : ℝ => FDisp t τ P) (Ici 0) ∧
      Tendsto (fun t : ℝ => FDisp t τ P) atTop (nhds 1) := by
  have hP0 : 0 < P := by linarith
  have hs : 0 < √P := Real.sqrt_pos.2 hP0
  have lin : ∀ t : ℝ, HasDerivAt (fun t : ℝ => √P / 2 * (t / τ - 1)) (√P / (2 * τ)) t := fun t => by
    refine ((((hasDerivAt_id t).div_const τ).sub_const 1).const_mul (√P / 2)).congr_deriv ?_
    ring
  have top : Tendsto (fun t : ℝ => √P / 2 * (t / τ - 1)) atTop atTop := by
    have : Tendsto (fun t : ℝ => t / τ + -1) atTop atTop := (tendsto_id.atTop_div_const hτ).atTop_add tendsto_const_nhds
    exact this.const_mul_atTop (by positivity)
  refine ⟨fun t ht => ?_, ?_, ?_⟩
  · rw [(disp_large hτ hP ht).1]
    have d := (((erf_hasDerivAt _).comp t (lin t)).const_add 1).const_mul (0.5 : ℝ)
    refine (d.congr_of_eventuallyEq ?_).congr_deriv ?_
    · filter_upwards [Ioi_mem_nhds ht] with x hx
      exact (disp_large hτ hP hx).2
    · have e : -(√P / 2 * (t / τ - 1)) ^ 2 = -P / 4 * (1 - t / τ) ^ 2 := by
        rw [mul_pow, div_pow, Real.sq_sqrt hP0.le]; ring
      rw [e, Real.sqrt_div hP0.le]
      ring
  · intro a ha b hb hab
    have ha : 0 ≤ a := ha
    have n : ∀ x, -1 < erf x := fun x => by have := erf_lt_one (-x); rw [erf_neg] at this; linarith
    show FDisp a τ P ≤ FDisp b τ P
    rcases hab.eq_or_lt with rfl | hlt
    · exact le_rfl
    rw [(disp_large hτ hP (ha.trans_lt hlt)).2]
    rcases ha.eq_or_lt with rfl | ha
    · have : FDisp (0 : ℝ) τ P = 0 := if_pos (zero_div τ)
      rw [this]
      have := n (√P / 2 * (b / τ - 1))
      linarith
    · rw [(disp_large hτ hP ha).2]
      have : √P / 2 * (a / τ - 1) ≤ √P / 2 * (b / τ - 1) := by
        have : a / τ ≤ b / τ := div_le_div_of_nonneg_right hab hτ.le
        nlinarith
      have := erf_strict.monotone this
      linarith
  · have := ((erf_tendsto_atTop.comp top).const_add 1).const_mul (0.5 : ℝ)
    have e : (0.5 : ℝ) * (1 + 1) = 1 := by norm_num
    rw [e] at this
    refine this.congr' ?_
    filter_upwards [Ioi_mem_atTop 0] with x hx
    exact (disp_large hτ hP hx).2.symm

/-- **C79.** For `Pe > 100` the cumulative distribution jumps at time zero, and exceeds the accumulated `E` ever after. -/
theorem C79_start_false (τ P : ℝ) (hτ : 0 < τ) (hP : 100 < P) :
    FDisp (0 : ℝ) τ P = 0 ∧ ∃ jump > 0, ∀ t : ℝ, 0 < t → jump ≤ FDisp t τ P := by
  have hs : 0 < √P := Real.sqrt_pos.2 (by linarith)
  refine ⟨if_pos (zero_div τ), 0.5 * (1 + erf (√P / 2 * (0 - 1))), ?_, fun t ht => ?_⟩
  · have := erf_lt_one (-(√P / 2 * (0 - 1)))
    rw [erf_neg] at this
    linarith
  · rw [(disp_large hτ hP ht).2]
    have : √P / 2 * (0 - 1) ≤ √P / 2 * (t / τ - 1) := by
      have : 0 ≤ t / τ := by positivity
      nlinarith
    have := erf_strict.monotone this
    linarith

/-- **C79.** The tube Péclet number is positive, needs the Schmidt number exactly in laminar flow, where it is at most `√48`. -/
theorem C79_peclet (Re : ℝ) (hRe : 0 < Re) (Sc : Option ℝ) (hSc : ∀ s, Sc = some s → 0 < s) :
    (peTube Re Sc = .error .ValueError ↔ Re < 2300 ∧ Sc = none) ∧ ∀ Pe, peTube Re Sc = .ok Pe → 0 < Pe ∧ (Re < 2300 → Pe ^ 2 ≤ 48) := by
  unfold peTube
  by_cases h : Re < 2300
  · rw [if_pos h]
    cases Sc with
    | none => simp [h]
    | some s =>
      have := hSc s rfl
      refine ⟨by simp, fun Pe hPe => ?_⟩
      have hPe := (Except.ok.inj hPe).symm
      have hx : 0 < Re * s := by positivity
      generalize Re * s = x at *
      refine ⟨by rw [hPe]; positivity, fun _ => ?_⟩
      have e : Pe = 192 * x / (192 + x ^ 2) := by rw [hPe]; field_simp
      rw [e, div_pow, div_le_iff₀ (by positivity)]
      nlinarith [sq_nonneg (x ^ 2 - 192)]
  · rw [if_neg h]
    refine ⟨by simp [h], fun Pe hPe => ?_⟩
    have hPe := (Except.ok.inj hPe).symm
    refine ⟨?_, fun h' => absurd h' h⟩
    rw [hPe]
    positivity

/-- **C79.** In turbulent flow the Péclet number grows with the Reynolds number, in the end like its eighth root; in laminar flow it depends on `Re Sc` only, is `Re Sc`
for weak dispersion by convection and `192/(Re Sc)` for strong. -/
theorem C79_peclet_trend : (∀ Re Re' Sc Sc' Pe Pe', 2300 ≤ Re → Re < Re' → peTube Re Sc = .ok Pe → peTube Re' Sc' = .ok Pe' → Pe < Pe') ∧
    (∃ f : ℝ → ℝ, (∀ Re Sc, 2300 ≤ Re → peTube Re Sc = .ok (f Re * Re ^ (1 / 8 : ℝ))) ∧ Filter.Tendsto f Filter.atTop (nhds (1 / 1.35))) ∧
    ∀ Re Sc Pe, 0 < Re → Re < 2300 → 0 < Sc → peTube Re (some Sc) = .ok Pe → Pe < Re * Sc ∧ Pe < 192 / (Re * Sc) ∧ 1 / Pe = 1 / (Re * Sc) + Re * Sc / 192 := by
  refine ⟨fun Re Re' Sc Sc' Pe Pe' h h' e e' => ?_, ⟨fun Re => 1 / (3e7 / Re ^ (1.975 : ℝ) + 1.35), fun Re Sc h => ?_, ?_⟩, fun Re Sc Pe h h1 hs e => ?_⟩
  · unfold peTube at e e'
    rw [if_neg (not_lt.2 h)] at e
    rw [if_neg (not_lt.2 (h.trans h'.le))] at e'
    injection e with e
    injection e' with e'
    have h0 : 0 < Re := by linarith
    have p1 := Real.rpow_pos_of_pos h0 2.1
    have p2 := Real.rpow_pos_of_pos h0 0.125
    have p3 := Real.rpow_pos_of_pos (h0.trans h') 2.1
    have p4 := Real.rpow_pos_of_pos (h0.trans h') 0.125
    have d1 : 3e7 / Re' ^ (2.1 : ℝ) < 3e7 / Re ^ (2.1 : ℝ) := div_lt_div_of_pos_left (by norm_num) p1 (Real.rpow_lt_rpow h0.le h' (by norm_num))
    have d2 : 1.35 / Re' ^ (0.125 : ℝ) < 1.35 / Re ^ (0.125 : ℝ) := div_lt_div_of_pos_left (by norm_num) p2 (Real.rpow_lt_rpow h0.le h' (by norm_num))
    rw [← e, ← e']
    exact one_div_lt_one_div_of_lt (by positivity) (by linarith)
  · unfold peTube
    rw [if_neg (not_lt.2 h)]
    have h0 : 0 < Re := by linarith
    have e1 : Re ^ (2.1 : ℝ) = Re ^ (1.975 : ℝ) * Re ^ (0.125 : ℝ) := by rw [← Real.rpow_add h0]; norm_num
    have p1 := Real.rpow_pos_of_pos h0 1.975
    have p2 := Real.rpow_pos_of_pos h0 0.125
    beta_reduce
    rw [e1, show (1 / 8 : ℝ) = 0.125 by norm_num]
    generalize Re ^ (1.975 : ℝ) = A at *
    generalize Re ^ (0.125 : ℝ) = B at *
    congr 1
    field_simp
  · have h1 : Filter.Tendsto (fun Re : ℝ => 3e7 / Re ^ (1.975 : ℝ)) Filter.atTop (nhds 0) := tendsto_const_nhds.div_atTop (tendsto_rpow_atTop (by norm_num))
    have h2 := (h1.add_const 1.35).inv₀ (by norm_num)
    rw [zero_add] at h2
    simpa only [one_div] using h2
  · unfold peTube at e
    rw [if_pos h1] at e
    injection e with e
    have hx : 0 < Re * Sc := mul_pos h hs
    generalize Re * Sc = x at *
    have e2 : Pe = 192 * x / (192 + x ^ 2) := by rw [← e]; field_simp
    refine ⟨?_, ?_, by rw [← e, one_div_one_div]⟩
    · rw [e2, div_lt_iff₀ (by positivity)]; nlinarith [pow_pos hx 3]
    · rw [e2, div_lt_div_iff₀ (by positivity) hx]; nlinarith

example : (2300 : ℝ) ≤ 1e4 ∧ (1e4 : ℝ) < 1e5 ∧ (0 : ℝ) < 100 ∧ (100 : ℝ) < 2300 := by norm_num

example : (0 : ℝ) < 3 ∧ (0 : ℝ) < 20 ∧ (20 : ℝ) ≤ 100 ∧ (100 : ℝ) < 250 := by norm_num

end Verif.Rtd
