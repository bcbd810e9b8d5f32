import Verif.Lemmas.Tait

/-! # C65: Tait equation -/

namespace Verif.Tait

open Real

/-! ## What the constructor guarantees -/

/-- C65. An object exists exactly with parameters inside the documented ranges, and keeps them. -/
theorem C65_accepted {A0 A1 A2 B0 B1 Tmin Pmin : ℝ} {Tmax Pmax : Option ℝ} {s : Tait} (h : init A0 A1 A2 B0 B1 Tmin Tmax Pmin Pmax = .ok s) :
    s = ⟨A0, A1, A2, B0, B1, (Tmin, Tmax), (Pmin, Pmax)⟩ ∧ (1e-4 ≤ A0 ∧ A0 ≤ 2e-3) ∧ (1e-7 ≤ A1 ∧ A1 ≤ 2e-6) ∧ (-2e-9 ≤ A2 ∧ A2 ≤ 1e-8) ∧
    (1e7 ≤ B0 ∧ B0 ≤ 1e9) ∧ (1e-3 ≤ B1 ∧ B1 ≤ 2e-2) ∧ 0 ≤ Tmin ∧ (∀ t ∈ Tmax, Tmin < t) ∧ 0 ≤ Pmin ∧ (∀ p ∈ Pmax, Pmin < p) := by
  unfold init at h
  have step : ∀ {x : Except Err Unit} {f : Unit → Except Err Tait}, (x >>= f) = .ok s → x = .ok () ∧ f () = .ok s := by
    intro x f h
    cases x with
    | error e => simp [bind, Except.bind] at h
    | ok u => exact ⟨rfl, h⟩
  obtain ⟨h1, h⟩ := step h
  obtain ⟨h2, h⟩ := step h
  obtain ⟨h3, h⟩ := step h
  obtain ⟨h4, h⟩ := step h
  obtain ⟨h5, h⟩ := step h
  obtain ⟨h6, h⟩ := step h
  obtain ⟨h7, h⟩ := step h
  obtain ⟨h8, h⟩ := step h
  obtain ⟨h9, h⟩ := step h
  obtain ⟨h10, h⟩ := step h
  obtain ⟨h11, h⟩ := step h
  have he : (0 : ℝ) < eps := by norm_num [eps]
  have b6 : 0 ≤ Tmin := by by_contra hc; simp [boundInf, hc] at h6
  have b9 : 0 ≤ Pmin := by by_contra hc; simp [boundInf, hc] at h9
  refine ⟨?_, bound_ok h1, bound_ok h2, bound_ok h3, bound_ok h4, bound_ok h5, b6, ?_, b9, ?_⟩
  · injection h with h
    exact h.symm
  · rintro t ht
    cases ht
    simp only [Option.map, boundInf] at h8
    split_ifs at h8 with hc
    linarith
  · rintro t ht
    cases ht
    simp only [Option.map, boundInf] at h11
    split_ifs at h11 with hc
    linarith

/-- C65. Conversely parameters in these ranges are accepted if the spans of temperature and pressure are at least the rounding unit; otherwise `RangeError`. -/
theorem C65_accepts (A0 A1 A2 B0 B1 Tmin Pmin : ℝ) (Tmax Pmax : Option ℝ) :
    (((1e-4 ≤ A0 ∧ A0 ≤ 2e-3) ∧ (1e-7 ≤ A1 ∧ A1 ≤ 2e-6) ∧ (-2e-9 ≤ A2 ∧ A2 ≤ 1e-8) ∧ (1e7 ≤ B0 ∧ B0 ≤ 1e9) ∧ (1e-3 ≤ B1 ∧ B1 ≤ 2e-2) ∧
      0 ≤ Tmin ∧ (∀ t ∈ Tmax, 1 / 2 ^ 52 ≤ t - Tmin) ∧ 0 ≤ Pmin ∧ (∀ p ∈ Pmax, 1 / 2 ^ 52 ≤ p - Pmin)) →
      init A0 A1 A2 B0 B1 Tmin Tmax Pmin Pmax = .ok ⟨A0, A1, A2, B0, B1, (Tmin, Tmax), (Pmin, Pmax)⟩) ∧
    (¬ ((1e-4 ≤ A0 ∧ A0 ≤ 2e-3) ∧ (1e-7 ≤ A1 ∧ A1 ≤ 2e-6) ∧ (-2e-9 ≤ A2 ∧ A2 ≤ 1e-8) ∧ (1e7 ≤ B0 ∧ B0 ≤ 1e9) ∧ (1e-3 ≤ B1 ∧ B1 ≤ 2e-2) ∧
      0 ≤ Tmin ∧ (∀ t ∈ Tmax, 1 / 2 ^ 52 ≤ t - Tmin) ∧ 0 ≤ Pmin ∧ (∀ p ∈ Pmax, 1 / 2 ^ 52 ≤ p - Pmin)) →
      init A0 A1 A2 B0 B1 Tmin Tmax Pmin Pmax = .error .RangeError) := by
  have he : (0 : ℝ) < 1 / 2 ^ 52 := by positivity
  have hb : ∀ (x : Option ℝ) (lo : ℝ), (boundInf x lo = .ok () ∧ ∀ t ∈ x, lo ≤ t) ∨ (boundInf x lo = .error .RangeError ∧ ¬ ∀ t ∈ x, lo ≤ t) := by
    intro x lo
    cases x with
    | none => exact .inl ⟨rfl, by simp⟩
    | some t =>
      by_cases h : lo ≤ t
      · exact .inl ⟨by simp [boundInf, h], by simpa using h⟩
      · exact .inr ⟨by simp [boundInf, h], by simpa using h⟩
  have hc : ∀ x lo hi : ℝ, (bound x lo hi = .ok () ∧ (lo ≤ x ∧ x ≤ hi)) ∨ (bound x lo hi = .error .RangeError ∧ ¬ (lo ≤ x ∧ x ≤ hi)) := by
    intro x lo hi
    by_cases h : lo ≤ x ∧ x ≤ hi
    · exact .inl ⟨by simp [bound, h], h⟩
    · exact .inr ⟨by simp only [bound, if_neg h], h⟩
  have hm : ∀ (x : Option ℝ) (a lo : ℝ), (∀ t ∈ x.map (· - a), lo ≤ t) ↔ ∀ t ∈ x, lo ≤ t - a := by
    intro x a lo; cases x <;> simp
  unfold init
  rcases hc A0 1e-4 2e-3 with ⟨e1, c1⟩ | ⟨e1, c1⟩
  swap; · exact ⟨fun h => absurd h.1 c1, fun _ => by simp [e1, bind, Except.bind]⟩
  rcases hc A1 1e-7 2e-6 with ⟨e2, c2⟩ | ⟨e2, c2⟩
  swap; · exact ⟨fun h => absurd h.2.1 c2, fun _ => by simp [e1, e2, bind, Except.bind]⟩
  rcases hc A2 (-2e-9) 1e-8 with ⟨e3, c3⟩ | ⟨e3, c3⟩
  swap; · exact ⟨fun h => absurd h.2.2.1 c3, fun _ => by simp [e1, e2, e3, bind, Except.bind]⟩
  rcases hc B0 1e7 1e9 with ⟨e4, c4⟩ | ⟨e4, c4⟩
  swap; · exact ⟨fun h => absurd h.2.2.2.1 c4, fun _ => by simp [e1, e2, e3, e4, bind, Except.bind]⟩
  rcases hc B1 1e-3 2e-2 with ⟨e5, c5⟩ | ⟨e5, c5⟩
  swap; · exact ⟨fun h => absurd h.2.2.2.2.1 c5, fun _ => by simp [e1, e2, e3, e4, e5, bind, Except.bind]⟩
  rcases hb (some Tmin) 0 with ⟨e6, c6⟩ | ⟨e6, c6⟩
  swap; · exact ⟨fun h => absurd (by simpa using h.2.2.2.2.2.1) c6, fun _ => by simp [e1, e2, e3, e4, e5, e6, bind, Except.bind]⟩
  have c6' : 0 ≤ Tmin := by simpa using c6
  rcases hb Tmax 0 with ⟨e7, c7⟩ | ⟨e7, c7⟩
  swap; · exact ⟨fun h => absurd (fun t ht => by have := h.2.2.2.2.2.2.1 t ht; linarith) c7, fun _ => by simp [e1, e2, e3, e4, e5, e6, e7, bind, Except.bind]⟩
  rcases hb (Tmax.map (· - Tmin)) Verif.eps with ⟨e8, c8⟩ | ⟨e8, c8⟩
  swap; · exact ⟨fun h => absurd ((hm _ _ _).2 h.2.2.2.2.2.2.1) c8, fun _ => by simp [e1, e2, e3, e4, e5, e6, e7, e8, bind, Except.bind]⟩
  rcases hb (some Pmin) 0 with ⟨e9, c9⟩ | ⟨e9, c9⟩
  swap; · exact ⟨fun h => absurd (by simpa using h.2.2.2.2.2.2.2.1) c9, fun _ => by simp [e1, e2, e3, e4, e5, e6, e7, e8, e9, bind, Except.bind]⟩
  have c9' : 0 ≤ Pmin := by simpa using c9
  rcases hb Pmax 0 with ⟨e10, c10⟩ | ⟨e10, c10⟩
  swap; · exact ⟨fun h => absurd (fun t ht => by have := h.2.2.2.2.2.2.2.2 t ht; linarith) c10, fun _ => by simp [e1, e2, e3, e4, e5, e6, e7, e8, e9, e10, bind, Except.bind]⟩
  rcases hb (Pmax.map (· - Pmin)) Verif.eps with ⟨e11, c11⟩ | ⟨e11, c11⟩
  swap; · exact ⟨fun h => absurd ((hm _ _ _).2 h.2.2.2.2.2.2.2.2) c11, fun _ => by simp [e1, e2, e3, e4, e5, e6, e7, e8, e9, e10, e11, bind, Except.bind]⟩
  exact ⟨fun _ => by simp [e1, e2, e3, e4, e5, e6, e7, e8, e9, e10, e11, bind, Except.bind, pure, Except.pure],
    fun h => absurd ⟨c1, c2, c3, c4, c5, c6', (hm _ _ _).1 c8, c9', (hm _ _ _).1 c11⟩ h⟩

/-- The polystyrene-like parameters used in examples. -/
noncomputable def sample : Tait := ⟨9.4e-4, 5e-7, 0, 2.4e8, 4e-3, (0, none), (0, none)⟩

example : init 9.4e-4 5e-7 0 2.4e8 4e-3 0 none 0 none = .ok sample := by
  norm_num [init, bound, boundInf, sample, bind, Except.bind, pure, Except.pure]

/-- C65. `beta` is the isothermal compressibility `-(1/v) ∂v/∂P` of the volume returned by `eval`. -/
theorem C65_beta {s : Tait} {T P : ℝ} (hB : 0 < s.B0) (hP : -B s T < P) (hv : eval s T P ≠ 0) :
    HasDerivAt (fun P => eval s T P) (-(beta s T P) * eval s T P) P := by
  have hb := B_pos hB T
  have hr : 1 + P / B s T ≠ 0 := by
    have : 0 < (B s T + P) / B s T := div_pos (by linarith) hb
    rw [add_div, div_self hb.ne'] at this
    exact this.ne'
  have hPB : P + B s T ≠ 0 := by linarith
  have hq : 1 - C * log (1 + P / B s T) ≠ 0 := fun h => hv (by simp only [eval, h, mul_zero])
  have h1 : HasDerivAt (fun P => 1 + P / B s T) (1 / B s T) P := ((hasDerivAt_id P).div_const _).const_add 1
  have h2 := (((h1.log hr).const_mul C).const_sub 1).const_mul (s.A0 + s.A1 * (T - 273.15) + s.A2 * (T - 273.15) ^ 2)
  refine h2.congr_deriv ?_
  simp only [beta, eval]
  have e : 1 + P / B s T = (P + B s T) / B s T := by field_simp; ring
  have e2 : 1 / B s T / (1 + P / B s T) = 1 / (P + B s T) := by rw [e]; field_simp
  rw [e2]
  generalize log (1 + P / B s T) = l at *
  field_simp

/-- C65. `alpha` is the isobaric expansion coefficient `(1/v) ∂v/∂T` of the volume returned by `eval`. -/
theorem C65_alpha {s : Tait} {T P : ℝ} (hB : 0 < s.B0) (hP : -B s T < P) (hv : eval s T P ≠ 0) :
    HasDerivAt (fun T => eval s T P) (alpha s T P * eval s T P) T := by
  have hb := B_pos hB T
  have hr : 1 + P / B s T ≠ 0 := by
    have : 0 < (B s T + P) / B s T := div_pos (by linarith) hb
    rw [add_div, div_self hb.ne'] at this
    exact this.ne'
  have hPB : P + B s T ≠ 0 := by linarith
  have hq : 1 - C * log (1 + P / B s T) ≠ 0 := fun h => hv (by simp only [eval, h, mul_zero])
  have hv0 : s.A0 + s.A1 * (T - 273.15) + s.A2 * (T - 273.15) ^ 2 ≠ 0 := fun h => hv (by simp only [eval, h, zero_mul])
  have hT : HasDerivAt (fun T : ℝ => T - 273.15) 1 T := (hasDerivAt_id T).sub_const _
  have h0 : HasDerivAt (fun T : ℝ => s.A0 + s.A1 * (T - 273.15) + s.A2 * (T - 273.15) ^ 2) (s.A1 * 1 + s.A2 * (2 * (T - 273.15) ^ 1 * 1)) T := by
    have := ((hT.const_mul s.A1).const_add s.A0).add ((hT.pow 2).const_mul s.A2)
    refine this.congr_deriv ?_
    push_cast
    ring
  have h1 : HasDerivAt (fun T => 1 + P / B s T) (-(P * (-s.B1 * B s T)) / B s T ^ 2) T := by
    have := ((hasDerivAt_const T P).div (B_deriv s T) hb.ne').const_add 1
    exact this.congr_deriv (by ring)
  have h2 := h0.mul (((h1.log hr).const_mul C).const_sub 1)
  refine h2.congr_deriv ?_
  simp only [alpha, beta, eval]
  have e : 1 + P / B s T = (P + B s T) / B s T := by field_simp; ring
  have e2 : -(P * (-s.B1 * B s T)) / B s T ^ 2 / (1 + P / B s T) = P * s.B1 / (P + B s T) := by rw [e]; field_simp
  rw [e2]
  generalize log (1 + P / B s T) = l at *
  generalize B s T = b at *
  generalize hw : s.A0 + s.A1 * (T - 273.15) + s.A2 * (T - 273.15) ^ 2 = w at *
  field_simp
  ring

/-- C65. For accepted parameters with nonnegative `A2`, at or above 0 °C and pressures up to a thousand times `B` (at least 10 GPa at 0 °C), the volume is
positive, `beta` is positive and the volume strictly decreases with pressure. -/
theorem C65_physical {s : Tait} {T P P' : ℝ} (hA0 : 0 < s.A0) (hA1 : 0 ≤ s.A1) (hA2 : 0 ≤ s.A2) (hB : 0 < s.B0) (hT : 273.15 ≤ T) (hP0 : 0 ≤ P) (hPP : P < P')
    (hP' : P' ≤ 1000 * B s T) : 0 < eval s T P' ∧ eval s T P' < eval s T P ∧ 0 < beta s T P := by
  have hb := B_pos hB T
  have hv0 : 0 < s.A0 + s.A1 * (T - 273.15) + s.A2 * (T - 273.15) ^ 2 := by
    have : 0 ≤ T - 273.15 := by linarith
    positivity
  have f := factor_pos hB hP0 (hPP.le.trans hP')
  have f' := factor_pos hB (hP0.trans hPP.le) hP'
  have hl : log (1 + P / B s T) < log (1 + P' / B s T) := log_lt_log (by positivity) (by
    have := div_lt_div_of_pos_right hPP hb
    linarith)
  have hC : 0 < C := by norm_num [C]
  refine ⟨mul_pos hv0 f', mul_lt_mul_of_pos_left ?_ hv0, div_pos (div_pos hC (by linarith)) f⟩
  have := mul_lt_mul_of_pos_left hl hC
  linarith

/-- C65. With nonnegative `A2`, at or above 0 °C, the expansion coefficient is positive at zero pressure, and remains so as long as
`C B1 P/(P + B)` is below the zero-pressure expansion times `1 - C ln(1 + P/B)`; that condition is also necessary. -/
theorem C65_alpha_sign {s : Tait} {T P : ℝ} (hA0 : 0 < s.A0) (hA1 : 0 < s.A1) (hA2 : 0 ≤ s.A2) (hB : 0 < s.B0) (hT : 273.15 ≤ T) (hP0 : 0 ≤ P)
    (hP : P ≤ 1000 * B s T) :
    0 < alpha s T 0 ∧ (0 < alpha s T P ↔ C * s.B1 * (P / (P + B s T)) < alpha s T 0 * (1 - C * log (1 + P / B s T))) := by
  have hb := B_pos hB T
  have f := factor_pos hB hP0 hP
  have h0 : alpha s T 0 = (s.A1 + 2 * s.A2 * (T - 273.15)) / (s.A0 + s.A1 * (T - 273.15) + s.A2 * (T - 273.15) ^ 2) := by
    simp [alpha]
  have ht : 0 ≤ T - 273.15 := by linarith
  refine ⟨by rw [h0]; positivity, ?_⟩
  have e : alpha s T P = alpha s T 0 - C * s.B1 * (P / (P + B s T)) / (1 - C * log (1 + P / B s T)) := by
    rw [h0]
    simp only [alpha, beta]
    have : P + B s T ≠ 0 := by positivity
    field_simp
  rw [e, sub_pos, div_lt_iff₀ f]

/-- C65. The expansion coefficient is not always positive: the constructor accepts an object whose volume shrinks on heating at 0 °C and 1000 bar. -/
theorem C65_alpha_positive_false : ∃ s, init 1e-3 5e-7 0 1e8 2e-2 0 none 0 none = .ok s ∧ 0 < eval s 273.15 1e8 ∧ alpha s 273.15 1e8 < 0 := by
  refine ⟨⟨1e-3, 5e-7, 0, 1e8, 2e-2, (0, none), (0, none)⟩, ?_, ?_, ?_⟩
  · norm_num [init, bound, boundInf, bind, Except.bind, pure, Except.pure]
  all_goals
    have hb : B ⟨1e-3, 5e-7, 0, 1e8, 2e-2, (0, none), (0, none)⟩ 273.15 = 1e8 := by simp [B]
    have l0 : 0 < log (2 : ℝ) := log_pos (by norm_num)
    have l1 : log (2 : ℝ) ≤ 1 := by
      have := log_le_sub_one_of_pos (show (0 : ℝ) < 2 by norm_num)
      linarith
    have e : (1 : ℝ) + 1e8 / 1e8 = 2 := by norm_num
  · simp only [eval, hb, e, C]
    norm_num
    linarith
  · simp only [alpha, beta, hb, e, C]
    have d0 : 0 < 1 - 0.0894 * log (2 : ℝ) := by norm_num; linarith
    have d1 : 1 - 0.0894 * log (2 : ℝ) ≤ 1 := by norm_num; linarith
    have : (0.0894 / (1e8 + 1e8)) ≤ (0.0894 / (1e8 + 1e8)) / (1 - 0.0894 * log (2 : ℝ)) := le_div_self (by norm_num) d0 d1
    norm_num at this ⊢
    linarith

example : 0 < alpha sample 300 0 :=
  (C65_alpha_sign (P := 0) (by norm_num [sample]) (by norm_num [sample]) (by norm_num [sample]) (by norm_num [sample]) (by norm_num) le_rfl
    (by have := B_pos (s := sample) (by norm_num [sample]) 300; linarith)).1

example : 0 < eval sample 300 1e7 ∧ eval sample 300 1e7 < eval sample 300 1e5 ∧ 0 < beta sample 300 1e5 := by
  refine C65_physical (by norm_num [sample]) (by norm_num [sample]) (by norm_num [sample]) (by norm_num [sample]) (by norm_num) (by norm_num) (by norm_num) ?_
  have : 0.8 ≤ exp (-4e-3 * (300 - 273.15)) := by
    have := add_one_le_exp (-4e-3 * (300 - 273.15) : ℝ)
    norm_num at this ⊢
    linarith
  unfold B sample
  norm_num at this ⊢
  linarith

example : HasDerivAt (fun T => eval sample T 1e5) (alpha sample 300 1e5 * eval sample 300 1e5) 300 ∧
    HasDerivAt (fun P => eval sample 300 P) (-(beta sample 300 1e5) * eval sample 300 1e5) 1e5 := by
  have hb := B_pos (s := sample) (by norm_num [sample]) 300
  have hP : (1e5 : ℝ) ≤ 1000 * B sample 300 := by
    have : 0.8 ≤ exp (-4e-3 * (300 - 273.15)) := by
      have := add_one_le_exp (-4e-3 * (300 - 273.15) : ℝ)
      norm_num at this ⊢
      linarith
    unfold B sample
    norm_num at this ⊢
    linarith
  have hv : eval sample 300 1e5 ≠ 0 :=
    (C65_physical (P := 0) (by norm_num [sample]) (by norm_num [sample]) (by norm_num [sample]) (by norm_num [sample]) (by norm_num) le_rfl (by norm_num) hP).1.ne'
  have hneg : -B sample 300 < 1e5 := by norm_num; linarith
  exact ⟨C65_alpha (by norm_num [sample]) hneg hv, C65_beta (by norm_num [sample]) hneg hv⟩

end Verif.Tait
