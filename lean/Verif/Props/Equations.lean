import Verif.Lemmas.Equations
import Mathlib.Topology.Algebra.Order.Field

/-! # C98: DIPPR and Yaws equations -/

namespace Verif.Equations

open Real Vaporization Filter Topology

/-! ## DIPPR 100, 104: linear in their parameters -/

/-- C98. `DIPPR100` is linear in its parameters, returns `A` at zero temperature, and with `C = D = E = 0` is a straight line. -/
theorem C98_dippr100 (T A B C D E A' B' C' D' E' k : ℝ) :
    dippr100 T (A + k * A') (B + k * B') (C + k * C') (D + k * D') (E + k * E') = dippr100 T A B C D E + k * dippr100 T A' B' C' D' E'
      ∧ dippr100 0 A B C D E = A ∧ dippr100 T A B 0 0 0 = A + B * T := by
  refine ⟨?_, ?_, ?_⟩ <;> unfold dippr100 <;> ring

/-- C98. `DIPPR104` is undefined at zero temperature and linear in its parameters everywhere else. -/
theorem C98_dippr104 (T A B C D E A' B' C' D' E' k : ℝ) :
    (dippr104 T A B C D E = none ↔ T = 0) ∧ ∀ y y', dippr104 T A B C D E = some y → dippr104 T A' B' C' D' E' = some y' →
      dippr104 T (A + k * A') (B + k * B') (C + k * C') (D + k * D') (E + k * E') = some (y + k * y') := by
  have ev : ∀ a b c d e, T ≠ 0 → dippr104 T a b c d e = some (a + b / T + c / T ^ 3 + d / T ^ 8 + e / T ^ 9) := by
    intro a b c d e h
    simp only [dippr104, odiv_ne h, odiv_ne (pow_ne_zero _ h), Option.bind_eq_bind, Option.bind_some]; rfl
  by_cases h : T = 0
  · subst h
    have : ∀ a b c d e, dippr104 0 a b c d e = none := fun a b c d e => by simp [dippr104, odiv]
    exact ⟨iff_of_true (this ..) rfl, fun y y' hy => by rw [this] at hy; cases hy⟩
  · refine ⟨iff_of_false (by rw [ev _ _ _ _ _ h]; exact Option.some_ne_none _) h, fun y y' hy hy' => ?_⟩
    rw [ev _ _ _ _ _ h] at hy hy' ⊢
    injection hy with hy
    injection hy' with hy'
    rw [← hy, ← hy']
    congr 1
    ring

/-- C98. `DIPPR104` (second virial coefficients) tends to `A` at high temperature. -/
theorem C98_dippr104_limit (A B C D E : ℝ) : ∃ y : ℝ → ℝ, (∀ T, 0 < T → dippr104 T A B C D E = some (y T)) ∧ Tendsto y atTop (𝓝 A) := by
  refine ⟨fun T => A + B / T + C / T ^ 3 + D / T ^ 8 + E / T ^ 9, fun T h => ?_, ?_⟩
  · simp only [dippr104, odiv_ne h.ne', odiv_ne (pow_ne_zero _ h.ne'), Option.bind_eq_bind, Option.bind_some]; rfl
  · have t1 : Tendsto (fun T : ℝ => B / T) atTop (𝓝 0) := tendsto_id.const_div_atTop B
    have t3 : Tendsto (fun T : ℝ => C / T ^ 3) atTop (𝓝 0) := (tendsto_pow_atTop (by norm_num)).const_div_atTop C
    have t8 : Tendsto (fun T : ℝ => D / T ^ 8) atTop (𝓝 0) := (tendsto_pow_atTop (by norm_num)).const_div_atTop D
    have t9 : Tendsto (fun T : ℝ => E / T ^ 9) atTop (𝓝 0) := (tendsto_pow_atTop (by norm_num)).const_div_atTop E
    have := (((tendsto_const_nhds (x := A)).add t1).add t3).add (t8)
    simpa using this.add t9

/-- C98. Change of the unit of temperature (`T` measured in units `1/s` as large): every equation gives the same value if the
parameters are rescaled by the powers of `s` which their units demand; at unit temperature the polynomials are the sums of their
coefficients. -/
theorem C98_units (s T A B C D E : ℝ) (hs : 0 < s) :
    dippr100 (s * T) A B C D E = dippr100 T A (s * B) (s ^ 2 * C) (s ^ 3 * D) (s ^ 4 * E) ∧
    dippr100 1 A B C D E = A + B + C + D + E ∧
    dippr104 (s * T) A (s * B) (s ^ 3 * C) (s ^ 8 * D) (s ^ 9 * E) = dippr104 T A B C D E ∧
    dippr104 1 A B C D E = some (A + B + C + D + E) ∧
    dippr105 (s * T) A B (s * C) D = dippr105 T A B C D ∧
    (∀ Tc, dippr106 (s * T) A B C D E (s * Tc) = dippr106 T A B C D E Tc) ∧
    dippr107 (s * T) A B (s * C) D (s * E) = dippr107 T A B C D E ∧
    (∀ b10, yaws (s * T) A (s * B) (C / s) (D / s ^ 2) b10 = yaws T A B C D b10) ∧
    (0 < T → dippr101 (s * T) A (s * B) C (D / s ^ E) E = dippr101 T (A + C * log s) B C D E) ∧
    (0 < T → dippr102 (s * T) (A / s ^ B) B (s * C) (s ^ 2 * D) = dippr102 T A B C D) := by
  have h0 := hs.ne'
  have hd : ∀ a b, odiv (s * a) (s * b) = odiv a b := fun a b => odiv_scale h0 a b
  have hp : ∀ (n : ℕ) a b, odiv (s ^ n * a) ((s * b) ^ n) = odiv a (b ^ n) := fun n a b => by
    rw [mul_pow]; exact odiv_scale (pow_ne_zero n h0) a _
  refine ⟨by unfold dippr100; ring, by unfold dippr100; ring, ?_, ?_, ?_, fun Tc => ?_, ?_, fun b10 => ?_, fun hT => ?_, fun hT => ?_⟩
  · unfold dippr104; rw [hd, hp, hp, hp]
  · simp [dippr104, odiv]
  · unfold dippr105; rw [hd]
  · unfold dippr106; rw [hd]
  · unfold dippr107; rw [hd, hd]
  · unfold yaws
    rw [hd, show C / s * (s * T) = C * T by field_simp, show D / s ^ 2 * (s * T) ^ 2 = D * T ^ 2 by field_simp]
  · have hsE : s ^ E ≠ 0 := (rpow_pos_of_pos hs E).ne'
    unfold dippr101
    rw [hd]
    simp only [flog, pw_pos hT, pw_pos (mul_pos hs hT), if_pos hT, if_pos (mul_pos hs hT), odiv_ne hT.ne', Option.bind_eq_bind,
      Option.bind_some, log_mul h0 hT.ne', mul_rpow hs.le hT.le]
    rw [show D / s ^ E * (s ^ E * T ^ E) = D * T ^ E by field_simp]
    congr 2
    ring
  · have hsB : s ^ B ≠ 0 := (rpow_pos_of_pos hs B).ne'
    unfold dippr102
    rw [hd, hp]
    simp only [pw_pos hT, pw_pos (mul_pos hs hT), Option.bind_eq_bind, Option.bind_some, mul_rpow hs.le hT.le]
    rw [show A / s ^ B * (s ^ B * T ^ B) = A * T ^ B by field_simp]

example : (0 : ℝ) < 9 / 5 ∧ dippr100 (9 / 5 * 300) 1 2 3 4 5 = dippr100 300 1 (9 / 5 * 2) ((9 / 5) ^ 2 * 3) ((9 / 5) ^ 3 * 4) ((9 / 5) ^ 4 * 5) :=
  ⟨by norm_num, (C98_units (9 / 5) 300 1 2 3 4 5 (by norm_num)).1⟩

/-! ## DIPPR 101, 102, Yaws -/

/-- C98. `DIPPR101` gives a number exactly for positive temperatures; it is then positive, and for `C = D = 0` agrees with `Antoine` in base e. -/
theorem C98_dippr101 (T A B C D E : ℝ) :
    ((dippr101 T A B C D E).isSome ↔ 0 < T) ∧ (∀ y, dippr101 T A B C D E = some y → 0 < y)
      ∧ (0 < T → dippr101 T A B 0 0 E = antoine T A (-B) 0 false) := by
  have ev : 0 < T → ∀ c d, dippr101 T A B c d E = some (exp (A + B / T + c * log T + d * T ^ E)) := by
    intro h c d
    simp only [dippr101, odiv_ne h.ne', flog_pos h, pw_pos h, Option.bind_eq_bind, Option.bind_some]; rfl
  have nn : ¬ 0 < T → dippr101 T A B C D E = none := by
    intro h
    simp only [dippr101, flog, if_neg h, Option.bind_eq_bind, Option.bind_none, Option.bind_fun_none]
  refine ⟨?_, ?_, ?_⟩
  · by_cases h : 0 < T
    · simp [ev h, h]
    · simp [nn h, h]
  · intro y hy
    by_cases h : 0 < T
    · rw [ev h] at hy; injection hy with hy; rw [← hy]; exact exp_pos _
    · rw [nn h] at hy; cases hy
  · intro h
    rw [ev h]
    have h' : T + 0 ≠ 0 := by linarith
    simp only [antoine, odiv_ne h', Option.bind_eq_bind, Option.bind_some]
    simp [sub_eq_add_neg, neg_div]

/-- C98. `DIPPR102` with positive temperature and nonnegative `C`, `D` is positive for positive `A`, at most `A T^B`, and equal to it for `C = D = 0`. -/
theorem C98_dippr102 (T A B C D : ℝ) (hT : 0 < T) (hA : 0 < A) (hC : 0 ≤ C) (hD : 0 ≤ D) :
    ∃ y, dippr102 T A B C D = some y ∧ 0 < y ∧ y ≤ A * T ^ B ∧ dippr102 T A B 0 0 = some (A * T ^ B) := by
  have hd : 0 < 1 + C / T + D / T ^ 2 := by positivity
  have ht : 0 < T ^ B := rpow_pos_of_pos hT B
  refine ⟨A * T ^ B / (1 + C / T + D / T ^ 2), ?_, by positivity, ?_, ?_⟩
  · simp only [dippr102, pw_pos hT, odiv_ne hT.ne', odiv_ne (pow_ne_zero 2 hT.ne'), Option.bind_eq_bind, Option.bind_some, odiv_ne hd.ne']
  · refine div_le_self (by positivity) ?_
    have : 0 ≤ C / T := by positivity
    have : 0 ≤ D / T ^ 2 := by positivity
    linarith
  · simp [dippr102, pw_pos hT, odiv, hT.ne']

example : (0 : ℝ) < 300 ∧ (0 : ℝ) < 1e-6 ∧ (0 : ℝ) ≤ 80 ∧ (0 : ℝ) ≤ 0 := by norm_num

/-- A denominator of `DIPPR102` can vanish: parameters and temperature with no value. -/
theorem C98_dippr102_defined_false : dippr102 300 1 1 (-300) 0 = none := by
  rw [dippr102, pw_pos (by norm_num), odiv_ne (by norm_num), odiv_ne (by norm_num)]
  norm_num [odiv]

/-- C98. `Yaws` has a value exactly for nonzero temperature; it is positive; the base-10 form is the base-e form with parameters multiplied by `ln 10`;
without `C`, `D` it is the `Antoine` equation with `C = 0` and opposite sign of `B`. -/
theorem C98_yaws (T A B C D : ℝ) :
    (∀ b10, (yaws T A B C D b10).isSome ↔ T ≠ 0) ∧ (∀ b10 y, yaws T A B C D b10 = some y → 0 < y)
      ∧ yaws T A B C D true = yaws T (A * log 10) (B * log 10) (C * log 10) (D * log 10) false
      ∧ (∀ b10, yaws T A B 0 0 b10 = antoine T A (-B) 0 b10) := by
  by_cases h : T = 0
  · subst h
    have : ∀ a b c d b10, yaws 0 a b c d b10 = none := fun a b c d b10 => by simp [yaws, odiv]
    refine ⟨fun b => by simp [this], fun b y hy => (by rw [this] at hy; cases hy), by rw [this, this], fun b => ?_⟩
    rw [this]
    simp [antoine, odiv]
  · have ev : ∀ a b c d b10, yaws T a b c d b10 = some (if b10 then 10 ^ (a + b / T + c * T + d * T ^ 2) else exp (a + b / T + c * T + d * T ^ 2)) := by
      intro a b c d b10
      simp only [yaws, odiv_ne h, Option.bind_eq_bind, Option.bind_some]; rfl
    refine ⟨fun b => by simp [ev, h], fun b y hy => ?_, ?_, fun b => ?_⟩
    · rw [ev] at hy
      injection hy with hy
      rw [← hy]
      split_ifs
      · exact rpow_pos_of_pos (by norm_num) _
      · exact exp_pos _
    · rw [ev, ev]
      simp only [if_true, Bool.false_eq_true, if_false]
      rw [rpow_def_of_pos (by norm_num)]
      congr 2; ring
    · rw [ev]
      have h' : T + 0 ≠ 0 := by rwa [add_zero]
      simp only [antoine, odiv_ne h', Option.bind_eq_bind, Option.bind_some]
      simp [sub_eq_add_neg, neg_div]

/-- C98. With `B > 0` and `C, D ≤ 0` the Yaws viscosity falls strictly with temperature. -/
theorem C98_yaws_anti (T T' A B C D : ℝ) (hT : 0 < T) (h : T < T') (hB : 0 < B) (hC : C ≤ 0) (hD : D ≤ 0) (b10 : Bool) :
    ∃ y y', yaws T A B C D b10 = some y ∧ yaws T' A B C D b10 = some y' ∧ y' < y := by
  have hT' := hT.trans h
  have ev : ∀ t, 0 < t → yaws t A B C D b10 = some (if b10 then 10 ^ (A + B / t + C * t + D * t ^ 2) else exp (A + B / t + C * t + D * t ^ 2)) := by
    intro t ht
    simp only [yaws, odiv_ne ht.ne', Option.bind_eq_bind, Option.bind_some]; rfl
  refine ⟨_, _, ev T hT, ev T' hT', ?_⟩
  have hx : A + B / T' + C * T' + D * T' ^ 2 < A + B / T + C * T + D * T ^ 2 := by
    have h1 : B / T' < B / T := by gcongr
    have h2 : T ^ 2 < T' ^ 2 := by gcongr
    nlinarith
  split_ifs
  · exact rpow_lt_rpow_of_exponent_lt (by norm_num) hx
  · exact exp_lt_exp.2 hx

example : (0 : ℝ) < 300 ∧ (300 : ℝ) < 350 ∧ (0 : ℝ) < 1000 ∧ (0 : ℝ) ≤ 0 := by norm_num

/-- With a positive `C` (as most tabulated liquids have) it does not: the fitted curve rises again above `sqrt(B/C)`. -/
theorem C98_yaws_monotone_false : ∃ y y', yaws 400 (-10) 1000 0.01 0 true = some y ∧ yaws 500 (-10) 1000 0.01 0 true = some y' ∧ y < y' := by
  refine ⟨_, _, by simp only [yaws, odiv_ne (show (400 : ℝ) ≠ 0 by norm_num), Option.bind_eq_bind, Option.bind_some]; rfl,
    by simp only [yaws, odiv_ne (show (500 : ℝ) ≠ 0 by norm_num), Option.bind_eq_bind, Option.bind_some]; rfl, ?_⟩
  simp only [if_true]
  exact rpow_lt_rpow_of_exponent_lt (by norm_num) (by norm_num)

/-! ## DIPPR 105: saturated liquid density -/

/-- C98. `DIPPR105` (Rackett) with positive `A`, `C`, `D` and `0 < B < 1`: a real number exactly up to the critical temperature `C`, where it is `A / B`;
strictly decreasing below. -/
theorem C98_dippr105 (A B C D : ℝ) (hA : 0 < A) (hB : 0 < B) (hB1 : B < 1) (hC : 0 < C) (hD : 0 < D) :
    (∀ T, (dippr105 T A B C D).isSome ↔ T ≤ C) ∧ dippr105 C A B C D = some (A / B)
      ∧ ∀ T T', T < T' → T' ≤ C → ∃ y y', dippr105 T A B C D = some y ∧ dippr105 T' A B C D = some y' ∧ 0 < y' ∧ y' < y := by
  have ev : ∀ T, T ≤ C → dippr105 T A B C D = some (A / B ^ (1 + (1 - T / C) ^ D)) := by
    intro T h
    have h1 : 0 ≤ 1 - T / C := by rw [sub_nonneg, div_le_one hC]; exact h
    have h2 : B ^ (1 + (1 - T / C) ^ D) ≠ 0 := (rpow_pos_of_pos hB _).ne'
    simp only [dippr105, odiv_ne hC.ne', Option.bind_eq_bind, Option.bind_some, pw_nonneg h1 hD.le, pw_pos hB, odiv_ne h2]
  refine ⟨fun T => ?_, ?_, fun T T' h h' => ?_⟩
  · rcases le_or_gt T C with h | h
    · simp [ev T h, h]
    · have h1 : 1 - T / C < 0 := by rw [sub_neg, one_lt_div hC]; exact h
      simp only [dippr105, odiv_ne hC.ne', Option.bind_eq_bind, Option.bind_some, pw_neg h1, Option.bind_none]
      simp [h]
  · rw [ev C le_rfl, div_self hC.ne', sub_self, zero_rpow hD.ne', add_zero, rpow_one]
  · refine ⟨_, _, ev T (h.le.trans h'), ev T' h', by positivity, ?_⟩
    have h0 : 0 ≤ 1 - T' / C := by rw [sub_nonneg, div_le_one hC]; exact h'
    have h1 : 1 - T' / C < 1 - T / C := by gcongr
    have h2 : (1 - T' / C) ^ D < (1 - T / C) ^ D := rpow_lt_rpow h0 h1 hD
    have h3 : B ^ (1 + (1 - T / C) ^ D) < B ^ (1 + (1 - T' / C) ^ D) := rpow_lt_rpow_of_exponent_gt hB hB1 (by linarith)
    exact div_lt_div_of_pos_left hA (rpow_pos_of_pos hB _) h3

example : (0 : ℝ) < 1 ∧ (0 : ℝ) < 0.27 ∧ (0.27 : ℝ) < 1 ∧ (0 : ℝ) < 562 ∧ (0 : ℝ) < 0.28 := by norm_num

/-! ## DIPPR 106: enthalpy of vaporisation, surface tension -/

/-- C98. `DIPPR106` with positive `A`, `B`, `Tc` and nonnegative exponents `C`, `D`, `E`, for temperatures of at least zero: a real number exactly up to the
critical temperature; positive below, zero at it; strictly decreasing. -/
theorem C98_dippr106 (A B C D E Tc : ℝ) (hA : 0 < A) (hB : 0 < B) (hC : 0 ≤ C) (hD : 0 ≤ D) (hE : 0 ≤ E) (hTc : 0 < Tc) :
    (∀ T, 0 ≤ T → ((dippr106 T A B C D E Tc).isSome ↔ T ≤ Tc)) ∧ dippr106 Tc A B C D E Tc = some 0
      ∧ ∀ T T', 0 ≤ T → T < T' → T' ≤ Tc → ∃ y y', dippr106 T A B C D E Tc = some y ∧ dippr106 T' A B C D E Tc = some y' ∧ 0 ≤ y' ∧ y' < y := by
  have hx : ∀ r : ℝ, 0 ≤ r → 0 < B + r * (C + r * (D + E * r)) := by intro r hr; positivity
  have ev : ∀ T, 0 ≤ T → T ≤ Tc → dippr106 T A B C D E Tc = some (A * (1 - T / Tc) ^ (B + T / Tc * (C + T / Tc * (D + E * (T / Tc))))) := by
    intro T h0 h
    have h1 : 0 ≤ 1 - T / Tc := by rw [sub_nonneg, div_le_one hTc]; exact h
    simp only [dippr106, odiv_ne hTc.ne', Option.bind_eq_bind, Option.bind_some, pw_nonneg h1 (hx (T / Tc) (by positivity)).le]; rfl
  refine ⟨fun T h0 => ?_, ?_, fun T T' h0 h h' => ?_⟩
  · rcases le_or_gt T Tc with h | h
    · simp [ev T h0 h, h]
    · have h1 : 1 - T / Tc < 0 := by rw [sub_neg, one_lt_div hTc]; exact h
      simp only [dippr106, odiv_ne hTc.ne', Option.bind_eq_bind, Option.bind_some, pw_neg h1, Option.bind_none]
      simp [h]
  · rw [ev Tc hTc.le le_rfl, div_self hTc.ne', sub_self, zero_rpow (hx 1 zero_le_one).ne', mul_zero]
  · have h1 : 0 ≤ 1 - T' / Tc := by rw [sub_nonneg, div_le_one hTc]; exact h'
    refine ⟨_, _, ev T h0 (h.le.trans h'), ev T' (h0.trans h.le) h', by positivity, ?_⟩
    have hr : T / Tc < T' / Tc := by gcongr
    have hr0 : 0 ≤ T / Tc := by positivity
    generalize T / Tc = r at *
    generalize T' / Tc = s at *
    have hs : 0 ≤ s := hr0.trans hr.le
    have hb : 0 < 1 - r := by linarith
    have hpq : B + r * (C + r * (D + E * r)) ≤ B + s * (C + s * (D + E * s)) := by gcongr
    have hA' : (1 - s) ^ (B + s * (C + s * (D + E * s))) < (1 - r) ^ (B + r * (C + r * (D + E * r))) :=
      calc _ < (1 - r) ^ (B + s * (C + s * (D + E * s))) := rpow_lt_rpow h1 (by linarith) (hx s hs)
        _ ≤ _ := rpow_le_rpow_of_exponent_ge hb (by linarith) hpq
    gcongr

example : (0 : ℝ) < 5e4 ∧ (0 : ℝ) < 0.38 ∧ (0 : ℝ) ≤ 0 ∧ (0 : ℝ) < 647 := by norm_num

/-- C98. Without `C`, `D`, `E` it is the Watson relation: the ratio of two values is the ratio of `Tc - T` to the power `B`. -/
theorem C98_dippr106_watson (T T' A B Tc : ℝ) (hA : A ≠ 0) (hTc : 0 < Tc) (h : T < Tc) (h' : T' < Tc) :
    ∃ y y', dippr106 T A B 0 0 0 Tc = some y ∧ dippr106 T' A B 0 0 0 Tc = some y' ∧ y / y' = ((Tc - T) / (Tc - T')) ^ B := by
  have e : ∀ t, t < Tc → dippr106 t A B 0 0 0 Tc = some (A * (1 - t / Tc) ^ B) := by
    intro t ht
    have h1 : 0 < 1 - t / Tc := by rw [sub_pos, div_lt_one hTc]; exact ht
    simp only [dippr106, odiv_ne hTc.ne', Option.bind_eq_bind, Option.bind_some, pw_pos h1]
    simp
  refine ⟨_, _, e T h, e T' h', ?_⟩
  have h1 : 0 < 1 - T / Tc := by rw [sub_pos, div_lt_one hTc]; exact h
  have h2 : 0 < 1 - T' / Tc := by rw [sub_pos, div_lt_one hTc]; exact h'
  rw [mul_div_mul_left _ _ hA, ← div_rpow h1.le h2.le]
  congr 1
  have : Tc - T' ≠ 0 := by linarith
  field_simp

/-! ## DIPPR 107: ideal-gas heat capacity -/

theorem dippr107_eq {T C : ℝ} (A B D E : ℝ) (hT : T ≠ 0) (hC : C ≠ 0) :
    dippr107 T A B C D E = some (A + B * (C / T / sinh (C / T)) ^ 2 + D * (E / T / cosh (E / T)) ^ 2) := by
  have h1 : sinh (C / T) ≠ 0 := by rw [Ne, sinh_eq_zero]; exact div_ne_zero hC hT
  simp only [dippr107, odiv_ne hT, odiv_ne h1, odiv_ne (cosh_pos (E / T)).ne', Option.bind_eq_bind, Option.bind_some]; rfl

/-- C98. `DIPPR107` (Aly-Lee) has a value exactly when neither `T` nor `C` is zero. For nonnegative `B`, `D` (not both zero) it lies strictly between `A` and `A + B + D`
(`A ≤` when `B = 0`), and the signs of `C` and `E` do not matter. -/
theorem C98_dippr107 (T A B C D E : ℝ) :
    ((dippr107 T A B C D E).isSome ↔ T ≠ 0 ∧ C ≠ 0)
      ∧ (0 ≤ B → 0 ≤ D → ∀ y, dippr107 T A B C D E = some y → A ≤ y ∧ y ≤ A + B + D ∧ (0 < B → A < y ∧ y < A + B + D))
      ∧ dippr107 T A B (-C) D E = dippr107 T A B C D E ∧ dippr107 T A B C D (-E) = dippr107 T A B C D E := by
  have nT : ∀ c e, T = 0 → dippr107 T A B c D e = none := fun c e h => by simp [dippr107, odiv, h]
  have nC : ∀ e, C = 0 → dippr107 T A B C D e = none := fun e h => by
    by_cases hT : T = 0
    · exact nT _ _ hT
    · simp [dippr107, odiv, h, hT]
  refine ⟨?_, ?_, ?_, ?_⟩
  · by_cases hT : T = 0
    · rw [nT _ _ hT]; simp [hT]
    · by_cases hC : C = 0
      · rw [nC _ hC]; simp [hC]
      · simp [dippr107_eq A B D E hT hC, hT, hC]
  · intro hB hD y hy
    by_cases hT : T = 0
    · rw [nT _ _ hT] at hy; cases hy
    by_cases hC : C = 0
    · rw [nC _ hC] at hy; cases hy
    rw [dippr107_eq A B D E hT hC] at hy
    injection hy with hy
    have hs : 0 < (C / T / sinh (C / T)) ^ 2 ∧ (C / T / sinh (C / T)) ^ 2 < 1 := by
      have hx : C / T ≠ 0 := div_ne_zero hC hT
      generalize C / T = x at *
      have : 0 < x / sinh x ∧ x / sinh x < 1 := by
        rcases lt_or_gt_of_ne hx with h | h
        · have := div_sinh_bounds (neg_pos.2 h)
          rwa [div_sinh_neg] at this
        · exact div_sinh_bounds h
      exact ⟨by have := this.1; positivity, by nlinarith [this.1, this.2]⟩
    have hk : (E / T / cosh (E / T)) ^ 2 < 1 := sq_div_cosh
    have hk0 := sq_nonneg (E / T / cosh (E / T))
    rw [← hy]
    generalize (C / T / sinh (C / T)) ^ 2 = s at *
    generalize (E / T / cosh (E / T)) ^ 2 = k at *
    obtain ⟨s0, s1⟩ := hs
    refine ⟨?_, ?_, fun hB' => ⟨?_, ?_⟩⟩
    · have := mul_nonneg hB s0.le; have := mul_nonneg hD hk0; linarith
    · nlinarith
    · have := mul_pos hB' s0; have := mul_nonneg hD hk0; linarith
    · nlinarith
  · by_cases hT : T = 0
    · rw [nT _ _ hT, nT _ _ hT]
    by_cases hC : C = 0
    · rw [hC, neg_zero]
    rw [dippr107_eq A B D E hT hC, dippr107_eq A B D E hT (neg_ne_zero.2 hC), neg_div, div_sinh_neg]
  · by_cases hT : T = 0
    · rw [nT _ _ hT, nT _ _ hT]
    by_cases hC : C = 0
    · rw [nC _ hC, nC _ hC]
    rw [dippr107_eq A B D E hT hC, dippr107_eq A B D (-E) hT hC]
    congr 2
    rw [neg_div, cosh_neg, neg_div, neg_sq]

/-- C98. The vibrational term rises strictly with temperature. -/
theorem C98_dippr107_mono (T T' A B C E : ℝ) (hT : 0 < T) (h : T < T') (hB : 0 < B) (hC : C ≠ 0) :
    ∃ y y', dippr107 T A B C 0 E = some y ∧ dippr107 T' A B C 0 E = some y' ∧ y < y' := by
  have hT' := hT.trans h
  refine ⟨_, _, dippr107_eq A B 0 E hT.ne' hC, dippr107_eq A B 0 E hT'.ne' hC, ?_⟩
  have key : ∀ c : ℝ, 0 < c → 0 < c / T / sinh (c / T) ∧ c / T / sinh (c / T) < c / T' / sinh (c / T') :=
    fun c hc => ⟨(div_sinh_bounds (div_pos hc hT)).1, div_sinh_anti (div_pos hc hT') (by gcongr)⟩
  have hs : 0 < C / T / sinh (C / T) ∧ C / T / sinh (C / T) < C / T' / sinh (C / T') := by
    rcases lt_or_gt_of_ne hC with hc | hc
    · have := key (-C) (neg_pos.2 hc)
      rwa [neg_div, div_sinh_neg, neg_div, div_sinh_neg] at this
    · exact key C hc
  have : (C / T / sinh (C / T)) ^ 2 < (C / T' / sinh (C / T')) ^ 2 := by
    exact pow_lt_pow_left₀ hs.2 hs.1.le two_ne_zero
  nlinarith

example : (0 : ℝ) < 300 ∧ (300 : ℝ) < 400 ∧ (0 : ℝ) < 26790 ∧ (2610 : ℝ) ≠ 0 := by norm_num

/-- A constant heat capacity entered as `B = C = D = E = 0`: no number (NaN), although nothing depends on `C`. -/
theorem C98_dippr107_constant_false (T A : ℝ) : dippr107 T A 0 0 0 0 = none := by
  have := (C98_dippr107 T A 0 0 0 0).1
  cases h : dippr107 T A 0 0 0 0 with
  | none => rfl
  | some y => rw [h] at this; simp at this

end Verif.Equations
