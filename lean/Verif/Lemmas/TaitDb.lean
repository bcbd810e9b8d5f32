import Verif.Model.TaitDb
import Verif.Lemmas.Tait
import Mathlib.Tactic

/-!
# Helper lemmas: Tait database

A rational certificate for each line of the table: the temperature range is cut at the given points, and on each piece the number `L` is an upper bound of
`log(1 + P/B)`, checked through `exp x ≤ (1 - x/64)^(-64)` and `exp L ≥ (1 + L/64 + (L/64)²/2)^64`.
-/

namespace Verif.Tait

open Real

theorem exp_upper {x : ℝ} (n : ℕ) (hn : 0 < n) (h : x < n) : exp x ≤ (1 / (1 - x / n)) ^ n := by
  have hn' : (0 : ℝ) < n := by exact_mod_cast hn
  have hx : x / n < 1 := by rw [div_lt_one hn']; exact h
  have h1 : exp (x / n) ≤ 1 / (1 - x / n) := by
    have h2 := add_one_le_exp (-(x / n))
    rw [exp_neg] at h2
    rw [le_div_iff₀ (by linarith), ← le_div_iff₀' (exp_pos _), one_div]
    linarith
  have h3 := pow_le_pow_left₀ (exp_pos _).le h1 n
  rw [← exp_nat_mul] at h3
  have : (n : ℝ) * (x / n) = x := by field_simp
  rwa [this] at h3

theorem exp_lower {x : ℝ} (n : ℕ) (hn : 0 < n) (h : 0 ≤ x) : (1 + x / n + (x / n) ^ 2 / 2) ^ n ≤ exp x := by
  have hn' : (0 : ℝ) < n := by exact_mod_cast hn
  have h2 := quadratic_le_exp_of_nonneg (show 0 ≤ x / n by positivity)
  have h3 := pow_le_pow_left₀ (by positivity) h2 n
  rw [← exp_nat_mul] at h3
  have : (n : ℝ) * (x / n) = x := by field_simp
  rwa [this] at h3

theorem slope_ge {n A1 A2 t0 t1 t : ℝ} (h0 : n ≤ A1 + 2 * A2 * t0) (h1 : n ≤ A1 + 2 * A2 * t1) (ht0 : t0 ≤ t) (ht1 : t ≤ t1) : n ≤ A1 + 2 * A2 * t := by
  rcases le_total 0 A2 with h | h
  · have := mul_le_mul_of_nonneg_left ht0 h
    linarith
  · have := mul_le_mul_of_nonpos_left ht1 h
    linarith

theorem vol_mono {n A0 A1 A2 t0 t1 a b : ℝ} (hn : 0 < n) (h0 : n ≤ A1 + 2 * A2 * t0) (h1 : n ≤ A1 + 2 * A2 * t1) (ha : t0 ≤ a) (hab : a ≤ b) (hb : b ≤ t1) :
    A0 + A1 * a + A2 * a ^ 2 ≤ A0 + A1 * b + A2 * b ^ 2 := by
  have h2 := slope_ge h0 h1 (show t0 ≤ (a + b) / 2 by linarith) (by linarith)
  have h3 := mul_nonneg (sub_nonneg.2 hab) (hn.le.trans h2)
  have e : (b - a) * (A1 + 2 * A2 * ((a + b) / 2)) = (A0 + A1 * b + A2 * b ^ 2) - (A0 + A1 * a + A2 * a ^ 2) := by ring
  linarith

/-- Bounds on a piece of the temperature range (temperatures in °C). -/
theorem cell_real {s : Tait} {t0 t1 n L Pm U T P : ℝ} (hA0 : 0 < s.A0) (hB0 : 0 < s.B0) (hB1 : 0 < s.B1) (ht0 : 0 ≤ t0) (hUexp : exp (s.B1 * t1) ≤ U) (hn : 0 < n)
    (hn0 : n ≤ s.A1 + 2 * s.A2 * t0) (hn1 : n ≤ s.A1 + 2 * s.A2 * t1)
    (hlo : 4e-4 < (s.A0 + s.A1 * t0 + s.A2 * t0 ^ 2) * (1 - C * L)) (hhi : s.A0 + s.A1 * t1 + s.A2 * t1 ^ 2 < 1.6e-3) (hL0 : 0 ≤ L) (hCL : C * L < 1)
    (hL : 1 + Pm / s.B0 * U ≤ exp L)
    (hmain : s.B1 * C * (Pm / s.B0 * U / (1 + Pm / s.B0 * U)) * (s.A0 + s.A1 * t1 + s.A2 * t1 ^ 2) <
      n * (1 - C * L))
    (hT0 : t0 ≤ T - 273.15) (hT1 : T - 273.15 ≤ t1) (hP0 : 0 ≤ P) (hP : P ≤ Pm) :
    4e-4 < eval s T P ∧ eval s T P < 1.6e-3 ∧ 0 < alpha s T P ∧ 0 < beta s T P := by
  have hC : (0 : ℝ) < C := by norm_num [C]
  have hb := B_pos hB0 T
  set t := T - 273.15 with ht
  have hq0 : 0 ≤ P / B s T := by positivity
  set q := P / B s T with hq
  have hqr : q ≤ Pm / s.B0 * U := by
    have e1 : q = P / s.B0 * exp (s.B1 * t) := by
      rw [hq]; unfold B; rw [← ht, show -s.B1 * t = -(s.B1 * t) by ring, exp_neg]; field_simp
    rw [e1]
    have h2 : exp (s.B1 * t) ≤ U := (exp_le_exp.2 (mul_le_mul_of_nonneg_left hT1 hB1.le)).trans hUexp
    have h3 : P / s.B0 ≤ Pm / s.B0 := by gcongr
    have h4 : 0 ≤ P / s.B0 := by positivity
    exact mul_le_mul h3 h2 (exp_pos _).le (h4.trans h3)
  set r := Pm / s.B0 * U with hr
  have hlog0 : 0 ≤ log (1 + q) := log_nonneg (by linarith)
  have hlog : log (1 + q) ≤ L := by
    calc log (1 + q) ≤ log (exp L) := log_le_log (by linarith) (by linarith)
      _ = L := log_exp L
  set l := log (1 + q) with hl
  have hlam : 0 < 1 - C * L := by linarith
  have hlam' : 1 - C * L ≤ 1 - C * l := by have := mul_le_mul_of_nonneg_left hlog hC.le; linarith
  have hlam1 : 1 - C * l ≤ 1 := by have := mul_nonneg hC.le hlog0; linarith
  -- the slope of the volume at zero pressure
  have hnt : n ≤ s.A1 + 2 * s.A2 * t := slope_ge hn0 hn1 hT0 hT1
  have hv0 := vol_mono (A0 := s.A0) hn hn0 hn1 le_rfl hT0 hT1
  have hv1 := vol_mono (A0 := s.A0) hn hn0 hn1 hT0 hT1 le_rfl
  have hvp : 0 < s.A0 + s.A1 * t0 + s.A2 * t0 ^ 2 := by
    by_contra hc
    have := mul_nonpos_of_nonpos_of_nonneg (not_lt.1 hc) hlam.le
    norm_num at hlo
    linarith
  set v := s.A0 + s.A1 * t + s.A2 * t ^ 2 with hv
  have hvpos : 0 < v := by linarith
  have he : eval s T P = v * (1 - C * l) := rfl
  have hbeta : beta s T P = C / (P + B s T) / (1 - C * l) := rfl
  have halpha : alpha s T P = (s.A1 + 2 * s.A2 * t) / v - P * s.B1 * beta s T P := rfl
  have hlp : 0 < 1 - C * l := by linarith
  refine ⟨?_, ?_, ?_, ?_⟩
  · rw [he]
    calc (4e-4 : ℝ) < (s.A0 + s.A1 * t0 + s.A2 * t0 ^ 2) * (1 - C * L) := hlo
      _ ≤ v * (1 - C * l) := mul_le_mul hv0 hlam' hlam.le hvpos.le
  · rw [he]
    calc v * (1 - C * l) ≤ v * 1 := by gcongr
      _ < 1.6e-3 := by linarith
  · rw [halpha, hbeta]
    have e1 : P * s.B1 * (C / (P + B s T) / (1 - C * l)) = s.B1 * C * (q / (1 + q)) / (1 - C * l) := by
      rw [hq]; field_simp; ring
    rw [e1, sub_pos, div_lt_div_iff₀ hlp hvpos]
    have h1 : q / (1 + q) ≤ r / (1 + r) := by
      rw [div_le_div_iff₀ (by linarith) (by linarith)]; linarith
    have hr0 : 0 ≤ r := hq0.trans hqr
    have h2 : 0 ≤ q / (1 + q) := by positivity
    have h3 : 0 ≤ r / (1 + r) := by positivity
    calc s.B1 * C * (q / (1 + q)) * v ≤ s.B1 * C * (r / (1 + r)) * (s.A0 + s.A1 * t1 + s.A2 * t1 ^ 2) := by
          apply mul_le_mul (by gcongr) hv1 hvpos.le (mul_nonneg (mul_pos hB1 hC).le h3)
      _ < n * (1 - C * L) := hmain
      _ ≤ (s.A1 + 2 * s.A2 * t) * (1 - C * l) := mul_le_mul hnt hlam' hlam.le (hn.le.trans hnt)
  · rw [hbeta]; positivity

/-- The check on a piece, in rational numbers. -/
def checkCell (r : Row) (ta tb L : ℚ) : Bool :=
  let t0 := ta - 5463 / 20
  let t1 := tb - 5463 / 20
  let n := r.A1 + 2 * r.A2 * (if 0 ≤ r.A2 then t0 else t1)
  let v := fun t => r.A0 + r.A1 * t + r.A2 * t ^ 2
  let q := r.Pmax / r.B0 * (1 / (1 - r.B1 * t1 / 64)) ^ 64
  decide (0 < r.A0) && decide (0 < r.B0) && decide (0 < r.B1) && decide (0 ≤ t0) && decide (t0 ≤ t1) && decide (r.B1 * t1 < 64) && decide (0 < n) &&
  decide (1 / 2500 < v t0 * (1 - 447 / 5000 * L)) && decide (v t1 < 1 / 625) && decide (0 ≤ L) && decide (447 / 5000 * L < 1) &&
  decide (1 + q ≤ (1 + L / 64 + (L / 64) ^ 2 / 2) ^ 64) && decide (r.B1 * (447 / 5000) * (q / (1 + q)) * v t1 < n * (1 - 447 / 5000 * L))

/-- The check on consecutive pieces starting at `ta`. -/
def checkCells (r : Row) (ta : ℚ) : List (ℚ × ℚ) → Bool
  | [] => decide (ta = r.Tmax)
  | (tb, L) :: l => checkCell r ta tb L && checkCells r tb l

/-- The certificates. -/
def certs : List (List (ℚ × ℚ)) := [
  [(328, 1.12)],
  [(472, 1.36)],
  [(320, 3.3), (343, 3.55)],
  [(514, 1.49)],
  [(463, 0.93)],
  [(571, 1.73)],
  [(471, 1.36)],
  [(473, 1.35)],
  [(588, 1.01)],
  [(473, 1.28)],
  [(610, 1.16)],
  [(472, 1.1)],
  [(343, 1.02)],
  [(343, 3.12)],
  [(343, 2.96)],
  [(343, 2.89)],
  [(343, 2.83)],
  [(343, 2.82)],
  [(343, 2.83)],
  [(574, 1.06)],
  [(383, 0.59)],
  [(432, 0.86)],
  [(592, 1.93)],
  [(492, 1)],
  [(471, 0.93)],
  [(469, 1.04)],
  [(646, 3.54)],
  [(393, 0.62)]]

/-- The bounds of the constructor, in rational numbers. -/
def checkInit (r : Row) : Bool :=
  decide (1 / 10000 ≤ r.A0 ∧ r.A0 ≤ 1 / 500) && decide (1 / 10000000 ≤ r.A1 ∧ r.A1 ≤ 1 / 500000) && decide (-1 / 500000000 ≤ r.A2 ∧ r.A2 ≤ 1 / 100000000) && decide (10000000 ≤ r.B0 ∧ r.B0 ≤ 1000000000) &&
  decide (1 / 1000 ≤ r.B1 ∧ r.B1 ≤ 1 / 50) && decide (0 ≤ r.Tmin) && decide (r.Tmin + 1 ≤ r.Tmax) && decide (0 ≤ r.Pmin) && decide (r.Pmin + 1 ≤ r.Pmax)

theorem certs_ok : ((table.zip certs).all fun p => checkCells p.1 p.1.Tmin p.2) = true := by decide +kernel

theorem inits_ok : (table.all checkInit) = true := by decide +kernel

theorem names_nodup : (table.map Row.name).Nodup := by decide +kernel

theorem certs_length : certs.length = table.length := by decide +kernel

/-- The object made from a line. -/
noncomputable def Row.obj (r : Row) : Tait := ⟨r.A0, r.A1, r.A2, r.B0, r.B1, (r.Tmin, some (r.Tmax : ℝ)), (r.Pmin, some (r.Pmax : ℝ))⟩

theorem init_ok {A0 A1 A2 B0 B1 Tmin Tmax Pmin Pmax : ℝ} (h1 : 1 / 10000 ≤ A0 ∧ A0 ≤ 1 / 500) (h2 : 1 / 10000000 ≤ A1 ∧ A1 ≤ 1 / 500000) (h3 : -1 / 500000000 ≤ A2 ∧ A2 ≤ 1 / 100000000) (h4 : 10000000 ≤ B0 ∧ B0 ≤ 1000000000)
    (h5 : 1 / 1000 ≤ B1 ∧ B1 ≤ 1 / 50) (h6 : 0 ≤ Tmin) (h7 : Tmin + 1 ≤ Tmax) (h8 : 0 ≤ Pmin) (h9 : Pmin + 1 ≤ Pmax) :
    init A0 A1 A2 B0 B1 Tmin (some Tmax) Pmin (some Pmax) = .ok ⟨A0, A1, A2, B0, B1, (Tmin, some Tmax), (Pmin, some Pmax)⟩ := by
  have he : Verif.eps (α := ℝ) ≤ 1 := by norm_num [Verif.eps]
  have f1 : (1e-4 : ℝ) ≤ A0 ∧ A0 ≤ 2e-3 := by norm_num at h1 ⊢; exact h1
  have f2 : (1e-7 : ℝ) ≤ A1 ∧ A1 ≤ 2e-6 := by norm_num at h2 ⊢; exact h2
  have f3 : (-2e-9 : ℝ) ≤ A2 ∧ A2 ≤ 1e-8 := by norm_num at h3 ⊢; exact h3
  have f4 : (1e7 : ℝ) ≤ B0 ∧ B0 ≤ 1e9 := by norm_num at h4 ⊢; exact h4
  have f5 : (1e-3 : ℝ) ≤ B1 ∧ B1 ≤ 2e-2 := by norm_num at h5 ⊢; exact h5
  have g1 : 0 ≤ Tmax := by linarith
  have g2 : 0 ≤ Pmax := by linarith
  have g3 : Verif.eps ≤ Tmax - Tmin := by linarith
  have g4 : Verif.eps ≤ Pmax - Pmin := by linarith
  simp only [init, bound, if_pos f1, if_pos f2, if_pos f3, if_pos f4, if_pos f5, boundInf, Option.map, if_pos h6, if_pos g1, if_pos g2, if_pos g3, if_pos g4, if_pos h8,
    bind, Except.bind, pure, Except.pure]

local macro "rlt" h:term : tactic => `(tactic| (have h' := (Rat.cast_lt (K := ℝ)).2 $h; push_cast at h'; exact h'))

local macro "rle" h:term : tactic => `(tactic| (have h' := (Rat.cast_le (K := ℝ)).2 $h; push_cast at h'; exact h'))

theorem make_ok {r : Row} (h : checkInit r = true) : r.make = .ok r.obj := by
  simp only [checkInit, Bool.and_eq_true, decide_eq_true_eq] at h
  obtain ⟨⟨⟨⟨⟨⟨⟨⟨h1, h2⟩, h3⟩, h4⟩, h5⟩, h6⟩, h7⟩, h8⟩, h9⟩ := h
  unfold Row.make
  rw [init_ok ⟨by rle h1.1, by rle h1.2⟩ ⟨by rle h2.1, by rle h2.2⟩ ⟨by rle h3.1, by rle h3.2⟩ ⟨by rle h4.1, by rle h4.2⟩ ⟨by rle h5.1, by rle h5.2⟩ (by rle h6)
    (by rle h7) (by rle h8) (by rle h9)]
  rfl

theorem checkCell_sound {r : Row} {ta tb L : ℚ} (h : checkCell r ta tb L = true) {T P : ℝ} (hT0 : (ta : ℝ) ≤ T) (hT1 : T ≤ tb) (hP0 : 0 ≤ P) (hP : P ≤ r.Pmax) :
    4e-4 < eval r.obj T P ∧ eval r.obj T P < 1.6e-3 ∧ 0 < alpha r.obj T P ∧ 0 < beta r.obj T P := by
  simp only [checkCell, Bool.and_eq_true, decide_eq_true_eq] at h
  obtain ⟨⟨⟨⟨⟨⟨⟨⟨⟨⟨⟨⟨a1, a2⟩, a3⟩, a4⟩, a5⟩, a6⟩, a7⟩, a8⟩, a9⟩, a10⟩, a11⟩, a12⟩, a13⟩ := h
  have hC : C = ((447 / 5000 : ℚ) : ℝ) := by norm_num [C]
  set t0 : ℚ := ta - 5463 / 20 with ht0
  set t1 : ℚ := tb - 5463 / 20 with ht1
  have n0 : (r.A1 + 2 * r.A2 * (if 0 ≤ r.A2 then t0 else t1)) ≤ r.A1 + 2 * r.A2 * t0 := by
    split_ifs with hA
    · exact le_rfl
    · have := mul_le_mul_of_nonpos_left a5 (not_le.1 hA).le
      linarith
  have n1 : (r.A1 + 2 * r.A2 * (if 0 ≤ r.A2 then t0 else t1)) ≤ r.A1 + 2 * r.A2 * t1 := by
    split_ifs with hA
    · have := mul_le_mul_of_nonneg_left a5 hA
      linarith
    · exact le_rfl
  generalize (r.A1 + 2 * r.A2 * (if 0 ≤ r.A2 then t0 else t1)) = n at *
  have b6 : ((r.B1 * t1 : ℚ) : ℝ) < (64 : ℕ) := by exact_mod_cast a6
  have u1 := exp_upper 64 (by norm_num) b6
  have b10 : (0 : ℝ) ≤ L := by exact_mod_cast a10
  have u2 := exp_lower 64 (by norm_num) b10
  have eU : (((1 / (1 - r.B1 * t1 / 64)) ^ 64 : ℚ) : ℝ) = (1 / (1 - ((r.B1 * t1 : ℚ) : ℝ) / (64 : ℕ))) ^ 64 := by push_cast; rfl
  have eW : (((1 + L / 64 + (L / 64) ^ 2 / 2) ^ 64 : ℚ) : ℝ) = (1 + (L : ℝ) / (64 : ℕ) + ((L : ℝ) / (64 : ℕ)) ^ 2 / 2) ^ 64 := by push_cast; rfl
  rw [← eU] at u1
  rw [← eW] at u2
  generalize ((1 / (1 - r.B1 * t1 / 64)) ^ 64 : ℚ) = U at *
  have c12 : ((1 + r.Pmax / r.B0 * U : ℚ) : ℝ) ≤ exp L := by
    refine le_trans ?_ u2
    exact_mod_cast a12
  clear eU eW a12 u2
  have hA0 : (0 : ℝ) < r.A0 := by exact_mod_cast a1
  have hB0 : (0 : ℝ) < r.B0 := by exact_mod_cast a2
  have hB1 : (0 : ℝ) < r.B1 := by exact_mod_cast a3
  have d8 : (1 / 2500 : ℝ) < (r.A0 + r.A1 * t0 + r.A2 * t0 ^ 2) * (1 - 447 / 5000 * L) := by rlt a8
  have d9 : (r.A0 + r.A1 * t1 + r.A2 * t1 ^ 2 : ℝ) < 1 / 625 := by rlt a9
  have d11 : (447 / 5000 * L : ℝ) < 1 := by rlt a11
  have d13 : (r.B1 * (447 / 5000) * (r.Pmax / r.B0 * U / (1 + r.Pmax / r.B0 * U)) * (r.A0 + r.A1 * t1 + r.A2 * t1 ^ 2) : ℝ) < n * (1 - 447 / 5000 * L) := by rlt a13
  have hC' : C = (447 / 5000 : ℝ) := by norm_num [C]
  refine cell_real (s := r.obj) (t0 := t0) (t1 := t1) (n := n) (L := L) (Pm := r.Pmax) (U := U) hA0 hB0 hB1 (by exact_mod_cast a4) ?_ (by exact_mod_cast a7)
    (by rle n0) (by rle n1) ?_ ?_ b10 ?_ ?_ ?_ ?_ ?_ hP0 hP
  · push_cast at u1; exact u1
  · rw [hC']; norm_num at d8 ⊢; exact d8
  · norm_num at d9 ⊢; exact d9
  · rw [hC']; exact d11
  · push_cast at c12; exact c12
  · rw [hC']; exact d13
  · rw [ht0]; push_cast; norm_num; linarith
  · rw [ht1]; push_cast; norm_num; linarith

theorem checkCells_sound {r : Row} {ta : ℚ} {l : List (ℚ × ℚ)} (h : checkCells r ta l = true) {T P : ℝ} (hT0 : (ta : ℝ) < T) (hT1 : T ≤ r.Tmax) (hP0 : 0 ≤ P) (hP : P ≤ r.Pmax) :
    4e-4 < eval r.obj T P ∧ eval r.obj T P < 1.6e-3 ∧ 0 < alpha r.obj T P ∧ 0 < beta r.obj T P := by
  induction l generalizing ta with
  | nil =>
    simp only [checkCells, decide_eq_true_eq] at h
    rw [h] at hT0
    linarith
  | cons p l ih =>
    simp only [checkCells, Bool.and_eq_true] at h
    rcases le_or_gt T p.1 with hc | hc
    · exact checkCell_sound h.1 hT0.le hc hP0 hP
    · exact ih h.2 hc

theorem checkCells_sound' {r : Row} {ta : ℚ} {l : List (ℚ × ℚ)} (h : checkCells r ta l = true) (ht : ta < r.Tmax) {T P : ℝ} (hT0 : (ta : ℝ) ≤ T) (hT1 : T ≤ r.Tmax) (hP0 : 0 ≤ P)
    (hP : P ≤ r.Pmax) : 4e-4 < eval r.obj T P ∧ eval r.obj T P < 1.6e-3 ∧ 0 < alpha r.obj T P ∧ 0 < beta r.obj T P := by
  cases l with
  | nil =>
    simp only [checkCells, decide_eq_true_eq] at h
    exact absurd h ht.ne
  | cons p l =>
    simp only [checkCells, Bool.and_eq_true] at h
    rcases le_or_gt T p.1 with hc | hc
    · exact checkCell_sound h.1 hT0 hc hP0 hP
    · exact checkCells_sound h.2 hc hT1 hP0 hP

theorem zip_all {α β : Type} (f : α → β → Bool) (t : List α) (c : List β) (hl : c.length = t.length) (h : ((t.zip c).all fun p => f p.1 p.2) = true) {a : α} (ha : a ∈ t) :
    ∃ b, f a b = true := by
  induction t generalizing c with
  | nil => simp at ha
  | cons x t ih =>
    cases c with
    | nil => simp at hl
    | cons y c =>
      simp only [List.zip_cons_cons, List.all_cons, Bool.and_eq_true] at h
      rcases List.mem_cons.1 ha with rfl | ha
      · exact ⟨y, h.1⟩
      · exact ih c (by simpa using hl) h.2 ha

/-- Every line has a certificate. -/
theorem exists_cert {r : Row} (hr : r ∈ table) : ∃ l, checkCells r r.Tmin l = true :=
  zip_all (fun r l => checkCells r r.Tmin l) table certs certs_length certs_ok hr

theorem init_of_mem {r : Row} (hr : r ∈ table) : checkInit r = true := List.all_eq_true.1 inits_ok r hr

theorem range_of_mem {r : Row} (hr : r ∈ table) : r.Tmin < r.Tmax ∧ 0 ≤ r.Pmin ∧ 0 < r.B0 := by
  have h := init_of_mem hr
  simp only [checkInit, Bool.and_eq_true, decide_eq_true_eq] at h
  obtain ⟨⟨⟨⟨⟨⟨⟨⟨h1, h2⟩, h3⟩, h4⟩, h5⟩, h6⟩, h7⟩, h8⟩, h9⟩ := h
  exact ⟨by linarith, h8, by linarith⟩

theorem row_sound {r : Row} (hr : r ∈ table) {T P : ℝ} (hT0 : (r.Tmin : ℝ) ≤ T) (hT1 : T ≤ r.Tmax) (hP0 : 0 ≤ P) (hP : P ≤ r.Pmax) :
    4e-4 < eval r.obj T P ∧ eval r.obj T P < 1.6e-3 ∧ 0 < alpha r.obj T P ∧ 0 < beta r.obj T P := by
  obtain ⟨l, hl⟩ := exists_cert hr
  exact checkCells_sound' hl (range_of_mem hr).1 hT0 hT1 hP0 hP

end Verif.Tait
