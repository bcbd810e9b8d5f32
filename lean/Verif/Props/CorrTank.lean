import Verif.Lemmas.CorrTank
import Verif.Lemmas.Interval

/-! # C96: agitated tanks; C97: tube banks -/

namespace Verif.Correlations

open Real

/-! ## C96: `Nu_tank` -/

/-- The combinations of surface and impeller the documentation offers. -/
def TankOffered : List (Surface × Impeller) :=
  [(.wall, .b4F), (.wall, .b4P), (.wall, .b6D), (.wall, .HE3), (.wall, .PROP), (.wall, .anchor), (.wall, .helicalRibbon),
    (.bottomHead, .b4F), (.bottomHead, .b4P), (.bottomHead, .b6D), (.bottomHead, .HE3),
    (.helicalCoil, .PROP), (.helicalCoil, .b6D), (.harpCoil0, .b4F), (.harpCoil45, .b6D)]

/-- Exactly the offered combinations are accepted, whatever the numbers; everything else is a `ValueError`. -/
theorem C96_accepted_iff (s : Surface) (i : Impeller) (Re Pr mur D_T H_T L_Ls d_T P_D : ℝ) (nb : ℕ) :
    ((∃ x, nuTank s i Re Pr mur D_T H_T L_Ls d_T P_D nb = .ok x) ↔ (s, i) ∈ TankOffered)
      ∧ ((s, i) ∉ TankOffered → nuTank s i Re Pr mur D_T H_T L_Ls d_T P_D nb = .error .ValueError) := by
  have ok : ∀ p, tankPar s i Re D_T H_T L_Ls d_T P_D nb = .ok p → ∃ x, nuTank s i Re Pr mur D_T H_T L_Ls d_T P_D nb = .ok x := by
    intro p hp
    rw [nuTank, hp]
    exact ⟨_, rfl⟩
  have err : tankPar s i Re D_T H_T L_Ls d_T P_D nb = .error .ValueError → nuTank s i Re Pr mur D_T H_T L_Ls d_T P_D nb = .error .ValueError := by
    intro hp
    rw [nuTank, hp]
    rfl
  have h : (∃ p, (s, i) ∈ TankOffered ∧ tankPar s i Re D_T H_T L_Ls d_T P_D nb = .ok p)
      ∨ ((s, i) ∉ TankOffered ∧ tankPar s i Re D_T H_T L_Ls d_T P_D nb = .error .ValueError) := by
    cases s <;> cases i <;>
      first
        | exact Or.inl ⟨_, by decide, rfl⟩
        | exact Or.inr ⟨by decide, rfl⟩
        | (left
           simp only [tankPar]
           split_ifs <;> exact ⟨_, by decide, rfl⟩)
  rcases h with ⟨p, hm, hp⟩ | ⟨hm, hp⟩
  · exact ⟨iff_of_true (ok p hp) hm, fun h => absurd hm h⟩
  · refine ⟨iff_of_false ?_ hm, fun _ => err hp⟩
    rintro ⟨x, hx⟩
    rw [err hp] at hx
    cases hx

/-- For positive arguments the Nusselt number is positive, except for an anchor below `Re = 12`. -/
theorem C96_positive (s : Surface) (i : Impeller) (Re Pr mur D_T H_T L_Ls d_T P_D : ℝ) (nb : ℕ) (hRe : 0 < Re) (hPr : 0 < Pr) (hm : 0 < mur)
    (hD : 0 < D_T) (hH : 0 < H_T) (hL : 0 < L_Ls) (hd : 0 < d_T) (hP : 0 < P_D) (hn : 0 < nb) (ha : i = .anchor → 12 ≤ Re) (x : ℝ)
    (hx : nuTank s i Re Pr mur D_T H_T L_Ls d_T P_D nb = .ok x) : 0 < x := by
  have hn' : (0 : ℝ) < nb := by exact_mod_cast hn
  have h : ∀ p, tankPar s i Re D_T H_T L_Ls d_T P_D nb = .ok p → 0 < p.K ∧ 0 < p.Gc := by
    intro p hp
    cases s <;> cases i <;> simp only [tankPar] at hp <;>
      first
        | (cases hp; done)
        | (injection hp with hp; subst hp; constructor <;> dsimp only <;> positivity)
        | (split_ifs at hp with h1 h2 h3 <;> injection hp with hp <;> subst hp <;>
            first
              | (constructor <;> norm_num; done)
              | (exfalso; have := ha rfl; linarith)
              | (exfalso; rw [not_and] at h2; exact h2 (not_lt.1 h1) (not_le.1 h3)))
  rw [nuTank] at hx
  cases hp : tankPar s i Re D_T H_T L_Ls d_T P_D nb with
  | error e => rw [hp] at hx; cases hx
  | ok p =>
    rw [hp] at hx
    injection hx with hx
    obtain ⟨h1, h2⟩ := h p hp
    rw [← hx]
    positivity

example : ∃ x, nuTank .helicalCoil .b6D 1e5 7 1 (1 / 3) 1 1 0.04 1 2 = .ok x := ⟨_, rfl⟩

/-- An anchor below `Re = 12` transfers no heat at all, silently. -/
theorem C96_anchor_zero_false (Re Pr mur D_T H_T L_Ls d_T P_D : ℝ) (nb : ℕ) (h : Re < 12) :
    nuTank .wall .anchor Re Pr mur D_T H_T L_Ls d_T P_D nb = .ok 0 := by
  unfold nuTank
  have : tankPar .wall .anchor Re D_T H_T L_Ls d_T P_D nb = .ok { K := 0 } := if_pos h
  rw [this]
  show Except.ok _ = _
  simp

/-- With the reference geometry, all geometric corrections are one (the propeller up to rounding of its constant 1.29/1.29). -/
theorem C96_reference (s : Surface) (i : Impeller) (Re Pr mur : ℝ) (x : ℝ) (hx : nuTank s i Re Pr mur (1 / 3) 1 1 0.04 1 2 = .ok x) :
    ∃ K a b : ℝ, x = K * Re ^ a * Pr ^ b * mur ^ (0.14 : ℝ) ∧ 0 ≤ K ∧ 1 / 3 ≤ a ∧ a ≤ 0.67 ∧ 0.3 ≤ b ∧ b ≤ 0.4 := by
  have h : ∀ p, tankPar s i Re (1 / 3) 1 1 0.04 1 2 = .ok p → p.Gc = 1 ∧ 0 ≤ p.K ∧ 1 / 3 ≤ p.a ∧ p.a ≤ 0.67 ∧ 0.3 ≤ p.b ∧ p.b ≤ 0.4 := by
    intro p hp
    cases s <;> cases i <;> simp only [tankPar] at hp <;>
      first
        | (cases hp; done)
        | (injection hp with hp; subst hp; norm_num; done)
        | (split_ifs at hp <;> injection hp with hp <;> subst hp <;> norm_num)
  rw [nuTank] at hx
  cases hp : tankPar s i Re (1 / 3) 1 1 0.04 1 2 with
  | error e => rw [hp] at hx; cases hx
  | ok p =>
    rw [hp] at hx
    injection hx with hx
    obtain ⟨h1, h2⟩ := h p hp
    exact ⟨p.K, p.a, p.b, by rw [← hx, h1, mul_one], h2⟩

/-- For every impeller other than anchor and helical ribbon, the Nusselt number increases strictly with the Reynolds number. -/
theorem C96_mono (s : Surface) (i : Impeller) (hi : i ≠ .anchor) (hi' : i ≠ .helicalRibbon) (Re Re' Pr mur D_T H_T L_Ls d_T P_D : ℝ) (nb : ℕ) (hRe : 0 < Re)
    (hlt : Re < Re') (hPr : 0 < Pr) (hm : 0 < mur) (hD : 0 < D_T) (hH : 0 < H_T) (hL : 0 < L_Ls) (hd : 0 < d_T) (hP : 0 < P_D) (hn : 0 < nb) (x y : ℝ)
    (hx : nuTank s i Re Pr mur D_T H_T L_Ls d_T P_D nb = .ok x) (hy : nuTank s i Re' Pr mur D_T H_T L_Ls d_T P_D nb = .ok y) : x < y := by
  have hn' : (0 : ℝ) < nb := by exact_mod_cast hn
  have e : tankPar s i Re' D_T H_T L_Ls d_T P_D nb = tankPar s i Re D_T H_T L_Ls d_T P_D nb := by
    cases i <;> first | rfl | exact absurd rfl hi | exact absurd rfl hi'
  have h0 := C96_positive s i Re Pr mur D_T H_T L_Ls d_T P_D nb hRe hPr hm hD hH hL hd hP hn (fun h => absurd h hi) x hx
  have ha : ∀ p, tankPar s i Re D_T H_T L_Ls d_T P_D nb = .ok p → 0 < p.a := by
    intro p hp
    cases s <;> cases i <;> simp only [tankPar] at hp <;>
      first
        | (cases hp; done)
        | (injection hp with hp; subst hp; norm_num; done)
        | exact absurd rfl hi
        | exact absurd rfl hi'
  rw [nuTank] at hx hy
  rw [e] at hy
  cases hp : tankPar s i Re D_T H_T L_Ls d_T P_D nb with
  | error e => rw [hp] at hx; cases hx
  | ok p =>
    rw [hp] at hx hy
    injection hx with hx
    injection hy with hy
    have h1 : Re ^ p.a < Re' ^ p.a := rpow_lt_rpow hRe.le hlt (ha p hp)
    have hr : 0 < Re ^ p.a := by positivity
    have ey : y = x * (Re' ^ p.a / Re ^ p.a) := by rw [← hx, ← hy]; field_simp
    rw [ey]
    exact lt_mul_of_one_lt_right h0 ((one_lt_div hr).2 h1)

example : (Impeller.b6D ≠ .anchor) ∧ (Impeller.b6D ≠ .helicalRibbon) ∧ (0 : ℝ) < 1e4 ∧ (1e4 : ℝ) < 1e5 := by refine ⟨by decide, by decide, ?_, ?_⟩ <;> norm_num

/-- Coefficients and exponents of chapter 14.4 of the Handbook of Industrial Mixing for the turbine impellers: `K`, exponents of `Re` and `Pr`,
and the exponents of `D/(T/3)`, `H/T`, `L/Ls`, `d/(0.04 T)` and `2/nb`. -/
noncomputable def TankTable : List ((Surface × Impeller) × (ℝ × ℝ × ℝ) × (ℝ × ℝ × ℝ × ℝ × ℝ)) :=
  [((.wall, .b6D), (0.74, 2 / 3, 1 / 3), (0, -0.15, 0.2, 0, 0)),
    ((.wall, .b4F), (0.66, 2 / 3, 1 / 3), (0, -0.15, 0.2, 0, 0)),
    ((.wall, .b4P), (0.45, 2 / 3, 1 / 3), (0, -0.15, 0.2, 0, 0)),
    ((.wall, .HE3), (0.31, 2 / 3, 1 / 3), (0, -0.15, 0, 0, 0)),
    ((.wall, .PROP), (0.5, 2 / 3, 1 / 3), (0, -0.15, 0, 0, 0)),
    ((.bottomHead, .b6D), (0.5, 2 / 3, 1 / 3), (0, -0.15, 0.2, 0, 0)),
    ((.bottomHead, .b4F), (0.4, 2 / 3, 1 / 3), (0, -0.15, 0.2, 0, 0)),
    ((.bottomHead, .b4P), (1.08, 2 / 3, 1 / 3), (0, -0.15, 0.2, 0, 0)),
    ((.bottomHead, .HE3), (0.9, 2 / 3, 1 / 3), (0, -0.15, 0, 0, 0)),
    ((.helicalCoil, .PROP), (0.016, 0.67, 0.37), (0.1, 0, 0, 0.5, 0)),
    ((.helicalCoil, .b6D), (0.03, 2 / 3, 1 / 3), (0.1, -0.15, 0.2, 0.5, 0)),
    ((.harpCoil0, .b4F), (0.06, 0.65, 0.3), (0.33, -0.15, 0.2, 0, 0.2)),
    ((.harpCoil45, .b6D), (0.021, 0.67, 0.4), (0.33, -0.15, 0.2, 0, 0.2))]

/-- The correlation of every turbine impeller is the one of the table, with all its geometric corrections; the propeller at the wall has the pitch correction
`1.29 (P/D) / (0.29 + P/D)` besides. -/
theorem C96_geometry (s : Surface) (i : Impeller) (K a b eD eH eL ed en : ℝ) (Re Pr mur D_T H_T L_Ls d_T P_D : ℝ) (nb : ℕ)
    (h : ((s, i), (K, a, b), (eD, eH, eL, ed, en)) ∈ TankTable) :
    nuTank s i Re Pr mur D_T H_T L_Ls d_T P_D nb =
      .ok (K * Re ^ a * Pr ^ b * mur ^ (0.14 : ℝ) * ((3 * D_T) ^ eD * H_T ^ eH * L_Ls ^ eL * (25 * d_T) ^ ed * (2 / nb) ^ en) *
        if (s, i) = (.wall, .PROP) then 1.29 * P_D / (0.29 + P_D) else 1) := by
  have e1 : D_T / (1 / 3) = 3 * D_T := by ring
  have e2 : d_T / 0.04 = 25 * d_T := by ring
  simp only [TankTable, List.mem_cons, List.not_mem_nil, or_false, Prod.mk.injEq] at h
  rcases h with h | h | h | h | h | h | h | h | h | h | h | h | h <;>
    (obtain ⟨⟨rfl, rfl⟩, ⟨rfl, rfl, rfl⟩, rfl, rfl, rfl, rfl, rfl⟩ := h
     simp only [nuTank, tankPar, e1, e2, rpow_zero, Prod.mk.injEq, reduceCtorEq, and_true, and_false, if_true, if_false]
     show Except.ok _ = Except.ok _
     congr 1
     ring)

example : (((Surface.wall, Impeller.HE3), ((0.31 : ℝ), (2 / 3 : ℝ), (1 / 3 : ℝ)), ((0 : ℝ), (-0.15 : ℝ), (0 : ℝ), (0 : ℝ), (0 : ℝ))) ∈ TankTable) := by
  simp [TankTable]

/-- The close-clearance impellers, piece by piece; the geometry has no influence. -/
theorem C96_close (Re Pr mur D_T H_T L_Ls d_T P_D : ℝ) (nb : ℕ) :
    (12 ≤ Re → Re < 100 → nuTank .wall .anchor Re Pr mur D_T H_T L_Ls d_T P_D nb = .ok (0.69 * Re ^ (1 / 2 : ℝ) * Pr ^ (1 / 3 : ℝ) * mur ^ (0.14 : ℝ))) ∧
    (100 ≤ Re → nuTank .wall .anchor Re Pr mur D_T H_T L_Ls d_T P_D nb = .ok (0.32 * Re ^ (2 / 3 : ℝ) * Pr ^ (1 / 3 : ℝ) * mur ^ (0.14 : ℝ))) ∧
    (Re < 13 → nuTank .wall .helicalRibbon Re Pr mur D_T H_T L_Ls d_T P_D nb = .ok (0.94 * Re ^ (1 / 3 : ℝ) * Pr ^ (1 / 3 : ℝ) * mur ^ (0.14 : ℝ))) ∧
    (13 ≤ Re → Re < 210 → nuTank .wall .helicalRibbon Re Pr mur D_T H_T L_Ls d_T P_D nb = .ok (0.61 * Re ^ (1 / 2 : ℝ) * Pr ^ (1 / 3 : ℝ) * mur ^ (0.14 : ℝ))) ∧
    (210 ≤ Re → nuTank .wall .helicalRibbon Re Pr mur D_T H_T L_Ls d_T P_D nb = .ok (0.25 * Re ^ (2 / 3 : ℝ) * Pr ^ (1 / 3 : ℝ) * mur ^ (0.14 : ℝ))) := by
  refine ⟨fun h1 h2 => ?_, fun h1 => ?_, fun h1 => ?_, fun h1 h2 => ?_, fun h1 => ?_⟩
  · simp only [nuTank, tankPar]; rw [if_neg (not_lt.2 h1), if_pos ⟨h1, h2⟩]; exact congrArg Except.ok (mul_one _)
  · simp only [nuTank, tankPar]; rw [if_neg (by linarith), if_neg (fun h => by linarith [h.2]), if_pos h1]; exact congrArg Except.ok (mul_one _)
  · simp only [nuTank, tankPar]; rw [if_pos h1]; exact congrArg Except.ok (mul_one _)
  · simp only [nuTank, tankPar]; rw [if_neg (not_lt.2 h1), if_pos ⟨h1, h2⟩]; exact congrArg Except.ok (mul_one _)
  · simp only [nuTank, tankPar]; rw [if_neg (by linarith), if_neg (fun h => by linarith [h.2])]; exact congrArg Except.ok (mul_one _)

example : (12 : ℝ) ≤ 50 ∧ (50 : ℝ) < 100 ∧ (13 : ℝ) ≤ 50 ∧ (50 : ℝ) < 210 := by norm_num

/-- The example of the documentation: an HE3 impeller of 2/3 m at 120 rpm in a tank of 2 m with water gives 1.6e3 W/m²/K. -/
theorem C96_example : ∃ x, nuTank .wall .HE3 (120 / 60 * (2 / 3) ^ 2 * 1e3 / 1e-3) (1e-3 * 4.2e3 / 0.6) 1 (1 / 3) 1 1 0.04 1 2 = .ok x ∧ 1550 ≤ x * 0.6 / 2 ∧ x * 0.6 / 2 < 1650 := by
  refine ⟨_, C96_geometry .wall .HE3 0.31 (2 / 3) (1 / 3) 0 (-0.15) 0 0 0 _ _ _ _ _ _ _ _ _ (by simp [TankTable]), ?_, ?_⟩ <;>
    (rw [if_neg (by simp)]; norm_num only [rpow_zero, one_rpow, mul_one]; iv)

/-- Stirring faster never transfers less heat: false. The helical ribbon drops at `Re = 13`, the anchor at `Re = 100`. -/
theorem C96_ribbon_monotone_false :
    ∃ x y, nuTank .wall .helicalRibbon 12.99 1 1 (1 / 3) 1 1 0.04 1 2 = .ok x ∧ nuTank .wall .helicalRibbon 13 1 1 (1 / 3) 1 1 0.04 1 2 = .ok y ∧ y < x := by
  refine ⟨_, _, tank_ref (K := 0.94) (a := 1 / 3) ?_, tank_ref (K := 0.61) (a := 1 / 2) ?_, ?_⟩
  · simp only [tankPar]; rw [if_pos (by norm_num)]
  · simp only [tankPar]; rw [if_neg (by norm_num), if_pos (by norm_num)]
  · refine lt_of_pow_lt_pow_left₀ 6 (by positivity) ?_
    rw [mul_pow, mul_pow, ← rpow_natCast ((13 : ℝ) ^ _), ← rpow_mul (by norm_num), ← rpow_natCast ((12.99 : ℝ) ^ _), ← rpow_mul (by norm_num)]
    norm_num

/-- The same for the anchor: less heat at `Re = 100` than at `Re = 99.99`. -/
theorem C96_anchor_monotone_false :
    ∃ x y, nuTank .wall .anchor 99.99 1 1 (1 / 3) 1 1 0.04 1 2 = .ok x ∧ nuTank .wall .anchor 100 1 1 (1 / 3) 1 1 0.04 1 2 = .ok y ∧ y < x := by
  refine ⟨_, _, tank_ref (K := 0.69) (a := 1 / 2) ?_, tank_ref (K := 0.32) (a := 2 / 3) ?_, ?_⟩
  · simp only [tankPar]; rw [if_neg (by norm_num), if_pos (by norm_num)]
  · simp only [tankPar]; rw [if_neg (by norm_num), if_neg (by norm_num), if_pos (by norm_num)]
  · refine lt_of_pow_lt_pow_left₀ 6 (by positivity) ?_
    rw [mul_pow, mul_pow, ← rpow_natCast ((100 : ℝ) ^ _), ← rpow_mul (by norm_num), ← rpow_natCast ((99.99 : ℝ) ^ _), ← rpow_mul (by norm_num)]
    norm_num

/-! ## C97: `Nu_cylinder_bank` -/

/-- The row correction: between 0.70 (aligned) or 0.64 (staggered) and one, never decreasing with the number of rows, exactly one from 20 rows on. -/
theorem C97_rows (al : Bool) (n m : ℕ) (h : n ≤ m) :
    bankC2 al n ≤ bankC2 al m ∧ (if al then 0.70 else 0.64) ≤ bankC2 al n ∧ bankC2 al n ≤ 1 ∧ (20 ≤ n → bankC2 al n = 1) := by
  have step : ∀ k, bankC2 al k ≤ bankC2 al (k + 1) := by
    intro k
    rcases lt_or_ge k 20 with hk | hk
    · cases al <;> interval_cases k <;> norm_num [bankC2, interp, tableAligned, tableStaggered]
    · simp [bankC2, not_lt.2 hk, not_lt.2 (hk.trans (Nat.le_succ k))]
  have mono := monotone_nat_of_le_succ step
  have one : ∀ k, 20 ≤ k → bankC2 al k = 1 := fun k hk => if_neg (not_lt.2 hk)
  have zero : bankC2 al 0 = if al then 0.70 else 0.64 := by cases al <;> norm_num [bankC2, interp, tableAligned, tableStaggered]
  refine ⟨mono h, ?_, ?_, one n⟩
  · rw [← zero]; exact mono (Nat.zero_le _)
  · rw [← one (max n 20) (le_max_right _ _)]; exact mono (le_max_left _ _)

example : (4 : ℕ) ≤ 10 := by norm_num

/-- The tabulated values themselves. -/
theorem C97_rows_table :
    (([1, 2, 3, 4, 5, 7, 10, 13, 16, 20] : List ℕ).map (bankC2 true) = [0.70, 0.80, 0.86, 0.90, 0.92, 0.95, 0.97, 0.98, 0.99, 1.00])
      ∧ (([1, 2, 3, 4, 5, 7, 10, 13, 16, 20] : List ℕ).map (bankC2 false) = [0.64, 0.76, 0.84, 0.89, 0.92, 0.95, 0.97, 0.98, 0.99, 1.00]) := by
  constructor <;> norm_num [bankC2, interp, tableAligned, tableStaggered]

/-- The maximum velocity is that in the narrowest gap: transverse for aligned tubes, transverse or twice the diagonal one for staggered tubes. -/
theorem C97_vmax (v D ST SL : ℝ) (al : Bool) (hD : 0 < D) (hT : D < ST) (hS : D < √(SL ^ 2 + (ST / 2) ^ 2)) :
    bankVmax v D ST SL al = v * ST / (if al then ST - D else min (ST - D) (2 * (√(SL ^ 2 + (ST / 2) ^ 2) - D))) := by
  simp only [bankVmax]
  cases al
  · simp only [true_and, Bool.false_eq_true, if_false]
    split_ifs with h
    · rw [min_eq_right (by linarith)]
    · rw [min_eq_left (by linarith)]
  · simp

example : (0 : ℝ) < 1 ∧ (1 : ℝ) < 2 ∧ (1 : ℝ) < √(2 ^ 2 + (2 / 2) ^ 2) := by
  refine ⟨by norm_num, by norm_num, ?_⟩
  rw [lt_sqrt (by norm_num)]; norm_num

theorem bankVmax_pos {v D ST SL : ℝ} {al : Bool} (hv : 0 < v) (hD : 0 < D) (hT : D < ST) (hS : D < √(SL ^ 2 + (ST / 2) ^ 2)) : 0 < bankVmax v D ST SL al := by
  rw [C97_vmax v D ST SL al hD hT hS]
  have h0 := hD.trans hT
  have h1 : 0 < ST - D := by linarith
  have h2 : 0 < 2 * (√(SL ^ 2 + (ST / 2) ^ 2) - D) := by linarith
  cases al
  · simp only [Bool.false_eq_true, if_false]
    exact div_pos (by positivity) (lt_min h1 h2)
  · simp only [if_true]; positivity

/-- Tube banks: positive; warning exactly when the Reynolds number in the narrowest gap or the Prandtl number is out of range; with aligned tubes strictly
increasing with the velocity over all four regimes; never decreasing with the number of rows. -/
theorem C97_bank (v rho mu Pr Prs D ST SL : ℝ) (al : Bool) (NL : ℕ) (hv : 0 < v) (hr : 0 < rho) (hm : 0 < mu) (hP : 0 < Pr) (hPs : 0 < Prs) (hD : 0 < D)
    (hT : D < ST) (hL : 0 < SL) (hS : D < √(SL ^ 2 + (ST / 2) ^ 2)) :
    0 < (nuCylinderBank v rho mu Pr Prs al D ST SL NL).1
      ∧ ((nuCylinderBank v rho mu Pr Prs al D ST SL NL).2 = []
          ↔ (10 ≤ rho * (v * ST / (if al then ST - D else min (ST - D) (2 * (√(SL ^ 2 + (ST / 2) ^ 2) - D)))) * D / mu
              ∧ rho * (v * ST / (if al then ST - D else min (ST - D) (2 * (√(SL ^ 2 + (ST / 2) ^ 2) - D)))) * D / mu ≤ 2e6) ∧ 0.7 ≤ Pr ∧ Pr ≤ 500)
      ∧ (∀ v', v < v' → al = true → (nuCylinderBank v rho mu Pr Prs al D ST SL NL).1 < (nuCylinderBank v' rho mu Pr Prs al D ST SL NL).1)
      ∧ (∀ N', NL ≤ N' → (nuCylinderBank v rho mu Pr Prs al D ST SL NL).1 ≤ (nuCylinderBank v rho mu Pr Prs al D ST SL N').1) := by
  have h0 : 0 < ST := hD.trans hT
  have hc2 : ∀ n, 0 < bankC2 al n := fun n => lt_of_lt_of_le (by split_ifs <;> norm_num) (C97_rows al n n le_rfl).2.1
  have hV : ∀ w, 0 < w → 0 < rho * bankVmax w D ST SL al * D / mu := fun w hw => by have := bankVmax_pos (al := al) hw hD hT hS; positivity
  have hb := bankCRe_pos (hV v hv) (div_pos h0 hL) al
  refine ⟨?_, ?_, ?_, ?_⟩
  · simp only [nuCylinderBank]
    have := hc2 NL
    positivity
  · simp only [nuCylinderBank, List.append_eq_nil_iff, C87_warn_iff]
    rw [C97_vmax v D ST SL al hD hT hS]
    norm_num
  · intro v' hvv ha
    subst ha
    simp only [nuCylinderBank]
    have hlt : rho * bankVmax v D ST SL true * D / mu < rho * bankVmax v' D ST SL true * D / mu := by
      have : bankVmax v D ST SL true < bankVmax v' D ST SL true := by
        rw [bankVmax_lin v, bankVmax_lin v']
        exact mul_lt_mul_of_pos_right hvv (bankVmax_pos one_pos hD hT hS)
      gcongr
    have := bankCRe_aligned (ST := ST) (SL := SL) (hV v hv) hlt
    have := hc2 NL
    gcongr
  · intro N' hN
    simp only [nuCylinderBank]
    have := (C97_rows al NL N' hN).1
    gcongr

example : (0 : ℝ) < 6 ∧ (0 : ℝ) < 1.2 ∧ (0 : ℝ) < 1.8e-5 ∧ (0.0164 : ℝ) < 0.0313 ∧ (0.0164 : ℝ) < √(0.0343 ^ 2 + (0.0313 / 2) ^ 2) := by
  refine ⟨by norm_num, by norm_num, by norm_num, by norm_num, ?_⟩
  rw [lt_sqrt (by norm_num)]; norm_num

/-- With staggered tubes the same is false: the heat transfer drops by some 10 % at a Reynolds number of 100. -/
theorem C97_staggered_monotone_false :
    (nuCylinderBank 50 1 1 1 1 false 1 2 2 20).1 < 0.91 * (nuCylinderBank 49.5 1 1 1 1 false 1 2 2 20).1 := by
  have hS : (1.5 : ℝ) ≤ √(2 ^ 2 + (2 / 2) ^ 2) := by rw [le_sqrt' (by norm_num)]; norm_num
  have hv : ∀ v : ℝ, bankVmax v 1 2 2 false = v * 2 / (2 - 1) := by
    intro v
    simp only [bankVmax]
    rw [if_neg]
    rintro ⟨_, h⟩
    norm_num at h hS
    linarith
  simp only [nuCylinderBank, hv]
  norm_num [bankC2, bankCRe]
  have h : (6.27 : ℝ) < 99 ^ (2 / 5 : ℝ) := by
    refine lt_of_pow_lt_pow_left₀ 5 (by positivity) ?_
    rw [← rpow_natCast ((99 : ℝ) ^ _), ← rpow_mul (by norm_num)]
    norm_num
  linarith

end Verif.Correlations
