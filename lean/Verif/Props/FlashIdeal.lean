import Verif.Lemmas.FlashIdeal

/-!
# C118: bubble and dew points of ideal mixtures

Raoult's law: `K_i = Psat_i(T)/P`, whatever the compositions.
-/

namespace Verif.Flash

open Finset

variable {N : ℕ}

/-- **C118.** Bubble pressure of an ideal mixture: `flash2_TV` with `beta = 0` succeeds in the first pass, from any starting pressure and compositions, with the exact value
`Σ z_i Psat_i`, the feed as liquid and the vapour of Raoult's law. -/
theorem C118_bubble_pressure (F : ℝ) {z Ps : Vec N} (hz : ∀ i, 0 ≤ z i) (hz1 : ∑ i, z i = 1) {T P0 atol rtol : ℝ} {n : ℕ} (x0 y0 : Option (Vec N)) {Kcalc : KFun N}
    (hK : ∀ P x y, Kcalc T P x y = fun i => Ps i / P) (hPs : ∀ i, 0 < Ps i) (h1 : ∃ i, 1 < Ps i) (hP0 : 0 < P0) (hrt : 0 ≤ rtol) (h9 : 1e-9 ≤ ∑ i, z i * Ps i) :
    flashTV F z T 0 Kcalc x0 y0 P0 (n + 1) atol rtol =
      .ok ⟨true, .converged, T, ∑ i, z i * Ps i, F, some F, some 0, some 0, z, z, fun i => z i * Ps i / ∑ j, z j * Ps j, fun i => Ps i / ∑ j, z j * Ps j⟩ := by
  have hS : 0 < ∑ i, z i * Ps i := by norm_num at h9; linarith
  have hzn := normalize_self hz1
  have hw1 : ∑ i, (normalize fun i => z i * Ps i) i = 1 := normalize_sum hS.ne'
  have hw0 : ∀ i, 0 ≤ (normalize fun i => z i * Ps i) i := normalize_nonneg fun i => mul_nonneg (hz i) (hPs i).le
  have he : ∀ L i, Real.exp (Real.log (Ps i) - L) = Real.exp (-L) * Ps i := fun L i => by
    rw [sub_eq_neg_add, Real.exp_add, Real.exp_log (hPs i)]
  have hio : ∀ u Kb0, ioP u Kb0 0 z = z := fun u Kb0 => by funext i; simp [ioP]
  have hs2 : ∀ L, ∑ i, Real.exp (-L) * Ps i * z i = Real.exp (-L) * ∑ i, z i * Ps i := fun L => by
    rw [mul_sum]; exact sum_congr rfl fun i _ => by ring
  have key := flashTV_onepass (F := F) (z := z) (Ps := Ps) (w := normalize fun i => z i * Ps i) (xs := z) (ys := normalize fun i => z i * Ps i) (T := T) (beta := 0) (R := 0)
    (P0 := P0) (atol := atol) (rtol := rtol) (Pe := ∑ i, z i * Ps i) (n := n) (x0 := x0) (y0 := y0) hK hPs h1 hw0 hw1 hP0 hrt
    (fun u Kb0 => by rw [innerR, if_pos]; rw [sub_zero, abs_zero]; exact eps_pos.le)
    (by
      rw [hzn]
      refine normalize_scale (c := 1 / P0) (by positivity) fun i => ?_
      ring)
    (fun P hP => by
      have : (fun i => (normalize fun i => z i * Ps i) i / (1 + 0 * (Ps i / P - 1))) = normalize fun i => z i * Ps i := by funext i; simp
      rw [weights, this, normalize_self hw1])
    (by rw [hzn, hio, hzn])
    (by
      rw [hzn]
      refine normalize_scale (c := Real.exp (-∑ i, (normalize fun i => z i * Ps i) i * Real.log (Ps i))) (Real.exp_pos _).ne' fun i => ?_
      simp only [ioEup, hio, he]
      ring)
    (by
      simp only [ioKb, ioEup, hzn, hio, he, hz1, hs2]
      have := Real.exp_pos (-∑ i, (normalize fun i => z i * Ps i) i * Real.log (Ps i))
      positivity)
    (by
      simp only [ioKb, ioEup, hzn, hio, he, hz1, hs2]
      rw [Real.exp_neg]
      have := Real.exp_pos (∑ i, (normalize fun i => z i * Ps i) i * Real.log (Ps i))
      field_simp) h9
  rw [key, hzn]
  simp
  rfl

/-- **C118.** Dew pressure of an ideal mixture: `flash2_TV` with `beta = 1` succeeds in the first pass, from any starting pressure and compositions, with the exact value
`1/Σ (z_i/Psat_i)`, the feed as vapour and the liquid of Raoult's law. -/
theorem C118_dew_pressure (F : ℝ) {z Ps : Vec N} (hz : ∀ i, 0 ≤ z i) (hz1 : ∑ i, z i = 1) {T P0 atol rtol : ℝ} {n : ℕ} (x0 y0 : Option (Vec N)) {Kcalc : KFun N}
    (hK : ∀ P x y, Kcalc T P x y = fun i => Ps i / P) (hPs : ∀ i, 0 < Ps i) (h1 : ∃ i, 1 < Ps i) (hP0 : 0 < P0) (hrt : 0 ≤ rtol) (h9 : 1e-9 ≤ 1 / ∑ i, z i / Ps i) :
    flashTV F z T 1 Kcalc x0 y0 P0 (n + 1) atol rtol =
      .ok ⟨true, .converged, T, 1 / ∑ i, z i / Ps i, F, some 0, some F, some 1, z, fun i => z i / Ps i / ∑ j, z j / Ps j, z, fun i => Ps i / (1 / ∑ j, z j / Ps j)⟩ := by
  have hS : 0 < ∑ i, z i / Ps i := by
    have : (0 : ℝ) < 1 / ∑ i, z i / Ps i := lt_of_lt_of_le (by norm_num) h9
    exact one_div_pos.1 this
  have hzn := normalize_self hz1
  have hw1 : ∑ i, (normalize fun i => z i / Ps i) i = 1 := normalize_sum hS.ne'
  have hw0 : ∀ i, 0 ≤ (normalize fun i => z i / Ps i) i := normalize_nonneg fun i => div_nonneg (hz i) (hPs i).le
  have hne : ∀ i, Ps i ≠ 0 := fun i => (hPs i).ne'
  have he : ∀ L i, Real.exp (Real.log (Ps i) - L) = Real.exp (-L) * Ps i := fun L i => by
    rw [sub_eq_neg_add, Real.exp_add, Real.exp_log (hPs i)]
  have hio : ∀ L, ioP (fun i => Real.log (Ps i) - L) (Real.exp L / P0) 1 z = fun i => P0 * (z i / Ps i) := fun L => by
    funext i
    have := Real.exp_pos L
    have h2 := hne i
    simp only [ioP, he, Real.exp_neg, sub_self, mul_one, zero_add]
    field_simp
  have heu : ∀ L, ioEup (fun i => Real.log (Ps i) - L) (Real.exp L / P0) 1 z = fun i => Real.exp (-L) * P0 * z i := fun L => by
    funext i
    have h2 := hne i
    simp only [ioEup, hio, he]
    field_simp
  have hs2 : ∑ i, P0 * (z i / Ps i) = P0 * ∑ i, z i / Ps i := by rw [mul_sum]
  have hs3 : ∀ L, ∑ i, Real.exp (-L) * P0 * z i = Real.exp (-L) * P0 := fun L => by rw [← mul_sum, hz1, mul_one]
  have key := flashTV_onepass (F := F) (z := z) (Ps := Ps) (w := normalize fun i => z i / Ps i) (xs := normalize fun i => z i / Ps i) (ys := z) (T := T) (beta := 1) (R := 1)
    (P0 := P0) (atol := atol) (rtol := rtol) (Pe := 1 / ∑ i, z i / Ps i) (n := n) (x0 := x0) (y0 := y0) hK hPs h1 hw0 hw1 hP0 hrt
    (fun u Kb0 => by
      rw [innerR, if_neg (by norm_num [eps]), if_pos]
      rw [sub_self, abs_zero]; exact eps_pos.le)
    (by
      rw [hzn]
      have : (fun i => Ps i / P0 * (z i / (1 + 1 * (Ps i / P0 - 1)))) = z := by
        funext i
        have h2 := hne i
        field_simp
        ring_nf
        field_simp
      rw [phaseY, this, hzn])
    (fun P hP => by
      rw [weights]
      refine normalize_scale (c := P) hP.ne' fun i => ?_
      have h2 := hne i
      field_simp
      ring_nf
      field_simp)
    (by rw [hzn, hio]; exact normalize_scale (c := P0) hP0.ne' fun i => rfl)
    (by
      rw [hzn, heu, ← hzn, normalize_scale (w := z) (c := Real.exp (-∑ i, (normalize fun i => z i / Ps i) i * Real.log (Ps i)) * P0) (by positivity)]
      intro i; rw [hzn])
    (by
      simp only [ioKb, hzn, heu, hio, hs2, hs3]
      positivity)
    (by
      simp only [ioKb, hzn, heu, hio, hs2, hs3]
      rw [Real.exp_neg]
      have := Real.exp_pos (∑ i, (normalize fun i => z i / Ps i) i * Real.log (Ps i))
      field_simp) h9
  rw [key, hzn]
  simp
  rfl

/-- **C118.** The dew pressure is never above the bubble pressure. -/
theorem C118_dew_le_bubble {z Ps : Vec N} (hz : ∀ i, 0 ≤ z i) (hz1 : ∑ i, z i = 1) (hPs : ∀ i, 0 < Ps i) : 1 / ∑ i, z i / Ps i ≤ ∑ i, z i * Ps i := by
  obtain ⟨j, hj⟩ := exists_pos_of_sum hz hz1
  have hS : 0 < ∑ i, z i / Ps i := sum_pos' (fun i _ => div_nonneg (hz i) (hPs i).le) ⟨j, mem_univ _, div_pos hj (hPs j)⟩
  rw [div_le_iff₀ hS]
  have h := sum_mul_sq_le_sq_mul_sq univ (fun i => √(z i * Ps i)) fun i => √(z i / Ps i)
  have e : ∀ i, √(z i * Ps i) * √(z i / Ps i) = z i := fun i => by
    have := (hPs i).ne'
    rw [← Real.sqrt_mul (mul_nonneg (hz i) (hPs i).le), show z i * Ps i * (z i / Ps i) = z i ^ 2 by field_simp, Real.sqrt_sq (hz i)]
  have e1 : ∀ i, √(z i * Ps i) ^ 2 = z i * Ps i := fun i => Real.sq_sqrt (mul_nonneg (hz i) (hPs i).le)
  have e2 : ∀ i, √(z i / Ps i) ^ 2 = z i / Ps i := fun i => Real.sq_sqrt (div_nonneg (hz i) (hPs i).le)
  simp only [e, e1, e2, hz1, one_pow] at h
  exact h

/-- **C118.** Bubble temperature, K-values independent of composition and rising with temperature: the true bubble temperature (`Σ z_i K_i = 1`), given as starting value, is returned as
such in the first pass of `flash2_PV`, provided the components are all present and not all equally volatile. -/
theorem C118_bubble_temperature (F : ℝ) {z : Vec N} (hz : ∀ i, 0 < z i) (hz1 : ∑ i, z i = 1) {P T0 atol rtol : ℝ} {n : ℕ} (x0 y0 : Option (Vec N)) {Kcalc : KFun N} {k : ℝ → Vec N}
    (hK : ∀ T x y, Kcalc T P x y = k T) (hk : ∀ T i, 0 < k T i) (hne : ∃ i j, k T0 i ≠ k T0 j) (hT0 : 0 < T0) (hrt : 0 ≤ rtol)
    (hup : ∀ i, k T0 i < k (T0 + 1) i) (hb : ∑ i, z i * k T0 i = 1) :
    flashPV F z P 0 Kcalc x0 y0 T0 (n + 1) atol rtol =
      .ok ⟨true, .converged, T0, P, F, some F, some 0, some 0, z, z, fun i => z i * k T0 i, k T0⟩ := by
  have hzn := normalize_self hz1
  have hw0 : ∀ i, 0 < z i * k T0 i := fun i => mul_pos (hz i) (hk T0 i)
  have hwe : weights 0 (fun i => z i * k T0 i) (k T0) = fun i => z i * k T0 i := by
    have : (fun i => (fun i => z i * k T0 i) i / (1 + 0 * (k T0 i - 1))) = fun i => z i * k T0 i := by funext i; simp
    rw [weights, this, normalize_self hb]
  have hy : phaseY z (k T0) 0 = fun i => z i * k T0 i := by
    have : (fun i => k T0 i * (z i / (1 + 0 * (k T0 i - 1)))) = fun i => z i * k T0 i := by funext i; simp; ring
    rw [phaseY, this, normalize_self hb]
  have hlk : lnKb (fun i => z i * k T0 i) (k T0) < lnKb (fun i => z i * k T0 i) (k (T0 + 1)) := by
    obtain ⟨i, -⟩ := hne
    refine sum_lt_sum_of_nonempty ⟨i, mem_univ _⟩ fun j _ => mul_lt_mul_of_pos_left (Real.log_lt_log (hk T0 j) (hup j)) (hw0 j)
  set lk := lnKb (fun i => z i * k T0 i) (k T0) with hlkd
  set B := (lnKb (fun i => z i * k T0 i) (k (T0 + 1)) - lk) / (1 / (T0 + 1) - 1 / T0) with hB
  have hB0 : B ≠ 0 := by
    have h1 : 1 / (T0 + 1) < 1 / T0 := one_div_lt_one_div_of_lt hT0 (by linarith)
    exact div_ne_zero (by linarith) (by linarith)
  have hR : ∀ u Kb0, innerR u Kb0 0 z (n + 1) atol = .ok (some 0) := fun u Kb0 => by
    rw [innerR, if_pos]; rw [sub_zero, abs_zero]; exact eps_pos.le
  have hio : ∀ u Kb0, ioP u Kb0 0 z = z := fun u Kb0 => by funext i; simp [ioP]
  have heu : ∀ Kb0, ioEup (fun i => Real.log (k T0 i) - lk) Kb0 0 z = fun i => Real.exp (-lk) * (z i * k T0 i) := fun Kb0 => by
    funext i
    simp only [ioEup, hio]
    rw [sub_eq_neg_add, Real.exp_add, Real.exp_log (hk T0 i)]
    ring
  have hy' : ∀ Kb0, normalize (ioEup (fun i => Real.log (k T0 i) - lk) Kb0 0 z) = fun i => z i * k T0 i := fun Kb0 => by
    rw [heu, normalize_scale (w := fun i => z i * k T0 i) (Real.exp_pos (-lk)).ne' fun i => rfl, normalize_self hb]
  have hkb : ∀ Kb0, ioKb (fun i => Real.log (k T0 i) - lk) Kb0 0 z = Real.exp lk := fun Kb0 => by
    simp only [ioKb, heu, hio, hz1, ← mul_sum, hb, Real.exp_neg, mul_one, one_div, inv_inv]
  have hT : 1 / (1 / 300 + (lk - (lk - B * (1 / T0 - 1 / 300))) / B) = T0 := by
    have : (lk - (lk - B * (1 / T0 - 1 / 300))) / B = 1 / T0 - 1 / 300 := by field_simp; ring
    rw [this]
    simp
  have hq : ∀ x, paramsPVall T0 P x (fun i => z i * k T0 i) 0 Kcalc 300 = (fun i => Real.log (k T0 i) - lk, Real.exp lk, lk - B * (1 / T0 - 1 / 300), B) := fun x => by
    simp only [paramsPVall, hK, hwe]
    rw [← hlkd, ← hB]
  have hr : ∀ x, paramsPV T0 P x (fun i => z i * k T0 i) 0 Kcalc 300 B = (fun i => Real.log (k T0 i) - lk, lk - B * (1 / T0 - 1 / 300), k T0) := fun x => by
    simp only [paramsPV, hK, hwe]
    rw [← hlkd]
  obtain ⟨i, hi⟩ := exists_pos_u hw0 hb (hk T0) hne
  obtain ⟨v, hv⟩ := minPos_ok (l := List.ofFn (fun i => Real.log (k T0 i) - lk) ++ [lk - B * (1 / T0 - 1 / 300)]) (v := Real.log (k T0 i) - lk)
    (List.mem_append_left _ (List.mem_ofFn.2 ⟨i, rfl⟩)) hi
  have hv0 := (minPos_spec hv).2
  have hc : ∀ f : Option (Fin N) → ℝ, AllClose f f (v * rtol) := fun f i => by
    rw [sub_self, abs_zero]
    positivity
  simp only [flashPV, hzn, hK, hy, hq, pvLoop, hR, ok_bind, hio, hy', hkb, Real.log_exp, hT, hr, hv, if_pos (hc _)]
  simp
  rfl

/-- **C118.** Feeds need not be normalised: only the proportions matter. -/
theorem C118_any_feed (F : ℝ) {z : Vec N} (hz : ∑ i, z i ≠ 0) (Q beta : ℝ) (Kcalc : KFun N) (x0 y0 : Option (Vec N)) (Q0 : ℝ) (n : ℕ) (atol rtol : ℝ) :
    flashTV F z Q beta Kcalc x0 y0 Q0 n atol rtol = flashTV F (fun i => z i / ∑ j, z j) Q beta Kcalc x0 y0 Q0 n atol rtol ∧
      flashPV F z Q beta Kcalc x0 y0 Q0 n atol rtol = flashPV F (fun i => z i / ∑ j, z j) Q beta Kcalc x0 y0 Q0 n atol rtol := by
  have e : normalize (fun i => z i / ∑ j, z j) = normalize z := normalize_self (normalize_sum hz)
  constructor
  · simp only [flashTV, e]
  · simp only [flashPV, e]

/-- Benzene and toluene at about 365 K: bubble pressure 101 kPa for an equimolar mixture. -/
example (x0 y0 : Option (Vec 2)) : ∃ r, flashTV 2 ![1 / 2, 1 / 2] 365 0 (fun _ P _ _ i => ![144000, 58000] i / P) x0 y0 100 (9 + 1) 1e-9 1e-6 = .ok r ∧ r.success = true ∧ r.P = 101000 := by
  refine ⟨_, C118_bubble_pressure 2 (Ps := ![144000, 58000]) (fun i => by fin_cases i <;> norm_num) (by norm_num [Fin.sum_univ_two]) x0 y0 (fun _ _ _ => rfl)
    (fun i => by fin_cases i <;> norm_num) ⟨0, by norm_num⟩ (by norm_num) (by norm_num) (by norm_num [Fin.sum_univ_two]), rfl, ?_⟩
  norm_num [Fin.sum_univ_two]

example (x0 y0 : Option (Vec 2)) : ∃ r, flashTV 2 ![1 / 2, 1 / 2] 365 1 (fun _ P _ _ i => ![144000, 48000] i / P) x0 y0 100 (9 + 1) 1e-9 1e-6 = .ok r ∧ r.success = true ∧ r.P = 72000 := by
  refine ⟨_, C118_dew_pressure 2 (Ps := ![144000, 48000]) (fun i => by fin_cases i <;> norm_num) (by norm_num [Fin.sum_univ_two]) x0 y0 (fun _ _ _ => rfl)
    (fun i => by fin_cases i <;> norm_num) ⟨0, by norm_num⟩ (by norm_num) (by norm_num) (by norm_num [Fin.sum_univ_two]), rfl, ?_⟩
  norm_num [Fin.sum_univ_two]

/-- `K = (3/2, 1/2) T/300`: the equimolar mixture boils at 300 K. -/
example (P : ℝ) (x0 y0 : Option (Vec 2)) : ∃ r, flashPV 2 ![1 / 2, 1 / 2] P 0 (fun T _ _ _ i => ![3 / 2, 1 / 2] i * Real.exp (T / 300 - 1)) x0 y0 300 (9 + 1) 1e-9 1e-6 = .ok r ∧
    r.success = true ∧ r.T = 300 := by
  have hpos : ∀ i, (0 : ℝ) < (![3 / 2, 1 / 2] : Vec 2) i := by intro i; fin_cases i <;> norm_num
  exact ⟨_, C118_bubble_temperature 2 (k := fun T i => ![3 / 2, 1 / 2] i * Real.exp (T / 300 - 1)) (fun i => by fin_cases i <;> norm_num) (by norm_num [Fin.sum_univ_two]) x0 y0
    (fun _ _ _ => rfl) (fun T i => mul_pos (hpos i) (Real.exp_pos _)) ⟨0, 1, by norm_num⟩ (by norm_num) (by norm_num)
    (fun i => mul_lt_mul_of_pos_left (Real.exp_lt_exp.2 (by norm_num)) (hpos i)) (by norm_num [Fin.sum_univ_two]), rfl, rfl⟩

end Verif.Flash
