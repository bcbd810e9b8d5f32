import Verif.Lemmas.TransportCond

/-! # C93: pressure correction of gas thermal conductivity (Stiel-Thodos) -/

namespace Verif.Transport

open Finset Real

variable {N : ℕ}

/-- The three-piece density function of Stiel and Thodos. -/
noncomputable def stPiece (r : ℝ) : ℝ :=
  if r < 0.5 then 1.22e-2 * (exp (0.535 * r) - 1) else if r < 2.0 then 1.14e-2 * (exp (0.67 * r) - 1.069) else 2.60e-3 * (exp (1.155 * r) + 2.016)

theorem kvpc_eq {R NA v M Tc Pc Zc : ℝ} (h : Zc * R * Tc / Pc / v < 2.8) : kvpc R NA v M Tc Pc Zc =
    .ok (stPiece (Zc * R * Tc / Pc / v) / (((Tc * M ^ 3 * NA ^ 2) / (R ^ 5 * Pc ^ 4)) ^ (1 / 6 : ℝ) * Zc ^ 5)) := by
  unfold kvpc stPiece
  dsimp only
  split_ifs <;> rfl

/-- C93. `KVPC_Stiel_Thodos` raises `ValueError` exactly when the reduced density is at least 2.8. -/
theorem C93_error (R NA v M Tc Pc Zc : ℝ) : kvpc R NA v M Tc Pc Zc = .error .ValueError ↔ 2.8 ≤ Zc * R * Tc / Pc / v := by
  constructor
  · intro h
    by_contra hn
    rw [kvpc_eq (not_le.1 hn)] at h
    cases h
  · intro h
    unfold kvpc
    dsimp only
    norm_num at h
    rw [if_neg (by norm_num; linarith), if_neg (by norm_num; linarith), if_neg (by norm_num; linarith)]

theorem stPiece_pos {r : ℝ} (h : 0 < r) : 0 < stPiece r := by
  unfold stPiece
  split_ifs with h1 h2
  · exact mul_pos (by norm_num) (sub_pos.2 (one_lt_exp_iff.2 (by positivity)))
  · refine mul_pos (by norm_num) (sub_pos.2 ?_)
    have := add_one_le_exp (0.67 * r)
    norm_num at *
    linarith
  · have := exp_pos (1.155 * r)
    refine mul_pos (by norm_num) (add_pos this (by norm_num))

theorem stPiece_strictMono {r s : ℝ} (h0 : 0 < r) (h : r < s) : stPiece r < stPiece s := by
  have m1 : ∀ {r s : ℝ}, r ≤ s → 1.22e-2 * (exp (0.535 * r) - 1) ≤ 1.22e-2 * (exp (0.535 * s) - 1) := fun h => by gcongr
  have m2 : ∀ {r s : ℝ}, r ≤ s → 1.14e-2 * (exp (0.67 * r) - 1.069) ≤ 1.14e-2 * (exp (0.67 * s) - 1.069) := fun h => by gcongr
  have m3 : ∀ {r s : ℝ}, r ≤ s → 2.60e-3 * (exp (1.155 * r) + 2.016) ≤ 2.60e-3 * (exp (1.155 * s) + 2.016) := fun h => by gcongr
  have j1 := st_jump1
  have j2 := st_jump2
  unfold stPiece
  by_cases a1 : r < 0.5
  · rw [if_pos a1]
    by_cases b1 : s < 0.5
    · rw [if_pos b1]; gcongr
    · rw [if_neg b1]
      have k1 := ((m1 a1.le).trans_lt j1)
      by_cases b2 : s < 2.0
      · rw [if_pos b2]; exact k1.trans_le (m2 (not_lt.1 b1))
      · rw [if_neg b2]
        exact (k1.trans_le (m2 (by norm_num))).trans (j2.trans_le (m3 (not_lt.1 b2)))
  · have b1 : ¬s < 0.5 := fun hb => a1 (h.trans hb)
    rw [if_neg a1, if_neg b1]
    by_cases a2 : r < 2.0
    · rw [if_pos a2]
      by_cases b2 : s < 2.0
      · rw [if_pos b2]; gcongr
      · rw [if_neg b2]; exact ((m2 a2.le).trans_lt j2).trans_le (m3 (not_lt.1 b2))
    · have b2 : ¬s < 2.0 := fun hb => a2 (h.trans hb)
      rw [if_neg a2, if_neg b2]; gcongr

/-- C93. The correction is positive and strictly increases on compression, across the two changes of formula. -/
theorem C93_monotone {R NA v v' M Tc Pc Zc : ℝ} (hR : 0 < R) (hN : 0 < NA) (hM : 0 < M) (hT : 0 < Tc) (hP : 0 < Pc) (hZ : 0 < Zc) (hv : 0 < v)
    (h : v < v') (hr : Zc * R * Tc / Pc / v < 2.8) :
    ∃ k k', kvpc R NA v M Tc Pc Zc = .ok k ∧ kvpc R NA v' M Tc Pc Zc = .ok k' ∧ 0 < k' ∧ k' < k := by
  have hV : 0 < Zc * R * Tc / Pc := by positivity
  have hlt : Zc * R * Tc / Pc / v' < Zc * R * Tc / Pc / v := div_lt_div_of_pos_left hV hv h
  have hd : 0 < ((Tc * M ^ 3 * NA ^ 2) / (R ^ 5 * Pc ^ 4)) ^ (1 / 6 : ℝ) * Zc ^ 5 := by positivity
  have hp : 0 < Zc * R * Tc / Pc / v' := div_pos hV (hv.trans h)
  exact ⟨_, _, kvpc_eq hr, kvpc_eq (hlt.trans hr), div_pos (stPiece_pos hp) hd, div_lt_div_of_pos_right (stPiece_strictMono hp hlt) hd⟩

example : ∃ k k', kvpc 8.314 6.022e23 1e-4 0.044 304 7.38e6 0.274 = .ok k ∧ kvpc 8.314 6.022e23 2e-3 0.044 304 7.38e6 0.274 = .ok k' ∧ 0 < k' ∧ k' < k :=
  C93_monotone (by norm_num) (by norm_num) (by norm_num) (by norm_num) (by norm_num) (by norm_num) (by norm_num) (by norm_num) (by norm_num)

/-! ## Mixtures -/

/-- Cubic mixing of critical volumes. -/
noncomputable def vcPair (vc : Fin N → ℝ) (i j : Fin N) : ℝ := if i = j then vc i else (1 / 8) * (vc i ^ (1 / 3 : ℝ) + vc j ^ (1 / 3 : ℝ)) ^ 3

/-- Geometric mixing of critical temperatures. -/
noncomputable def tcPair (Tc : Fin N → ℝ) (i j : Fin N) : ℝ := if i = j then Tc i else √(Tc i * Tc j)

theorem loop_eq (y vc Tc : Fin N → ℝ) :
    (List.finRange N).foldl (fun s i => (List.finRange N).foldl (fun s j => kvmxStep y vc Tc s (i, j)) s) (0, 0) =
      (∑ i, ∑ j, y i * y j * vcPair vc i j, ∑ i, ∑ j, y i * y j * vcPair vc i j * tcPair Tc i j) := by
  have inner : ∀ (s : ℝ × ℝ) (i : Fin N), (List.finRange N).foldl (fun s j => kvmxStep y vc Tc s (i, j)) s =
      (s.1 + ∑ j, y i * y j * vcPair vc i j, s.2 + ∑ j, y i * y j * vcPair vc i j * tcPair Tc i j) := fun s i => by
    rw [← finRange_sum, ← finRange_sum]
    exact foldl_pair _ _ _ s
  simp only [inner]
  rw [foldl_pair, finRange_sum, finRange_sum, zero_add, zero_add]

/-- C93. A mixture of copies of one substance obeying `Zc = 0.291 - 0.08 w` has the conductivity correction of that substance; so has a mixture
that contains only one component. -/
theorem C93_mixture {R NA v : ℝ} (hR : 0 < R) :
    (∀ (y : Fin N → ℝ) (M Tc Pc w : ℝ), ∑ i, y i = 1 → 0 < Tc → 0 < Pc → 0 < 0.291 - 0.08 * w →
      kvmxpc R NA v y (fun _ => M) (fun _ => Tc) (fun _ => Pc) (fun _ => 0.291 - 0.08 * w) (fun _ => w) = kvpc R NA v M Tc Pc (0.291 - 0.08 * w)) ∧
    ∀ (k : Fin N) (M Tc Pc Zc w : Fin N → ℝ), 0 < Tc k → 0 < Pc k → 0 < Zc k → Zc k = 0.291 - 0.08 * w k →
      kvmxpc R NA v (Pi.single k 1) M Tc Pc Zc w = kvpc R NA v (M k) (Tc k) (Pc k) (Zc k) := by
  constructor
  · intro y M Tc Pc w hy hT hP hZ
    have hV : 0 < (0.291 - 0.08 * w) * R * Tc / Pc := by positivity
    unfold kvmxpc
    simp only [loop_eq, ← sum_mul, hy, one_mul]
    have e1 : ∀ i j : Fin N, vcPair (fun _ => (0.291 - 0.08 * w) * R * Tc / Pc) i j = (0.291 - 0.08 * w) * R * Tc / Pc := fun i j => by
      unfold vcPair
      split_ifs
      · rfl
      · generalize (0.291 - 0.08 * w) * R * Tc / Pc = V at *
        have : (V ^ (1 / 3 : ℝ)) ^ 3 = V := by rw [← rpow_natCast, ← rpow_mul hV.le]; norm_num
        calc (1 / 8) * (V ^ (1 / 3 : ℝ) + V ^ (1 / 3 : ℝ)) ^ 3 = (V ^ (1 / 3 : ℝ)) ^ 3 := by ring
          _ = V := this
    have e2 : ∀ i j : Fin N, tcPair (fun _ => Tc) i j = Tc := fun i j => by
      unfold tcPair
      split_ifs
      · rfl
      · exact sqrt_mul_self hT.le
    have yy : ∀ c : ℝ, ∑ i, ∑ j, y i * y j * c = c := fun c => by
      have : ∀ i, ∑ j, y i * y j * c = y i * c := fun i => by rw [← sum_mul, ← mul_sum, hy, mul_one]
      simp only [this]
      rw [← sum_mul, hy, one_mul]
    have yy2 : ∀ c d : ℝ, ∑ i, ∑ j, y i * y j * c * d = c * d := fun c d => by
      rw [← yy (c * d)]
      exact sum_congr rfl fun i _ => sum_congr rfl fun j _ => by ring
    simp only [e1, e2, yy, yy2, mul_div_cancel_left₀ _ hV.ne']
    congr 1
    field_simp
  · intro k M Tc Pc Zc w hT hP hZ hw
    have hV : 0 < Zc k * R * Tc k / Pc k := by positivity
    have hs : ∀ f : Fin N → ℝ, ∑ i, (Pi.single k (1 : ℝ) : Fin N → ℝ) i * f i = f k := fun f => by
      rw [sum_eq_single k (fun i _ hi => by rw [Pi.single_eq_of_ne hi, zero_mul]) (fun h => absurd (mem_univ k) h), Pi.single_eq_same, one_mul]
    have hss : ∀ f : Fin N → Fin N → ℝ, ∑ i, ∑ j, (Pi.single k (1 : ℝ) : Fin N → ℝ) i * (Pi.single k (1 : ℝ) : Fin N → ℝ) j * f i j = f k k := fun f => by
      have : ∀ i, ∑ j, (Pi.single k (1 : ℝ) : Fin N → ℝ) i * (Pi.single k (1 : ℝ) : Fin N → ℝ) j * f i j = (Pi.single k (1 : ℝ) : Fin N → ℝ) i * f i k := fun i => by
        rw [← hs (f i), mul_sum]
        exact sum_congr rfl fun j _ => by ring
      simp only [this]
      exact hs _
    have hss2 : ∀ f g : Fin N → Fin N → ℝ, ∑ i, ∑ j, (Pi.single k (1 : ℝ) : Fin N → ℝ) i * (Pi.single k (1 : ℝ) : Fin N → ℝ) j * f i j * g i j =
        f k k * g k k := fun f g => by
      rw [← hss fun i j => f i j * g i j]
      exact sum_congr rfl fun i _ => sum_congr rfl fun j _ => by ring
    unfold kvmxpc
    simp only [loop_eq, hs, hss, hss2]
    simp only [vcPair, tcPair, if_true]
    rw [mul_div_cancel_left₀ _ hV.ne', ← hw]
    congr 1
    field_simp

/-- C93 fails for real substances, whose critical compressibility is not exactly `0.291 - 0.08 w`: for pure water (`Zc = 0.229`, `w = 0.345`) passed as a
one-component mixture the correction is less than 60 % of the one for the pure substance. -/
theorem C93_pure_false {R NA : ℝ} (hR : 0 < R) (hN : 0 < NA) : ∃ v k k', 0 < v ∧ kvpc R NA v 0.018 647 22.06e6 0.229 = .ok k ∧
    kvmxpc R NA v ![1] ![0.018] ![647] ![22.06e6] ![0.229] ![0.345] = .ok k' ∧ 0 < k ∧ k' < 0.6 * k := by
  obtain ⟨V, hVe⟩ : ∃ V, V = 0.229 * R * 647 / 22.06e6 := ⟨_, rfl⟩
  have hV : 0 < V := by rw [hVe]; positivity
  have hr1 : (0.229 : ℝ) * R * 647 / 22.06e6 / V < 2.8 := by rw [← hVe, div_self hV.ne']; norm_num
  have hm : kvmxpc R NA V ![1] ![0.018] ![647] ![22.06e6] ![0.229] ![0.345] = kvpc R NA V 0.018 647 (0.2634 * R * 647 / V) 0.2634 := by
    unfold kvmxpc
    simp only [loop_eq, Fin.sum_univ_one, vcPair, tcPair, if_true, Matrix.cons_val_fin_one, one_mul]
    rw [← hVe, mul_div_cancel_left₀ _ hV.ne']
    norm_num
  have hr2 : (0.2634 : ℝ) * R * 647 / (0.2634 * R * 647 / V) / V = 1 := by field_simp
  have hr3 : (0.229 : ℝ) * R * 647 / 22.06e6 / V = 1 := by rw [← hVe, div_self hV.ne']
  refine ⟨V, _, _, hV, kvpc_eq hr1, hm.trans (kvpc_eq (by rw [hr2]; norm_num)), ?_, ?_⟩
  · exact div_pos (stPiece_pos (by rw [hr3]; norm_num)) (by positivity)
  · rw [hr2, hr3]
    have hs := stPiece_pos one_pos
    obtain ⟨X, hX⟩ : ∃ X, X = 647 * 0.018 ^ 3 * NA ^ 2 / R ^ 5 := ⟨_, rfl⟩
    have hX0 : 0 < X := by rw [hX]; positivity
    have g1 : (647 * 0.018 ^ 3 * NA ^ 2 / (R ^ 5 * 22.06e6 ^ 4)) = X / 22.06e6 ^ 4 := by rw [hX, div_div]
    have g2 : (647 * 0.018 ^ 3 * NA ^ 2 / (R ^ 5 * (0.2634 * R * 647 / V) ^ 4)) = X / 22.06e6 ^ 4 * (0.229 / 0.2634) ^ 4 := by
      rw [hX, hVe]
      field_simp
    rw [g1, g2, mul_rpow (by positivity) (by positivity)]
    have hG : 0 < (X / 22.06e6 ^ 4) ^ (1 / 6 : ℝ) := by positivity
    generalize (X / 22.06e6 ^ 4) ^ (1 / 6 : ℝ) = G at *
    generalize stPiece 1 = S at *
    have hq : (0.229 / 0.2634 : ℝ) ≤ ((0.229 / 0.2634 : ℝ) ^ 4) ^ (1 / 6 : ℝ) := by
      rw [← rpow_natCast, ← rpow_mul (by norm_num)]
      have := rpow_le_rpow_of_exponent_ge (show (0 : ℝ) < 0.229 / 0.2634 by norm_num) (by norm_num) (show ((4 : ℕ) : ℝ) * (1 / 6) ≤ 1 by norm_num)
      rwa [rpow_one] at this
    generalize ((0.229 / 0.2634 : ℝ) ^ 4) ^ (1 / 6 : ℝ) = q at *
    have hq0 : 0 < q := lt_of_lt_of_le (by norm_num) hq
    rw [← mul_div_assoc, div_lt_div_iff₀ (by positivity) (by positivity)]
    have : G * 0.229 ^ 5 < 0.6 * (G * q * 0.2634 ^ 5) := by
      have e : 0.6 * (G * q * 0.2634 ^ 5) = G * (0.6 * q * 0.2634 ^ 5) := by ring
      rw [e]
      refine mul_lt_mul_of_pos_left ?_ hG
      norm_num at *
      linarith
    have := mul_lt_mul_of_pos_left this hs
    linarith

end Verif.Transport
