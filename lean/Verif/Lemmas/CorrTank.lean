import Verif.Props.CorrForced
import Mathlib.Tactic.IntervalCases

/-! # Helper lemmas: agitated tanks; C97: tube banks -/

namespace Verif.Correlations

open Real

theorem tank_ref {i : Impeller} {Re K a : ℝ} (h : tankPar .wall i Re (1 / 3) 1 1 0.04 1 2 = .ok { K := K, a := a }) :
    nuTank .wall i Re 1 1 (1 / 3) 1 1 0.04 1 2 = .ok (K * Re ^ a) := by
  rw [nuTank, h]
  show Except.ok _ = _
  simp

theorem piece {c m x y : ℝ} (hc : 0 < c) (hm : 0 < m) (hx : 0 < x) (h : x < y) : c * x ^ m < c * y ^ m := by
  have := rpow_lt_rpow hx.le h hm
  gcongr

theorem raise {c d m k x0 x : ℝ} {n q : ℕ} (h0 : 0 < x0) (hx : x0 ≤ x) (hd : 0 < d) (hc : 0 < c) (hn : n ≠ 0) (hq : k = (q : ℝ) / n) (hk : (c / d) ^ n ≤ x0 ^ q) :
    c * x ^ m ≤ d * x ^ (m + k) := by
  have hx0 := h0.trans_le hx
  rw [rpow_add hx0]
  have hk0 : c / d ≤ x ^ k := by
    refine le_of_pow_le_pow_left₀ hn (by positivity) (hk.trans ?_)
    rw [← rpow_natCast (x ^ k), ← rpow_mul hx0.le, hq, div_mul_cancel₀ _ (by exact_mod_cast hn), rpow_natCast]
    gcongr
  rw [div_le_iff₀ hd] at hk0
  have : 0 < x ^ m := by positivity
  nlinarith

theorem raise1 {x : ℝ} (h : 100 ≤ x) : 0.8 * x ^ (0.4 : ℝ) ≤ 0.51 * x ^ (0.50 : ℝ) := by
  have := raise (c := 0.8) (d := 0.51) (m := 0.4) (k := 0.1) (n := 10) (q := 1) (by norm_num) h (by norm_num) (by norm_num) (by norm_num) (by norm_num) (by norm_num)
  norm_num at this ⊢; linarith

theorem raise2 {x : ℝ} (h : 1000 ≤ x) : 0.51 * x ^ (0.50 : ℝ) ≤ 0.27 * x ^ (0.63 : ℝ) := by
  have := raise (c := 0.51) (d := 0.27) (m := 0.5) (k := 0.13) (n := 100) (q := 13) (by norm_num) h (by norm_num) (by norm_num) (by norm_num) (by norm_num) (by norm_num)
  norm_num at this ⊢; linarith

theorem raise3 {x : ℝ} (h : 200000 ≤ x) : 0.27 * x ^ (0.63 : ℝ) ≤ 0.021 * x ^ (0.84 : ℝ) := by
  have := raise (c := 0.27) (d := 0.021) (m := 0.63) (k := 0.21) (n := 100) (q := 21) (by norm_num) h (by norm_num) (by norm_num) (by norm_num) (by norm_num) (by norm_num)
  norm_num at this ⊢; linarith

theorem bankCRe_pos {x ST SL : ℝ} (hx : 0 < x) (h : 0 < ST / SL) (al : Bool) : 0 < bankCRe x ST SL al := by
  unfold bankCRe
  cases al <;> simp only [if_true, if_false, Bool.false_eq_true] <;> split_ifs <;> positivity

theorem bankCRe_aligned {x y ST SL : ℝ} (hx : 0 < x) (h : x < y) : bankCRe x ST SL true < bankCRe y ST SL true := by
  have hy := hx.trans h
  have p1 := piece (c := 0.8) (m := 0.4) (by norm_num) (by norm_num) hx h
  have p2 := piece (c := 0.51) (m := 0.50) (by norm_num) (by norm_num) hx h
  have p3 := piece (c := 0.27) (m := 0.63) (by norm_num) (by norm_num) hx h
  have p4 := piece (c := 0.021) (m := 0.84) (by norm_num) (by norm_num) hx h
  have r1 := raise1 (x := y)
  have r2 := raise2 (x := y)
  have r3 := raise3 (x := y)
  unfold bankCRe
  simp only [if_true]
  norm_num only [not_and_or, not_lt, not_le] at *
  rcases lt_or_ge x 100 with a1 | a1
  · rw [if_pos a1]
    rcases lt_or_ge y 100 with b1 | b1
    · rw [if_pos b1]; exact p1
    · rw [if_neg (not_lt.2 b1)]
      rcases lt_or_ge y 1000 with b2 | b2
      · rw [if_pos ⟨b1, b2⟩]; linarith [r1 b1]
      · rw [if_neg (fun h => not_lt.2 (by assumption) h.2)]
        rcases lt_or_ge y 200000 with b3 | b3
        · rw [if_pos ⟨b2, b3⟩]; linarith [r1 b1, r2 b2]
        · rw [if_neg (fun h => not_lt.2 (by assumption) h.2)]; linarith [r1 b1, r2 b2, r3 b3]
  · rw [if_neg (not_lt.2 a1), if_neg (by linarith : ¬ y < 100)]
    rcases lt_or_ge x 1000 with a2 | a2
    · rw [if_pos ⟨a1, a2⟩]
      rcases lt_or_ge y 1000 with b2 | b2
      · rw [if_pos ⟨by linarith, b2⟩]; exact p2
      · rw [if_neg (fun h => not_lt.2 (by assumption) h.2)]
        rcases lt_or_ge y 200000 with b3 | b3
        · rw [if_pos ⟨b2, b3⟩]; linarith [r2 b2]
        · rw [if_neg (fun h => not_lt.2 (by assumption) h.2)]; linarith [r2 b2, r3 b3]
    · rw [if_neg (fun h : 100 ≤ x ∧ x < 1000 => by linarith [h.2]), if_neg (fun h : 100 ≤ y ∧ y < 1000 => by linarith [h.2])]
      rcases lt_or_ge x 200000 with a3 | a3
      · rw [if_pos ⟨a2, a3⟩]
        rcases lt_or_ge y 200000 with b3 | b3
        · rw [if_pos ⟨by linarith, b3⟩]; exact p3
        · rw [if_neg (fun h => not_lt.2 (by assumption) h.2)]; linarith [r3 b3]
      · rw [if_neg (fun h : 1000 ≤ x ∧ x < 200000 => by linarith [h.2]), if_neg (fun h : 1000 ≤ y ∧ y < 200000 => by linarith [h.2])]; exact p4

theorem bankVmax_lin (v D ST SL : ℝ) (al : Bool) : bankVmax v D ST SL al = v * bankVmax 1 D ST SL al := by
  simp only [bankVmax]
  split_ifs <;> ring

end Verif.Correlations
