import Verif.Lemmas.AcmAux

/-!
# C51-C54, C82: activity coefficient models

The specification of an activity coefficient is thermodynamic: `ln γ_i` is the derivative of the total excess Gibbs energy `n gE(n/n_T)/(R T)` with
respect to the amount of component `i`.
-/

namespace Verif.Acm

open Finset

variable {N : ℕ}

/-- The extensive property of a composition-dependent molar property. -/
noncomputable def total (g : (Fin N → ℝ) → ℝ) (n : Fin N → ℝ) : ℝ := (∑ i, n i) * g fun i => n i / ∑ j, n j

/-- `v` is the partial molar property of component `i`. -/
def IsPartialMolar (g : (Fin N → ℝ) → ℝ) (n : Fin N → ℝ) (i : Fin N) (v : ℝ) : Prop := HasDerivAt (fun t => total g (n + Pi.single i t)) v 0

/-! ### C51: ideal solution -/

/-- C51 (ideal solution). -/
theorem C51_ideal (n : Fin N → ℝ) (i : Fin N) : IsPartialMolar (fun _ => idealGE) n i (Real.log (idealGamma i)) ∧
    ∑ i : Fin N, n i * Real.log (idealGamma i) = idealGE := by
  simp only [IsPartialMolar, total, idealGE, idealGamma, mul_zero, Real.log_one, sum_const_zero, and_true]
  exact hasDerivAt_const 0 0

/-! ### C51: NRTL -/

/-- C51 (NRTL): `Σ x_i ln γ_i = gE/(R T)`. -/
theorem C51_nrtl_sum {R T : ℝ} (hRT : R * T ≠ 0) (x : Fin N → ℝ) (hx : ∀ i, 0 ≤ x i) (hx1 : ∑ i, x i = 1) (tau alpha : Mat N) :
    ∑ i, x i * Real.log (nrtlGamma x tau alpha i) = nrtlGE R T x tau alpha / (R * T) := by
  simp only [nrtlGamma, nrtlGE, Real.log_exp]
  set G : Mat N := fun i j => Real.exp (-alpha i j * tau i j) with hG
  have hB : ∀ j, 0 < ∑ i, x i * G i j := fun j => sum_pos_of x _ (by rw [hx1]; exact one_pos) hx fun i => Real.exp_pos _
  rw [mul_div_cancel_left₀ _ hRT]
  have h1 : ∀ i, x i * ((∑ l, x l * (tau l i * G l i)) / (∑ l, x l * G l i) +
      ((∑ j, tau i j * G i j * (x j / ∑ l, x l * G l j)) - ∑ j, G i j * (x j * (∑ l, x l * (tau l j * G l j)) / (∑ l, x l * G l j) ^ 2))) =
      x i * ((∑ l, x l * (tau l i * G l i)) / (∑ l, x l * G l i)) +
        ∑ j, (x i * (tau i j * G i j) * (x j / ∑ l, x l * G l j) -
          x i * G i j * (x j * (∑ l, x l * (tau l j * G l j)) / (∑ l, x l * G l j) ^ 2)) := by
    intro i
    rw [mul_add, mul_sub, mul_sum, mul_sum, ← sum_sub_distrib]
    congr 1
    exact sum_congr rfl fun j _ => by ring
  rw [sum_congr rfl fun i _ => h1 i, sum_add_distrib, sum_comm (f := fun i j => _ - _)]
  have h2 : ∀ j, ∑ i, (x i * (tau i j * G i j) * (x j / ∑ l, x l * G l j) -
      x i * G i j * (x j * (∑ l, x l * (tau l j * G l j)) / (∑ l, x l * G l j) ^ 2)) = 0 := by
    intro j
    rw [sum_sub_distrib, ← sum_mul, ← sum_mul]
    have := (hB j).ne'
    field_simp
    ring
  rw [sum_congr rfl fun j _ => h2 j, sum_const_zero, add_zero]

/-- C51 (NRTL): `ln γ_i` is the partial molar excess Gibbs energy over `R T`. -/
theorem C51_nrtl_derivative {R T : ℝ} (hRT : R * T ≠ 0) (n : Fin N → ℝ) (hn : ∀ i, 0 ≤ n i) (hn0 : 0 < ∑ i, n i) (tau alpha : Mat N) (i : Fin N) :
    IsPartialMolar (fun x => nrtlGE R T x tau alpha / (R * T)) n i (Real.log (nrtlGamma (fun j => n j / ∑ j, n j) tau alpha i)) := by
  simp only [nrtlGamma, Real.log_exp, IsPartialMolar]
  set G : Mat N := fun i j => Real.exp (-alpha i j * tau i j) with hG
  set nT := ∑ i, n i with hnT
  set A : Fin N → ℝ := fun j => ∑ l, n l * (tau l j * G l j) with hA
  set B : Fin N → ℝ := fun j => ∑ l, n l * G l j with hBd
  have hB : ∀ j, 0 < B j := fun j => sum_pos_of n _ hn0 hn fun i => Real.exp_pos _
  have hd : HasDerivAt (fun t : ℝ => ∑ j, (n j + t * (if j = i then 1 else 0)) * ((A j + t * (tau i j * G i j)) / (B j + t * G i j)))
      (∑ j, ((if j = i then 1 else 0) * (A j / B j) + n j * ((tau i j * G i j * B j - A j * G i j) / B j ^ 2))) 0 := by
    refine HasDerivAt.fun_sum fun j _ => ?_
    have hq := (lin_deriv (A j) (tau i j * G i j)).div (lin_deriv (B j) (G i j)) (by simpa using (hB j).ne')
    refine ((lin_deriv (n j) (if j = i then 1 else 0)).mul hq).congr_deriv ?_
    simp
  have hdiv : ∀ (m : Fin N → ℝ) (c : ℝ) (f : Fin N → ℝ), ∑ l, m l / c * f l = (∑ l, m l * f l) / c := by
    intro m c f
    rw [sum_div]; exact sum_congr rfl fun l _ => by ring
  refine (hd.congr_of_eventuallyEq ?_).congr_deriv ?_
  · filter_upwards [lin_pos hn0 1] with t ht
    rw [mul_one] at ht
    simp only [total, nrtlGE]
    rw [mul_div_cancel_left₀ _ hRT, single_sum', ← hnT, mul_sum]
    refine sum_congr rfl fun j _ => ?_
    rw [hdiv, hdiv, single_sum, single_sum, div_div_div_cancel_right₀ ht.ne', single_apply']
    change (nT + t) * ((n j + t * (if j = i then 1 else 0)) / (nT + t) * ((A j + t * (tau i j * G i j)) / (B j + t * G i j))) = _
    rw [← mul_assoc, mul_div_cancel₀ _ ht.ne']
  · rw [sum_add_distrib]
    simp only [ite_mul, one_mul, zero_mul, sum_ite_eq', mem_univ, if_true]
    simp only [hdiv]
    rw [div_div_div_cancel_right₀ hn0.ne']
    congr 1
    rw [← sum_sub_distrib]
    refine sum_congr rfl fun j _ => ?_
    change n j * ((tau i j * G i j * B j - A j * G i j) / B j ^ 2) =
      tau i j * G i j * (n j / nT / (B j / nT)) - G i j * (n j / nT * (A j / nT) / (B j / nT) ^ 2)
    have := (hB j).ne'
    field_simp

/-! ### C51: Wilson -/

/-- C51 (Wilson): `Σ x_i ln γ_i = gE/(R T)`. -/
theorem C51_wilson_sum {R T : ℝ} (hRT : R * T ≠ 0) (x : Fin N → ℝ) (hx : ∀ i, 0 ≤ x i) (hx1 : ∑ i, x i = 1) (Lambda : Mat N)
    (hL : ∀ i j, 0 < Lambda i j) : ∑ i, x i * Real.log (wilsonGamma x Lambda i) = wilsonGE R T x Lambda / (R * T) := by
  simp only [wilsonGamma, wilsonGE]
  have hA : ∀ i, 0 < ∑ j, Lambda i j * x j := by
    intro i
    simp_rw [mul_comm (Lambda i _)]
    exact sum_pos_of x _ (by rw [hx1]; exact one_pos) hx (hL i)
  have h1 : ∀ i, x i * Real.log (Real.exp (1 - ∑ l, x l / (∑ j, Lambda l j * x j) * Lambda l i) / ∑ j, Lambda i j * x j) =
      x i - (∑ l, x l / (∑ j, Lambda l j * x j) * (Lambda l i * x i)) - x i * Real.log (∑ j, Lambda i j * x j) := by
    intro i
    rw [Real.log_div (Real.exp_pos _).ne' (hA i).ne', Real.log_exp, mul_sub, mul_sub, mul_sum, mul_one]
    congr 2
    exact sum_congr rfl fun l _ => by ring
  rw [sum_congr rfl fun i _ => h1 i, sum_sub_distrib, sum_sub_distrib, sum_comm]
  have h2 : ∀ l, ∑ i, x l / (∑ j, Lambda l j * x j) * (Lambda l i * x i) = x l := by
    intro l
    rw [← mul_sum, div_mul_cancel₀ _ (hA l).ne']
  rw [sum_congr rfl fun l _ => h2 l, sub_self, zero_sub, neg_mul, neg_mul, neg_div, mul_div_cancel_left₀ _ hRT]

/-- C51 (Wilson): `ln γ_i` is the partial molar excess Gibbs energy over `R T`. -/
theorem C51_wilson_derivative {R T : ℝ} (hRT : R * T ≠ 0) (n : Fin N → ℝ) (hn : ∀ i, 0 ≤ n i) (hn0 : 0 < ∑ i, n i) (Lambda : Mat N)
    (hL : ∀ i j, 0 < Lambda i j) (i : Fin N) :
    IsPartialMolar (fun x => wilsonGE R T x Lambda / (R * T)) n i (Real.log (wilsonGamma (fun j => n j / ∑ j, n j) Lambda i)) := by
  simp only [wilsonGamma, IsPartialMolar]
  set nT := ∑ i, n i with hnT
  set A : Fin N → ℝ := fun l => ∑ j, n j * Lambda l j with hAd
  have hA : ∀ l, 0 < A l := fun l => sum_pos_of n _ hn0 hn (hL l)
  have hdiv : ∀ (m : Fin N → ℝ) (c : ℝ) (l : Fin N), ∑ j, Lambda l j * (m j / c) = (∑ j, m j * Lambda l j) / c := by
    intro m c l
    rw [sum_div]; exact sum_congr rfl fun j _ => by ring
  have hd1 : HasDerivAt (fun t : ℝ => ∑ l, (n l + t * (if l = i then 1 else 0)) * Real.log (A l + t * Lambda l i))
      (∑ l, ((if l = i then 1 else 0) * Real.log (A l) + n l * Lambda l i / A l)) 0 :=
    HasDerivAt.fun_sum fun l _ => ylogw_deriv (hA l) _ _
  have hd := (xlogx_deriv hn0 1).sub hd1
  refine (hd.congr_of_eventuallyEq ?_).congr_deriv ?_
  · have hev : ∀ᶠ t in nhds (0 : ℝ), ∀ l, 0 < A l + t * Lambda l i := Filter.eventually_all.2 fun l => lin_pos (hA l) _
    filter_upwards [lin_pos hn0 1, hev] with t ht hAt
    rw [mul_one] at ht
    have hs : ∑ l, (n + Pi.single i t : Fin N → ℝ) l = nT + t := single_sum' n i t
    simp only [total, wilsonGE, Pi.sub_apply, mul_one]
    rw [hs]
    have h1 : ∀ l, (n + Pi.single i t : Fin N → ℝ) l / (nT + t) * Real.log (∑ j, Lambda l j * ((n + Pi.single i t : Fin N → ℝ) j / (nT + t))) =
        (n + Pi.single i t : Fin N → ℝ) l * Real.log (A l + t * Lambda l i) / (nT + t) -
          (n + Pi.single i t : Fin N → ℝ) l * (Real.log (nT + t) / (nT + t)) := by
      intro l
      rw [hdiv, single_sum, Real.log_div (hAt l).ne' ht.ne']
      ring
    rw [sum_congr rfl fun l _ => h1 l, sum_sub_distrib, ← sum_mul, hs, ← sum_div]
    simp only [← single_apply']
    have hRT1 := left_ne_zero_of_mul hRT
    have hRT2 := right_ne_zero_of_mul hRT
    field_simp
    ring
  · rw [sum_add_distrib]
    simp only [ite_mul, one_mul, zero_mul, sum_ite_eq', mem_univ, if_true, hdiv]
    change _ = Real.log (Real.exp (1 - ∑ l, n l / nT / (A l / nT) * Lambda l i) / (A i / nT))
    rw [Real.log_div (Real.exp_pos _).ne' (div_pos (hA i) hn0).ne', Real.log_exp, Real.log_div (hA i).ne' hn0.ne']
    have h1 : ∀ l, n l / nT / (A l / nT) * Lambda l i = n l * Lambda l i / A l := by
      intro l
      rw [div_div_div_cancel_right₀ hn0.ne']; ring
    rw [sum_congr rfl fun l _ => h1 l]
    ring

/-! ### C51: UNIQUAC -/

/-- C51 (UNIQUAC): `Σ x_i ln γ_i = gE/(R T)`. -/
theorem C51_uniquac_sum {R T : ℝ} (hRT : R * T ≠ 0) (x q r : Fin N → ℝ) (hx : ∀ i, 0 ≤ x i) (hx1 : ∑ i, x i = 1) (hq : ∀ i, 0 < q i)
    (hr : ∀ i, 0 < r i) (tau : Mat N) (ht : ∀ i j, 0 < tau i j) :
    ∑ i, x i * Real.log (uniquacGamma x q r tau i) = uniquacGE R T x q r tau / (R * T) := by
  have hpos : 0 < ∑ i, x i := by rw [hx1]; exact one_pos
  set Q := ∑ j, x j * q j with hQ
  set W := ∑ j, x j * r j with hW
  have hQ0 : 0 < Q := sum_pos_of x q hpos hx hq
  have hW0 : 0 < W := sum_pos_of x r hpos hx hr
  set s : Fin N → ℝ := fun i => ∑ j, x j * q j / Q * tau j i with hs
  have hs0 : ∀ i, 0 < s i := by
    intro i
    have : s i = (∑ j, x j * (q j * tau j i)) / Q := by
      rw [hs, sum_div]; exact sum_congr rfl fun j _ => by ring
    rw [this]
    exact div_pos (sum_pos_of x _ hpos hx fun j => mul_pos (hq j) (ht j i)) hQ0
  have hg : ∀ i, Real.log (uniquacGamma x q r tau i) = Real.log (r i / W) + (1 - r i / W) + q i * (1 - Real.log (s i) -
      (∑ j, tau i j * (x j * q j / Q / s j)) - 5 * (1 - r i * Q / (q i * W) + Real.log (r i * Q / (q i * W)))) := by
    intro i
    have h1 : r i / W / (q i / Q) = r i * Q / (q i * W) := by
      have := (hq i).ne'
      field_simp
    have h2 : ∀ j, x j * (q j / Q) = x j * q j / Q := fun j => by ring
    simp only [uniquacGamma]
    rw [← hQ, ← hW, Real.log_mul (div_pos (hr i) hW0).ne' (Real.exp_pos _).ne', Real.log_exp, h1]
    simp only [h2]
    ring
  have hge : uniquacGE R T x q r tau / (R * T) =
      ∑ i, x i * (Real.log (r i / W) - 5 * q i * Real.log (r i * Q / (q i * W)) - q i * Real.log (s i)) := by
    simp only [uniquacGE]
    rw [mul_div_cancel_left₀ _ hRT, ← hQ, ← hW, ← sub_eq_add_neg, ← sum_sub_distrib, sum_filter]
    refine sum_congr rfl fun i _ => ?_
    split_ifs with h
    · have h1 : x i * r i / W / x i = r i / W := by field_simp
      have h2 : x i * q i / Q / (x i * r i / W) = (r i * Q / (q i * W))⁻¹ := by
        have := (hq i).ne'
        have := (hr i).ne'
        field_simp
      rw [h1, h2, Real.log_inv]
      change x i * _ - q i * x i * Real.log (s i) = _
      ring
    · have : x i = 0 := le_antisymm (not_lt.1 h) (hx i)
      rw [this]; ring
  rw [hge, sum_congr rfl fun i _ => by rw [hg i]]
  rw [← sub_eq_zero, ← sum_sub_distrib]
  have h1 : ∀ i, x i * (Real.log (r i / W) + (1 - r i / W) + q i * (1 - Real.log (s i) - (∑ j, tau i j * (x j * q j / Q / s j)) -
        5 * (1 - r i * Q / (q i * W) + Real.log (r i * Q / (q i * W))))) -
      x i * (Real.log (r i / W) - 5 * q i * Real.log (r i * Q / (q i * W)) - q i * Real.log (s i)) =
      x i - x i * r i * (1 / W) + x i * q i - (∑ j, (x i * q i / Q * tau i j) * (x j * q j / s j)) - 5 * (x i * q i - x i * r i * (Q / W)) := by
    intro i
    have h3 : x i * q i * (∑ j, tau i j * (x j * q j / Q / s j)) = ∑ j, (x i * q i / Q * tau i j) * (x j * q j / s j) := by
      rw [mul_sum]
      refine sum_congr rfl fun j _ => ?_
      ring
    rw [← h3]
    have := (hq i).ne'
    field_simp
    ring
  rw [sum_congr rfl fun i _ => h1 i]
  simp only [sum_sub_distrib, sum_add_distrib, ← mul_sum, ← sum_mul]
  rw [sum_comm]
  have h4 : ∀ j, ∑ i, x i * q i / Q * tau i j * (x j * q j / s j) = x j * q j := by
    intro j
    rw [← sum_mul]
    change s j * (x j * q j / s j) = _
    rw [mul_div_cancel₀ _ (hs0 j).ne']
  rw [sum_congr rfl fun j _ => h4 j, hx1, ← hQ, ← hW]
  field_simp
  ring

/-- C51 (UNIQUAC): `ln γ_i` is the partial molar excess Gibbs energy over `R T` (all components present). -/
theorem C51_uniquac_derivative {R T : ℝ} (hRT : R * T ≠ 0) (n q r : Fin N → ℝ) (hn : ∀ i, 0 < n i) (hq : ∀ i, 0 < q i) (hr : ∀ i, 0 < r i)
    (tau : Mat N) (ht : ∀ i j, 0 < tau i j) (i : Fin N) :
    IsPartialMolar (fun x => uniquacGE R T x q r tau / (R * T)) n i (Real.log (uniquacGamma (fun j => n j / ∑ j, n j) q r tau i)) := by
  have hn0 : 0 < ∑ i, n i := sum_pos (fun j _ => hn j) ⟨i, mem_univ _⟩
  simp only [IsPartialMolar]
  set nT := ∑ i, n i with hnT
  set Q := ∑ j, n j * q j with hQ
  set W := ∑ j, n j * r j with hW
  set S : Fin N → ℝ := fun l => ∑ j, n j * (q j * tau j l) with hS
  have hQ0 : 0 < Q := sum_pos_of n q hn0 (fun j => (hn j).le) hq
  have hW0 : 0 < W := sum_pos_of n r hn0 (fun j => (hn j).le) hr
  have hS0 : ∀ l, 0 < S l := fun l => sum_pos_of n _ hn0 (fun j => (hn j).le) fun j => mul_pos (hq j) (ht j l)
  have hdiv : ∀ (m : Fin N → ℝ) (c : ℝ) (f : Fin N → ℝ), ∑ l, m l / c * f l = (∑ l, m l * f l) / c := by
    intro m c f
    rw [sum_div]; exact sum_congr rfl fun l _ => by ring
  -- the extensive function, written out
  have d1 : HasDerivAt (fun t : ℝ => ∑ l, (n l + t * (if l = i then 1 else 0)) * (Real.log (r l) + 5 * q l * Real.log (q l / r l)))
      (∑ l, (if l = i then 1 else 0) * (Real.log (r l) + 5 * q l * Real.log (q l / r l))) 0 :=
    HasDerivAt.fun_sum fun l _ => (lin_deriv _ _).mul_const _
  have d2 := xlogx_deriv hn0 1
  have d3 := ylogw_deriv (c := nT) hW0 1 (r i)
  have d4 := ylogw_deriv (c := Q) hW0 (q i) (r i)
  have d5 := xlogx_deriv hQ0 (q i)
  have d6 : HasDerivAt (fun t : ℝ => ∑ l, (n l + t * (if l = i then 1 else 0)) * Real.log (S l + t * (q i * tau i l)) * q l)
      (∑ l, ((if l = i then 1 else 0) * Real.log (S l) + n l * (q i * tau i l) / S l) * q l) 0 :=
    HasDerivAt.fun_sum fun l _ => (ylogw_deriv (hS0 l) _ _).mul_const _
  have hd := ((((d1.add d2).sub d3).add (d4.const_mul 5)).sub (d5.const_mul 4)).sub d6
  refine (hd.congr_of_eventuallyEq ?_).congr_deriv ?_
  · have e1 : ∀ᶠ t in nhds (0 : ℝ), ∀ l, 0 < n l + t * (if l = i then 1 else 0) := Filter.eventually_all.2 fun l => lin_pos (hn l) _
    have e2 : ∀ᶠ t in nhds (0 : ℝ), ∀ l, 0 < S l + t * (q i * tau i l) := Filter.eventually_all.2 fun l => lin_pos (hS0 l) _
    filter_upwards [lin_pos hn0 1, lin_pos hQ0 (q i), lin_pos hW0 (r i), e1, e2] with t ht hQt hWt hnt hSt
    rw [mul_one] at ht
    have hm1 : ∀ l, (n + Pi.single i t : Fin N → ℝ) l = n l + t * (if l = i then 1 else 0) := fun l => single_apply' n i l t
    have hm2 : ∑ l, (n + Pi.single i t : Fin N → ℝ) l = nT + t := single_sum' n i t
    have hm3 : ∀ f : Fin N → ℝ, ∑ l, (n + Pi.single i t : Fin N → ℝ) l * f l = (∑ l, n l * f l) + t * f i := fun f => single_sum n f i t
    simp only [Pi.sub_apply, Pi.add_apply (i := t)]
    generalize (n + Pi.single i t : Fin N → ℝ) = m at *
    simp only [total, uniquacGE, mul_one]
    rw [mul_div_cancel_left₀ _ hRT]
    have hfil : (univ.filter fun l => m l / ∑ j, m j > 0) = univ := by
      refine filter_true_of_mem fun l _ => ?_
      rw [hm2, hm1]
      exact div_pos (hnt l) ht
    rw [hfil, ← sub_eq_add_neg, ← sum_sub_distrib, mul_sum]
    have h1 : ∀ l, (∑ j, m j) *
        (m l / (∑ j, m j) *
          (Real.log (m l / (∑ j, m j) * r l /
              (∑ j, m j / (∑ j, m j) * r j) /
              (m l / (∑ j, m j))) +
            5 * q l * Real.log (m l / (∑ j, m j) * q l /
              (∑ j, m j / (∑ j, m j) * q j) /
              (m l / (∑ j, m j) * r l /
                (∑ j, m j / (∑ j, m j) * r j)))) -
          q l * (m l / (∑ j, m j)) *
            Real.log (∑ k, m k / (∑ j, m j) * q k /
              (∑ j, m j / (∑ j, m j) * q j) * tau k l)) =
        m l * (Real.log (r l) + 5 * q l * Real.log (q l / r l)) +
          m l * (Real.log (nT + t) - Real.log (W + t * r i)) +
          m l * q l * (5 * Real.log (W + t * r i) - 4 * Real.log (Q + t * q i)) -
          m l * Real.log (S l + t * (q i * tau i l)) * q l := by
      intro l
      have hls : ∑ k, m k / (∑ j, m j) * q k /
          (∑ j, m j / (∑ j, m j) * q j) * tau k l =
          (S l + t * (q i * tau i l)) / (Q + t * q i) := by
        have hqs : ∑ j, m j / (nT + t) * q j = (Q + t * q i) / (nT + t) := by rw [hdiv, hm3]
        rw [hm2, hqs]
        have : ∀ k, m k / (nT + t) * q k / ((Q + t * q i) / (nT + t)) * tau k l =
            m k / (Q + t * q i) * (q k * tau k l) := by
          intro k; field_simp
        rw [sum_congr rfl fun k _ => this k, hdiv, hm3]
      rw [hls, hdiv, hdiv, hm3, hm3, hm2, ← hQ, ← hW]
      have hp := hnt l
      rw [← hm1] at hp
      generalize m l = nl at *
      have g1 : nl / (nT + t) * r l / ((W + t * r i) / (nT + t)) / (nl / (nT + t)) = r l * (nT + t) / (W + t * r i) := by field_simp
      have g2 : nl / (nT + t) * q l / ((Q + t * q i) / (nT + t)) / (nl / (nT + t) * r l / ((W + t * r i) / (nT + t))) =
          q l / r l * (W + t * r i) / (Q + t * q i) := by
        have := (hr l).ne'
        field_simp
      rw [g1, g2, Real.log_div (hSt l).ne' hQt.ne', Real.log_div (mul_pos (hr l) ht).ne' hWt.ne', Real.log_mul (hr l).ne' ht.ne',
        Real.log_div (mul_pos (div_pos (hq l) (hr l)) hWt).ne' hQt.ne', Real.log_mul (div_pos (hq l) (hr l)).ne' hWt.ne']
      field_simp
      ring
    rw [sum_congr rfl fun l _ => h1 l]
    simp only [sum_sub_distrib, sum_add_distrib, ← sum_mul, ← hm1]
    rw [hm2, hm3 q, ← hQ]
    ring
  · have hx : ∀ f : Fin N → ℝ, ∑ l, (if l = i then (1 : ℝ) else 0) * f l = f i := by
      intro f; simp [ite_mul]
    simp only [uniquacGamma]
    rw [hdiv, hdiv, ← hQ, ← hW, hx]
    have hls : ∀ l, ∑ k, n k / nT * (q k / (Q / nT)) * tau k l = S l / Q := by
      intro l
      have : ∀ k, n k / nT * (q k / (Q / nT)) * tau k l = n k / Q * (q k * tau k l) := by
        intro k; field_simp
      rw [sum_congr rfl fun k _ => this k, hdiv]
    have h2 : ∑ l, ((if l = i then (1 : ℝ) else 0) * Real.log (S l) + n l * (q i * tau i l) / S l) * q l =
        q i * Real.log (S i) + q i * ∑ l, tau i l * (n l / nT * (q l / (Q / nT)) / (S l / Q)) := by
      have : ∀ l, ((if l = i then (1 : ℝ) else 0) * Real.log (S l) + n l * (q i * tau i l) / S l) * q l =
          (if l = i then (1 : ℝ) else 0) * (q l * Real.log (S l)) + q i * (tau i l * (n l / nT * (q l / (Q / nT)) / (S l / Q))) := by
        intro l
        have := (hS0 l).ne'
        field_simp
      rw [sum_congr rfl fun l _ => this l, sum_add_distrib, hx, mul_sum]
    rw [h2]
    simp only [hls]
    have g1 : r i / (W / nT) / (q i / (Q / nT)) = (q i / r i)⁻¹ * Q / W := by
      have := (hq i).ne'
      have := (hr i).ne'
      field_simp
    have g2 : r i / (W / nT) = r i * nT / W := by field_simp
    rw [g1, g2, Real.log_mul (div_pos (mul_pos (hr i) hn0) hW0).ne' (Real.exp_pos _).ne', Real.log_exp, Real.log_div (mul_pos (hr i) hn0).ne' hW0.ne',
      Real.log_mul (hr i).ne' hn0.ne', Real.log_div (hS0 i).ne' hQ0.ne', Real.log_div (mul_pos (inv_pos.2 (div_pos (hq i) (hr i))) hQ0).ne' hW0.ne',
      Real.log_mul (inv_pos.2 (div_pos (hq i) (hr i))).ne' hQ0.ne', Real.log_inv]
    generalize ∑ l, tau i l * (n l / nT * (q l / (Q / nT)) / (S l / Q)) = X
    have := (hq i).ne'
    have := (hr i).ne'
    field_simp
    ring

/-! ### C51: the objects -/

/-- C51 for the objects: `gamma` and `gE` of the same object are consistent at every temperature, whatever its parameters. -/
theorem C51_objects {R T : ℝ} (hRT : R * T ≠ 0) (n : Fin N → ℝ) (hn : ∀ i, 0 < n i) (i : Fin N) :
    (∀ m : Nrtl N, IsPartialMolar (fun x => m.gE R T x / (R * T)) n i (Real.log (m.gamma T (fun j => n j / ∑ j, n j) i))) ∧
    (∀ m : Wilson N, IsPartialMolar (fun x => m.gE R T x / (R * T)) n i (Real.log (m.gamma T (fun j => n j / ∑ j, n j) i))) ∧
    (∀ m : Uniquac N, (∀ i, 0 < m.q i) → (∀ i, 0 < m.r i) →
      IsPartialMolar (fun x => m.gE R T x / (R * T)) n i (Real.log (m.gamma T (fun j => n j / ∑ j, n j) i))) := by
  have hn0 : 0 < ∑ i, n i := sum_pos (fun j _ => hn j) ⟨i, mem_univ _⟩
  exact ⟨fun m => C51_nrtl_derivative hRT n (fun j => (hn j).le) hn0 _ _ i,
    fun m => C51_wilson_derivative hRT n (fun j => (hn j).le) hn0 _ (fun _ _ => Real.exp_pos _) i,
    fun m hq hr => C51_uniquac_derivative hRT n _ _ hn hq hr _ (fun _ _ => Real.exp_pos _) i⟩

/-- C51: sum rule for the objects. -/
theorem C51_objects_sum {R T : ℝ} (hRT : R * T ≠ 0) (x : Fin N → ℝ) (hx : ∀ i, 0 ≤ x i) (hx1 : ∑ i, x i = 1) :
    (∀ m : Nrtl N, ∑ i, x i * Real.log (m.gamma T x i) = m.gE R T x / (R * T)) ∧
    (∀ m : Wilson N, ∑ i, x i * Real.log (m.gamma T x i) = m.gE R T x / (R * T)) ∧
    (∀ m : Uniquac N, (∀ i, 0 < m.q i) → (∀ i, 0 < m.r i) → ∑ i, x i * Real.log (m.gamma T x i) = m.gE R T x / (R * T)) :=
  ⟨fun m => C51_nrtl_sum hRT x hx hx1 _ _, fun m => C51_wilson_sum hRT x hx hx1 _ (fun _ _ => Real.exp_pos _),
    fun m hq hr => C51_uniquac_sum hRT x _ _ hx hx1 hq hr _ (fun _ _ => Real.exp_pos _)⟩

example : ∑ i, ![1 / 4, 3 / 4] i * Real.log (nrtlGamma ![1 / 4, 3 / 4] ![![0, 2], ![1, 0]] ![![0, 0.3], ![0.3, 0]] i) =
    nrtlGE 8 300 ![1 / 4, 3 / 4] ![![0, 2], ![1, 0]] ![![0, 0.3], ![0.3, 0]] / (8 * 300) :=
  C51_nrtl_sum (by norm_num) _ (by intro i; fin_cases i <;> norm_num) (by norm_num [Fin.sum_univ_two]) _ _

example : IsPartialMolar (fun x => uniquacGE 8 300 x ![1, 2] ![2, 3] ![![1, 1 / 2], ![2, 1]] / (8 * 300)) ![1, 3] 0
    (Real.log (uniquacGamma (fun j => ![1, 3] j / ∑ j, ![1, 3] j) ![1, 2] ![2, 3] ![![1, 1 / 2], ![2, 1]] 0)) :=
  C51_uniquac_derivative (by norm_num) _ _ _ (by intro i; fin_cases i <;> norm_num) (by intro i; fin_cases i <;> norm_num)
    (by intro i; fin_cases i <;> norm_num) _ (by intro i j; fin_cases i <;> fin_cases j <;> norm_num) 0

/-! ### C52 -/

/-- C52 (NRTL): the pure-component limits of an object made by the constructor, whatever the diagonals supplied by the caller; `tau_ii = 0`
and `alpha` is symmetric. -/
theorem C52_nrtl {a b c d e f : Option (Mat N)} {m : Nrtl N} {l} (h : Nrtl.init a b c d e f = .ok (m, l)) (R T : ℝ) (i : Fin N) :
    m.gamma T (Pi.single i 1) i = 1 ∧ m.gE R T (Pi.single i 1) = 0 ∧ activity (m.gamma T (Pi.single i 1)) (Pi.single i 1) i = 1 ∧ m.tau T i i = 0 ∧
      ∀ j, m.alpha T i j = m.alpha T j i := by
  obtain ⟨h1, h2, h3⟩ := nrtl_diag h
  have hg : m.gamma T (Pi.single i 1) i = 1 := by
    simp only [Nrtl.gamma, nrtlGamma]
    simp only [single_mul_sum, h1, zero_mul, zero_div, zero_add]
    rw [sum_eq_zero, sum_eq_zero, sub_zero, Real.exp_zero]
    · intro j _
      rcases eq_or_ne j i with rfl | hj
      · simp [h1]
      · simp [Pi.single_apply, hj]
    · intro j _
      rcases eq_or_ne j i with rfl | hj
      · simp [h1]
      · simp [Pi.single_apply, hj]
  refine ⟨hg, ?_, by simp [activity, hg], h1 i T, fun j => h3 i j T⟩
  simp only [Nrtl.gE, nrtlGE, single_mul_sum, h1]
  simp

/-- C52 (Wilson). -/
theorem C52_wilson {a b c d : Option (Mat N)} {m : Wilson N} {l} (h : Wilson.init a b c d = .ok (m, l)) (R T : ℝ) (i : Fin N) :
    m.gamma T (Pi.single i 1) i = 1 ∧ m.gE R T (Pi.single i 1) = 0 ∧ activity (m.gamma T (Pi.single i 1)) (Pi.single i 1) i = 1 ∧ m.Lambda T i i = 1 := by
  have h1 : m.Lambda T i i = 1 := by
    unfold Wilson.init checkMat at h
    simp only [bind, Except.bind, pure, Except.pure] at h
    split_ifs at h
    simp only [Except.ok.injEq, Prod.mk.injEq] at h
    obtain ⟨rfl, -⟩ := h
    simp [Wilson.Lambda, fillDiag_diag]
  have hg : m.gamma T (Pi.single i 1) i = 1 := by
    simp only [Wilson.gamma, wilsonGamma, mul_single_sum, h1, div_one]
    have : ∀ l, (Pi.single i 1 : Fin N → ℝ) l / m.Lambda T l i * m.Lambda T l i = (Pi.single i 1 : Fin N → ℝ) l * 1 := by
      intro l
      have h0 : m.Lambda T l i ≠ 0 := (Real.exp_pos _).ne'
      rw [div_mul_cancel₀ _ h0, mul_one]
    rw [sum_congr rfl fun l _ => this l, single_mul_sum, sub_self, Real.exp_zero]
  refine ⟨hg, ?_, by simp [activity, hg], h1⟩
  simp only [Wilson.gE, wilsonGE, mul_single_sum, single_mul_sum, h1, Real.log_one, mul_zero]

/-- C52 (UNIQUAC). -/
theorem C52_uniquac {q r : Fin N → ℝ} {a b c d : Option (Mat N)} {m : Uniquac N} {l} (h : Uniquac.init q r a b c d = .ok (m, l)) (hq : ∀ i, 0 < q i)
    (hr : ∀ i, 0 < r i) (R T : ℝ) (i : Fin N) :
    m.gamma T (Pi.single i 1) i = 1 ∧ m.gE R T (Pi.single i 1) = 0 ∧ activity (m.gamma T (Pi.single i 1)) (Pi.single i 1) i = 1 ∧ m.tau T i i = 1 := by
  have h1 : m.tau T i i = 1 ∧ m.q = q ∧ m.r = r := by
    unfold Uniquac.init checkMat at h
    simp only [bind, Except.bind, pure, Except.pure] at h
    split_ifs at h
    simp only [Except.ok.injEq, Prod.mk.injEq] at h
    obtain ⟨rfl, -⟩ := h
    simp [Uniquac.tau, fillDiag_diag]
  obtain ⟨h1, rfl, rfl⟩ := h1
  have hqi := (hq i).ne'
  have hri := (hr i).ne'
  have hs : ∀ l, ∑ j, (Pi.single i 1 : Fin N → ℝ) j * (m.q j / m.q i) * m.tau T j l = m.tau T i l := by
    intro l
    simp only [mul_assoc]
    rw [single_mul_sum, div_self hqi, one_mul]
  have hg : m.gamma T (Pi.single i 1) i = 1 := by
    simp only [Uniquac.gamma, uniquacGamma, single_mul_sum]
    simp only [hs, h1, div_self hqi, div_self hri, Real.log_one]
    have : ∀ j, m.tau T i j * ((Pi.single i 1 : Fin N → ℝ) j * (m.q j / m.q i) / m.tau T i j) = (Pi.single i 1 : Fin N → ℝ) j * (m.q j / m.q i) := by
      intro j
      have h0 : m.tau T i j ≠ 0 := (Real.exp_pos _).ne'
      rw [mul_div_cancel₀ _ h0]
    rw [sum_congr rfl fun j _ => this j, single_mul_sum, div_self hqi]
    norm_num
  refine ⟨hg, ?_, by simp [activity, hg], h1⟩
  have hf : (univ.filter fun j => (Pi.single i 1 : Fin N → ℝ) j > 0) = {i} := by
    ext j
    simp [Pi.single_apply]
    split_ifs with hj <;> simp [hj]
  have hs' : ∑ j, (Pi.single i 1 : Fin N → ℝ) j * m.q j / m.q i * m.tau T j i = 1 := by
    have := hs i
    rw [h1] at this
    refine (sum_congr rfl fun j _ => ?_).trans this
    ring
  simp only [Uniquac.gE, uniquacGE, single_mul_sum, hf, sum_singleton, hs', Real.log_one]
  simp [hqi, hri]

example : ∃ m, Wilson.init (some ![![5, 2], ![1, 7]]) none none none = .ok m := by
  unfold Wilson.init checkMat
  rw [if_pos (by intro i j; fin_cases i <;> fin_cases j <;> norm_num [orFull]), if_pos (by intro i j; norm_num [orFull])]
  exact ⟨_, rfl⟩

/-! ### C53 -/

/-- C53: the constructor makes `chi` symmetric with zero diagonal. -/
theorem C53_chi {a b c d e : Option (Mat N)} {f : FloryHuggins N} {l} (h : FloryHuggins.init a b c d e = .ok (f, l)) (T : ℝ) :
    (∀ i j, f.chi T i j = f.chi T j i) ∧ ∀ i, f.chi T i i = 0 := fh_symm h T

/-- C53: `Σ (φ_i/m_i) ln a_i` is the Gibbs energy of mixing per mole of sites over `R T`. -/
theorem C53_sum {R T : ℝ} (hRT : R * T ≠ 0) (phi m : Fin N → ℝ) (hphi : ∀ i, 0 ≤ phi i) (hphi1 : ∑ i, phi i = 1) (hm : ∀ i, 0 < m i) (chi : Mat N)
    (hs : ∀ i j, chi i j = chi j i) : ∑ i, phi i / m i * Real.log (fhActivity phi m chi i) = fhDgmix R T phi m chi / (R * T) := by
  simp only [fhActivity, fhDgmix]
  rw [mul_div_cancel_left₀ _ hRT, sum_filter]
  set A := ∑ j, phi j * (1 / m j) with hA
  set C := 0.5 * ∑ j, phi j * ∑ i, phi i * chi i j with hC
  have hBC : ∑ i, phi i * ∑ j, chi i j * phi j = 2 * C := by
    rw [hC]
    have : ∀ i, ∑ j, chi i j * phi j = ∑ j, phi j * chi j i := fun i => sum_congr rfl fun j _ => by rw [hs i j]; ring
    rw [sum_congr rfl fun i _ => by rw [this i]]
    ring
  have h1 : ∀ i, phi i / m i * Real.log (phi i * Real.exp (1 - m i * (A - (∑ j, chi i j * phi j) + C))) =
      (if phi i > 0 then phi i / m i * Real.log (phi i) else 0) + phi i * (1 / m i) - phi i * (A + C) + phi i * ∑ j, chi i j * phi j := by
    intro i
    have := (hm i).ne'
    split_ifs with h
    · rw [Real.log_mul h.ne' (Real.exp_pos _).ne', Real.log_exp]
      field_simp
      ring
    · have : phi i = 0 := le_antisymm (not_lt.1 h) (hphi i)
      simp [this]
  rw [sum_congr rfl fun i _ => h1 i, sum_add_distrib, sum_sub_distrib, sum_add_distrib, ← sum_mul, hphi1, ← hA, hBC]
  ring

/-- C53: `ln a_i` is the derivative of the total Gibbs energy of mixing (`Σ n_j m_j` sites) with respect to the amount of component `i`. -/
theorem C53_derivative {R T : ℝ} (hRT : R * T ≠ 0) (n m : Fin N → ℝ) (hn : ∀ i, 0 < n i) (hm : ∀ i, 0 < m i) (chi : Mat N)
    (hs : ∀ i j, chi i j = chi j i) (i : Fin N) :
    HasDerivAt (fun t => (∑ j, (n + Pi.single i t : Fin N → ℝ) j * m j) *
        (fhDgmix R T (fun l => (n + Pi.single i t : Fin N → ℝ) l * m l / ∑ j, (n + Pi.single i t : Fin N → ℝ) j * m j) m chi / (R * T)))
      (Real.log (fhActivity (fun l => n l * m l / ∑ j, n j * m j) m chi i)) 0 := by
  have hn0 : 0 < ∑ i, n i := sum_pos (fun j _ => hn j) ⟨i, mem_univ _⟩
  set M := ∑ j, n j * m j with hM
  set nT := ∑ i, n i with hnT
  have hM0 : 0 < M := sum_pos_of n m hn0 (fun j => (hn j).le) hm
  set Q := ∑ j, n j * m j * ∑ l, n l * m l * chi l j with hQ
  set b1 := ∑ j, chi i j * (n j * m j) with hb1
  have d1 : HasDerivAt (fun t : ℝ => ∑ l, ((n l + t * (if l = i then 1 else 0)) * Real.log (n l + t * (if l = i then 1 else 0)) +
      (n l + t * (if l = i then 1 else 0)) * Real.log (m l)))
      (∑ l, ((if l = i then 1 else 0) * (Real.log (n l) + 1) + (if l = i then 1 else 0) * Real.log (m l))) 0 :=
    HasDerivAt.fun_sum fun l _ => (xlogx_deriv (hn l) _).add ((lin_deriv _ _).mul_const _)
  have d2 := ylogw_deriv (c := nT) hM0 1 (m i)
  have d3 : HasDerivAt (fun t : ℝ => 0.5 * ((Q + 2 * t * (m i * b1) + t ^ 2 * (m i ^ 2 * chi i i)) / (M + t * m i)))
      (0.5 * ((2 * (m i * b1) * M - Q * m i) / M ^ 2)) 0 := by
    have e1 : HasDerivAt (fun t : ℝ => Q + 2 * t * (m i * b1) + t ^ 2 * (m i ^ 2 * chi i i)) (2 * (m i * b1)) 0 := by
      have h1 : HasDerivAt (fun t : ℝ => 2 * t * (m i * b1)) (2 * (m i * b1)) 0 := by simpa using ((hasDerivAt_id (0 : ℝ)).const_mul 2).mul_const (m i * b1)
      have h2 : HasDerivAt (fun t : ℝ => t ^ 2 * (m i ^ 2 * chi i i)) 0 0 := by
        simpa using ((hasDerivAt_id (0 : ℝ)).pow 2).mul_const (m i ^ 2 * chi i i)
      exact ((h1.const_add Q).add h2).congr_deriv (add_zero _)
    refine ((e1.div (lin_deriv M (m i)) (by simpa using hM0.ne')).const_mul _).congr_deriv ?_
    simp
  refine (((d1.sub d2).add d3).congr_of_eventuallyEq ?_).congr_deriv ?_
  · have e1 : ∀ᶠ t in nhds (0 : ℝ), ∀ l, 0 < n l + t * (if l = i then 1 else 0) := Filter.eventually_all.2 fun l => lin_pos (hn l) _
    filter_upwards [lin_pos hM0 (m i), e1] with t hMt hnt
    have hm1 : ∀ l, (n + Pi.single i t : Fin N → ℝ) l = n l + t * (if l = i then 1 else 0) := fun l => single_apply' n i l t
    have hm2 : ∑ l, (n + Pi.single i t : Fin N → ℝ) l = nT + t := single_sum' n i t
    have hm3 : ∀ f : Fin N → ℝ, ∑ l, (n + Pi.single i t : Fin N → ℝ) l * f l = (∑ l, n l * f l) + t * f i := fun f => single_sum n f i t
    simp only [Pi.sub_apply, Pi.add_apply (i := t)]
    generalize (n + Pi.single i t : Fin N → ℝ) = k at *
    simp only [← hm1] at hnt ⊢
    simp only [fhDgmix]
    rw [mul_div_cancel_left₀ _ hRT, hm3, ← hM]
    have hfil : (univ.filter fun l => k l * m l / (M + t * m i) > 0) = univ :=
      filter_true_of_mem fun l _ => div_pos (mul_pos (hnt l) (hm l)) hMt
    rw [hfil, mul_add, mul_sum]
    have h1 : ∀ l, (M + t * m i) * (k l * m l / (M + t * m i) / m l * Real.log (k l * m l / (M + t * m i))) =
        k l * Real.log (k l) + k l * Real.log (m l) - k l * Real.log (M + t * m i) := by
      intro l
      rw [Real.log_div (mul_pos (hnt l) (hm l)).ne' hMt.ne', Real.log_mul (hnt l).ne' (hm l).ne']
      have := (hm l).ne'
      field_simp
    rw [sum_congr rfl fun l _ => h1 l, sum_sub_distrib, ← sum_mul, hm2, mul_one]
    have hquad : ∑ j, k j * m j / (M + t * m i) * ∑ l, k l * m l / (M + t * m i) * chi l j =
        (Q + 2 * t * (m i * b1) + t ^ 2 * (m i ^ 2 * chi i i)) / (M + t * m i) ^ 2 := by
      have g1 : ∀ j, ∑ l, k l * m l / (M + t * m i) * chi l j = ((∑ l, n l * m l * chi l j) + t * (m i * chi i j)) / (M + t * m i) := by
        intro j
        have : ∀ l, k l * m l / (M + t * m i) * chi l j = k l * (m l * chi l j) / (M + t * m i) := fun l => by ring
        rw [sum_congr rfl fun l _ => this l, ← sum_div, hm3]
        congr 2
        exact sum_congr rfl fun l _ => by ring
      rw [sum_congr rfl fun j _ => by rw [g1 j]]
      have g2 : ∀ j, k j * m j / (M + t * m i) * (((∑ l, n l * m l * chi l j) + t * (m i * chi i j)) / (M + t * m i)) =
          k j * (m j * ((∑ l, n l * m l * chi l j) + t * (m i * chi i j))) / (M + t * m i) ^ 2 := fun j => by
        generalize M + t * m i = w
        ring
      rw [sum_congr rfl fun j _ => g2 j, ← sum_div, hm3]
      congr 1
      have g3 : ∑ l, n l * m l * chi l i = b1 := by
        rw [hb1]; exact sum_congr rfl fun l _ => by rw [hs i l]; ring
      rw [g3]
      have g4 : ∑ j, n j * (m j * ((∑ l, n l * m l * chi l j) + t * (m i * chi i j))) = Q + t * (m i * b1) := by
        rw [hQ, hb1, mul_sum, mul_sum, ← sum_add_distrib]
        exact sum_congr rfl fun j _ => by ring
      rw [g4]; ring
    rw [hquad]
    field_simp
  · have hx : ∀ f : Fin N → ℝ, ∑ l, (if l = i then (1 : ℝ) else 0) * f l = f i := by
      intro f; simp [ite_mul]
    rw [sum_add_distrib, hx, hx]
    simp only [fhActivity]
    have hA : ∑ j, n j * m j / M * (1 / m j) = nT / M := by
      rw [hnT, sum_div]
      refine sum_congr rfl fun j _ => ?_
      have := (hm j).ne'
      field_simp
    have hB : ∑ j, chi i j * (n j * m j / M) = b1 / M := by
      rw [hb1, sum_div]; exact sum_congr rfl fun j _ => by ring
    have hC : ∑ j, n j * m j / M * ∑ l, n l * m l / M * chi l j = Q / M ^ 2 := by
      rw [hQ, sum_div]
      refine sum_congr rfl fun j _ => ?_
      have : ∑ l, n l * m l / M * chi l j = (∑ l, n l * m l * chi l j) / M := by
        rw [sum_div]; exact sum_congr rfl fun l _ => by ring
      rw [this]; ring
    rw [hA, hB, hC, Real.log_mul (div_pos (mul_pos (hn i) (hm i)) hM0).ne' (Real.exp_pos _).ne', Real.log_exp,
      Real.log_div (mul_pos (hn i) (hm i)).ne' hM0.ne', Real.log_mul (hn i).ne' (hm i).ne']
    field_simp
    ring

/-- C53: a pure component has activity 1 (zero diagonal of `chi`). -/
theorem C53_pure (m : Fin N → ℝ) (hm : ∀ i, 0 < m i) (chi : Mat N) (i : Fin N) (hd : chi i i = 0) (R T : ℝ) :
    fhActivity (Pi.single i 1) m chi i = 1 ∧ fhDgmix R T (Pi.single i 1) m chi = 0 := by
  have hmi := (hm i).ne'
  have hf : (univ.filter fun j => (Pi.single i 1 : Fin N → ℝ) j > 0) = {i} := by
    ext j
    simp [Pi.single_apply]
    split_ifs with hj <;> simp [hj]
  constructor
  · simp only [fhActivity, single_mul_sum, mul_single_sum, hd]
    simp [hmi]
  · simp only [fhDgmix, single_mul_sum, hd, hf, sum_singleton]
    simp

/-- C53: the two-component function is the general one with `m = (1, m)`. -/
theorem C53_two (phi1 m chi : ℝ) (hm : 0 < m) : fh2Activity phi1 m chi = fhActivity ![phi1, 1 - phi1] ![1, m] ![![0, chi], ![chi, 0]] 0 := by
  simp only [fh2Activity, fhActivity, Fin.sum_univ_two]
  simp
  left
  field_simp
  ring

/-- C53: below the critical value `χ_c = (1 + 1/√m)²/2` the solvent activity increases with its volume fraction (no phase separation). -/
theorem C53_stable (m chi : ℝ) (hm : 0 < m) (hchi : chi ≤ (1 + 1 / √m) ^ 2 / 2) : StrictMonoOn (fun p => fh2Activity p m chi) (Set.Ioo 0 1) := by
  have hlog : StrictMonoOn (fun p : ℝ => Real.log p + ((1 - 1 / m) * (1 - p) + chi * (1 - p) ^ 2)) (Set.Ioo 0 1) := by
    have hder : ∀ p ∈ Set.Ioo (0 : ℝ) 1, HasDerivAt (fun p : ℝ => Real.log p + ((1 - 1 / m) * (1 - p) + chi * (1 - p) ^ 2))
        (1 / p + (-(1 - 1 / m) - 2 * chi * (1 - p))) p := by
      intro p hp
      have h1 : HasDerivAt (fun p : ℝ => 1 - p) (-1) p := by simpa using (hasDerivAt_id p).const_sub 1
      have h2 : HasDerivAt Real.log (1 / p) p := by simpa using Real.hasDerivAt_log hp.1.ne'
      refine (h2.add ((h1.const_mul (1 - 1 / m)).add ((h1.pow 2).const_mul chi))).congr_deriv ?_
      norm_num
      ring
    -- the derivative is nonnegative and vanishes at most once
    have hs : 0 < √m := Real.sqrt_pos.2 hm
    have hsq : √m ^ 2 = m := Real.sq_sqrt hm.le
    have hkey : ∀ p ∈ Set.Ioo (0 : ℝ) 1, p ≠ √m / (1 + √m) → 0 < 1 / p + (-(1 - 1 / m) - 2 * chi * (1 - p)) := by
      intro p hp hne
      have hp1 : 0 < 1 - p := sub_pos.2 hp.2
      have hp0 := hp.1
      have hsquare : 0 < (√m * (1 - p) - p) ^ 2 := by
        refine sq_pos_of_ne_zero fun h0 => ?_
        apply hne
        rw [eq_div_iff (by positivity)]
        linarith
      have h1 : 1 / p + (-(1 - 1 / m) - (1 + 1 / √m) ^ 2 * (1 - p)) = (√m * (1 - p) - p) ^ 2 / (m * p) := by
        generalize √m = s at *
        rw [← hsq]
        field_simp
        ring
      have h2 : 0 < (√m * (1 - p) - p) ^ 2 / (m * p) := by positivity
      have h3 : 2 * chi * (1 - p) ≤ (1 + 1 / √m) ^ 2 * (1 - p) := mul_le_mul_of_nonneg_right (by linarith) hp1.le
      linarith
    set p0 := √m / (1 + √m) with hp0
    have hp00 : 0 < p0 := by positivity
    have hp01 : p0 < 1 := by rw [hp0, div_lt_one (by positivity)]; linarith
    have hU : Set.Ioo (0 : ℝ) 1 = Set.Ioc 0 p0 ∪ Set.Ico p0 1 := (Set.Ioc_union_Ico_eq_Ioo hp00 hp01).symm
    rw [hU]
    refine StrictMonoOn.union (c := p0) ?_ ?_ ⟨⟨hp00, le_rfl⟩, fun _ h => h.2⟩ ⟨⟨le_rfl, hp01⟩, fun _ h => h.1⟩
    · refine strictMonoOn_of_deriv_pos (convex_Ioc _ _) (fun p hp => (hder p ⟨hp.1, hp.2.trans_lt hp01⟩).continuousAt.continuousWithinAt) ?_
      rw [interior_Ioc]
      intro p hp
      have hp' : p ∈ Set.Ioo (0 : ℝ) 1 := ⟨hp.1, hp.2.trans hp01⟩
      rw [(hder p hp').deriv]
      exact hkey p hp' hp.2.ne
    · refine strictMonoOn_of_deriv_pos (convex_Ico _ _) (fun p hp => (hder p ⟨hp00.trans_le hp.1, hp.2⟩).continuousAt.continuousWithinAt) ?_
      rw [interior_Ico]
      intro p hp
      have hp' : p ∈ Set.Ioo (0 : ℝ) 1 := ⟨hp00.trans hp.1, hp.2⟩
      rw [(hder p hp').deriv]
      exact hkey p hp' hp.1.ne'
  have hexp : ∀ p ∈ Set.Ioo (0 : ℝ) 1, fh2Activity p m chi = Real.exp (Real.log p + ((1 - 1 / m) * (1 - p) + chi * (1 - p) ^ 2)) := by
    intro p hp
    rw [Real.exp_add, Real.exp_log hp.1]
    rfl
  intro p hp q hq hpq
  change fh2Activity p m chi < fh2Activity q m chi
  rw [hexp p hp, hexp q hq]
  exact Real.exp_lt_exp.2 (hlog hp hq hpq)

/-- C53: above the critical value the solution does phase-separate: near the critical composition the activity of the solvent decreases. -/
theorem C53_unstable (m chi : ℝ) (hm : 0 < m) (hchi : (1 + 1 / √m) ^ 2 / 2 < chi) :
    ∃ p q, 0 < p ∧ p < q ∧ q < 1 ∧ fh2Activity q m chi < fh2Activity p m chi := by
  by_contra hcon
  push Not at hcon
  have hs : 0 < √m := Real.sqrt_pos.2 hm
  have hsq : √m ^ 2 = m := Real.sq_sqrt hm.le
  set p0 := √m / (1 + √m) with hp0
  have hp00 : 0 < p0 := by positivity
  have hp01 : p0 < 1 := by rw [hp0, div_lt_one (by positivity)]; linarith
  have hp' : p0 ∈ Set.Ioo (0 : ℝ) 1 := ⟨hp00, hp01⟩
  have hmono : MonotoneOn (fun p : ℝ => Real.log (fh2Activity p m chi)) (Set.Ioo 0 1) := by
    intro p hp q hq hpq
    have hpos : ∀ p ∈ Set.Ioo (0 : ℝ) 1, 0 < fh2Activity p m chi := fun p hp => mul_pos hp.1 (Real.exp_pos _)
    rcases hpq.eq_or_lt with rfl | h
    · exact le_rfl
    · exact Real.log_le_log (hpos p hp) (hcon p q hp.1 h hq.2)
  have h1 := hmono.derivWithin_nonneg (x := p0)
  rw [derivWithin_of_isOpen isOpen_Ioo hp'] at h1
  have hd : HasDerivAt (fun p : ℝ => Real.log (fh2Activity p m chi)) (1 / p0 + (-(1 - 1 / m) - 2 * chi * (1 - p0))) p0 := by
    have h1 : HasDerivAt (fun p : ℝ => 1 - p) (-1) p0 := by simpa using (hasDerivAt_id p0).const_sub 1
    have h2 : HasDerivAt Real.log (1 / p0) p0 := by simpa using Real.hasDerivAt_log hp00.ne'
    refine ((h2.add ((h1.const_mul (1 - 1 / m)).add ((h1.pow 2).const_mul chi))).congr_of_eventuallyEq ?_).congr_deriv ?_
    · filter_upwards [Ioo_mem_nhds hp00 hp01] with p hp
      simp only [fh2Activity]
      rw [Real.log_mul hp.1.ne' (Real.exp_pos _).ne', Real.log_exp]
      rfl
    · norm_num
      ring
  rw [hd.deriv] at h1
  have h2 : 1 / p0 + (-(1 - 1 / m) - (1 + 1 / √m) ^ 2 * (1 - p0)) = 0 := by
    rw [hp0]
    generalize √m = s at *
    rw [← hsq]
    have : 1 - s / (1 + s) = 1 / (1 + s) := by field_simp; ring
    rw [this]
    field_simp
    ring
  have h3 : (1 + 1 / √m) ^ 2 * (1 - p0) < 2 * chi * (1 - p0) := mul_lt_mul_of_pos_right (by linarith) (by linarith)
  linarith

example : StrictMonoOn (fun p => fh2Activity p 100 0.5) (Set.Ioo 0 1) :=
  C53_stable 100 0.5 (by norm_num) (by
    have : (0 : ℝ) < 1 / √100 := by positivity
    nlinarith)

example : fh2Activity 0.3 100 0.5 = fhActivity ![0.3, 1 - 0.3] ![1, 100] ![![0, 0.5], ![0.5, 0]] 0 := C53_two _ _ _ (by norm_num)

/-! ### C54 -/

/-- C54: the Gibbs energy of mixing is `Dhmix - T Dsmix`, whatever the numerical derivative returns. -/
theorem C54_dgmix (R : ℝ) (ddT : (ℝ → ℝ) → ℝ → ℝ) (gE : ℝ → ℝ) (T : ℝ) (x : Fin N → ℝ) :
    dgmix R gE T x = dhmix ddT gE T - T * dsmix R ddT gE T x ∧ gE T = hE ddT gE T - T * sE ddT gE T := by
  simp only [dgmix, dhmix, dsmix, hE]
  constructor <;> ring

/-- C54: for an ideal solution the Gibbs energy of mixing is nonpositive and at least `-R T ln N`; it vanishes for the pure components. -/
theorem C54_ideal {R T : ℝ} (hR : 0 < R) (hT : 0 < T) (x : Fin N → ℝ) (hx : ∀ i, 0 ≤ x i) (hx1 : ∑ i, x i = 1) :
    dgmix R (fun _ => idealGE) T x ≤ 0 ∧ -(R * T * Real.log N) ≤ dgmix R (fun _ => idealGE) T x ∧
      ((∃ i, x = Pi.single i 1) ↔ dgmix R (fun _ => idealGE) T x = 0) := by
  have hle : ∀ i, x i ≤ 1 := fun i => hx1 ▸ single_le_sum (fun j _ => hx j) (mem_univ i)
  have hRT : 0 < R * T := mul_pos hR hT
  have hg : dgmix R (fun _ => idealGE) T x = R * T * ∑ i ∈ univ.filter (fun i => x i > 0), x i * Real.log (x i) := by
    simp only [dgmix, idealGE, dsmixIdeal]; ring
  have hterm : ∀ i, x i * Real.log (x i) ≤ 0 := fun i => mul_nonpos_of_nonneg_of_nonpos (hx i) (Real.log_nonpos (hx i) (hle i))
  have hsum : ∑ i ∈ univ.filter (fun i => x i > 0), x i = 1 := by
    rw [sum_filter, ← hx1]
    refine sum_congr rfl fun i _ => ?_
    split_ifs with h
    · rfl
    · exact (le_antisymm (not_lt.1 h) (hx i)).symm
  rw [hg]
  refine ⟨mul_nonpos_of_nonneg_of_nonpos hRT.le (sum_nonpos fun i _ => hterm i), ?_, ?_⟩
  · have hN : 0 < N := by
      rcases Nat.eq_zero_or_pos N with rfl | h
      · simp at hx1
      · exact h
    have hN' : (0 : ℝ) < N := by exact_mod_cast hN
    rw [← mul_neg]
    refine mul_le_mul_of_nonneg_left ?_ hRT.le
    have h1 : ∀ i ∈ univ.filter (fun i => x i > 0), x i - 1 / N ≤ x i * Real.log (x i) + x i * Real.log N := by
      intro i hi
      have hi' : 0 < x i := (mem_filter.1 hi).2
      have h2 := Real.one_sub_inv_le_log_of_pos (mul_pos hi' hN')
      rw [Real.log_mul hi'.ne' hN'.ne'] at h2
      have h3 := mul_le_mul_of_nonneg_left h2 hi'.le
      have h4 : x i * (1 - (x i * N)⁻¹) = x i - 1 / N := by field_simp
      linarith
    have h2 := sum_le_sum h1
    rw [sum_sub_distrib, sum_add_distrib, ← sum_mul, hsum, sum_const, nsmul_eq_mul, one_mul] at h2
    have h3 : ((univ.filter fun i => x i > 0).card : ℝ) * (1 / N) ≤ 1 := by
      rw [mul_one_div, div_le_one hN']
      have := card_le_univ (univ.filter fun i => x i > 0)
      rw [Fintype.card_fin] at this
      exact_mod_cast this
    linarith
  · constructor
    · rintro ⟨i, rfl⟩
      have hf : (univ.filter fun j => (Pi.single i 1 : Fin N → ℝ) j > 0) = {i} := by
        ext j
        simp [Pi.single_apply]
        split_ifs with hj <;> simp [hj]
      rw [hf]; simp
    · intro h
      have h0 : ∑ i ∈ univ.filter (fun i => x i > 0), x i * Real.log (x i) = 0 := (mul_eq_zero.1 h).resolve_left hRT.ne'
      rw [sum_eq_zero_iff_of_nonpos fun i _ => hterm i] at h0
      have hne : (univ.filter fun i => x i > 0).Nonempty := by
        rw [nonempty_iff_ne_empty]; intro he; rw [he] at hsum; simp at hsum
      obtain ⟨i, hi⟩ := hne
      have hi' : 0 < x i := (mem_filter.1 hi).2
      have hi1 : x i = 1 := by
        have := h0 i hi
        rcases mul_eq_zero.1 this with h | h
        · exact absurd h hi'.ne'
        · rcases Real.log_eq_zero.1 h with h | h | h <;> linarith
      refine ⟨i, funext fun j => ?_⟩
      rcases eq_or_ne j i with rfl | hj
      · simpa using hi1
      · rw [Pi.single_eq_of_ne hj]
        have h2 := add_le_sum (fun k _ => hx k) (mem_univ i) (mem_univ j) hj.symm
        rw [hx1, hi1] at h2
        exact le_antisymm (by linarith) (hx j)

/-- C54: Gibbs-Helmholtz: if the numerical derivative is exact, `d(gE/T)/dT = -hE/T²`. -/
theorem C54_gibbs_helmholtz (ddT : (ℝ → ℝ) → ℝ → ℝ) (gE : ℝ → ℝ) (T : ℝ) (hT : T ≠ 0) (hd : HasDerivAt gE (ddT gE T) T) :
    HasDerivAt (fun t => gE t / t) (-(hE ddT gE T / T ^ 2)) T := by
  refine (hd.div (hasDerivAt_id T) hT).congr_deriv ?_
  simp only [hE, sE, id]
  field_simp
  ring

example : dgmix 8 (fun _ => idealGE) 300 ![1 / 2, 1 / 2] ≤ 0 :=
  (C54_ideal (by norm_num) (by norm_num) _ (by intro i; fin_cases i <;> norm_num) (by norm_num [Fin.sum_univ_two])).1

example : HasDerivAt (fun t : ℝ => (t ^ 2) / t) (-(hE (fun _ T => 2 * T) (fun t => t ^ 2) 3 / 3 ^ 2)) 3 :=
  C54_gibbs_helmholtz (fun _ T => 2 * T) (fun t => t ^ 2) 3 (by norm_num) (by simpa using hasDerivAt_pow 2 (3 : ℝ))

/-! ### C82 -/

/-- C82 (false as stated): the constructors write into the matrices of the caller: after `NRTL(2, a=a)`, `Wilson`, `UNIQUAC` or `FloryHuggins` the
array `a` of the caller has been changed. -/
theorem C82_unchanged_false : ∃ a : Mat 2, (∃ m l, Nrtl.init (some a) none none none none none = .ok (m, some l :: [none, none, none, none, none]) ∧ l ≠ a) ∧
    (∃ m l, Wilson.init (some a) none none none = .ok (m, some l :: [none, none, none]) ∧ l ≠ a) ∧
    (∃ m l, Uniquac.init 1 1 (some a) none none none = .ok (m, some l :: [none, none, none]) ∧ l ≠ a) ∧
    ∃ m l, FloryHuggins.init (some a) none none none none = .ok (m, some l :: [none, none, none, none]) ∧ l ≠ a := by
  refine ⟨![![0, 1], ![2, 3]], ?_, ?_, ?_, ?_⟩
  · unfold Nrtl.init checkMat
    rw [if_pos (by intro i j; fin_cases i <;> fin_cases j <;> norm_num [orFull]), if_pos (by intro i j; norm_num [orFull]),
      if_pos (by intro i j; norm_num [orFull]), if_pos (by intro i j; norm_num [orFull])]
    refine ⟨_, _, rfl, fun h => ?_⟩
    have := congrFun (congrFun h 1) 1
    norm_num [fillDiag] at this
  · unfold Wilson.init checkMat
    rw [if_pos (by intro i j; fin_cases i <;> fin_cases j <;> norm_num [orFull]), if_pos (by intro i j; norm_num [orFull])]
    refine ⟨_, _, rfl, fun h => ?_⟩
    have := congrFun (congrFun h 1) 1
    norm_num [fillDiag] at this
  · unfold Uniquac.init checkMat
    rw [if_pos (by intro i j; fin_cases i <;> fin_cases j <;> norm_num [orFull]), if_pos (by intro i j; norm_num [orFull])]
    refine ⟨_, _, rfl, fun h => ?_⟩
    have := congrFun (congrFun h 1) 1
    norm_num [fillDiag] at this
  · unfold FloryHuggins.init checkMat
    rw [if_pos (by intro i j; fin_cases i <;> fin_cases j <;> norm_num [orFull]), if_pos (by intro i j; norm_num [orFull])]
    refine ⟨_, _, rfl, fun h => ?_⟩
    have := congrFun (congrFun h 1) 1
    norm_num [fillDiag, enforceSymmetry] at this

/-- C82 (partial): matrices with zero diagonals (and, where required, symmetric) are left unchanged. -/
theorem C82_unchanged_partial {a b c d e f : Option (Mat N)} (h0 : ∀ o ∈ [a, b, c, d, e, f], ∀ m ∈ o, ∀ i, m i i = 0) :
    ((∀ o ∈ [c, d], ∀ m ∈ o, ∀ i j, m i j = m j i) → ∀ m l, Nrtl.init a b c d e f = .ok (m, l) → l = [a, b, c, d, e, f]) ∧
    (∀ m l, Wilson.init a b c d = .ok (m, l) → l = [a, b, c, d]) ∧
    (∀ q r m l, Uniquac.init q r a b c d = .ok (m, l) → l = [a, b, c, d]) ∧
    ((∀ o ∈ [a, b, c, d, e], ∀ m ∈ o, ∀ i j, m i j = m j i) → ∀ m l, FloryHuggins.init a b c d e = .ok (m, l) → l = [a, b, c, d, e]) := by
  have hf : ∀ o ∈ [a, b, c, d, e, f], o.map (fun m => fillDiag m) = o := by
    intro o ho
    cases o with
    | none => rfl
    | some m => simp [fillDiag_id m (h0 _ ho m rfl)]
  have hy : ∀ o ∈ [a, b, c, d, e, f], (∀ m ∈ o, ∀ i j, m i j = m j i) → o.map (fun m => enforceSymmetry (fillDiag m)) = o := by
    intro o ho hs
    cases o with
    | none => rfl
    | some m => simp [sym_id m (h0 _ ho m rfl) (hs m rfl)]
  refine ⟨fun hs m l h => ?_, fun m l h => ?_, fun q r m l h => ?_, fun hs m l h => ?_⟩
  · unfold Nrtl.init checkMat at h
    simp only [bind, Except.bind, pure, Except.pure] at h
    split_ifs at h
    simp only [Except.ok.injEq, Prod.mk.injEq] at h
    rw [← h.2, hf a (by simp), hf b (by simp), hf e (by simp), hf f (by simp), hy c (by simp) (hs c (by simp)), hy d (by simp) (hs d (by simp))]
  · unfold Wilson.init checkMat at h
    simp only [bind, Except.bind, pure, Except.pure] at h
    split_ifs at h
    simp only [Except.ok.injEq, Prod.mk.injEq] at h
    rw [← h.2, hf a (by simp), hf b (by simp), hf c (by simp), hf d (by simp)]
  · unfold Uniquac.init checkMat at h
    simp only [bind, Except.bind, pure, Except.pure] at h
    split_ifs at h
    simp only [Except.ok.injEq, Prod.mk.injEq] at h
    rw [← h.2, hf a (by simp), hf b (by simp), hf c (by simp), hf d (by simp)]
  · unfold FloryHuggins.init checkMat at h
    simp only [bind, Except.bind, pure, Except.pure] at h
    split_ifs at h
    simp only [Except.ok.injEq, Prod.mk.injEq] at h
    rw [← h.2, hy a (by simp) (hs a (by simp)), hy b (by simp) (hs b (by simp)), hy c (by simp) (hs c (by simp)), hy d (by simp) (hs d (by simp)),
      hy e (by simp) (hs e (by simp))]

example : ∀ m l, Wilson.init (N := 2) (some ![![0, 1], ![2, 0]]) none none none = .ok (m, l) → l = [some ![![0, 1], ![2, 0]], none, none, none] :=
  (C82_unchanged_partial (e := none) (f := none) (by
    intro o ho m hm i
    simp only [List.mem_cons, List.not_mem_nil, or_false] at ho
    rcases ho with rfl | rfl | rfl | rfl | rfl | rfl <;> simp at hm
    subst hm
    fin_cases i <;> rfl)).2.1

end Verif.Acm
