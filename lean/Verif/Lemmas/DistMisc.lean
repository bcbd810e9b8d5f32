import Verif.Model.DistMisc
import Verif.Lemmas.Convert
import Mathlib.Algebra.Group.ForwardDiff
import Mathlib.RingTheory.PowerSeries.Basic
import Mathlib.Analysis.SpecialFunctions.Gamma.Basic
import Mathlib.MeasureTheory.Integral.Prod
import Mathlib.Algebra.CharP.Defs
import Mathlib.Tactic.FieldSimp
import Mathlib.Tactic.LinearCombination

/-! # Helper lemmas: moments and reconstruction -/

namespace Verif.DistMisc

open Finset

/-- Binomial convolution of sequences. -/
def bconv {α : Type*} [Field α] (q r : ℕ → α) (n : ℕ) : α := ∑ j ∈ range (n + 1), (n.choose j : α) * q j * r (n - j)

theorem foldl_add_eq {α β : Type*} [AddCommMonoid α] (l : List β) (f : β → α) (a : α) :
    l.foldl (fun p j => p + f j) a = a + (l.map f).sum := by
  induction l generalizing a with
  | nil => simp
  | cons x l ih => simp [ih, add_assoc]

theorem convAt_eq {α : Type*} [Field α] (q r : List α) (i : ℕ) :
    convAt q r i = bconv (fun j => q.getD j 0) (fun j => r.getD j 0) i := by
  unfold convAt bconv
  rw [foldl_add_eq, zero_add]
  rfl

section
variable {α : Type*} [Field α] [CharZero α]

/-- Exponential generating function. -/
noncomputable def egf (q : ℕ → α) : PowerSeries α := PowerSeries.mk fun n => q n / n.factorial

theorem egf_bconv (q r : ℕ → α) : egf (bconv q r) = egf q * egf r := by
  ext n
  unfold egf
  rw [PowerSeries.coeff_mul, PowerSeries.coeff_mk, Finset.Nat.sum_antidiagonal_eq_sum_range_succ_mk, bconv, div_eq_mul_inv,
    Finset.sum_mul]
  refine Finset.sum_congr rfl fun j hj => ?_
  rw [PowerSeries.coeff_mk, PowerSeries.coeff_mk]
  have hj' : j ≤ n := by simpa [Nat.lt_succ_iff] using hj
  have h := Nat.choose_mul_factorial_mul_factorial hj'
  have h' : (n.factorial : α) = n.choose j * j.factorial * (n - j).factorial := by rw [← h]; push_cast; ring
  rw [h']
  have h1 : (j.factorial : α) ≠ 0 := Nat.cast_ne_zero.mpr (Nat.factorial_ne_zero _)
  have h2 : ((n - j).factorial : α) ≠ 0 := Nat.cast_ne_zero.mpr (Nat.factorial_ne_zero _)
  have h3 : (n.choose j : α) ≠ 0 := Nat.cast_ne_zero.mpr (Nat.choose_pos hj').ne'
  field_simp

theorem egf_inj {q r : ℕ → α} (h : egf q = egf r) : q = r := by
  funext n
  have := congrArg (PowerSeries.coeff n) h
  unfold egf at this
  rw [PowerSeries.coeff_mk, PowerSeries.coeff_mk] at this
  have h1 : (n.factorial : α) ≠ 0 := Nat.cast_ne_zero.mpr (Nat.factorial_ne_zero _)
  field_simp at this
  exact this

theorem bconv_comm (q r : ℕ → α) : bconv q r = bconv r q := egf_inj (by rw [egf_bconv, egf_bconv, mul_comm])

theorem bconv_assoc (q r s : ℕ → α) : bconv (bconv q r) s = bconv q (bconv r s) :=
  egf_inj (by simp only [egf_bconv, mul_assoc])

end

theorem bconv_congr {α : Type*} [Field α] {q q' r r' : ℕ → α} {N n : ℕ} (hn : n < N) (hq : ∀ j < N, q j = q' j)
    (hr : ∀ j < N, r j = r' j) : bconv q r n = bconv q' r' n := by
  unfold bconv
  refine Finset.sum_congr rfl fun j hj => ?_
  have : j ≤ n := by simpa [Nat.lt_succ_iff] using hj
  rw [hq j (by omega), hr (n - j) (by omega)]

/-- Entries of the list returned by `convolve_moments`. -/
theorem getD_conv {α : Type*} [Field α] (q r : List α) (i : ℕ) (hi : i < q.length) :
    ((List.range q.length).map (convAt q r)).getD i 0 = bconv (fun j => q.getD j 0) (fun j => r.getD j 0) i := by
  rw [List.getD_eq_getElem?_getD, List.getElem?_map, List.getElem?_range hi]
  simp [convAt_eq]

theorem list_ext_getD {α : Type*} [Zero α] (a b : List α) (h : a.length = b.length) (hi : ∀ i < a.length, a.getD i 0 = b.getD i 0) :
    a = b := by
  apply List.ext_getElem h
  intro i h1 h2
  have := hi i h1
  rw [List.getD_eq_getElem?_getD, List.getD_eq_getElem?_getD, List.getElem?_eq_getElem h1, List.getElem?_eq_getElem h2] at this
  simpa using this

/-! ### Laguerre -/

theorem alt_choose (j m : ℕ) :
    ∑ i ∈ range (m + 1), (-1 : ℝ) ^ i * (m.choose i : ℝ) * ((i + j).choose j : ℝ) = (-1) ^ m * (j.choose m : ℝ) := by
  have h := fwdDiff_iter_eq_sum_shift 1 (fun x : ℕ => (x.choose j : ℤ)) m j
  have hv : (fwdDiff 1)^[m] (fun x : ℕ => (x.choose j : ℤ)) j = (j.choose m : ℤ) := by
    rcases le_or_gt m j with hm | hm
    · obtain ⟨d, rfl⟩ := Nat.exists_eq_add_of_le hm
      rw [fwdDiff_iter_choose]
      simp only [Nat.cast_inj]
      exact (Nat.choose_symm_add).symm
    · obtain ⟨d, rfl⟩ := Nat.exists_eq_add_of_lt hm
      have e : (fwdDiff 1)^[j] (fun x : ℕ => (x.choose (j + 0) : ℤ)) = fun x => (x.choose 0 : ℤ) := fwdDiff_iter_choose 0 j
      rw [show j + d + 1 = (d + 1) + j by ring, Function.iterate_add_apply]
      rw [add_zero] at e
      rw [e]
      simp only [Nat.choose_zero_right, Nat.cast_one]
      rw [Function.iterate_succ_apply, fwdDiff_const]
      have hz : ∀ d : ℕ, (fwdDiff 1)^[d] (fun _ : ℕ => (0 : ℤ)) = fun _ => 0 := by
        intro d
        induction d with
        | zero => rfl
        | succ d ih => rw [Function.iterate_succ_apply, fwdDiff_const, ih]
      rw [hz, Nat.choose_eq_zero_of_lt (by omega)]
      rfl
  rw [hv] at h
  have h' : (j.choose m : ℝ) = ∑ k ∈ range (m + 1), ((-1 : ℝ) ^ (m - k) * (m.choose k : ℝ)) * ((j + k).choose j : ℝ) := by
    have := congrArg (Int.cast : ℤ → ℝ) h
    push_cast at this
    rw [this]
    refine Finset.sum_congr rfl fun k _ => ?_
    simp
  rw [h', Finset.mul_sum]
  refine Finset.sum_congr rfl fun i hi => ?_
  have him : i ≤ m := by simpa [Nat.lt_succ_iff] using hi
  have : (-1 : ℝ) ^ m = (-1) ^ (m - i) * (-1) ^ i := by rw [← pow_add]; congr 1; omega
  rw [this, add_comm j i]
  have h1 : (-1 : ℝ) ^ (m - i) * (-1) ^ (m - i) = 1 := by rw [← mul_pow]; simp
  linear_combination ((-1 : ℝ) ^ i * (m.choose i : ℝ) * ((i + j).choose j : ℝ)) * (-h1)

theorem binomial_inversion (a : ℕ → ℝ) (j : ℕ) :
    ∑ m ∈ range (j + 1), (-1 : ℝ) ^ m * (j.choose m : ℝ) * ∑ i ∈ range (m + 1), (m.choose i : ℝ) * (-1) ^ i * a i = a j := by
  have hext : ∀ m ∈ range (j + 1), ∑ i ∈ range (m + 1), (m.choose i : ℝ) * (-1) ^ i * a i =
      ∑ i ∈ range (j + 1), (m.choose i : ℝ) * (-1) ^ i * a i := by
    intro m hm
    apply Finset.sum_subset
    · intro x hx; simp at hx hm ⊢; omega
    · intro x _ hx
      rw [Nat.choose_eq_zero_of_lt (by simpa using hx)]
      simp
  rw [Finset.sum_congr rfl fun m hm => by rw [hext m hm]]
  simp_rw [Finset.mul_sum]
  rw [Finset.sum_comm]
  have inner : ∀ i ∈ range (j + 1), ∑ m ∈ range (j + 1), (-1 : ℝ) ^ m * (j.choose m : ℝ) * ((m.choose i : ℝ) * (-1) ^ i * a i) =
      if i = j then a j else 0 := by
    intro i hi
    have hij : i ≤ j := by simpa [Nat.lt_succ_iff] using hi
    have e : ∀ m ∈ range (j + 1), (-1 : ℝ) ^ m * (j.choose m : ℝ) * ((m.choose i : ℝ) * (-1) ^ i * a i) =
        ((-1) ^ m * ((j.choose m : ℝ) * (m.choose i : ℝ))) * ((-1) ^ i * a i) := fun m _ => by ring
    rw [Finset.sum_congr rfl e, ← Finset.sum_mul]
    have e2 : ∑ m ∈ range (j + 1), (-1 : ℝ) ^ m * ((j.choose m : ℝ) * (m.choose i : ℝ)) =
        (-1) ^ i * (j.choose i : ℝ) * (if j - i = 0 then 1 else 0) := by
      have hsplit : range (j + 1) = range i ∪ Finset.Ico i (j + 1) := by
        rw [Finset.range_eq_Ico, Finset.range_eq_Ico, Finset.Ico_union_Ico_eq_Ico (by omega) (by omega)]
      rw [hsplit, Finset.sum_union (by
        rw [Finset.disjoint_left]; intro x hx hx'; simp at hx hx'; omega)]
      have hz : ∑ m ∈ range i, (-1 : ℝ) ^ m * ((j.choose m : ℝ) * (m.choose i : ℝ)) = 0 := by
        refine Finset.sum_eq_zero fun m hm => ?_
        rw [Nat.choose_eq_zero_of_lt (n := m) (by simpa using hm)]
        simp
      rw [hz, zero_add, Finset.sum_Ico_eq_sum_range]
      have halt := Int.alternating_sum_range_choose (n := j - i)
      have halt' : ∑ m ∈ range (j - i + 1), (-1 : ℝ) ^ m * ((j - i).choose m : ℝ) = if j - i = 0 then 1 else 0 := by
        have := congrArg (Int.cast : ℤ → ℝ) halt
        push_cast at this
        rw [this]
      rw [← halt', Finset.mul_sum, show j + 1 - i = j - i + 1 by omega]
      refine Finset.sum_congr rfl fun m _ => ?_
      have hc := Nat.choose_mul (n := j) (k := i + m) (s := i) (by omega)
      rw [show i + m - i = m by omega] at hc
      have hc' : (j.choose (i + m) : ℝ) * ((i + m).choose i : ℝ) = (j.choose i : ℝ) * ((j - i).choose m : ℝ) := by exact_mod_cast hc
      rw [hc', pow_add]
      ring
    rw [e2]
    by_cases h : i = j
    · subst h
      rw [if_pos (by omega), if_pos rfl, Nat.choose_self]
      have : (-1 : ℝ) ^ i * (-1) ^ i = 1 := by rw [← mul_pow]; simp
      push_cast
      linear_combination (a i) * this
    · rw [if_neg (by omega), if_neg h]
      simp
  rw [Finset.sum_congr rfl inner]
  simp

open MeasureTheory Set in
theorem integral_pow_exp (n : ℕ) : ∫ x in Ioi (0 : ℝ), x ^ n * Real.exp (-x) = n.factorial := by
  have := Real.Gamma_nat_eq_factorial n
  rw [Real.Gamma_eq_integral (by positivity)] at this
  rw [← this]
  refine setIntegral_congr_fun measurableSet_Ioi fun x _ => ?_
  simp only [add_sub_cancel_right, Real.rpow_natCast]
  ring

open MeasureTheory Set in
theorem integrable_pow_exp (n : ℕ) : IntegrableOn (fun x : ℝ => x ^ n * Real.exp (-x)) (Ioi 0) := by
  have := Real.GammaIntegral_convergent (s := (n : ℝ) + 1) (by positivity)
  refine this.congr_fun (fun x _ => ?_) measurableSet_Ioi
  simp only [add_sub_cancel_right, Real.rpow_natCast]
  ring

open MeasureTheory Set in
theorem integral_laguerre (j m : ℕ) :
    IntegrableOn (fun x : ℝ => x ^ j * Real.exp (-x) * laguerre m x) (Ioi 0) ∧
    ∫ x in Ioi (0 : ℝ), x ^ j * Real.exp (-x) * laguerre m x = j.factorial * ((-1) ^ m * (j.choose m : ℝ)) := by
  have e : ∀ x : ℝ, x ^ j * Real.exp (-x) * laguerre m x =
      ∑ i ∈ Finset.range (m + 1), ((-1) ^ i * (m.choose i : ℝ) / i.factorial) * (x ^ (i + j) * Real.exp (-x)) := by
    intro x
    unfold laguerre
    rw [Finset.mul_sum]
    refine Finset.sum_congr rfl fun i _ => ?_
    rw [pow_add]
    ring
  have hi : ∀ i ∈ Finset.range (m + 1), IntegrableOn (fun x : ℝ => ((-1) ^ i * (m.choose i : ℝ) / i.factorial) * (x ^ (i + j) * Real.exp (-x))) (Ioi 0) :=
    fun i _ => (integrable_pow_exp (i + j)).const_mul _
  simp_rw [e]
  refine ⟨integrable_finsetSum _ hi, ?_⟩
  rw [integral_finsetSum _ hi, ← alt_choose j m, Finset.mul_sum]
  refine Finset.sum_congr rfl fun i _ => ?_
  rw [integral_const_mul, integral_pow_exp]
  have h := Nat.add_choose_mul_factorial_mul_factorial i j
  have h' : ((i + j).factorial : ℝ) = ((i + j).choose j : ℝ) * i.factorial * j.factorial := by exact_mod_cast h.symm
  rw [h']
  have : (i.factorial : ℝ) ≠ 0 := by positivity
  field_simp

end Verif.DistMisc
