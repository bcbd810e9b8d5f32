import Verif.Model.StepGrowth
import Verif.Lemmas.Tactics
import Mathlib.Algebra.Order.BigOperators.Ring.Finset
import Mathlib.Tactic.LinearCombination
import Mathlib.Data.Nat.Choose.Sum

/-!
# Lemmas for the step-growth closed forms
-/

namespace Verif.StepGrowth

variable {α : Type*} [Field α] [LinearOrder α]

theorem pdiv_ok {a b : α} (h : b ≠ 0) : pdiv a b = .ok (a / b) := if_neg h

theorem ok_bind.{u} {β γ : Type u} (a : β) (f : β → Except Err γ) : (Except.ok a >>= f) = f a := rfl

variable [IsStrictOrderedRing α]

/-- The quadratic form behind `Mw ≥ Mn`. -/
theorem core {s t P R c : α} (hs : 0 ≤ s) (ht : 0 ≤ t) (hD : 0 < 1 - s * t) :
    0 ≤ (P - c) ^ 2 / (1 + s) + (R - c) ^ 2 / (1 + t) + (s * R ^ 2 + t * P ^ 2 + 2 * P * R) / (1 - s * t) - c ^ 2 := by
  have h1 : 0 < 1 + s := by positivity
  have h2 : 0 < 1 + t := by positivity
  have : (P - c) ^ 2 / (1 + s) + (R - c) ^ 2 / (1 + t) + (s * R ^ 2 + t * P ^ 2 + 2 * P * R) / (1 - s * t) - c ^ 2 =
      ((1 + s) * (1 + t) * c + (1 + t) * (P - c) + (1 + s) * (R - c)) ^ 2 / ((1 + s) * (1 + t) * (1 - s * t)) := by
    have := hD.ne'
    field_simp
    ring
  rw [this]; positivity

theorem ordered {X A2 LA NA B2 LB NB P R s t : α} (hX : 0 < X) (hs : 0 ≤ s) (ht : 0 ≤ t) (hD : 0 < 1 - s * t)
    (hA : ∀ c, X * (P - c) ^ 2 / (1 + s) ≤ A2 - 2 * c * LA + c ^ 2 * NA)
    (hB : ∀ c, X * (R - c) ^ 2 / (1 + t) ≤ B2 - 2 * c * LB + c ^ 2 * NB)
    (hNA : X / (1 + s) ≤ NA) (hNB : X / (1 + t) ≤ NB) (hL : 0 < LA + LB) :
    0 < NA + NB - X ∧ (LA + LB) / (NA + NB - X) ≤
      (A2 + B2 + X * (s * R ^ 2 + t * P ^ 2 + 2 * P * R) / (1 - s * t)) / (LA + LB) := by
  have h1 : 0 < 1 + s := by positivity
  have h2 : 0 < 1 + t := by positivity
  have hN : 0 < NA + NB - X := by
    have : X / (1 + s) + X / (1 + t) - X = X * (1 - s * t) / ((1 + s) * (1 + t)) := by field_simp; ring
    have : 0 < X / (1 + s) + X / (1 + t) - X := by rw [this]; positivity
    linarith
  refine ⟨hN, ?_⟩
  set N := NA + NB - X with hNd
  set L := LA + LB with hLd
  set c := L / N with hc
  have h := mul_nonneg hX.le (core (P := P) (R := R) (c := c) hs ht hD)
  have ha := hA c
  have hb := hB c
  have key : 0 ≤ A2 + B2 + X * (s * R ^ 2 + t * P ^ 2 + 2 * P * R) / (1 - s * t) - 2 * c * L + c ^ 2 * N := by
    have e : X * ((P - c) ^ 2 / (1 + s) + (R - c) ^ 2 / (1 + t) + (s * R ^ 2 + t * P ^ 2 + 2 * P * R) / (1 - s * t) - c ^ 2) =
        X * (P - c) ^ 2 / (1 + s) + X * (R - c) ^ 2 / (1 + t) + X * (s * R ^ 2 + t * P ^ 2 + 2 * P * R) / (1 - s * t)
          - X * c ^ 2 := by ring
    rw [e] at h
    have : c ^ 2 * N = c ^ 2 * NA + c ^ 2 * NB - X * c ^ 2 := by rw [hNd]; ring
    have : 2 * c * L = 2 * c * LA + 2 * c * LB := by rw [hLd]; ring
    linarith
  have hcN : c * N = L := div_mul_cancel₀ _ hN.ne'
  rw [le_div_iff₀ hL]
  have : - 2 * c * L + c ^ 2 * N = - (c * L) := by
    have : c ^ 2 * N = c * (c * N) := by ring
    rw [this, hcN]; ring
  linarith

/-- One kind of unit: `n` mol of molar mass `M`. -/
theorem one_kind {X n M s : α} (h1 : 0 < 1 + s) (h : X ≤ n * (1 + s)) :
    (∀ c, X * (M - c) ^ 2 / (1 + s) ≤ n * M ^ 2 - 2 * c * (n * M) + c ^ 2 * n) ∧ X / (1 + s) ≤ n := by
  refine ⟨fun c => ?_, (div_le_iff₀ h1).2 h⟩
  rw [div_le_iff₀ h1]
  nlinarith [mul_le_mul_of_nonneg_right h (sq_nonneg (M - c))]

/-- Several kinds of units, by the Cauchy-Schwarz inequality. -/
theorem many_kinds {N : ℕ} {n M : Fin N → α} {f : Fin N → α} (hn : ∀ i, 0 ≤ n i) (hf : ∀ i, 0 ≤ f i) (hS : 0 < ∑ i, f i * n i) {X s : α}
    (h1 : 0 < 1 + s) (hX : 0 ≤ X) (h : X * (∑ i, f i ^ 2 * n i) ≤ (∑ i, f i * n i) ^ 2 * (1 + s)) :
    (∀ c, X * ((∑ i, M i * f i * n i) / (∑ i, f i * n i) - c) ^ 2 / (1 + s) ≤
      ∑ i, M i ^ 2 * n i - 2 * c * (∑ i, M i * n i) + c ^ 2 * ∑ i, n i) ∧ X / (1 + s) ≤ ∑ i, n i := by
  set S := ∑ i, f i * n i with hSd
  set S2 := ∑ i, f i ^ 2 * n i with hS2d
  have cs : ∀ g : Fin N → α, (∑ i, f i * n i * g i) ^ 2 ≤ S2 * ∑ i, n i * g i ^ 2 := fun g =>
    Finset.sum_sq_le_sum_mul_sum_of_sq_le_mul Finset.univ (fun i _ => by have := hn i; positivity)
      (fun i _ => by have := hn i; positivity) (fun i _ => le_of_eq (by ring))
  have key : ∀ g : Fin N → α, X * ((∑ i, f i * n i * g i) / S) ^ 2 / (1 + s) ≤ ∑ i, n i * g i ^ 2 := by
    intro g
    have hG : 0 ≤ ∑ i, n i * g i ^ 2 := Finset.sum_nonneg fun i _ => mul_nonneg (hn i) (sq_nonneg _)
    rw [div_pow, div_le_iff₀ h1, ← mul_div_assoc, div_le_iff₀ (by positivity)]
    calc X * (∑ i, f i * n i * g i) ^ 2 ≤ X * (S2 * ∑ i, n i * g i ^ 2) := mul_le_mul_of_nonneg_left (cs g) hX
      _ = (X * S2) * ∑ i, n i * g i ^ 2 := by ring
      _ ≤ (S ^ 2 * (1 + s)) * ∑ i, n i * g i ^ 2 := mul_le_mul_of_nonneg_right h hG
      _ = _ := by ring
  refine ⟨fun c => ?_, ?_⟩
  · have := key (fun i => M i - c)
    have e1 : (∑ i, f i * n i * (M i - c)) / S = (∑ i, M i * f i * n i) / S - c := by
      have : ∑ i, f i * n i * (M i - c) = ∑ i, M i * f i * n i - c * S := by
        rw [hSd, Finset.mul_sum, ← Finset.sum_sub_distrib]
        exact Finset.sum_congr rfl fun i _ => by ring
      rw [this, sub_div, mul_div_cancel_right₀ _ hS.ne']
    have e2 : ∑ i, n i * (M i - c) ^ 2 = ∑ i, M i ^ 2 * n i - 2 * c * (∑ i, M i * n i) + c ^ 2 * ∑ i, n i := by
      rw [Finset.mul_sum, Finset.mul_sum, ← Finset.sum_sub_distrib, ← Finset.sum_add_distrib]
      exact Finset.sum_congr rfl fun i _ => by ring
    rwa [e1, e2] at this
  · have := key (fun _ => 1)
    simpa [← hSd, div_self hS.ne'] using this

/-- Weight hanging from a bond, seen from either side. -/
theorem hanging {s t P R gA gB : α} (hD : 1 - s * t ≠ 0) (h1 : gA = R + t * gB) (h2 : gB = P + s * gA) :
    (s * R ^ 2 + t * P ^ 2 + 2 * P * R) / (1 - s * t) = P * gA + R * gB := by
  rw [div_eq_iff hD]
  linear_combination (-(P + R * s)) * h1 - (P * t + R) * h2

theorem case1_eq {nA nB pB MAA MBB : α} (hA : 0 < nA) (hB : 0 < nB) (hp : 0 < pB) (hN : nA + nB - 2 * nB * pB ≠ 0)
    (hD : 1 - pB * nB / nA * pB ≠ 0) (hL : nA * MAA + nB * MBB ≠ 0) :
    case1 pB (nB / nA) MAA MBB = .ok ((nA * MAA + nB * MBB) / (nA + nB - 2 * nB * pB),
      (nA * MAA ^ 2 + nB * MBB ^ 2 + 2 * nB * pB * (pB * nB / nA * MBB ^ 2 + pB * MAA ^ 2 + 2 * MAA * MBB) / (1 - pB * nB / nA * pB)) /
        (nA * MAA + nB * MBB)) := by
  have d1 : pB * nB / nA + pB - 2 * (pB * nB / nA) * pB ≠ 0 := by
    have : pB * nB / nA + pB - 2 * (pB * nB / nA) * pB = pB / nA * (nA + nB - 2 * nB * pB) := by field_simp; ring
    rw [this]; exact mul_ne_zero (by positivity) hN
  have d3 : pB * MAA + pB * nB / nA * MBB ≠ 0 := by
    have : pB * MAA + pB * nB / nA * MBB = pB / nA * (nA * MAA + nB * MBB) := by field_simp
    rw [this]; exact mul_ne_zero (by positivity) hL
  simp only [case1, ← mul_div_assoc pB nB nA]
  rw [pdiv_ok d1, ok_bind, pdiv_ok hD, ok_bind, pdiv_ok d3, ok_bind, pdiv_ok (mul_ne_zero hD d3), ok_bind]
  refine congrArg Except.ok (Prod.ext ?_ ?_)
  · show (pB * MAA + pB * nB / nA * MBB) / _ = _
    rw [div_eq_div_iff d1 hN]
    field_simp
    ring
  · show (1 + pB * nB / nA * pB) / (1 - pB * nB / nA * pB) * (pB * MAA ^ 2 + pB * nB / nA * MBB ^ 2) / (pB * MAA + pB * nB / nA * MBB) +
      4 * (pB * nB / nA) * pB * MAA * MBB / ((1 - pB * nB / nA * pB) * (pB * MAA + pB * nB / nA * MBB)) = _
    have e : pB * MAA + pB * nB / nA * MBB = pB / nA * (nA * MAA + nB * MBB) := by field_simp
    have e2 : 1 - pB * nB / nA * pB = (nA - pB ^ 2 * nB) / nA := by field_simp
    have e3 : nA - pB ^ 2 * nB ≠ 0 := fun h => hD (by rw [e2, h, zero_div])
    rw [e, e2]
    generalize nA * MAA + nB * MBB = L at *
    field_simp
    ring

omit [IsStrictOrderedRing α] in
theorem case5_eq {b c r v MAA MBB MC a t : α} (hv : 1 + v ≠ 0) (ha : a = r * (b + v * c) / (1 + v)) (ht : t = 2 * b + v * c) (h1 : t ≠ 0)
    (h2 : 1 - 2 * a + 2 * a * (1 + v) / t ≠ 0) :
    case5 b c r v MAA MBB MC = .ok ((MAA + 2 * a / t * MBB + 2 * a * v / t * MC) / (1 - 2 * a + 2 * a * (1 + v) / t)) := by
  simp only [case5]
  rw [← ht, pdiv_ok hv, ok_bind, ← ha, pdiv_ok h1, ok_bind, pdiv_ok h1, ok_bind, pdiv_ok h1, ok_bind, pdiv_ok h2]

theorem case3_eq {nA nB b c MAA MBC : α} (hA : 0 < nA) (hB : 0 < nB) (hb : 0 < b + c) (hN : nA + nB - nB * (b + c) ≠ 0)
    (hD : 1 - nB * (b + c) / (2 * nA) * (2 * b * c / (b + c)) ≠ 0) (hL : nA * MAA + nB * MBC ≠ 0) :
    case3 b c (nB / nA) MAA MBC = .ok ((nA * MAA + nB * MBC) / (nA + nB - nB * (b + c)),
      (nA * MAA ^ 2 + nB * MBC ^ 2 + nB * (b + c) * (nB * (b + c) / (2 * nA) * MBC ^ 2 + 2 * b * c / (b + c) * MAA ^ 2 + 2 * MAA * MBC) /
        (1 - nB * (b + c) / (2 * nA) * (2 * b * c / (b + c)))) / (nA * MAA + nB * MBC)) := by
  have ea : nB / nA * (b + c) / 2 = nB * (b + c) / (2 * nA) := by field_simp
  have d1 : 2 * (nB * (b + c) / (2 * nA)) + b + c - 2 * (nB * (b + c) / (2 * nA)) * (b + c) ≠ 0 := by
    have : 2 * (nB * (b + c) / (2 * nA)) + b + c - 2 * (nB * (b + c) / (2 * nA)) * (b + c) =
        (b + c) / nA * (nA + nB - nB * (b + c)) := by field_simp; ring
    rw [this]; exact mul_ne_zero (by positivity) hN
  have e1 : 2 * (nB * (b + c) / (2 * nA)) * b * c / (b + c) = nB * (b + c) / (2 * nA) * (2 * b * c / (b + c)) := by ring
  have e3 : 2 * (nB * (b + c) / (2 * nA)) / (b + c) = nB / nA := by field_simp
  have d3 : MAA + nB / nA * MBC ≠ 0 := by
    have : MAA + nB / nA * MBC = (nA * MAA + nB * MBC) / nA := by field_simp
    rw [this]; exact div_ne_zero hL hA.ne'
  simp only [case3, ea]
  rw [pdiv_ok d1, ok_bind, pdiv_ok hb.ne', ok_bind, pdiv_ok (by positivity), ok_bind, pdiv_ok hb.ne', ok_bind, e1, e3,
    pdiv_ok (mul_ne_zero hD d3), ok_bind]
  refine congrArg Except.ok (Prod.ext ?_ ?_)
  · show ((b + c) * MAA + 2 * (nB * (b + c) / (2 * nA)) * MBC) / _ = _
    rw [div_eq_div_iff d1 hN]
    field_simp
    ring
  · show ((1 + nB * (b + c) / (2 * nA) * (2 * b * c / (b + c))) * MAA ^ 2 + 4 * (nB * (b + c) / (2 * nA)) * MAA * MBC +
      2 * (nB * (b + c) / (2 * nA)) * (b + c + nB * (b + c) / (2 * nA) * b ^ 2 + nB * (b + c) / (2 * nA) * c ^ 2) / (b + c) ^ 2 * MBC ^ 2) /
      ((1 - nB * (b + c) / (2 * nA) * (2 * b * c / (b + c))) * (MAA + nB / nA * MBC)) = _
    have e : MAA + nB / nA * MBC = (nA * MAA + nB * MBC) / nA := by field_simp
    have e2 : 1 - nB * (b + c) / (2 * nA) * (2 * b * c / (b + c)) = (nA - nB * b * c) / nA := by field_simp
    have e3 : nA - nB * b * c ≠ 0 := fun h => hD (by rw [e2, h, zero_div])
    rw [e, e2]
    generalize nA * MAA + nB * MBC = L at *
    field_simp
    ring

theorem miller1_eq {nAf nA2 nB2 MAf MA2 MB2 b c : α} {f : ℕ} (hf : 0 < f) (h1 : 0 < nAf) (h2 : 0 ≤ nA2) (h3 : 0 < nB2) (hb : 0 < b + c)
    (hN : nAf + nA2 + nB2 - nB2 * (b + c) ≠ 0)
    (hD : 1 - nB2 * (b + c) / (f * nAf + 2 * nA2) * ((f * (f - 1) * nAf + 2 * nA2) / (f * nAf + 2 * nA2)) * (2 * b * c / (b + c)) ≠ 0)
    (hL : MAf * nAf + MA2 * nA2 + MB2 * nB2 ≠ 0) :
    miller1 nAf nA2 nB2 f MAf MA2 MB2 b c = .ok ((MAf * nAf + MA2 * nA2 + MB2 * nB2) / (nAf + nA2 + nB2 - nB2 * (b + c)),
      (MAf ^ 2 * nAf + MA2 ^ 2 * nA2 + MB2 ^ 2 * nB2 + nB2 * (b + c) *
        (nB2 * (b + c) / (f * nAf + 2 * nA2) * ((f * (f - 1) * nAf + 2 * nA2) / (f * nAf + 2 * nA2)) * MB2 ^ 2 +
          2 * b * c / (b + c) * ((f * nAf * MAf + 2 * nA2 * MA2) / (f * nAf + 2 * nA2)) ^ 2 +
          2 * ((f * nAf * MAf + 2 * nA2 * MA2) / (f * nAf + 2 * nA2)) * MB2) /
        (1 - nB2 * (b + c) / (f * nAf + 2 * nA2) * ((f * (f - 1) * nAf + 2 * nA2) / (f * nAf + 2 * nA2)) * (2 * b * c / (b + c)))) /
        (MAf * nAf + MA2 * nA2 + MB2 * nB2)) := by
  have hf' : (0 : α) < f := by exact_mod_cast hf
  set F : α := (f : α) with hF
  set S := F * nAf + 2 * nA2 with hS
  have S0 : 0 < S := by positivity
  set P := (F * nAf * MAf + 2 * nA2 * MA2) / S with hP
  set U := (F * (F - 1) * nAf + 2 * nA2) / S with hU
  have r0 : S / (2 * nB2) ≠ 0 := by positivity
  have e1 : (1 - F * nAf / S) * MA2 + F * nAf / S * MAf = P := by
    rw [hP]; field_simp; rw [hS]; ring
  have e2 : 1 + (F - 2) * (F * nAf / S) = U := by
    rw [hU]; field_simp; rw [hS]; ring
  have e3 : 1 / 2 * (b + c) / (S / (2 * nB2)) = nB2 * (b + c) / S := by field_simp
  have e4 : b * c / (S / (2 * nB2)) = nB2 * (b + c) / S * (2 * b * c / (b + c)) := by field_simp
  have e5 : 1 - nB2 * (b + c) / S * (2 * b * c / (b + c)) * U = 1 - nB2 * (b + c) / S * U * (2 * b * c / (b + c)) := by ring
  simp only [miller1]
  rw [← hF, ← hS, pdiv_ok (by positivity), ok_bind, pdiv_ok r0, ok_bind, pdiv_ok S0.ne', ok_bind, pdiv_ok r0, ok_bind,
    e1, e2, e3, e4, e5, pdiv_ok hD, ok_bind, pdiv_ok hN, ok_bind, pdiv_ok hL, ok_bind]
  refine congrArg Except.ok (Prod.ext rfl ?_)
  set D := 1 - nB2 * (b + c) / S * U * (2 * b * c / (b + c)) with hDd
  set a := nB2 * (b + c) / S with ha
  set t := 2 * b * c / (b + c) with ht
  have haS : nB2 * (b + c) = a * S := by rw [ha]; field_simp
  show (MAf * nAf * (MAf + F * ((a * MB2 + a * t * P) / D)) + MA2 * nA2 * (MA2 + 2 * ((a * MB2 + a * t * P) / D)) +
    MB2 * nB2 * (MB2 + b * (P + U * ((a * MB2 + a * t * P) / D)) + c * (P + U * ((a * MB2 + a * t * P) / D)))) / _ = _
  congr 1
  have hPS : F * nAf * MAf + 2 * nA2 * MA2 = P * S := by rw [hP]; field_simp
  have : MAf * nAf * (MAf + F * ((a * MB2 + a * t * P) / D)) + MA2 * nA2 * (MA2 + 2 * ((a * MB2 + a * t * P) / D)) +
    MB2 * nB2 * (MB2 + b * (P + U * ((a * MB2 + a * t * P) / D)) + c * (P + U * ((a * MB2 + a * t * P) / D))) =
    MAf ^ 2 * nAf + MA2 ^ 2 * nA2 + MB2 ^ 2 * nB2 + (F * nAf * MAf + 2 * nA2 * MA2) * ((a * MB2 + a * t * P) / D) +
      (nB2 * (b + c)) * MB2 * (P + U * ((a * MB2 + a * t * P) / D)) := by ring
  rw [this, hPS, haS, add_assoc (MAf ^ 2 * nAf + MA2 ^ 2 * nA2 + MB2 ^ 2 * nB2)]
  congr 1
  field_simp
  rw [hDd]
  ring

theorem stockmayer_eq {N K : ℕ} {nA : Fin N → ℝ} {nB : Fin K → ℝ} {f : Fin N → ℕ} {g : Fin K → ℕ} {MA : Fin N → ℝ}
    {MB : Fin K → ℝ} {pB pA SA SB u w P R L : ℝ} (hSA : SA = ∑ i, (f i : ℝ) * nA i) (hSB : SB = ∑ j, (g j : ℝ) * nB j)
    (hu : u = (∑ i, (f i : ℝ) ^ 2 * nA i) / SA - 1) (hw : w = (∑ j, (g j : ℝ) ^ 2 * nB j) / SB - 1)
    (hP : P = (∑ i, MA i * f i * nA i) / SA) (hR : R = (∑ j, MB j * g j * nB j) / SB) (hpA : pA = pB * SB / SA)
    (hL : L = ∑ i, MA i * nA i + ∑ j, MB j * nB j) (SA0 : 0 < SA) (SB0 : 0 < SB) (p0 : 0 < pB) (u0 : 0 ≤ u) (w0 : 0 ≤ w) (L0 : L ≠ 0) :
    stockmayer nA nB f g MA MB pB = if 1 ≤ pA * u * (pB * w) then none else
      some (L / (∑ i, nA i + ∑ j, nB j - pB * SB),
        (∑ i, MA i ^ 2 * nA i + ∑ j, MB j ^ 2 * nB j + pB * SB * (pA * u * R ^ 2 + pB * w * P ^ 2 + 2 * P * R) /
          (1 - pA * u * (pB * w))) / L) := by
  have pA0 : 0 < pA := by rw [hpA]; positivity
  have hc : (0 < SB * u * w ∧ pB ≥ √(SA / (SB * u * w))) ↔ 1 ≤ pA * u * (pB * w) := by
    have e : pA * u * (pB * w) = pB ^ 2 * (SB * u * w) / SA := by rw [hpA]; ring
    rw [e, le_div_iff₀ SA0, one_mul, ge_iff_le]
    constructor
    · rintro ⟨h1, h2⟩
      rw [Real.sqrt_le_left p0.le, div_le_iff₀ h1] at h2
      exact h2
    · intro h
      have h1 : 0 < SB * u * w := by
        rcases (mul_nonneg (mul_nonneg SB0.le u0) w0).lt_or_eq with h' | h'
        · exact h'
        · rw [← h', mul_zero] at h; exact absurd h (not_le.2 SA0)
      exact ⟨h1, by rw [Real.sqrt_le_left p0.le, div_le_iff₀ h1]; exact h⟩
  simp only [stockmayer]
  rw [← hSA, ← hSB, ← hu, ← hw, ← hP, ← hR, ← hpA, ← hL]
  simp only [hc]
  split_ifs with h
  · rfl
  · have hX : pA * SA = pB * SB := by rw [hpA]; field_simp
    have hD : 1 - pA * u * (pB * w) ≠ 0 := by push Not at h; exact (sub_pos.2 h).ne'
    rw [hX]
    refine congrArg some (Prod.ext rfl ?_)
    show (_ + _ + pA * pB * _ / (1 - pA * pB * u * w)) / _ = _
    have e1 : pB * ((∑ i, MA i * nA i) / SA) + pA * ((∑ j, MB j * nB j) / SB) = pB / SA * L := by
      rw [hL, hpA]; field_simp
    have e2 : 1 - pA * pB * u * w = 1 - pA * u * (pB * w) := by ring
    have e3 : pA * ((∑ j, MB j ^ 2 * nB j) / SB) = pB / SA * ∑ j, MB j ^ 2 * nB j := by rw [hpA]; field_simp
    have e4 : pA * pB = pB / SA * (pB * SB) := by rw [hpA]; ring
    rw [e1, e2, e3, e4, div_eq_div_iff (mul_ne_zero (by positivity) L0) L0]
    ring

theorem miller2_eq {nAf nB2 MAf MB2 : α} {f : ℕ} {p : Fin f → α} {sp b m : α} (hf : 0 < f) (h1 : 0 < nAf) (h3 : 0 < nB2)
    (hsp : sp = ∑ i : Fin f, ((i : ℕ) + 1 : α) * p i) (sp0 : 0 < sp)
    (hm : m * sp = ∑ i : Fin f, ((i : ℕ) + 1 : α) ^ 2 * p i) (hb : 2 * nB2 * b = nAf * sp) (hL : MAf * nAf + MB2 * nB2 ≠ 0) :
    miller2 nAf nB2 f MAf MB2 p = if (m - 1) * b < 1 then
      some ((MAf * nAf + MB2 * nB2) / (nAf + nB2 - nAf * sp),
        (nAf * MAf ^ 2 + nB2 * MB2 ^ 2 + nAf * sp * ((m - 1) * MB2 ^ 2 + b * MAf ^ 2 + 2 * MAf * MB2) / (1 - (m - 1) * b)) /
          (MAf * nAf + MB2 * nB2)) else none := by
  have hf' : (0 : α) < f := by exact_mod_cast hf
  have hm' : m = (∑ i : Fin f, ((i : ℕ) + 1 : α) ^ 2 * p i) / sp := by rw [← hm]; field_simp
  have hb' : b = f * nAf / (2 * nB2) * (sp / f) := by
    have : b = nAf * sp / (2 * nB2) := by rw [← hb]; field_simp
    rw [this]; field_simp
  simp only [miller2]
  rw [← hsp]
  have : fdiv (∑ i : Fin f, ((i : ℕ) + 1 : α) ^ 2 * p i) sp = some m := by rw [hm']; exact if_neg sp0.ne'
  rw [this]
  dsimp only
  rw [← hb', mul_comm b (m - 1)]
  split_ifs with h
  · have hD : 1 - (m - 1) * b ≠ 0 := (sub_pos.2 h).ne'
    have e0 : f * nAf * (sp / f) = nAf * sp := by field_simp
    have e1 : 2 * (f * nAf / (2 * nB2)) / f = nAf / nB2 := by field_simp
    have e2 : f * (sp / f) = sp := by field_simp
    have e3 : 4 * (f * nAf / (2 * nB2)) * (sp / f) = 4 * b := by rw [hb']; ring
    rw [e0, e1, e2, e3]
    refine congrArg some (Prod.ext rfl ?_)
    show _ / _ = _
    have e4 : nAf / nB2 * MAf + MB2 = (MAf * nAf + MB2 * nB2) / nB2 := by field_simp
    rw [e4, ← hb]
    have hsp' : sp = 2 * nB2 * b / nAf := by rw [hb]; field_simp
    rw [hsp']
    obtain ⟨q, rfl⟩ : ∃ q, m = q + 1 := ⟨m - 1, by ring⟩
    simp only [add_sub_cancel_right] at hD ⊢
    generalize MAf * nAf + MB2 * nB2 = L at *
    have e5 : 2 * nB2 * b / nAf - (q + 1) + 1 = 2 * nB2 * b / nAf - q := by ring
    rw [e5]
    have hD' : 1 - b * q ≠ 0 := by rwa [mul_comm]
    field_simp
    ring
  · rfl

/-- First and second moment of the binomial distribution. -/
theorem binomial_moments (f : ℕ) (q : ℝ) :
    ∑ i ∈ Finset.range f, ((i : ℝ) + 1) * ((f.choose (i + 1) : ℝ) * q ^ (i + 1) * (1 - q) ^ (f - (i + 1))) = f * q ∧
    ∑ i ∈ Finset.range f, ((i : ℝ) + 1) ^ 2 * ((f.choose (i + 1) : ℝ) * q ^ (i + 1) * (1 - q) ^ (f - (i + 1))) =
      (1 + (f - 1) * q) * (f * q) := by
  cases f with
  | zero => simp
  | succ n =>
    have key : ∀ i : ℕ, ((i : ℝ) + 1) * ((n + 1).choose (i + 1) : ℝ) = (n + 1) * (n.choose i : ℝ) := fun i => by
      have := Nat.add_one_mul_choose_eq n i
      have h : ((n + 1 : ℕ) : ℝ) * (n.choose i : ℝ) = ((n + 1).choose (i + 1) : ℝ) * ((i + 1 : ℕ) : ℝ) := by exact_mod_cast this
      push_cast at h
      linarith
    have S0 : ∀ n : ℕ, ∑ i ∈ Finset.range (n + 1), (n.choose i : ℝ) * q ^ i * (1 - q) ^ (n - i) = 1 := fun n => by
      have := add_pow q (1 - q) n
      rw [add_sub_cancel, one_pow] at this
      refine Eq.trans ?_ this.symm
      exact Finset.sum_congr rfl fun i _ => by ring
    have S1 : ∑ i ∈ Finset.range (n + 1), (i : ℝ) * ((n.choose i : ℝ) * q ^ i * (1 - q) ^ (n - i)) = n * q := by
      cases n with
      | zero => simp
      | succ k =>
        rw [Finset.sum_range_succ']
        simp only [Nat.cast_zero, zero_mul, add_zero]
        have : ∀ i : ℕ, ((i + 1 : ℕ) : ℝ) * (((k + 1).choose (i + 1) : ℝ) * q ^ (i + 1) * (1 - q) ^ (k + 1 - (i + 1))) =
            ((k + 1 : ℕ) : ℝ) * q * ((k.choose i : ℝ) * q ^ i * (1 - q) ^ (k - i)) := fun i => by
          have h := Nat.add_one_mul_choose_eq k i
          have h' : ((k + 1 : ℕ) : ℝ) * (k.choose i : ℝ) = ((k + 1).choose (i + 1) : ℝ) * ((i + 1 : ℕ) : ℝ) := by exact_mod_cast h
          rw [Nat.add_sub_add_right, pow_succ]
          linear_combination (-(q ^ i * q * (1 - q) ^ (k - i))) * h'
        rw [Finset.sum_congr rfl fun i _ => this i, ← Finset.mul_sum, S0, mul_one]
    constructor
    · have : ∀ i : ℕ, ((i : ℝ) + 1) * (((n + 1).choose (i + 1) : ℝ) * q ^ (i + 1) * (1 - q) ^ (n + 1 - (i + 1))) =
          (n + 1) * q * ((n.choose i : ℝ) * q ^ i * (1 - q) ^ (n - i)) := fun i => by
        rw [Nat.add_sub_add_right, pow_succ]
        linear_combination (q ^ i * q * (1 - q) ^ (n - i)) * key i
      rw [Finset.sum_congr rfl fun i _ => this i, ← Finset.mul_sum, S0, mul_one]
      push_cast; ring
    · have : ∀ i : ℕ, ((i : ℝ) + 1) ^ 2 * (((n + 1).choose (i + 1) : ℝ) * q ^ (i + 1) * (1 - q) ^ (n + 1 - (i + 1))) =
          (n + 1) * q * ((i : ℝ) * ((n.choose i : ℝ) * q ^ i * (1 - q) ^ (n - i))) +
          (n + 1) * q * ((n.choose i : ℝ) * q ^ i * (1 - q) ^ (n - i)) := fun i => by
        rw [Nat.add_sub_add_right, pow_succ]
        linear_combination (((i : ℝ) + 1) * q ^ i * q * (1 - q) ^ (n - i)) * key i
      rw [Finset.sum_congr rfl fun i _ => this i, Finset.sum_add_distrib, ← Finset.mul_sum, ← Finset.mul_sum, S0, S1]
      push_cast; ring

end Verif.StepGrowth
