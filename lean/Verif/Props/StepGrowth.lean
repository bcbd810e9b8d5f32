import Verif.Lemmas.StepGrowth
import Mathlib.Data.Nat.Choose.Sum

/-!
# C41, C42, C76: step-growth closed forms

`mass / (units - bonds)`: the number-average molar mass of a mixture of trees (linear or branched chains without rings) is the total
mass divided by the number of molecules, and a tree of `k` units has `k - 1` bonds.
-/

namespace Verif.StepGrowth

variable {α : Type*} [Field α] [LinearOrder α] [IsStrictOrderedRing α]

/-! ### C76 -/

/-- **C76.** `Case_1`: `nA` mol AA, `nB` mol BB, conversions `pB` of B and `pA = pB nB/nA` of A. -/
theorem C76_case1 (nA nB pB MAA MBB : α) (hA : 0 < nA) (hB : 0 < nB) (hp : 0 < pB) (hM1 : 0 < MAA) (hM2 : 0 < MBB)
    (h1 : pB < 1) (h2 : pB * nB ≤ nA) :
    (case1 pB (nB / nA) MAA MBB).map Prod.fst = .ok ((nA * MAA + nB * MBB) / (nA + nB - 2 * nB * pB)) := by
  have ha : pB * (nB / nA) ≤ 1 := by rw [← mul_div_assoc, div_le_one hA]; exact h2
  have ha0 : 0 < pB * (nB / nA) := by positivity
  have hN : 0 < nA + nB - 2 * nB * pB := by nlinarith
  have d1 : pB * (nB / nA) + pB - 2 * (pB * (nB / nA)) * pB ≠ 0 := by
    have : pB * (nB / nA) + pB - 2 * (pB * (nB / nA)) * pB = pB / nA * (nA + nB - 2 * nB * pB) := by field_simp; ring
    rw [this]; positivity
  have d2 : 1 - pB * (nB / nA) * pB ≠ 0 := by nlinarith
  have d3 : pB * MAA + pB * (nB / nA) * MBB ≠ 0 := by positivity
  simp only [case1]
  rw [pdiv_ok d1, ok_bind, pdiv_ok d2, ok_bind, pdiv_ok d3, ok_bind, pdiv_ok (mul_ne_zero d2 d3), ok_bind]
  refine congrArg Except.ok ?_
  show (pB * MAA + pB * (nB / nA) * MBB) / _ = _
  rw [div_eq_div_iff d1 hN.ne']
  field_simp
  ring

/-- **C76.** `Case_3`: `nA` mol AA, `nB` mol BC, bonds `nB (pB + pC)`. -/
theorem C76_case3 (nA nB pB pC MAA MBC : α) (hA : 0 < nA) (hB : 0 < nB) (hb : 0 < pB) (hc : 0 < pC) (hM1 : 0 < MAA) (hM2 : 0 < MBC)
    (h1 : pB < 1) (h2 : pC ≤ 1) (h3 : nB * (pB + pC) ≤ 2 * nA) :
    (case3 pB pC (nB / nA) MAA MBC).map Prod.fst = .ok ((nA * MAA + nB * MBC) / (nA + nB - nB * (pB + pC))) := by
  have hN : 0 < nA + nB - nB * (pB + pC) := by nlinarith
  have s : 0 < pB + pC := by positivity
  have d1 : 2 * (nB / nA * (pB + pC) / 2) + pB + pC - 2 * (nB / nA * (pB + pC) / 2) * (pB + pC) ≠ 0 := by
    have : 2 * (nB / nA * (pB + pC) / 2) + pB + pC - 2 * (nB / nA * (pB + pC) / 2) * (pB + pC) =
        (pB + pC) / nA * (nA + nB - nB * (pB + pC)) := by field_simp; ring
    rw [this]; positivity
  have d4 : 1 - 2 * (nB / nA * (pB + pC) / 2) * pB * pC / (pB + pC) ≠ 0 := by
    have : 1 - 2 * (nB / nA * (pB + pC) / 2) * pB * pC / (pB + pC) = (nA - nB * pB * pC) / nA := by field_simp
    rw [this]
    have : 0 < nA - nB * pB * pC := by nlinarith [mul_pos hB hb, mul_pos hB hc, mul_pos (mul_pos hB hb) hc]
    positivity
  have d5 : MAA + 2 * (nB / nA * (pB + pC) / 2) / (pB + pC) * MBC ≠ 0 := by positivity
  simp only [case3]
  rw [pdiv_ok d1, ok_bind, pdiv_ok s.ne', ok_bind, pdiv_ok (by positivity), ok_bind, pdiv_ok s.ne', ok_bind,
    pdiv_ok (mul_ne_zero d4 d5), ok_bind]
  refine congrArg Except.ok ?_
  show ((pB + pC) * MAA + 2 * (nB / nA * (pB + pC) / 2) * MBC) / _ = _
  rw [div_eq_div_iff d1 hN.ne']
  field_simp
  ring

/-- **C76.** `Case_6`: `nA` mol AA, `nB` mol BC; every bond uses one C group. -/
theorem C76_case6 (nA nB pC MAA MBC : α) (hA : 0 < nA) (hN : nA + nB - nB * pC ≠ 0) :
    case6 pC (nB / nA) MAA MBC = .ok ((nA * MAA + nB * MBC) / (nA + nB - nB * pC)) := by
  have e : 1 + nB / nA * (1 - pC) = (nA + nB - nB * pC) / nA := by field_simp; ring
  have d : 1 + nB / nA * (1 - pC) ≠ 0 := by rw [e]; exact div_ne_zero hN hA.ne'
  simp only [case6]
  rw [pdiv_ok d, e]
  congr 1
  rw [div_div_eq_mul_div, div_left_inj' hN]
  field_simp

/-- **C76.** `Case_7`: `n1` mol AB, `n2` mol CD; A and C react with B and D. -/
theorem C76_case7 (n1 n2 pA pC MAB MCD : α) (hA : 0 < n1) (hN : n1 + n2 - (n1 * pA + n2 * pC) ≠ 0) :
    case7 pA pC (n2 / n1) MAB MCD = .ok ((n1 * MAB + n2 * MCD) / (n1 + n2 - (n1 * pA + n2 * pC))) := by
  have e : 1 + n2 / n1 - (pA + n2 / n1 * pC) = (n1 + n2 - (n1 * pA + n2 * pC)) / n1 := by field_simp
  have d : 1 + n2 / n1 - (pA + n2 / n1 * pC) ≠ 0 := by rw [e]; exact div_ne_zero hN hA.ne'
  simp only [case7]
  rw [pdiv_ok d, e]
  congr 1
  rw [div_div_eq_mul_div, div_left_inj' hN]
  field_simp

/-- **C76.** `Case_8`: `nA` mol AA, `nB` mol BB, `nC` mol CC. -/
theorem C76_case8 (nA nB nC pB pC MAA MBB MCC : α) (hA : 0 < nA) (hB : 0 < nB) (hC : 0 ≤ nC) (hb : 0 < pB) (hc : 0 ≤ pC)
    (hN : nA + nB + nC - (2 * nB * pB + 2 * nC * pC) ≠ 0) :
    case8 pB pC ((nB + nC) / nA) (nC / nB) MAA MBB MCC =
      .ok ((nA * MAA + nB * MBB + nC * MCC) / (nA + nB + nC - (2 * nB * pB + 2 * nC * pC))) := by
  have d1 : 1 + nC / nB ≠ 0 := by positivity
  have d2 : pB + nC / nB * pC ≠ 0 := by positivity
  have s : nB + nC ≠ 0 := by positivity
  have s2 : nB * pB + nC * pC ≠ 0 := by positivity
  have a_eq : (nB + nC) / nA * (pB + nC / nB * pC) / (1 + nC / nB) = (nB * pB + nC * pC) / nA := by field_simp
  have e : 1 - 2 * ((nB * pB + nC * pC) / nA) + (nB * pB + nC * pC) / nA * (1 + nC / nB) / (pB + nC / nB * pC) =
      (nA + nB + nC - (2 * nB * pB + 2 * nC * pC)) / nA := by
    field_simp; ring
  simp only [case8]
  rw [pdiv_ok d1, ok_bind, a_eq, pdiv_ok d2, ok_bind, pdiv_ok d2, ok_bind, e, pdiv_ok (div_ne_zero hN hA.ne')]
  congr 1
  rw [div_div_eq_mul_div, div_left_inj' hN]
  field_simp
  ring

/-- **C76.** `Case_9`: `nA`, `nB` mol AA, BB react with `nC`, `nD` mol CC, DD. -/
theorem C76_case9 (nA nB nC nD pA pB pC pD MAA MBB MCC MDD : α) (hA : 0 < nA) (hB : 0 ≤ nB) (hC : 0 < nC) (hD : 0 ≤ nD)
    (hc : 0 < pC) (hd : 0 ≤ pD) (bal : nA * pA + nB * pB = nC * pC + nD * pD)
    (hN : nA + nB + nC + nD - (2 * nC * pC + 2 * nD * pD) ≠ 0) :
    case9 pB pC pD ((nC + nD) / (nA + nB)) (nB / nA) (nD / nC) MAA MBB MCC MDD =
      .ok ((nA * MAA + nB * MBB + nC * MCC + nD * MDD) / (nA + nB + nC + nD - (2 * nC * pC + 2 * nD * pD))) := by
  have d1 : 1 + nD / nC ≠ 0 := by positivity
  have d2 : pC + nD / nC * pD ≠ 0 := by positivity
  have s : nC + nD ≠ 0 := by positivity
  have s1 : nA + nB ≠ 0 := by positivity
  have s2 : nC * pC + nD * pD ≠ 0 := by positivity
  have a_eq : (nC + nD) / (nA + nB) * (1 + nB / nA) / (1 + nD / nC) * (pC + nD / nC * pD) - nB / nA * pB = pA := by
    have : (nC + nD) / (nA + nB) * (1 + nB / nA) / (1 + nD / nC) * (pC + nD / nC * pD) = (nC * pC + nD * pD) / nA := by
      field_simp
    rw [this, ← bal]; field_simp; ring
  have t_eq : (pA + nB / nA * pB) / (pC + nD / nC * pD) = nC / nA := by
    rw [div_eq_div_iff d2 hA.ne']
    field_simp
    linear_combination bal
  have e : 1 - pA + nB / nA * (1 - pB) + nC / nA * (1 - pC + nD / nC * (1 - pD)) =
      (nA + nB + nC + nD - (2 * nC * pC + 2 * nD * pD)) / nA := by
    field_simp; linear_combination (-1) * bal
  simp only [case9]
  rw [pdiv_ok d1, ok_bind, a_eq, pdiv_ok d2, ok_bind, t_eq, e, pdiv_ok (div_ne_zero hN hA.ne')]
  congr 1
  rw [div_div_eq_mul_div, div_left_inj' hN]
  field_simp
  ring

/-- **C76.** `Case_10`: `nA` mol AA, `nB` mol BC, `nD` mol DD. -/
theorem C76_case10 (nA nB nD pB pC pD MAA MBC MDD : α) (hA : 0 < nA) (hB : 0 ≤ nB) (hD : 0 < nD) (hb : 0 ≤ pB) (hc : 0 ≤ pC)
    (hd : 0 < pD) (hN : nA + nB + nD - (nB * (pB + pC) + 2 * nD * pD) ≠ 0) :
    case10 pB pC pD ((nB + nB + 2 * nD) / (2 * nA)) (nB / nD) MAA MBC MDD =
      .ok ((nA * MAA + nB * MBC + nD * MDD) / (nA + nB + nD - (nB * (pB + pC) + 2 * nD * pD))) := by
  have d1 : 2 * (nB / nD / 2) + 1 ≠ 0 := by positivity
  have d2 : nB / nD / 2 * (pB + pC) + pD ≠ 0 := by positivity
  have s : nB + nD ≠ 0 := by positivity
  have s2 : nB * (pB + pC) + 2 * nD * pD ≠ 0 := by positivity
  have a_eq : (nB + nB + 2 * nD) / (2 * nA) * (nB / nD / 2 * (pB + pC) + pD) / (2 * (nB / nD / 2) + 1) =
      (nB * (pB + pC) + 2 * nD * pD) / (2 * nA) := by
    field_simp
    ring
  have t_eq : (nB * (pB + pC) + 2 * nD * pD) / (2 * nA) / (nB / nD / 2 * (pB + pC) + pD) = nD / nA := by
    rw [div_eq_iff d2]; field_simp
  have e : 1 - (nB * (pB + pC) + 2 * nD * pD) / (2 * nA) + nD / nA * ((1 - pD) + nB / nD / 2 * (2 - pB - pC)) =
      (nA + nB + nD - (nB * (pB + pC) + 2 * nD * pD)) / nA := by
    field_simp; ring
  simp only [case10]
  rw [pdiv_ok d1, ok_bind, a_eq, pdiv_ok d2, ok_bind, pdiv_ok d2, ok_bind, t_eq, e, pdiv_ok (div_ne_zero hN hA.ne')]
  congr 1
  rw [mul_div_right_comm, t_eq, div_div_eq_mul_div, div_left_inj' hN]
  field_simp
  ring

/-- **C76.** `Case_11`: `nA` mol AA, `nB` mol BC, `nD` mol DD; A and B react with C and D. -/
theorem C76_case11 (nA nB nD pB pC pD MAA MBC MDD : α) (hA : 0 < nA) (hd : 0 < pD)
    (hN : nA + nB + nD - (nB * pC + 2 * nD * pD) ≠ 0) :
    case11 pB pC pD (nB / nA) (nD / nA) MAA MBC MDD =
      .ok ((nA * MAA + nB * MBC + nD * MDD) / (nA + nB + nD - (nB * pC + 2 * nD * pD))) := by
  have t_eq : (nB / nA / 2 * (pC - pB) + nD / nA * pD + nB / nA / 2 * (pB - pC)) / pD = nD / nA := by
    rw [div_eq_iff hd.ne']; ring
  have e : 1 - 2 * (nB / nA / 2 * (pC - pB) + nD / nA * pD) + 2 * (nB / nA / 2) * (1 - pB) + nD / nA =
      (nA + nB + nD - (nB * pC + 2 * nD * pD)) / nA := by
    field_simp; ring
  simp only [case11]
  rw [pdiv_ok hd.ne', ok_bind, t_eq, e, pdiv_ok (div_ne_zero hN hA.ne')]
  congr 1
  rw [div_div_eq_mul_div, div_left_inj' hN]
  field_simp

/-- **C76 is false for `Case_5`**: for the recipe of its own docstring (1.01 mol A₂, 1 mol B₂, 0.01 mol C, conversions 99% and 95%) the
returned value is above 6800, while mass over number of molecules is below 6300. -/
theorem C76_case5_false : ∃ nA nB nC pB pC MAA MBB MC Mn : ℚ,
    case5 pB pC ((2 * nB + nC) / (2 * nA)) (nC / (2 * nB)) MAA MBB MC = .ok Mn ∧
      Mn ≠ (nA * MAA + nB * MBB + nC * MC) / (nA + nB + nC - (2 * nB * pB + nC * pC)) ∧ 6800 < Mn ∧
      (nA * MAA + nB * MBB + nC * MC) / (nA + nB + nC - (2 * nB * pB + nC * pC)) < 6300 := by
  refine ⟨101 / 100, 1, 1 / 100, 99 / 100, 95 / 100, 100, 90, 40, _, case5_eq (by norm_num) rfl rfl (by norm_num) (by norm_num), ?_, ?_, ?_⟩
  all_goals norm_num

/-- **C76 (partial).** `Case_5` is correct without the monofunctional reactant C. -/
theorem C76_case5_partial (nA nB pB pC MAA MBB MC : α) (hA : 0 < nA) (hB : 0 < nB) (hp : 0 < pB)
    (hN : nA + nB - 2 * nB * pB ≠ 0) :
    case5 pB pC (2 * nB / (2 * nA)) 0 MAA MBB MC = .ok ((nA * MAA + nB * MBB) / (nA + nB - 2 * nB * pB)) := by
  have d : 1 - 2 * (nB / nA * pB) + nB / nA = (nA + nB - 2 * nB * pB) / nA := by field_simp; ring
  have e1 : 2 * nB / (2 * nA) = nB / nA := by field_simp
  have e2 : 2 * (nB / nA * pB) / (2 * pB) = nB / nA := by field_simp
  simp only [case5, zero_mul, mul_zero, add_zero, mul_one]
  rw [pdiv_ok one_ne_zero, ok_bind, div_one, e1, pdiv_ok (by positivity), ok_bind, pdiv_ok (by positivity), ok_bind,
    ok_bind, e2, d, pdiv_ok (div_ne_zero hN hA.ne'), zero_div, zero_mul, add_zero]
  congr 1
  rw [div_div_eq_mul_div, div_left_inj' hN]
  field_simp

/-- **C76.** `Flory_Af`: `n` mol of units, `n f p/2` bonds. -/
theorem C76_floryAf (f : ℕ) (hf : 2 ≤ f) (MAf p n : α) (hn : 0 < n) (hp : 0 ≤ p) (hgel : p * (f - 1) < 1) :
    ∃ Mw Mz, floryAf f MAf p = .ok (some (n * MAf / (n - n * f * p / 2), Mw, Mz)) := by
  have hf' : (2 : α) ≤ f := by exact_mod_cast hf
  have h1 : (0 : α) < f - 1 := by linarith
  have hfp : (f : α) / 2 * p < 1 := by nlinarith
  have d : ¬ p ≥ 1 / ((f : α) - 1) := by rw [ge_iff_le, div_le_iff₀ h1]; linarith
  have d1 : 1 - (f : α) / 2 * p ≠ 0 := by linarith
  have d2 : 1 - p * ((f : α) - 1) ≠ 0 := by linarith
  have d3 : 1 + p ≠ 0 := by positivity
  refine ⟨MAf * (1 + p) / (1 - p * ((f : α) - 1)),
    MAf * ((1 + p) ^ 3 - (3 + p) * f * p ^ 2) / ((1 + p) * (1 - p * ((f : α) - 1)) ^ 2), ?_⟩
  have e : n * MAf / (n - n * f * p / 2) = MAf / (1 - (f : α) / 2 * p) := by
    have : n - n * f * p / 2 = n * (1 - (f : α) / 2 * p) := by ring
    rw [this, mul_div_mul_left _ _ hn.ne']
  simp only [floryAf]
  rw [pdiv_ok h1.ne', ok_bind, if_neg d, pdiv_ok d1, pdiv_ok d2, pdiv_ok (mul_ne_zero d3 (pow_ne_zero 2 d2)), e]
  rfl

/-- **C76.** `Miller_1`. -/
theorem C76_miller1 (nAf nA2 nB2 MAf MA2 MB2 pB1 pB2 Mn Mw : α) (f : ℕ) 
    (h : miller1 nAf nA2 nB2 f MAf MA2 MB2 pB1 pB2 = .ok (Mn, Mw)) :
    Mn = (nAf * MAf + nA2 * MA2 + nB2 * MB2) / (nAf + nA2 + nB2 - (nB2 * pB1 + nB2 * pB2)) := by
  have key : ∀ (a b : α) {β : Type _} (k : α → Except Err β) (v : β), (pdiv a b >>= k) = .ok v → b ≠ 0 ∧ k (a / b) = .ok v := by
    intro a b β k v h
    by_cases hb : b = 0
    · rw [show pdiv a b = .error .ZeroDivisionError from if_pos hb] at h; cases h
    · rw [pdiv_ok hb] at h; exact ⟨hb, h⟩
  simp only [miller1] at h
  obtain ⟨-, h⟩ := key _ _ _ _ h
  obtain ⟨-, h⟩ := key _ _ _ _ h
  obtain ⟨-, h⟩ := key _ _ _ _ h
  obtain ⟨-, h⟩ := key _ _ _ _ h
  obtain ⟨-, h⟩ := key _ _ _ _ h
  obtain ⟨-, h⟩ := key _ _ _ _ h
  obtain ⟨-, h⟩ := key _ _ _ _ h
  have := congrArg Prod.fst (Except.ok.inj h)
  simp only at this
  rw [← this, ← mul_add, mul_comm MAf, mul_comm MA2, mul_comm MB2]

/-- **C76.** `Miller_2`: `p i` is the fraction of `Af` units with `i + 1` bonds. -/
theorem C76_miller2 (nAf nB2 MAf MB2 Mn Mw : α) (f : ℕ) (p : Fin f → α) (h : miller2 nAf nB2 f MAf MB2 p = some (Mn, Mw)) :
    Mn = (nAf * MAf + nB2 * MB2) / (nAf + nB2 - nAf * ∑ i : Fin f, ((i : ℕ) + 1 : α) * p i) := by
  simp only [miller2] at h
  split at h
  · cases h
  · split_ifs at h with h1
    have := congrArg Prod.fst (Option.some.inj h)
    simp only at this
    rw [← this, mul_comm MAf, mul_comm MB2]
    rcases Nat.eq_zero_or_pos f with rfl | hf
    · simp
    · have : (f : α) ≠ 0 := by exact_mod_cast hf.ne'
      congr 2
      field_simp

/-- **C76.** `Stockmayer`: every reacted B group is one bond. -/
theorem C76_stockmayer {N K : ℕ} (nA : Fin N → ℝ) (nB : Fin K → ℝ) (f : Fin N → ℕ) (g : Fin K → ℕ) (MA : Fin N → ℝ) (MB : Fin K → ℝ)
    (pB Mn Mw : ℝ) (hA : ∑ i, (f i : ℝ) * nA i ≠ 0) (h : stockmayer nA nB f g MA MB pB = some (Mn, Mw)) :
    Mn = (∑ i, nA i * MA i + ∑ j, nB j * MB j) / (∑ i, nA i + ∑ j, nB j - pB * ∑ j, nB j * g j) := by
  simp only [stockmayer] at h
  split_ifs at h with h1
  have := congrArg Prod.fst (Option.some.inj h)
  simp only at this
  rw [← this, div_mul_cancel₀ _ hA]
  simp only [mul_comm]

example : (0 : ℚ) < 1 ∧ (99 / 100 : ℚ) * 1 ≤ 1 ∧ (1 : ℚ) + 1 - 2 * 1 * (99 / 100) ≠ 0 := by norm_num

/-! ### C42 -/

/-- **C42.** `Case_1`. -/
theorem C42_case1 (nA nB pB MAA MBB : α) (hA : 0 < nA) (hB : 0 < nB) (hp : 0 < pB) (hM1 : 0 < MAA) (hM2 : 0 < MBB)
    (h1 : pB ≤ 1) (h2 : pB * nB ≤ nA) (h3 : pB < 1 ∨ pB * nB < nA) :
    ∃ Mn Mw, case1 pB (nB / nA) MAA MBB = .ok (Mn, Mw) ∧ 0 < Mn ∧ Mn ≤ Mw := by
  have a0 : 0 ≤ pB * nB / nA := by positivity
  have a1 : pB * nB / nA ≤ 1 := (div_le_one hA).2 h2
  have hD : 0 < 1 - pB * nB / nA * pB := by
    rcases h3 with h | h
    · nlinarith
    · have := (div_lt_one hA).2 h
      nlinarith
  have hL : 0 < nA * MAA + nB * MBB := by positivity
  obtain ⟨k1, k2⟩ := one_kind (X := 2 * nB * pB) (n := nA) (M := MAA) (s := pB * nB / nA) (by positivity) (by
    have : nA * (1 + pB * nB / nA) = nA + pB * nB := by field_simp
    rw [this]; nlinarith)
  obtain ⟨k3, k4⟩ := one_kind (X := 2 * nB * pB) (n := nB) (M := MBB) (s := pB) (by positivity) (by nlinarith)
  obtain ⟨hN, hle⟩ := ordered (by positivity) a0 hp.le hD k1 k3 k2 k4 hL
  exact ⟨_, _, case1_eq hA hB hp hN.ne' hD.ne' hL.ne', div_pos hL hN, hle⟩

/-- **C42.** `Case_3`. -/
theorem C42_case3 (nA nB pB pC MAA MBC : α) (hA : 0 < nA) (hB : 0 < nB) (hb : 0 ≤ pB) (hc : 0 ≤ pC) (hbc : 0 < pB + pC) (hM1 : 0 < MAA)
    (hM2 : 0 < MBC) (h1 : pB ≤ 1) (h2 : pC ≤ 1) (h3 : nB * (pB + pC) ≤ 2 * nA) (h4 : nB * pB * pC < nA) :
    ∃ Mn Mw, case3 pB pC (nB / nA) MAA MBC = .ok (Mn, Mw) ∧ 0 < Mn ∧ Mn ≤ Mw := by
  have a0 : 0 ≤ nB * (pB + pC) / (2 * nA) := by positivity
  have t0 : 0 ≤ 2 * pB * pC / (pB + pC) := by positivity
  have hD : 0 < 1 - nB * (pB + pC) / (2 * nA) * (2 * pB * pC / (pB + pC)) := by
    have e2 : 1 - nB * (pB + pC) / (2 * nA) * (2 * pB * pC / (pB + pC)) = (nA - nB * pB * pC) / nA := by field_simp
    rw [e2]; exact div_pos (by linarith) hA
  have hL : 0 < nA * MAA + nB * MBC := by positivity
  obtain ⟨k1, k2⟩ := one_kind (X := nB * (pB + pC)) (n := nA) (M := MAA) (s := nB * (pB + pC) / (2 * nA)) (by positivity) (by
    have : nA * (1 + nB * (pB + pC) / (2 * nA)) = nA + nB * (pB + pC) / 2 := by field_simp
    rw [this]; linarith)
  obtain ⟨k3, k4⟩ := one_kind (X := nB * (pB + pC)) (n := nB) (M := MBC) (s := 2 * pB * pC / (pB + pC)) (by positivity) (by
    refine mul_le_mul_of_nonneg_left ?_ hB.le
    rw [← sub_le_iff_le_add', le_div_iff₀ hbc]
    nlinarith [mul_nonneg hb (sub_nonneg.2 h1), mul_nonneg hc (sub_nonneg.2 h2)])
  obtain ⟨hN, hle⟩ := ordered (by positivity) a0 t0 hD k1 k3 k2 k4 hL
  exact ⟨_, _, case3_eq hA hB hbc hN.ne' hD.ne' hL.ne', div_pos hL hN, hle⟩

/-- **C42.** `Stockmayer`, any numbers of monomers: the result is NaN exactly from the gel point on, and ordered before it. -/
theorem C42_stockmayer {N K : ℕ} (nA : Fin N → ℝ) (nB : Fin K → ℝ) (f : Fin N → ℕ) (g : Fin K → ℕ) (MA : Fin N → ℝ) (MB : Fin K → ℝ)
    (pB : ℝ) (SA SB pA fe ge : ℝ) (hnA : ∀ i, 0 ≤ nA i) (hnB : ∀ j, 0 ≤ nB j) (hf : ∀ i, 1 ≤ f i) (hg : ∀ j, 1 ≤ g j)
    (hMA : ∀ i, 0 < MA i) (hMB : ∀ j, 0 < MB j)
    (hSA : SA = ∑ i, (f i : ℝ) * nA i) (hSB : SB = ∑ j, (g j : ℝ) * nB j) (SA0 : 0 < SA) (SB0 : 0 < SB)
    (hpA : pA = pB * SB / SA) (p0 : 0 < pB) (hpB1 : pB ≤ 1) (hpA1 : pA ≤ 1)
    (hfe : fe = (∑ i, (f i : ℝ) ^ 2 * nA i) / SA) (hge : ge = (∑ j, (g j : ℝ) ^ 2 * nB j) / SB) :
    (stockmayer nA nB f g MA MB pB = none ↔ 1 ≤ pA * pB * (fe - 1) * (ge - 1)) ∧
      (pA * pB * (fe - 1) * (ge - 1) < 1 → ∃ Mn Mw, stockmayer nA nB f g MA MB pB = some (Mn, Mw) ∧ 0 < Mn ∧ Mn ≤ Mw) := by
  have pA0 : 0 < pA := by rw [hpA]; positivity
  have aux : ∀ {n : ℕ} (x : Fin n → ℝ) (h : Fin n → ℕ) (S : ℝ), (∀ i, 0 ≤ x i) → (∀ i, 1 ≤ h i) → S = ∑ i, (h i : ℝ) * x i → 0 < S →
      0 ≤ (∑ i, (h i : ℝ) ^ 2 * x i) / S - 1 := by
    intro n x h S hx hh hS S0
    rw [sub_nonneg, le_div_iff₀ S0, one_mul, hS]
    refine Finset.sum_le_sum fun i _ => mul_le_mul_of_nonneg_right ?_ (hx i)
    have : (1 : ℝ) ≤ h i := by exact_mod_cast hh i
    nlinarith
  have aux2 : ∀ {n : ℕ} (x M : Fin n → ℝ) (h : Fin n → ℕ) (S : ℝ), (∀ i, 0 ≤ x i) → (∀ i, 0 < M i) → S = ∑ i, (h i : ℝ) * x i → 0 < S →
      0 < ∑ i, M i * x i := by
    intro n x M h S hx hM hS S0
    by_contra hc
    have hz : ∑ i, M i * x i = 0 := le_antisymm (not_lt.1 hc) (Finset.sum_nonneg fun i _ => mul_nonneg (hM i).le (hx i))
    have hz' := (Finset.sum_eq_zero_iff_of_nonneg fun i _ => mul_nonneg (hM i).le (hx i)).1 hz
    have : S = 0 := by
      rw [hS]
      refine Finset.sum_eq_zero fun i hi => ?_
      rcases mul_eq_zero.1 (hz' i hi) with h' | h'
      · exact absurd h' (hM i).ne'
      · rw [h', mul_zero]
    exact S0.ne' this
  have u0 := aux nA f SA hnA hf hSA SA0
  have w0 := aux nB g SB hnB hg hSB SB0
  rw [← hfe] at u0
  rw [← hge] at w0
  have hL : 0 < ∑ i, MA i * nA i + ∑ j, MB j * nB j := add_pos (aux2 nA MA f SA hnA hMA hSA SA0) (aux2 nB MB g SB hnB hMB hSB SB0)
  have eq := stockmayer_eq (nA := nA) (nB := nB) (f := f) (g := g) (MA := MA) (MB := MB) (pB := pB) (pA := pA) (SA := SA) (SB := SB)
    (u := fe - 1) (w := ge - 1) hSA hSB (by rw [hfe]) (by rw [hge]) rfl rfl hpA rfl SA0 SB0 p0 u0 w0 hL.ne'
  have ec : pA * pB * (fe - 1) * (ge - 1) = pA * (fe - 1) * (pB * (ge - 1)) := by ring
  rw [ec]
  refine ⟨by rw [eq]; split_ifs with h <;> simp [h], fun h => ?_⟩
  rw [eq, if_neg (not_le.2 h)]
  have hX : pB * SB = pA * SA := by rw [hpA]; field_simp
  have s0 : 0 ≤ pA * (fe - 1) := by positivity
  have t0 : 0 ≤ pB * (ge - 1) := by positivity
  obtain ⟨k1, k2⟩ := many_kinds (n := nA) (M := MA) (f := fun i => (f i : ℝ)) (X := pB * SB) (s := pA * (fe - 1)) hnA (fun i => by positivity)
    (by rw [← hSA]; exact SA0) (by positivity) (by positivity) (by
      rw [← hSA]
      have : ∑ i, (f i : ℝ) ^ 2 * nA i = fe * SA := by rw [hfe]; field_simp
      rw [this, hX]
      have h' : pA * fe ≤ 1 + pA * (fe - 1) := by nlinarith
      nlinarith [mul_le_mul_of_nonneg_left h' (sq_nonneg SA)])
  obtain ⟨k3, k4⟩ := many_kinds (n := nB) (M := MB) (f := fun i => (g i : ℝ)) (X := pB * SB) (s := pB * (ge - 1)) hnB (fun i => by positivity)
    (by rw [← hSB]; exact SB0) (by positivity) (by positivity) (by
      rw [← hSB]
      have : ∑ i, (g i : ℝ) ^ 2 * nB i = ge * SB := by rw [hge]; field_simp
      rw [this]
      have h' : pB * ge ≤ 1 + pB * (ge - 1) := by nlinarith
      nlinarith [mul_le_mul_of_nonneg_left h' (sq_nonneg SB)])
  rw [← hSA] at k1
  rw [← hSB] at k3
  obtain ⟨hN, hle⟩ := ordered (by positivity) s0 t0 (sub_pos.2 h) k1 k3 k2 k4 hL
  exact ⟨_, _, rfl, div_pos hL hN, hle⟩

/-- **C42.** `Flory_Af`: NaN exactly from the gel point `1/(f-1)` on; `Mn ≤ Mw ≤ Mz` before it. -/
theorem C42_floryAf (f : ℕ) (hf : 2 ≤ f) (MAf p : α) (hM : 0 < MAf) (hp : 0 ≤ p) (h1 : p ≤ 1) :
    (floryAf f MAf p = .ok none ↔ 1 / ((f : α) - 1) ≤ p) ∧
      (p < 1 / ((f : α) - 1) → ∃ Mn Mw Mz, floryAf f MAf p = .ok (some (Mn, Mw, Mz)) ∧ 0 < Mn ∧ Mn ≤ Mw ∧ Mw ≤ Mz) := by
  have hf' : (2 : α) ≤ f := by exact_mod_cast hf
  have hf1 : (0 : α) < f - 1 := by linarith
  have val : p < 1 / ((f : α) - 1) → floryAf f MAf p = .ok (some (MAf / (1 - (f : α) / 2 * p), MAf * (1 + p) / (1 - p * ((f : α) - 1)),
      MAf * ((1 + p) ^ 3 - (3 + p) * f * p ^ 2) / ((1 + p) * (1 - p * ((f : α) - 1)) ^ 2))) := by
    intro h
    have h' := (lt_div_iff₀ hf1).1 h
    have hfp : (f : α) / 2 * p < 1 := by nlinarith
    simp only [floryAf]
    rw [pdiv_ok hf1.ne', ok_bind, if_neg (not_le.2 h), pdiv_ok (by linarith), pdiv_ok (by linarith),
      pdiv_ok (mul_ne_zero (by positivity) (pow_ne_zero 2 (by linarith)))]
    rfl
  constructor
  · constructor
    · intro h
      by_contra hc
      rw [val (not_le.1 hc)] at h
      cases h
    · intro h
      simp only [floryAf]
      rw [pdiv_ok hf1.ne', ok_bind, if_pos h]
      rfl
  · intro h
    have h' := (lt_div_iff₀ hf1).1 h
    have hfp : (f : α) / 2 * p < 1 := by nlinarith
    have d1 : 0 < 1 - (f : α) / 2 * p := by linarith
    have d2 : 0 < 1 - p * ((f : α) - 1) := by linarith
    refine ⟨_, _, _, val h, by positivity, ?_, ?_⟩
    · rw [div_le_div_iff₀ d1 d2]
      have : MAf * (1 - p * ((f : α) - 1)) ≤ MAf * ((1 + p) * (1 - (f : α) / 2 * p)) := by
        refine mul_le_mul_of_nonneg_left ?_ hM.le
        nlinarith [mul_nonneg (mul_nonneg (by linarith : (0 : α) ≤ f) hp) (sub_nonneg.2 h1)]
      linarith
    · rw [div_le_div_iff₀ d2 (by positivity)]
      have : (1 + p) * ((1 + p) * (1 - p * ((f : α) - 1)) ^ 2) ≤ ((1 + p) ^ 3 - (3 + p) * f * p ^ 2) * (1 - p * ((f : α) - 1)) := by
        have : (1 + p) * ((1 + p) * (1 - p * ((f : α) - 1))) ≤ ((1 + p) ^ 3 - (3 + p) * f * p ^ 2) := by
          nlinarith [mul_nonneg (mul_nonneg (by linarith : (0 : α) ≤ f) hp) (sub_nonneg.2 h1)]
        nlinarith [mul_le_mul_of_nonneg_right this d2.le]
      nlinarith [mul_le_mul_of_nonneg_left this hM.le]

/-- **C42.** `Miller_2` for any distribution of reacted groups: `m` is the mean number of bonds seen from a bond. -/
theorem C42_miller2 (nAf nB2 MAf MB2 : α) (f : ℕ) (p : Fin f → α) (sp b m : α) (hf : 0 < f) (h1 : 0 < nAf) (h3 : 0 < nB2) (hM1 : 0 < MAf)
    (hM2 : 0 < MB2) (hp : ∀ i, 0 ≤ p i) (hp1 : ∑ i, p i ≤ 1) (hsp : sp = ∑ i : Fin f, ((i : ℕ) + 1 : α) * p i) (sp0 : 0 < sp)
    (hm : m * sp = ∑ i : Fin f, ((i : ℕ) + 1 : α) ^ 2 * p i) (hb : b = nAf * sp / (2 * nB2)) (hb1 : b ≤ 1) :
    (miller2 nAf nB2 f MAf MB2 p = none ↔ 1 ≤ b * (m - 1)) ∧
      (b * (m - 1) < 1 → ∃ Mn Mw, miller2 nAf nB2 f MAf MB2 p = some (Mn, Mw) ∧ 0 < Mn ∧ Mn ≤ Mw) := by
  have hL : 0 < MAf * nAf + MB2 * nB2 := by positivity
  have hb' : 2 * nB2 * b = nAf * sp := by rw [hb]; field_simp
  have b0 : 0 ≤ b := by rw [hb]; positivity
  have eq := miller2_eq hf h1 h3 hsp sp0 hm hb' hL.ne'
  rw [mul_comm b]
  have m1 : 0 ≤ m - 1 := by
    have : sp ≤ m * sp := by
      rw [hm, hsp]
      refine Finset.sum_le_sum fun i _ => mul_le_mul_of_nonneg_right ?_ (hp i)
      have : (0 : α) ≤ ((i : ℕ) : α) := Nat.cast_nonneg _
      nlinarith
    nlinarith
  have ms : sp ≤ m := by
    have : sp ^ 2 ≤ (m * sp) * ∑ i, p i := by
      rw [hm, hsp]
      refine Finset.sum_sq_le_sum_mul_sum_of_sq_le_mul Finset.univ (fun i _ => ?_) (fun i _ => hp i) (fun i _ => le_of_eq (by ring))
      have := hp i
      positivity
    have h2 : (m * sp) * ∑ i, p i ≤ m * sp * 1 := mul_le_mul_of_nonneg_left hp1 (by nlinarith)
    nlinarith
  refine ⟨by rw [eq]; split_ifs with h <;> simp [h, not_le.2, not_lt.1], fun h => ?_⟩
  rw [eq, if_pos h]
  obtain ⟨k1, k2⟩ := one_kind (X := nAf * sp) (n := nAf) (M := MAf) (s := m - 1) (by linarith) (by
    refine mul_le_mul_of_nonneg_left ?_ h1.le; linarith)
  obtain ⟨k3, k4⟩ := one_kind (X := nAf * sp) (n := nB2) (M := MB2) (s := b) (by positivity) (by rw [← hb']; nlinarith)
  obtain ⟨hN, hle⟩ := ordered (by positivity) m1 b0 (sub_pos.2 h) k1 k3 k2 k4 (by positivity)
  rw [mul_comm nAf MAf, mul_comm nB2 MB2] at hle
  exact ⟨_, _, rfl, div_pos hL hN, hle⟩

/-- **C42 (partial).** `Miller_1` below the gel point. -/
theorem C42_miller1_partial (nAf nA2 nB2 MAf MA2 MB2 b c : α) (f : ℕ) (hf : 1 ≤ f) (h1 : 0 < nAf) (h2 : 0 ≤ nA2) (h3 : 0 < nB2)
    (hM1 : 0 < MAf) (hM2 : 0 < MA2) (hM3 : 0 < MB2) (hb : 0 ≤ b) (hc : 0 ≤ c) (hbc : 0 < b + c) (hb1 : b ≤ 1) (hc1 : c ≤ 1)
    (hA : nB2 * (b + c) ≤ f * nAf + 2 * nA2)
    (hgel : 2 * nB2 * b * c * (f * (f - 1) * nAf + 2 * nA2) < (f * nAf + 2 * nA2) ^ 2) :
    ∃ Mn Mw, miller1 nAf nA2 nB2 f MAf MA2 MB2 b c = .ok (Mn, Mw) ∧ 0 < Mn ∧ Mn ≤ Mw := by
  have hf' : (1 : α) ≤ f := by exact_mod_cast hf
  have hf0 : (0 : α) ≤ f - 1 := by linarith
  set F : α := (f : α) with hF
  set S := F * nAf + 2 * nA2 with hS
  have S0 : 0 < S := by positivity
  have hL : 0 < MAf * nAf + MA2 * nA2 + MB2 * nB2 := by positivity
  set s := nB2 * (b + c) / S * ((F * (F - 1) * nAf + 2 * nA2) / S) with hs
  set t := 2 * b * c / (b + c) with ht
  have s0 : 0 ≤ s := by rw [hs]; positivity
  have t0 : 0 ≤ t := by rw [ht]; positivity
  have hD : 0 < 1 - s * t := by
    have : s * t = 2 * nB2 * b * c * (F * (F - 1) * nAf + 2 * nA2) / S ^ 2 := by rw [hs, ht]; field_simp
    rw [this, sub_pos, div_lt_one (by positivity)]
    exact hgel
  obtain ⟨k1, k2⟩ := many_kinds (N := 2) (n := ![nAf, nA2]) (M := ![MAf, MA2]) (f := ![F, 2]) (X := nB2 * (b + c)) (s := s)
    (by intro i; fin_cases i; exacts [h1.le, h2]) (by intro i; fin_cases i; exacts [by simpa using by linarith, by simp])
    (by simpa [Fin.sum_univ_two] using S0) (by positivity) (by positivity) (by
      simp only [Fin.sum_univ_two, Matrix.cons_val_zero, Matrix.cons_val_one]
      rw [← hS]
      have e : F ^ 2 * nAf + 2 ^ 2 * nA2 = S + (F * (F - 1) * nAf + 2 * nA2) := by rw [hS]; ring
      have e2 : S ^ 2 * (1 + s) = S ^ 2 + nB2 * (b + c) * (F * (F - 1) * nAf + 2 * nA2) := by rw [hs]; field_simp
      rw [e, e2]
      nlinarith [mul_le_mul_of_nonneg_right hA S0.le])
  simp only [Fin.sum_univ_two, Matrix.cons_val_zero, Matrix.cons_val_one] at k1 k2
  rw [← hS] at k1
  obtain ⟨k3, k4⟩ := one_kind (X := nB2 * (b + c)) (n := nB2) (M := MB2) (s := t) (by positivity) (by
    refine mul_le_mul_of_nonneg_left ?_ h3.le
    rw [ht, ← sub_le_iff_le_add', le_div_iff₀ hbc]
    nlinarith [mul_nonneg hb (sub_nonneg.2 hb1), mul_nonneg hc (sub_nonneg.2 hc1)])
  have k3' : ∀ z, nB2 * (b + c) * (MB2 - z) ^ 2 / (1 + t) ≤ MB2 ^ 2 * nB2 - 2 * z * (MB2 * nB2) + z ^ 2 * nB2 := fun z => by
    have := k3 z
    linarith
  obtain ⟨hN, hle⟩ := ordered (by positivity) s0 t0 hD k1 k3' k2 k4 hL
  have := miller1_eq (MAf := MAf) (MA2 := MA2) (MB2 := MB2) hf h1 h2 h3 hbc hN.ne' hD.ne' hL.ne'
  rw [← hF, ← hS, ← hs, ← ht] at this
  have e : F * nAf * MAf + 2 * nA2 * MA2 = MAf * F * nAf + MA2 * 2 * nA2 := by ring
  rw [e] at this
  exact ⟨_, _, this, div_pos hL hN, hle⟩

/-- **C42.** What `Miller_1` does from the gel point on, in general: at the gel point it raises, and beyond it the "mass-average molar
mass" it returns is smaller than that of the unreacted mixture. -/
theorem C42_miller1_beyond_gel (nAf nA2 nB2 MAf MA2 MB2 b c : α) (f : ℕ) (hf : 1 ≤ f) (h1 : 0 < nAf) (h2 : 0 ≤ nA2) (h3 : 0 < nB2)
    (hM1 : 0 < MAf) (hM2 : 0 < MA2) (hM3 : 0 < MB2) (hb : 0 ≤ b) (hc : 0 ≤ c) (hbc : 0 < b + c)
    (hN : nAf + nA2 + nB2 - nB2 * (b + c) ≠ 0) :
    (2 * nB2 * b * c * (f * (f - 1) * nAf + 2 * nA2) = (f * nAf + 2 * nA2) ^ 2 →
      miller1 nAf nA2 nB2 f MAf MA2 MB2 b c = .error .ZeroDivisionError) ∧
    ((f * nAf + 2 * nA2) ^ 2 < 2 * nB2 * b * c * (f * (f - 1) * nAf + 2 * nA2) →
      ∃ Mn Mw, miller1 nAf nA2 nB2 f MAf MA2 MB2 b c = .ok (Mn, Mw) ∧
        Mw < (MAf ^ 2 * nAf + MA2 ^ 2 * nA2 + MB2 ^ 2 * nB2) / (MAf * nAf + MA2 * nA2 + MB2 * nB2)) := by
  have hf' : (1 : α) ≤ f := by exact_mod_cast hf
  have hf0 : (0 : α) ≤ f - 1 := by linarith
  have S0 : 0 < (f : α) * nAf + 2 * nA2 := by positivity
  have hL : 0 < MAf * nAf + MA2 * nA2 + MB2 * nB2 := by positivity
  have hst : nB2 * (b + c) / (f * nAf + 2 * nA2) * ((f * (f - 1) * nAf + 2 * nA2) / (f * nAf + 2 * nA2)) * (2 * b * c / (b + c)) =
      2 * nB2 * b * c * (f * (f - 1) * nAf + 2 * nA2) / (f * nAf + 2 * nA2) ^ 2 := by field_simp
  constructor
  · intro hg
    have e2 : (1 : α) + (f - 2) * (f * nAf / (f * nAf + 2 * nA2)) = (f * (f - 1) * nAf + 2 * nA2) / (f * nAf + 2 * nA2) := by
      field_simp; ring
    have e5 : 1 - b * c / ((f * nAf + 2 * nA2) / (2 * nB2)) * (1 + (f - 2) * (f * nAf / (f * nAf + 2 * nA2))) = 0 := by
      rw [e2]
      have : b * c / ((f * nAf + 2 * nA2) / (2 * nB2)) * ((f * (f - 1) * nAf + 2 * nA2) / (f * nAf + 2 * nA2)) =
        2 * nB2 * b * c * (f * (f - 1) * nAf + 2 * nA2) / (f * nAf + 2 * nA2) ^ 2 := by field_simp
      rw [this, hg, div_self (by positivity), sub_self]
    have r0 : (f * nAf + 2 * nA2) / (2 * nB2) ≠ 0 := by positivity
    simp only [miller1]
    rw [pdiv_ok (by positivity), ok_bind, pdiv_ok r0, ok_bind, pdiv_ok S0.ne', ok_bind, pdiv_ok r0, ok_bind, e5]
    simp only [pdiv, if_true]
    rfl
  · intro hg
    have hD : 1 - nB2 * (b + c) / (f * nAf + 2 * nA2) * ((f * (f - 1) * nAf + 2 * nA2) / (f * nAf + 2 * nA2)) *
        (2 * b * c / (b + c)) < 0 := by
      rw [hst, sub_neg, one_lt_div (by positivity)]
      exact hg
    refine ⟨_, _, miller1_eq hf h1 h2 h3 hbc hN hD.ne hL.ne', ?_⟩
    refine div_lt_div_of_pos_right (add_lt_of_neg_right _ (div_neg_of_pos_of_neg ?_ hD)) hL
    have q1 : 0 ≤ 2 * b * c / (b + c) := by positivity
    have q2 : 0 < (f * nAf * MAf + 2 * nA2 * MA2) / (f * nAf + 2 * nA2) := by positivity
    positivity

example : ((3 : ℕ) * 2 + 2 * 0 : ℚ) ^ 2 < 2 * 3 * (9 / 10) * (9 / 10) * ((3 : ℕ) * ((3 : ℕ) - 1) * 2 + 2 * 0) := by norm_num

/-- **C42 is false for `Miller_1` beyond the gel point**: there is no gel check, and the returned mass average is a negative number. -/
theorem C42_miller1_gel_false : ∃ Mn Mw : ℚ, miller1 2 0 3 3 1 1 1 (9 / 10) (9 / 10) = .ok (Mn, Mw) ∧ Mw < 0 := by
  refine ⟨_, _, miller1_eq (by norm_num) (by norm_num) (by norm_num) (by norm_num) (by norm_num) (by norm_num) (by norm_num) (by norm_num), ?_⟩
  norm_num

/-- **C42 is false at zero conversion**: `Case_1` raises there instead of returning the averages of the unreacted mixture. -/
theorem C42_zero_conversion_false (r MAA MBB : α) : case1 0 r MAA MBB = .error .ZeroDivisionError := by
  simp only [case1, zero_mul, mul_zero, add_zero, sub_zero]
  rw [show pdiv (0 : α) 0 = .error .ZeroDivisionError from if_pos rfl]
  rfl

example : (0 : ℚ) < 1 ∧ (95 / 100 : ℚ) * (9 / 10) * 2 * 1 * (3 * 2 * (1 / 10) + 2 * (9 / 10)) < (3 * (1 / 10) + 2 * (9 / 10)) ^ 2 := by norm_num

/-! ### C41 -/

/-- **C41.** `Case_1`'s `Mw` is the expected mass of the molecule that a random unit mass belongs to: `EA`, `EB` are the expected
masses attached through a random A or B group. -/
theorem C41_case1_recursion (nA nB pB MAA MBB EA EB Mn Mw : α) (hA : 0 < nA) (hB : 0 < nB) (hp : 0 < pB) (hM1 : 0 < MAA) (hM2 : 0 < MBB)
    (h1 : pB ≤ 1) (h2 : pB * nB ≤ nA) (h3 : pB < 1 ∨ pB * nB < nA) (eA : EA = pB * nB / nA * (MBB + EB)) (eB : EB = pB * (MAA + EA))
    (h : case1 pB (nB / nA) MAA MBB = .ok (Mn, Mw)) :
    Mw * (nA * MAA + nB * MBB) = nA * MAA * (MAA + 2 * EA) + nB * MBB * (MBB + 2 * EB) := by
  have hL : nA * MAA + nB * MBB ≠ 0 := by positivity
  have a1 : pB * nB / nA ≤ 1 := (div_le_one hA).2 h2
  have hD : 0 < 1 - pB * nB / nA * pB := by
    rcases h3 with h | h
    · nlinarith
    · have := (div_lt_one hA).2 h
      nlinarith
  have hN : nA + nB - 2 * nB * pB ≠ 0 := by
    have : 0 < nA + nB - 2 * nB * pB := by rcases h3 with h | h <;> nlinarith
    exact this.ne'
  rw [case1_eq hA hB hp hN hD.ne' hL] at h
  have hMw := congrArg Prod.snd (Except.ok.inj h)
  simp only at hMw
  have hg := hanging (P := MAA) (R := MBB) (gA := MBB + EB) (gB := MAA + EA) hD.ne' (by rw [eB]) (by rw [eA])
  rw [← hMw, div_mul_cancel₀ _ hL, mul_div_assoc, hg]
  have : nA * EA = pB * nB * (MBB + EB) := by rw [eA]; field_simp
  linear_combination (-2 * MAA) * this - (2 * nB * MBB) * eB

/-- **C41.** The same for `Case_3`: an A group is attached to B and C in proportion to their conversions. -/
theorem C41_case3_recursion (nA nB b c MAA MBC EA EB EC Mn Mw : α) (hA : 0 < nA) (hB : 0 < nB) (hb : 0 ≤ b) (hc : 0 ≤ c) (hbc : 0 < b + c)
    (hM1 : 0 < MAA) (hM2 : 0 < MBC) (h1 : b ≤ 1) (h2 : c ≤ 1) (h3 : nB * (b + c) ≤ 2 * nA) (h4 : nB * b * c < nA)
    (eA : EA = nB * (b + c) / (2 * nA) * (b / (b + c) * (MBC + EC) + c / (b + c) * (MBC + EB)))
    (eB : EB = b * (MAA + EA)) (eC : EC = c * (MAA + EA)) (h : case3 b c (nB / nA) MAA MBC = .ok (Mn, Mw)) :
    Mw * (nA * MAA + nB * MBC) = nA * MAA * (MAA + 2 * EA) + nB * MBC * (MBC + EB + EC) := by
  have hL : nA * MAA + nB * MBC ≠ 0 := by positivity
  have hD : 0 < 1 - nB * (b + c) / (2 * nA) * (2 * b * c / (b + c)) := by
    have e2 : 1 - nB * (b + c) / (2 * nA) * (2 * b * c / (b + c)) = (nA - nB * b * c) / nA := by field_simp
    rw [e2]; exact div_pos (by linarith) hA
  have hN : nA + nB - nB * (b + c) ≠ 0 := by
    have : 0 < nA + nB - nB * (b + c) := by
      have : nB * (1 - b) * (1 - c) ≥ 0 := mul_nonneg (mul_nonneg hB.le (by linarith)) (by linarith)
      nlinarith
    exact this.ne'
  rw [case3_eq hA hB hbc hN hD.ne' hL] at h
  have hMw := congrArg Prod.snd (Except.ok.inj h)
  simp only at hMw
  have e1 : b / (b + c) * (MBC + EC) + c / (b + c) * (MBC + EB) = MBC + 2 * b * c / (b + c) * (MAA + EA) := by
    rw [eB, eC]; field_simp; ring
  rw [e1] at eA
  have hg := hanging (P := MAA) (R := MBC) (gA := MBC + 2 * b * c / (b + c) * (MAA + EA)) (gB := MAA + EA) hD.ne' rfl (by rw [← eA])
  rw [← hMw, div_mul_cancel₀ _ hL, mul_div_assoc, hg, eB, eC]
  have : 2 * nA * EA = nB * (b + c) * (MBC + 2 * b * c / (b + c) * (MAA + EA)) := by
    rw [eq_comm]
    nth_rewrite 2 [eA]
    field_simp
  linear_combination (-MAA) * this

/-- **C41.** The same for `Stockmayer`: `fe - 1`, `ge - 1` are the numbers of other groups on the unit of a random group. -/
theorem C41_stockmayer_recursion {N K : ℕ} (nA : Fin N → ℝ) (nB : Fin K → ℝ) (f : Fin N → ℕ) (g : Fin K → ℕ) (MA : Fin N → ℝ)
    (MB : Fin K → ℝ) (pB SA SB pA fe ge Ma Mb EA EB Mn Mw : ℝ)
    (hSA : SA = ∑ i, (f i : ℝ) * nA i) (hSB : SB = ∑ j, (g j : ℝ) * nB j) (SA0 : 0 < SA) (SB0 : 0 < SB)
    (hpA : pA = pB * SB / SA) (p0 : 0 < pB) (hfe : fe = (∑ i, (f i : ℝ) ^ 2 * nA i) / SA) (hge : ge = (∑ j, (g j : ℝ) ^ 2 * nB j) / SB)
    (hMa : Ma = (∑ i, MA i * f i * nA i) / SA) (hMb : Mb = (∑ j, MB j * g j * nB j) / SB)
    (fe1 : 1 ≤ fe) (ge1 : 1 ≤ ge) (hL : ∑ i, MA i * nA i + ∑ j, MB j * nB j ≠ 0)
    (eA : EA = pA * (Mb + (ge - 1) * EB)) (eB : EB = pB * (Ma + (fe - 1) * EA))
    (h : stockmayer nA nB f g MA MB pB = some (Mn, Mw)) :
    Mw * (∑ i, MA i * nA i + ∑ j, MB j * nB j) =
      ∑ i, MA i * nA i * (MA i + f i * EA) + ∑ j, MB j * nB j * (MB j + g j * EB) := by
  have eq := stockmayer_eq (nA := nA) (nB := nB) (f := f) (g := g) (MA := MA) (MB := MB) (pB := pB) (pA := pA) (SA := SA) (SB := SB)
    (u := fe - 1) (w := ge - 1) hSA hSB (by rw [hfe]) (by rw [hge]) hMa hMb hpA rfl SA0 SB0 p0 (by linarith) (by linarith) hL
  rw [eq] at h
  split_ifs at h with h1
  have hMw := congrArg Prod.snd (Option.some.inj h)
  simp only at hMw
  have hD : 0 < 1 - pA * (fe - 1) * (pB * (ge - 1)) := by linarith [not_le.1 h1]
  have hg := hanging (P := Ma) (R := Mb) (gA := Mb + (ge - 1) * EB) (gB := Ma + (fe - 1) * EA) hD.ne'
    (by nth_rewrite 1 [eB]; ring) (by nth_rewrite 1 [eA]; ring)
  rw [← hMw, div_mul_cancel₀ _ hL, mul_div_assoc, hg]
  have s1 : ∑ i, MA i * nA i * (MA i + f i * EA) = ∑ i, MA i ^ 2 * nA i + Ma * SA * EA := by
    rw [hMa, div_mul_cancel₀ _ SA0.ne', Finset.sum_mul, ← Finset.sum_add_distrib]
    exact Finset.sum_congr rfl fun i _ => by ring
  have s2 : ∑ j, MB j * nB j * (MB j + g j * EB) = ∑ j, MB j ^ 2 * nB j + Mb * SB * EB := by
    rw [hMb, div_mul_cancel₀ _ SB0.ne', Finset.sum_mul, ← Finset.sum_add_distrib]
    exact Finset.sum_congr rfl fun i _ => by ring
  have hX : pA * SA = pB * SB := by rw [hpA]; field_simp
  rw [s1, s2]
  linear_combination (-(Ma * SA)) * eA - (Mb * SB) * eB - (Ma * (Mb + (ge - 1) * EB)) * hX

/-- **C41.** The same for `Miller_1`: the two B groups of a unit have their own conversions. -/
theorem C41_miller1_recursion (nAf nA2 nB2 MAf MA2 MB2 b c EA EB1 EB2 S Ma Mn Mw : α) (f : ℕ) (hf : 1 ≤ f) (h1 : 0 < nAf) (h2 : 0 ≤ nA2)
    (h3 : 0 < nB2) (hM1 : 0 < MAf) (hM2 : 0 < MA2) (hM3 : 0 < MB2) (hb : 0 ≤ b) (hc : 0 ≤ c) (hbc : 0 < b + c)
    (hS : S = f * nAf + 2 * nA2) (hMa : Ma = (f * nAf * MAf + 2 * nA2 * MA2) / S)
    (hN : nAf + nA2 + nB2 - nB2 * (b + c) ≠ 0) (hgel : 2 * nB2 * b * c * (f * (f - 1) * nAf + 2 * nA2) ≠ S ^ 2)
    (eA : EA = nB2 * (b + c) / S * (b / (b + c) * (MB2 + EB2) + c / (b + c) * (MB2 + EB1)))
    (eB1 : EB1 = b * (Ma + (f * nAf / S * (f - 1) + 2 * nA2 / S) * EA)) (eB2 : EB2 = c * (Ma + (f * nAf / S * (f - 1) + 2 * nA2 / S) * EA))
    (h : miller1 nAf nA2 nB2 f MAf MA2 MB2 b c = .ok (Mn, Mw)) :
    Mw * (MAf * nAf + MA2 * nA2 + MB2 * nB2) =
      MAf * nAf * (MAf + f * EA) + MA2 * nA2 * (MA2 + 2 * EA) + MB2 * nB2 * (MB2 + EB1 + EB2) := by
  have hf' : (1 : α) ≤ f := by exact_mod_cast hf
  have S0 : 0 < S := by rw [hS]; positivity
  have hL : MAf * nAf + MA2 * nA2 + MB2 * nB2 ≠ 0 := by positivity
  have hD : 1 - nB2 * (b + c) / S * ((f * (f - 1) * nAf + 2 * nA2) / S) * (2 * b * c / (b + c)) ≠ 0 := by
    have : nB2 * (b + c) / S * ((f * (f - 1) * nAf + 2 * nA2) / S) * (2 * b * c / (b + c)) =
        2 * nB2 * b * c * (f * (f - 1) * nAf + 2 * nA2) / S ^ 2 := by field_simp
    rw [this, sub_ne_zero, ne_comm, Ne, div_eq_one_iff_eq (by positivity)]
    exact hgel
  have eqn := miller1_eq (MAf := MAf) (MA2 := MA2) (MB2 := MB2) (b := b) (c := c) hf h1 h2 h3 hbc hN (by rw [← hS]; exact hD) hL
  rw [h, ← hS, ← hMa] at eqn
  have hMw := congrArg Prod.snd (Except.ok.inj eqn)
  simp only at hMw
  set U := (f * ((f : α) - 1) * nAf + 2 * nA2) / S with hU
  have eU : f * nAf / S * ((f : α) - 1) + 2 * nA2 / S = U := by rw [hU]; field_simp
  rw [eU] at eB1 eB2
  set t := 2 * b * c / (b + c) with ht
  have e1 : b / (b + c) * (MB2 + EB2) + c / (b + c) * (MB2 + EB1) = MB2 + t * (Ma + U * EA) := by
    rw [eB1, eB2, ht]; field_simp; ring
  rw [e1] at eA
  set a := nB2 * (b + c) / S with ha
  have haS : nB2 * (b + c) = a * S := by rw [ha]; field_simp
  have hg := hanging (s := a * U) (t := t) (P := Ma) (R := MB2) (gA := MB2 + t * (Ma + U * EA)) (gB := Ma + U * EA) hD rfl
    (by nth_rewrite 1 [eA]; ring)
  have hPS : f * nAf * MAf + 2 * nA2 * MA2 = Ma * S := by rw [hMa]; field_simp
  rw [hMw, div_mul_cancel₀ _ hL, mul_div_assoc, hg, eB1, eB2, haS]
  linear_combination (-EA) * hPS - (Ma * S) * eA - (MB2 * (Ma + U * EA)) * haS

/-- **C41.** The same for `Miller_2`; here `GA`, `GB` are the expected masses behind a bond, seen from its `Af` and `B2` end. -/
theorem C41_miller2_recursion (nAf nB2 MAf MB2 GA GB Mn Mw : α) (f : ℕ) (p : Fin f → α) (sp b m : α) (hf : 0 < f) (h1 : 0 < nAf)
    (h3 : 0 < nB2) (hM1 : 0 < MAf) (hM2 : 0 < MB2) (hsp : sp = ∑ i : Fin f, ((i : ℕ) + 1 : α) * p i) (sp0 : 0 < sp)
    (hm : m * sp = ∑ i : Fin f, ((i : ℕ) + 1 : α) ^ 2 * p i) (hb : b = nAf * sp / (2 * nB2))
    (eA : GA = MB2 + b * GB) (eB : GB = MAf + (m - 1) * GA) (h : miller2 nAf nB2 f MAf MB2 p = some (Mn, Mw)) :
    Mw * (MAf * nAf + MB2 * nB2) = nAf * MAf * (MAf + sp * GA) + nB2 * MB2 * (MB2 + 2 * b * GB) := by
  have hL : MAf * nAf + MB2 * nB2 ≠ 0 := by positivity
  have hb' : 2 * nB2 * b = nAf * sp := by rw [hb]; field_simp
  rw [miller2_eq hf h1 h3 hsp sp0 hm hb' hL] at h
  split_ifs at h with hgel
  have hMw := congrArg Prod.snd (Option.some.inj h)
  simp only at hMw
  rw [← hMw, div_mul_cancel₀ _ hL, mul_div_assoc, hanging (sub_pos.2 hgel).ne' eA eB]
  linear_combination (-(MB2 * GB)) * hb'

/-- **C41.** The same for `Flory_Af`. -/
theorem C41_floryAf_recursion (f : ℕ) (hf : 2 ≤ f) (MAf p E Mn Mw Mz : α) (hp : 0 ≤ p) (h1 : p ≤ 1) (hM : 0 < MAf)
    (e : E = p * (MAf + (f - 1) * E)) (h : floryAf f MAf p = .ok (some (Mn, Mw, Mz))) : Mw = MAf + f * E := by
  have hf' : (2 : α) ≤ f := by exact_mod_cast hf
  have hf1 : (0 : α) < f - 1 := by linarith
  have hg : p < 1 / ((f : α) - 1) := by
    by_contra hc
    rw [(C42_floryAf f hf MAf p hM hp h1).1.2 (not_lt.1 hc)] at h
    cases h
  have h' := (lt_div_iff₀ hf1).1 hg
  have hfp : (f : α) / 2 * p < 1 := by nlinarith
  simp only [floryAf] at h
  rw [pdiv_ok hf1.ne', ok_bind, if_neg (not_le.2 hg), pdiv_ok (by linarith), pdiv_ok (by linarith),
    pdiv_ok (mul_ne_zero (by positivity) (pow_ne_zero 2 (by linarith)))] at h
  have hMw := congrArg (fun x => x.map (fun y => y.2.1)) (Except.ok.inj h)
  simp only [Option.map_some, Option.some.injEq] at hMw
  have d2 : 0 < 1 - p * ((f : α) - 1) := by linarith
  rw [← hMw, div_eq_iff d2.ne']
  linear_combination (-(f : α)) * e

/-- **C41.** `Stockmayer` with one A₂ and one B₂ monomer is `Case_1`. -/
theorem C41_stockmayer_case1 (nA nB MAA MBB pB : ℝ) (hA : 0 < nA) (hB : 0 < nB) (hp : 0 < pB) (hM1 : 0 < MAA) (hM2 : 0 < MBB)
    (h1 : pB ≤ 1) (h2 : pB * nB ≤ nA) (h3 : pB < 1 ∨ pB * nB < nA) :
    ∃ v, case1 pB (nB / nA) MAA MBB = .ok v ∧
      stockmayer (N := 1) (K := 1) (fun _ => nA) (fun _ => nB) (fun _ => 2) (fun _ => 2) (fun _ => MAA) (fun _ => MBB) pB = some v := by
  have hL : 0 < nA * MAA + nB * MBB := by positivity
  have a1 : pB * nB / nA ≤ 1 := (div_le_one hA).2 h2
  have hD : 0 < 1 - pB * nB / nA * pB := by
    rcases h3 with h | h
    · nlinarith
    · have := (div_lt_one hA).2 h
      nlinarith
  have hN : 0 < nA + nB - 2 * nB * pB := by rcases h3 with h | h <;> nlinarith
  refine ⟨_, case1_eq hA hB hp hN.ne' hD.ne' hL.ne', ?_⟩
  rw [stockmayer_eq (SA := 2 * nA) (SB := 2 * nB) (u := 1) (w := 1) (P := MAA) (R := MBB) (pA := pB * nB / nA) (L := nA * MAA + nB * MBB)
    (by simp) (by simp) (by simp; field_simp; norm_num) (by simp; field_simp; norm_num) (by simp; field_simp) (by simp; field_simp)
    (by field_simp) (by simp [mul_comm]) (by positivity) (by positivity) hp zero_le_one zero_le_one hL.ne', if_neg (by linarith)]
  simp only [mul_one, Finset.univ_unique, Finset.sum_const, Finset.card_singleton, one_smul]
  have e : pB * (2 * nB) = 2 * nB * pB := by ring
  rw [e, mul_comm (MAA ^ 2), mul_comm (MBB ^ 2)]

/-- **C41.** `Case_3` with equal conversions of B and C is `Case_1`. -/
theorem C41_case3_case1 (nA nB p MAA MBC : α) (hA : 0 < nA) (hB : 0 < nB) (hp : 0 < p) (hM1 : 0 < MAA) (hM2 : 0 < MBC)
    (h1 : p ≤ 1) (h2 : p * nB ≤ nA) (h3 : p < 1 ∨ p * nB < nA) :
    ∃ v, case1 p (nB / nA) MAA MBC = .ok v ∧ case3 p p (nB / nA) MAA MBC = .ok v := by
  have hL : 0 < nA * MAA + nB * MBC := by positivity
  have a1 : p * nB / nA ≤ 1 := (div_le_one hA).2 h2
  have hD : 0 < 1 - p * nB / nA * p := by
    rcases h3 with h | h
    · nlinarith
    · have := (div_lt_one hA).2 h
      nlinarith
  have hN : 0 < nA + nB - 2 * nB * p := by rcases h3 with h | h <;> nlinarith
  have e1 : nB * (p + p) = 2 * nB * p := by ring
  have e2 : nB * (p + p) / (2 * nA) = p * nB / nA := by field_simp; ring
  have e3 : 2 * p * p / (p + p) = p := by field_simp; ring
  refine ⟨_, case1_eq hA hB hp hN.ne' hD.ne' hL.ne', ?_⟩
  rw [case3_eq hA hB (by positivity) (by rw [e1]; exact hN.ne') (by rw [e2, e3]; exact hD.ne') hL.ne', e2, e3, e1]

/-- **C41.** `Miller_1` with equal conversions is `Stockmayer` for A_f + A₂ + B₂. -/
theorem C41_miller1_stockmayer (nAf nA2 nB2 MAf MA2 MB2 p : ℝ) (f : ℕ) (hf : 1 ≤ f) (h1 : 0 < nAf) (h2 : 0 ≤ nA2) (h3 : 0 < nB2)
    (hM1 : 0 < MAf) (hM2 : 0 < MA2) (hM3 : 0 < MB2) (hp : 0 < p) (hp1 : p ≤ 1) (hA : 2 * nB2 * p ≤ f * nAf + 2 * nA2)
    (hgel : 2 * nB2 * p ^ 2 * (f * (f - 1) * nAf + 2 * nA2) < (f * nAf + 2 * nA2) ^ 2) :
    ∃ v, miller1 nAf nA2 nB2 f MAf MA2 MB2 p p = .ok v ∧
      stockmayer ![nAf, nA2] (fun _ : Fin 1 => nB2) ![f, 2] (fun _ => 2) ![MAf, MA2] (fun _ => MB2) p = some v := by
  have hf' : (1 : ℝ) ≤ f := by exact_mod_cast hf
  have hf0 : (0 : ℝ) ≤ f - 1 := by linarith
  have S0 : 0 < f * nAf + 2 * nA2 := by positivity
  have hL : 0 < MAf * nAf + MA2 * nA2 + MB2 * nB2 := by positivity
  set S := f * nAf + 2 * nA2 with hS
  set U := (f * ((f : ℝ) - 1) * nAf + 2 * nA2) / S with hU
  have U0 : 0 ≤ U := by rw [hU]; positivity
  have e1 : nB2 * (p + p) = 2 * nB2 * p := by ring
  have e3 : 2 * p * p / (p + p) = p := by field_simp; ring
  have hD : 2 * nB2 * p / S * U * p < 1 := by
    have : 2 * nB2 * p / S * U * p = 2 * nB2 * p ^ 2 * (f * (f - 1) * nAf + 2 * nA2) / S ^ 2 := by rw [hU]; field_simp
    rw [this, div_lt_one (by positivity)]
    exact hgel
  obtain ⟨Mn, Mw, hv, hpos, -⟩ := C42_miller1_partial nAf nA2 nB2 MAf MA2 MB2 p p f hf h1 h2 h3 hM1 hM2 hM3 hp.le hp.le (by positivity) hp1 hp1
    (by rw [e1]; exact hA) (by rw [← hS]; nlinarith)
  have hN : nAf + nA2 + nB2 - 2 * nB2 * p ≠ 0 := by
    intro h0
    have := C76_miller1 nAf nA2 nB2 MAf MA2 MB2 p p Mn Mw f hv
    have e : nAf + nA2 + nB2 - (nB2 * p + nB2 * p) = 0 := by linarith
    rw [e, div_zero] at this
    linarith
  refine ⟨_, miller1_eq hf h1 h2 h3 (by positivity) (by rw [e1]; exact hN) (by rw [e1, e3, ← hS, ← hU]; linarith) hL.ne', ?_⟩
  rw [stockmayer_eq (SA := S) (SB := 2 * nB2) (u := U) (w := 1) (P := (f * nAf * MAf + 2 * nA2 * MA2) / S) (R := MB2)
    (pA := 2 * nB2 * p / S) (L := MAf * nAf + MA2 * nA2 + MB2 * nB2) (by simp [Fin.sum_univ_two, hS]) (by simp)
    (by simp [Fin.sum_univ_two]; rw [hU]; field_simp; rw [hS]; ring) (by simp; field_simp; norm_num)
    (by simp [Fin.sum_univ_two]; ring) (by simp; field_simp) (by ring) (by simp [Fin.sum_univ_two]) S0
    (by positivity) hp U0 zero_le_one hL.ne', if_neg (by linarith)]
  rw [e1, e3, ← hS, ← hU]
  have e4 : p * (2 * nB2) = 2 * nB2 * p := by ring
  simp [Fin.sum_univ_two, e4]

/-- **C41.** `Miller_2` with independent groups (binomial distribution of reacted groups at conversion `q`) is `Stockmayer` for A_f + B₂:
for binomial `p` the mean is `f q` and the mean seen from a bond is `1 + (f-1) q` (`binomial_moments`). -/
theorem C41_miller2_stockmayer (nAf nB2 MAf MB2 q : ℝ) (f : ℕ) (p : Fin f → ℝ) (hf : 1 ≤ f) (h1 : 0 < nAf) (h3 : 0 < nB2)
    (hM1 : 0 < MAf) (hM3 : 0 < MB2) (hq : 0 < q)
    (hp : ∀ i : Fin f, p i = (f.choose (i + 1) : ℝ) * q ^ ((i : ℕ) + 1) * (1 - q) ^ (f - (i + 1))) :
    miller2 nAf nB2 f MAf MB2 p =
      stockmayer (N := 1) (K := 1) (fun _ => nAf) (fun _ => nB2) (fun _ => f) (fun _ => 2) (fun _ => MAf) (fun _ => MB2)
        (q * (f * nAf) / (2 * nB2)) := by
  have hf' : (1 : ℝ) ≤ f := by exact_mod_cast hf
  have hf0 : (0 : ℝ) ≤ f - 1 := by linarith
  have hL : 0 < MAf * nAf + MB2 * nB2 := by positivity
  obtain ⟨m1, m2⟩ := binomial_moments f q
  have hs : ∑ i : Fin f, ((i : ℕ) + 1 : ℝ) * p i = f * q := by
    simp only [hp]
    rw [← m1, Fin.sum_univ_eq_sum_range (fun i => ((i : ℕ) + 1 : ℝ) * ((f.choose (i + 1) : ℝ) * q ^ (i + 1) * (1 - q) ^ (f - (i + 1)))) f]
  have hs2 : ∑ i : Fin f, ((i : ℕ) + 1 : ℝ) ^ 2 * p i = (1 + (f - 1) * q) * (f * q) := by
    simp only [hp]
    rw [← m2, Fin.sum_univ_eq_sum_range (fun i => ((i : ℕ) + 1 : ℝ) ^ 2 * ((f.choose (i + 1) : ℝ) * q ^ (i + 1) * (1 - q) ^ (f - (i + 1)))) f]
  have b0 : 0 < q * (f * nAf) / (2 * nB2) := by positivity
  rw [miller2_eq (sp := f * q) (b := q * (f * nAf) / (2 * nB2)) (m := 1 + (f - 1) * q) hf h1 h3 hs.symm (by positivity) hs2.symm
    (by field_simp) hL.ne',
    stockmayer_eq (SA := f * nAf) (SB := 2 * nB2) (u := f - 1) (w := 1) (P := MAf) (R := MB2) (pA := q) (L := MAf * nAf + MB2 * nB2)
    (by simp) (by simp) (by simp; field_simp) (by simp; field_simp; norm_num) (by simp; field_simp) (by simp; field_simp)
    (by field_simp) (by simp) (by positivity) (by positivity) b0 hf0 zero_le_one hL.ne']
  have e1 : (1 + ((f : ℝ) - 1) * q - 1) * (q * (f * nAf) / (2 * nB2)) = q * (f - 1) * (q * (f * nAf) / (2 * nB2) * 1) := by ring
  have e2 : q * (f * nAf) / (2 * nB2) * (2 * nB2) = nAf * (f * q) := by field_simp
  rw [e1]
  by_cases h : q * ((f : ℝ) - 1) * (q * (f * nAf) / (2 * nB2) * 1) < 1
  · rw [if_pos h, if_neg (not_le.2 h), e2]
    simp only [mul_one, Finset.univ_unique, Finset.sum_const, Finset.card_singleton, one_smul]
    rw [mul_comm (MAf ^ 2), mul_comm (MB2 ^ 2), add_sub_cancel_left, mul_comm ((f : ℝ) - 1) q]
  · rw [if_neg h, if_pos (not_lt.1 h)]

/-- Hypotheses of `C42_stockmayer` hold for A₃ + B₂ (2 : 3) at half conversion, where the gel condition reads `1/2 · 1/2 · 2 · 1 < 1`. -/
example : ∃ Mn Mw, stockmayer (N := 1) (K := 1) (fun _ => 2) (fun _ => 3) (fun _ => 3) (fun _ => 2) (fun _ => 150) (fun _ => 80) (1 / 2) =
    some (Mn, Mw) ∧ 0 < Mn ∧ Mn ≤ Mw :=
  (C42_stockmayer _ _ _ _ _ _ (1 / 2) 6 6 (1 / 2) 3 2 (by simp) (by simp) (by simp) (by simp) (by simp) (by simp) (by norm_num)
    (by norm_num) (by norm_num) (by norm_num) (by norm_num) (by norm_num) (by norm_num) (by norm_num) (by norm_num) (by norm_num)).2 (by norm_num)

/-- Hypotheses of `C42_miller2` hold for A₃ units of which a third has one bond and a third has two. -/
example : ∃ Mn Mw : ℚ, miller2 2 3 3 150 80 ![1 / 3, 1 / 3, 0] = some (Mn, Mw) ∧ 0 < Mn ∧ Mn ≤ Mw :=
  (C42_miller2 2 3 150 80 3 ![1 / 3, 1 / 3, 0] 1 (1 / 3) (5 / 3) (by norm_num) (by norm_num) (by norm_num) (by norm_num) (by norm_num)
    (by intro i; fin_cases i <;> norm_num) (by simp [Fin.sum_univ_three]; norm_num) (by simp [Fin.sum_univ_three]; norm_num) (by norm_num)
    (by simp [Fin.sum_univ_three]; norm_num) (by norm_num) (by norm_num)).2 (by norm_num)

end Verif.StepGrowth
