import Verif.Model.CopoClass
import Verif.Props.Copo
import Verif.Lemmas.CopoPen

/-!
# C108: the copolymerisation model classes
-/

namespace Verif.CopoClass

open Verif.Copo

variable {α : Type*} [Field α] [LinearOrder α] [IsStrictOrderedRing α] {τ : Type*}

/-- Two usable monomer names. -/
def GoodNames (M1 M2 : String) : Prop := M1 ≠ "" ∧ M2 ≠ "" ∧ M1.toLower ≠ M2.toLower

omit [IsStrictOrderedRing α] in
theorem checkNonneg_ok (l : List α) : checkNonneg l = .ok () ↔ ∀ x ∈ l, 0 ≤ x := by
  induction l with
  | nil => simp [checkNonneg]
  | cons x l ih =>
    unfold checkNonneg
    split_ifs with h
    · rw [ih]; simp [h]
    · simp [h]

omit [IsStrictOrderedRing α] in
theorem checkNonneg_err (l : List α) (e : Err) : checkNonneg l = .error e ↔ e = .RangeError ∧ ∃ x ∈ l, x < 0 := by
  induction l with
  | nil => simp [checkNonneg]
  | cons x l ih =>
    unfold checkNonneg
    split_ifs with h
    · rw [ih]; simp [h.not_gt]
    · simp only [Except.error.injEq, List.mem_cons, exists_eq_or_imp, not_le.mp h, true_or, and_true]; exact eq_comm

omit [IsStrictOrderedRing α] in
/-- **C108.** `TerminalModel(r1, r2, ...)`: a negative ratio is a `RangeError`, otherwise unusable names are a `ValueError`, otherwise
the object holds what was given. A warning is issued exactly if both ratios exceed one. -/
theorem C108_terminal (r1 r2 : α) (k1 k2 : Option (τ → α)) (M1 M2 name : String) :
    ((terminal r1 r2 k1 k2 M1 M2 name).warned = true ↔ 0 ≤ r1 ∧ 0 ≤ r2 ∧ 1 < r1 ∧ 1 < r2) ∧
    (∀ e, (terminal r1 r2 k1 k2 M1 M2 name).out = .error e ↔
      (e = .RangeError ∧ (r1 < 0 ∨ r2 < 0)) ∨ (e = .ValueError ∧ 0 ≤ r1 ∧ 0 ≤ r2 ∧ ¬ GoodNames M1 M2)) ∧
    (∀ m, (terminal r1 r2 k1 k2 M1 M2 name).out = .ok m ↔
      0 ≤ r1 ∧ 0 ≤ r2 ∧ GoodNames M1 M2 ∧ m = ⟨⟨k1, k2, M1, M2, name⟩, r1, r2⟩) := by
  unfold terminal
  cases hc : checkNonneg [r1, r2] with
  | error e' =>
    obtain ⟨rfl, x, hx, hx0⟩ := (checkNonneg_err _ _).1 hc
    have hneg : r1 < 0 ∨ r2 < 0 := by
      simp only [List.mem_cons, List.not_mem_nil, or_false] at hx
      rcases hx with rfl | rfl <;> simp [hx0]
    have hn : ¬ (0 ≤ r1 ∧ 0 ≤ r2) := by rcases hneg with h | h <;> simp [h]
    refine ⟨?_, fun e => ?_, fun m => ?_⟩
    · simp only [Bool.false_eq_true, false_iff]; exact fun h => hn ⟨h.1, h.2.1⟩
    · simp only [Except.error.injEq]
      constructor
      · rintro rfl; exact .inl ⟨rfl, hneg⟩
      · rintro (⟨rfl, -⟩ | ⟨-, h1, h2, -⟩)
        · rfl
        · exact absurd ⟨h1, h2⟩ hn
    · simp only [reduceCtorEq, false_iff]; exact fun h => hn ⟨h.1, h.2.1⟩
  | ok u =>
    have h := (checkNonneg_ok _).1 hc
    have h1 : 0 ≤ r1 := h r1 (by simp)
    have h2 : 0 ≤ r2 := h r2 (by simp)
    refine ⟨by simp [h1, h2], fun e => ?_, fun m => ?_⟩
    · simp only [baseInit, GoodNames, h1.not_gt, h2.not_gt, or_self, and_false, false_or, h1, h2, true_and]
      split_ifs with hg
      · simp [Except.map, hg]
      · simp only [Except.map, Except.error.injEq, hg, not_false_eq_true, and_true]; exact eq_comm
    · simp only [baseInit, GoodNames, h1, h2, true_and]
      split_ifs with hg
      · simp only [Except.map, Except.ok.injEq]; exact ⟨fun h => ⟨hg, h.symm⟩, fun h => h.2.symm⟩
      · simp [Except.map, hg]

omit [IsStrictOrderedRing α] in
/-- **C108.** `ImplicitPenultimateModel(r1, r2, s1, s2, ...)`. -/
theorem C108_implicit (r1 r2 s1 s2 : α) (k1 k2 : Option (τ → α)) (M1 M2 name : String) :
    ((implicit r1 r2 s1 s2 k1 k2 M1 M2 name).warned = true ↔ (0 ≤ s1 ∧ 0 ≤ s2) ∧ 0 ≤ r1 ∧ 0 ≤ r2 ∧ 1 < r1 ∧ 1 < r2) ∧
    (∀ e, (implicit r1 r2 s1 s2 k1 k2 M1 M2 name).out = .error e ↔
      (e = .RangeError ∧ (s1 < 0 ∨ s2 < 0 ∨ r1 < 0 ∨ r2 < 0)) ∨
      (e = .ValueError ∧ 0 ≤ s1 ∧ 0 ≤ s2 ∧ 0 ≤ r1 ∧ 0 ≤ r2 ∧ ¬ GoodNames M1 M2)) ∧
    (∀ m, (implicit r1 r2 s1 s2 k1 k2 M1 M2 name).out = .ok m ↔
      0 ≤ s1 ∧ 0 ≤ s2 ∧ 0 ≤ r1 ∧ 0 ≤ r2 ∧ GoodNames M1 M2 ∧ m = ⟨⟨⟨k1, k2, M1, M2, name⟩, r1, r2⟩, s1, s2⟩) := by
  obtain ⟨hw, he, ho⟩ := C108_terminal r1 r2 k1 k2 M1 M2 name
  unfold implicit
  cases hc : checkNonneg [s1, s2] with
  | error e' =>
    obtain ⟨rfl, x, hx, hx0⟩ := (checkNonneg_err _ _).1 hc
    have hneg : s1 < 0 ∨ s2 < 0 := by
      simp only [List.mem_cons, List.not_mem_nil, or_false] at hx
      rcases hx with rfl | rfl <;> simp [hx0]
    have hn : ¬ (0 ≤ s1 ∧ 0 ≤ s2) := by rcases hneg with h | h <;> simp [h]
    refine ⟨?_, fun e => ?_, fun m => ?_⟩
    · simp only [Bool.false_eq_true, false_iff]; exact fun h => hn h.1
    · simp only [Except.error.injEq]
      constructor
      · rintro rfl; exact .inl ⟨rfl, by tauto⟩
      · rintro (⟨rfl, -⟩ | ⟨-, h1, h2, -⟩)
        · rfl
        · exact absurd ⟨h1, h2⟩ hn
    · simp only [reduceCtorEq, false_iff]; exact fun h => hn ⟨h.1, h.2.1⟩
  | ok u =>
    have h := (checkNonneg_ok _).1 hc
    have h1 : 0 ≤ s1 := h s1 (by simp)
    have h2 : 0 ≤ s2 := h s2 (by simp)
    refine ⟨?_, fun e => ?_, fun m => ?_⟩
    · simp only [h1, h2, true_and, and_self]; exact hw
    · simp only [h1.not_gt, h2.not_gt, false_or, h1, h2, true_and]
      rw [← he e]
      cases (terminal r1 r2 k1 k2 M1 M2 name).out <;> simp [Except.map]
    · simp only [h1, h2, true_and]
      cases ht : (terminal r1 r2 k1 k2 M1 M2 name).out with
      | error e =>
        simp only [Except.map, reduceCtorEq, false_iff]
        rintro ⟨a, b, c, -⟩
        have := (ho _).2 ⟨a, b, c, rfl⟩
        rw [ht] at this; cases this
      | ok t =>
        obtain ⟨a, b, c, rfl⟩ := (ho t).1 ht
        simp only [Except.map, Except.ok.injEq, a, b, c, true_and]; exact eq_comm

omit [IsStrictOrderedRing α] in
/-- **C108.** `PenultimateModel(...)`. -/
theorem C108_penultimate (r11 r12 r21 r22 s1 s2 : α) (k1 k2 : Option (τ → α)) (M1 M2 name : String) :
    (penultimate r11 r12 r21 r22 s1 s2 k1 k2 M1 M2 name).warned = false ∧
    (∀ e, (penultimate r11 r12 r21 r22 s1 s2 k1 k2 M1 M2 name).out = .error e ↔
      (e = .RangeError ∧ ∃ x ∈ [r11, r12, r21, r22, s1, s2], x < 0) ∨
      (e = .ValueError ∧ (∀ x ∈ [r11, r12, r21, r22, s1, s2], 0 ≤ x) ∧ ¬ GoodNames M1 M2)) ∧
    (∀ m, (penultimate r11 r12 r21 r22 s1 s2 k1 k2 M1 M2 name).out = .ok m ↔
      (∀ x ∈ [r11, r12, r21, r22, s1, s2], 0 ≤ x) ∧ GoodNames M1 M2 ∧ m = ⟨⟨k1, k2, M1, M2, name⟩, ⟨r11, r12, r21, r22, s1, s2⟩⟩) := by
  unfold penultimate
  cases hc : checkNonneg [r11, r12, r21, r22, s1, s2] with
  | error e' =>
    obtain ⟨rfl, hneg⟩ := (checkNonneg_err _ _).1 hc
    have hn : ¬ ∀ x ∈ [r11, r12, r21, r22, s1, s2], 0 ≤ x := by
      obtain ⟨x, hx, hx0⟩ := hneg
      exact fun h => absurd (h x hx) hx0.not_ge
    refine ⟨rfl, fun e => ?_, fun m => ?_⟩
    · simp only [Except.error.injEq]
      constructor
      · rintro rfl; exact .inl ⟨rfl, hneg⟩
      · rintro (⟨rfl, -⟩ | ⟨-, h1, -⟩)
        · rfl
        · exact absurd h1 hn
    · simp only [reduceCtorEq, false_iff]; exact fun h => hn h.1
  | ok u =>
    have h := (checkNonneg_ok _).1 hc
    have hn : ¬ ∃ x ∈ [r11, r12, r21, r22, s1, s2], x < 0 := by
      rintro ⟨x, hx, hx0⟩; exact absurd (h x hx) hx0.not_ge
    refine ⟨rfl, fun e => ?_, fun m => ?_⟩
    · simp only [baseInit, hn, and_false, false_or]
      have hT : (∀ x ∈ [r11, r12, r21, r22, s1, s2], 0 ≤ x) ↔ True := ⟨fun _ => trivial, fun _ => h⟩
      rw [hT]
      split_ifs with hg
      · simp [Except.map, GoodNames, hg]
      · simp only [Except.map, Except.error.injEq, GoodNames, hg, not_false_eq_true, and_true]; exact eq_comm
    · have hT : (∀ x ∈ [r11, r12, r21, r22, s1, s2], 0 ≤ x) ↔ True := ⟨fun _ => trivial, fun _ => h⟩
      rw [hT]
      simp only [baseInit, true_and]
      split_ifs with hg
      · simp only [Except.map, Except.ok.injEq]; exact ⟨fun h => ⟨hg, h.symm⟩, fun h => h.2.symm⟩
      · simp [Except.map, GoodNames, hg]

/-- **C108.** From `Q > 0` and any `e` the terminal model is always built (names permitting), never with a warning, and
`r1 r2 = exp(-(e1 - e2)²)`. -/
theorem C108_from_Qe (Qe1 Qe2 : ℝ × ℝ) (k1 k2 : Option (τ → ℝ)) (M1 M2 name : String) (h1 : 0 < Qe1.1) (h2 : 0 < Qe2.1) (hM : GoodNames M1 M2) :
    (fromQe Qe1 Qe2 k1 k2 M1 M2 name).warned = false ∧
    ∃ m, (fromQe Qe1 Qe2 k1 k2 M1 M2 name).out = .ok m ∧ m.toBase = ⟨k1, k2, M1, M2, name⟩ ∧
      m.r1 = Qe1.1 / Qe2.1 * Real.exp (-Qe1.2 * (Qe1.2 - Qe2.2)) ∧ m.r2 = Qe2.1 / Qe1.1 * Real.exp (-Qe2.2 * (Qe2.2 - Qe1.2)) ∧
      m.r1 * m.r2 = Real.exp (-(Qe1.2 - Qe2.2) ^ 2) := by
  obtain ⟨Q1, e1⟩ := Qe1
  obtain ⟨Q2, e2⟩ := Qe2
  dsimp only at h1 h2 ⊢
  have e : ∀ M, fromQe (Q1, e1) (Q2, e2) k1 k2 M1 M2 name = M ↔ terminal (Q1 / Q2 * Real.exp (-e1 * (e1 - e2)))
      (Q2 / Q1 * Real.exp (-e2 * (e2 - e1))) k1 k2 M1 M2 name = M := by
    intro M
    unfold fromQe
    rw [if_neg (by push Not; exact ⟨h1.ne', h2.ne'⟩)]
    simp [CopoMulti.convertQe]
  rw [(e _).2 rfl]
  set a := Q1 / Q2 * Real.exp (-e1 * (e1 - e2)) with ha
  set b := Q2 / Q1 * Real.exp (-e2 * (e2 - e1)) with hb
  have hab : a * b = Real.exp (-(e1 - e2) ^ 2) := by
    have : Real.exp (-(e1 - e2) ^ 2) = Real.exp (-e1 * (e1 - e2)) * Real.exp (-e2 * (e2 - e1)) := by
      rw [← Real.exp_add]; congr 1; ring
    rw [ha, hb, this]
    field_simp
  have h1' : 0 < a := by positivity
  have h2' : 0 < b := by positivity
  obtain ⟨hw, -, ho⟩ := C108_terminal a b k1 k2 M1 M2 name
  refine ⟨?_, _, (ho _).2 ⟨h1'.le, h2'.le, hM, rfl⟩, rfl, rfl, rfl, hab⟩
  rw [Bool.eq_false_iff]
  intro hc
  obtain ⟨-, -, ha1, hb1⟩ := hw.1 hc
  have : a * b ≤ 1 := by rw [hab, Real.exp_le_one_iff]; nlinarith [sq_nonneg (e1 - e2)]
  nlinarith

/-- **C108.** Whatever the `Q`, no warning is issued; a zero `Q` raises `ZeroDivisionError`, `Q` of opposite signs raise `RangeError`; two negative `Q`
are accepted. -/
theorem C108_from_Qe_errors (Qe1 Qe2 : ℝ × ℝ) (k1 k2 : Option (τ → ℝ)) (M1 M2 name : String) :
    (fromQe Qe1 Qe2 k1 k2 M1 M2 name).warned = false ∧
    (Qe1.1 * Qe2.1 = 0 → (fromQe Qe1 Qe2 k1 k2 M1 M2 name).out = .error .ZeroDivisionError) ∧
    (Qe1.1 * Qe2.1 < 0 → (fromQe Qe1 Qe2 k1 k2 M1 M2 name).out = .error .RangeError) ∧
    (0 < Qe1.1 * Qe2.1 → GoodNames M1 M2 → ∃ m, (fromQe Qe1 Qe2 k1 k2 M1 M2 name).out = .ok m) := by
  obtain ⟨Q1, e1⟩ := Qe1
  obtain ⟨Q2, e2⟩ := Qe2
  dsimp only
  by_cases h0 : Q1 = 0 ∨ Q2 = 0
  · have e : fromQe (Q1, e1) (Q2, e2) k1 k2 M1 M2 name = ⟨false, .error .ZeroDivisionError⟩ := by
      unfold fromQe
      rw [if_pos h0]
    have h0' := mul_eq_zero.2 h0
    rw [e]
    exact ⟨rfl, fun _ => rfl, fun h => absurd h h0'.not_lt, fun h => absurd h h0'.not_gt⟩
  · have e : fromQe (Q1, e1) (Q2, e2) k1 k2 M1 M2 name = terminal (Q1 / Q2 * Real.exp (-e1 * (e1 - e2)))
        (Q2 / Q1 * Real.exp (-e2 * (e2 - e1))) k1 k2 M1 M2 name := by
      unfold fromQe
      rw [if_neg h0]
      simp [CopoMulti.convertQe]
    push Not at h0
    rw [e]
    obtain ⟨hw, he, ho⟩ := C108_terminal (Q1 / Q2 * Real.exp (-e1 * (e1 - e2))) (Q2 / Q1 * Real.exp (-e2 * (e2 - e1))) k1 k2 M1 M2 name
    have hab : Q1 / Q2 * Real.exp (-e1 * (e1 - e2)) * (Q2 / Q1 * Real.exp (-e2 * (e2 - e1))) = Real.exp (-(e1 - e2) ^ 2) := by
      have : Real.exp (-(e1 - e2) ^ 2) = Real.exp (-e1 * (e1 - e2)) * Real.exp (-e2 * (e2 - e1)) := by
        rw [← Real.exp_add]; congr 1; ring
      have := h0.1
      have := h0.2
      rw [‹Real.exp (-(e1 - e2) ^ 2) = _›]
      field_simp
    refine ⟨?_, fun h => absurd h (mul_ne_zero h0.1 h0.2), fun h => (he _).2 (.inl ⟨rfl, .inl ?_⟩), fun h hM => ⟨_, (ho _).2 ⟨?_, ?_, hM, rfl⟩⟩⟩
    · rw [Bool.eq_false_iff]
      intro hc
      obtain ⟨-, -, ha1, hb1⟩ := hw.1 hc
      have h1 : Real.exp (-(e1 - e2) ^ 2) ≤ 1 := by rw [Real.exp_le_one_iff]; nlinarith [sq_nonneg (e1 - e2)]
      rw [← hab] at h1
      nlinarith
    · refine mul_neg_of_neg_of_pos ?_ (Real.exp_pos _)
      rw [div_neg_iff]
      rcases mul_neg_iff.1 h with h | h
      · exact .inl h
      · exact .inr h
    · refine mul_nonneg (div_nonneg_iff.2 ?_) (Real.exp_pos _).le
      rcases mul_pos_iff.1 h with h | h
      · exact .inl ⟨h.1.le, h.2.le⟩
      · exact .inr ⟨h.1.le, h.2.le⟩
    · refine mul_nonneg (div_nonneg_iff.2 ?_) (Real.exp_pos _).le
      rcases mul_pos_iff.1 h with h | h
      · exact .inl ⟨h.2.le, h.1.le⟩
      · exact .inr ⟨h.2.le, h.1.le⟩

/-! ### Methods -/

/-- **C108.** `F1` of a terminal (or implicit penultimate) model that was successfully built. -/
theorem C108_F1 (r1 r2 : α) (k1 k2 : Option (τ → α)) (M1 M2 name : String) (m : Terminal α τ)
    (hm : (terminal r1 r2 k1 k2 M1 M2 name).out = .ok m) (f1 : α) :
    (∀ e, m.F1 f1 = .error e ↔ e = .RangeError ∧ ¬ (0 ≤ f1 ∧ f1 ≤ 1)) ∧
    (m.F1 f1 = .ok none ↔ (f1 = 1 ∧ r1 = 0) ∨ (f1 = 0 ∧ r2 = 0)) ∧
    (∀ F, m.F1 f1 = .ok (some F) → 0 ≤ F ∧ F ≤ 1) := by
  obtain ⟨h1, h2, -, rfl⟩ := ((C108_terminal r1 r2 k1 k2 M1 M2 name).2.2 m).1 hm
  unfold Terminal.F1 modelF1
  dsimp only
  split_ifs with hf
  · refine ⟨fun e => by simp [hf], ?_, fun F hF => ?_⟩
    · rw [Except.ok.injEq]; exact C28_finite_iff f1 r1 r2 hf.1 hf.2 h1 h2
    · rw [Except.ok.injEq] at hF
      unfold instBinary fdiv at hF
      dsimp only at hF
      split_ifs at hF with h0
      obtain rfl := Option.some.inj hF
      have hg : 0 ≤ 1 - f1 := sub_nonneg.mpr hf.2
      have ha : 0 ≤ r1 * f1 ^ 2 := by positivity
      have hb : 0 ≤ f1 * (1 - f1) := mul_nonneg hf.1 hg
      have hc : 0 ≤ r2 * (1 - f1) ^ 2 := by positivity
      have hd : 0 < r1 * f1 ^ 2 + 2 * f1 * (1 - f1) + r2 * (1 - f1) ^ 2 := lt_of_le_of_ne (by nlinarith) (Ne.symm h0)
      exact ⟨div_nonneg (by linarith) hd.le, (div_le_one hd).2 (by nlinarith)⟩
  · refine ⟨fun e => ?_, ?_, fun F hF => by cases hF⟩
    · simp only [Except.error.injEq, hf, not_false_eq_true, and_true]; exact eq_comm
    · simp only [reduceCtorEq, false_iff]
      rintro (⟨rfl, -⟩ | ⟨rfl, -⟩) <;> exact hf ⟨by norm_num, by norm_num⟩

omit [IsStrictOrderedRing α] in
/-- **C108.** The radical reactivity ratios do not affect the composition. -/
theorem C108_implicit_F1 (r1 r2 s1 s2 s1' s2' : α) (k1 k2 : Option (τ → α)) (M1 M2 name : String) (m m' : Implicit α τ)
    (hm : (implicit r1 r2 s1 s2 k1 k2 M1 M2 name).out = .ok m) (hm' : (implicit r1 r2 s1' s2' k1 k2 M1 M2 name).out = .ok m') (f1 : α) :
    m.toTerminal.F1 f1 = m'.toTerminal.F1 f1 := by
  obtain ⟨-, -, -, -, -, rfl⟩ := ((C108_implicit r1 r2 s1 s2 k1 k2 M1 M2 name).2.2 m).1 hm
  obtain ⟨-, -, -, -, -, rfl⟩ := ((C108_implicit r1 r2 s1' s2' k1 k2 M1 M2 name).2.2 m').1 hm'
  rfl

/-- **C108.** `F1` of a penultimate model that was successfully built. -/
theorem C108_penultimate_F1 (r11 r12 r21 r22 s1 s2 : α) (k1 k2 : Option (τ → α)) (M1 M2 name : String) (m : Penultimate α τ)
    (hm : (penultimate r11 r12 r21 r22 s1 s2 k1 k2 M1 M2 name).out = .ok m) (f1 : α) :
    (∀ e, m.F1 f1 = .error e ↔ e = .RangeError ∧ ¬ (0 ≤ f1 ∧ f1 ≤ 1)) ∧
    (m.F1 f1 = .ok none ↔ (f1 = 1 ∧ (r21 = 0 ∨ r11 = 0)) ∨ (f1 = 0 ∧ (r12 = 0 ∨ r22 = 0))) ∧
    (∀ F, m.F1 f1 = .ok (some F) → 0 ≤ F ∧ F ≤ 1) := by
  obtain ⟨hp, -, rfl⟩ := ((C108_penultimate r11 r12 r21 r22 s1 s2 k1 k2 M1 M2 name).2.2 m).1 hm
  have h11 : 0 ≤ r11 := hp _ (by simp)
  have h12 : 0 ≤ r12 := hp _ (by simp)
  have h21 : 0 ≤ r21 := hp _ (by simp)
  have h22 : 0 ≤ r22 := hp _ (by simp)
  unfold Penultimate.F1 modelF1
  dsimp only
  split_ifs with hf
  swap
  · refine ⟨fun e => ?_, ?_, fun F hF => by cases hF⟩
    · simp only [Except.error.injEq, hf, not_false_eq_true, and_true]; exact eq_comm
    · simp only [reduceCtorEq, false_iff]
      rintro (⟨rfl, -⟩ | ⟨rfl, -⟩) <;> exact hf ⟨by norm_num, by norm_num⟩
  obtain ⟨hf0, hf1⟩ := hf
  have hg : 0 ≤ 1 - f1 := sub_nonneg.mpr hf1
  by_cases hx : (f1 = 1 ∧ r21 = 0) ∨ (f1 = 0 ∧ r12 = 0)
  · have hri : Pen.ri (⟨r11, r12, r21, r22, s1, s2⟩ : Pen α) f1 = none := by
      unfold Pen.ri
      dsimp only
      rcases hx with ⟨rfl, rfl⟩ | ⟨rfl, rfl⟩
      · have : fdiv ((0 : α) * (1 * r11 + (1 - 1))) (1 * 0 + (1 - 1)) = none := by simp [fdiv]
        rw [this]
      · have : fdiv ((0 : α) * ((1 - 0) * r22 + 0)) ((1 - 0) * 0 + 0) = none := by simp [fdiv]
        rw [this]
        cases fdiv (r21 * (0 * r11 + (1 - 0))) (0 * r21 + (1 - 0)) <;> rfl
    rw [hri]
    refine ⟨fun e => by simp [hf0, hf1], ?_, fun F hF => by cases hF⟩
    simp only [true_iff]
    rcases hx with ⟨a, b⟩ | ⟨a, b⟩ <;> simp [a, b]
  · push Not at hx
    have d1 : 0 < f1 * r21 + (1 - f1) := by
      have := tden_pos hf0 hf1 h21 (fun h => hx.1 h); rwa [mul_comm] at this
    have d2 : 0 < (1 - f1) * r12 + f1 := by
      have := tden_pos (f := 1 - f1) (r := r12) hg (by linarith) h12 (fun h => hx.2 (by linarith))
      rw [sub_sub_cancel, mul_comm] at this; exact this
    have hri : Pen.ri (⟨r11, r12, r21, r22, s1, s2⟩ : Pen α) f1 = some (r21 * (f1 * r11 + (1 - f1)) / (f1 * r21 + (1 - f1)),
        r12 * ((1 - f1) * r22 + f1) / ((1 - f1) * r12 + f1)) := by
      unfold Pen.ri
      dsimp only
      rw [fdiv_ne d1.ne', fdiv_ne d2.ne']
    rw [hri]
    dsimp only
    set a := r21 * (f1 * r11 + (1 - f1)) / (f1 * r21 + (1 - f1)) with ha
    set b := r12 * ((1 - f1) * r22 + f1) / ((1 - f1) * r12 + f1) with hb
    have ha0 : 0 ≤ a := by positivity
    have hb0 : 0 ≤ b := by positivity
    refine ⟨fun e => by simp [hf0, hf1], ?_, fun F hF => ?_⟩
    · rw [Except.ok.injEq, C28_finite_iff f1 a b hf0 hf1 ha0 hb0]
      constructor
      · rintro (⟨rfl, h⟩ | ⟨rfl, h⟩)
        · left
          refine ⟨rfl, ?_⟩
          rw [ha] at h
          simpa [hx.1 rfl] using h
        · right
          refine ⟨rfl, ?_⟩
          rw [hb] at h
          simpa [hx.2 rfl] using h
      · rintro (⟨rfl, h⟩ | ⟨rfl, h⟩)
        · left
          refine ⟨rfl, ?_⟩
          rcases h with h | h
          · exact absurd h (hx.1 rfl)
          · rw [ha, h]; simp
        · right
          refine ⟨rfl, ?_⟩
          rcases h with h | h
          · exact absurd h (hx.2 rfl)
          · rw [hb, h]; simp
    · have hE : (fun m : Terminal α Unit => m.F1 f1 = .ok (some F)) ⟨⟨none, none, "a", "b", ""⟩, a, b⟩ := by
        show modelF1 _ _ = _
        unfold modelF1
        rw [if_pos ⟨hf0, hf1⟩]
        exact hF
      exact (C108_F1 a b none none "a" "b" "" _ (((C108_terminal a b none none "a" "b" "").2.2 _).2 ⟨ha0, hb0, ⟨by decide, by decide, by decide +kernel⟩, rfl⟩) f1).2.2 F hE

omit [IsStrictOrderedRing α] in
/-- **C108.** `kp`: a composition outside `[0, 1]` is a `RangeError`, otherwise a missing rate coefficient is a `ValueError`; there
are no other errors. -/
theorem C108_kp_errors (f1 : α) (T : τ) (e : Err) :
    (∀ m : Terminal α τ, m.kp f1 T = .error e ↔
      (e = .RangeError ∧ ¬ (0 ≤ f1 ∧ f1 ≤ 1)) ∨ (e = .ValueError ∧ (0 ≤ f1 ∧ f1 ≤ 1) ∧ (m.k1 = none ∨ m.k2 = none))) ∧
    (∀ m : Implicit α τ, m.kp f1 T = .error e ↔
      (e = .RangeError ∧ ¬ (0 ≤ f1 ∧ f1 ≤ 1)) ∨ (e = .ValueError ∧ (0 ≤ f1 ∧ f1 ≤ 1) ∧ (m.k1 = none ∨ m.k2 = none))) ∧
    (∀ m : Penultimate α τ, m.kp f1 T = .error e ↔
      (e = .RangeError ∧ ¬ (0 ≤ f1 ∧ f1 ≤ 1)) ∨ (e = .ValueError ∧ (0 ≤ f1 ∧ f1 ≤ 1) ∧ (m.k1 = none ∨ m.k2 = none))) := by
  have key : ∀ (ri : α → Option (α × α)) (kii : α → Except Err (Option (α × α))) (P : Prop),
      (∀ e, kii f1 = .error e ↔ e = .ValueError ∧ P) →
      (modelKp ri kii f1 = .error e ↔ (e = .RangeError ∧ ¬ (0 ≤ f1 ∧ f1 ≤ 1)) ∨ (e = .ValueError ∧ (0 ≤ f1 ∧ f1 ≤ 1) ∧ P)) := by
    intro ri kii P hk
    unfold modelKp
    split_ifs with hf
    · cases hc : kii f1 with
      | error e' =>
        obtain ⟨rfl, hP⟩ := (hk e').1 hc
        simp only [Except.error.injEq, hf, not_true_eq_false, and_false, false_or, and_self, true_and, hP, and_true]
        exact eq_comm
      | ok v =>
        have hP : ¬ P := fun hP => by
          have := (hk .ValueError).2 ⟨rfl, hP⟩
          rw [hc] at this; cases this
        simp [hf, hP]
    · simp only [Except.error.injEq, hf, not_false_eq_true, and_true, false_and, and_false, or_false]; exact eq_comm
  have hpen : ∀ (a b c d : α) (k1 k2 : Option (τ → α)) (e : Err), penKiiE a b c d (k1.map (· T)) (k2.map (· T)) f1 = .error e ↔
      e = .ValueError ∧ (k1 = none ∨ k2 = none) := by
    intro a b c d k1 k2 e
    rcases k1 with _ | k1 <;> rcases k2 with _ | k2 <;> simp [penKiiE, eq_comm]
  refine ⟨fun m => ?_, fun m => ?_, fun m => ?_⟩
  · refine key _ _ _ fun e => ?_
    rcases m.k1 with _ | k1 <;> rcases m.k2 with _ | k2 <;> simp [terminalKii, Except.map, eq_comm]
  · exact key _ _ _ (hpen _ _ _ _ _ _)
  · exact key _ _ _ (hpen _ _ _ _ _ _)

/-- **C108.** With positive parameters and rate coefficients `kp` is a positive number on all of `[0, 1]`. -/
theorem C108_kp_pos (f1 : α) (T : τ) (h0 : 0 ≤ f1) (h1 : f1 ≤ 1) (k1 k2 : τ → α) (hk1 : 0 < k1 T) (hk2 : 0 < k2 T) (M1 M2 name : String) :
    (∀ r1 r2 m, 0 < r1 → 0 < r2 → (terminal r1 r2 (some k1) (some k2) M1 M2 name).out = .ok m → ∃ kp, m.kp f1 T = .ok (some kp) ∧ 0 < kp) ∧
    (∀ r1 r2 s1 s2 m, 0 < r1 → 0 < r2 → 0 < s1 → 0 < s2 → (implicit r1 r2 s1 s2 (some k1) (some k2) M1 M2 name).out = .ok m →
      ∃ kp, m.kp f1 T = .ok (some kp) ∧ 0 < kp) ∧
    (∀ r11 r12 r21 r22 s1 s2 m, 0 < r11 → 0 < r12 → 0 < r21 → 0 < r22 → 0 < s1 → 0 < s2 →
      (penultimate r11 r12 r21 r22 s1 s2 (some k1) (some k2) M1 M2 name).out = .ok m → ∃ kp, m.kp f1 T = .ok (some kp) ∧ 0 < kp) := by
  have hg : 0 ≤ 1 - f1 := sub_nonneg.mpr h1
  have hor : 0 < f1 ∨ 0 < 1 - f1 := by
    rcases h0.eq_or_lt with rfl | h
    · right; norm_num
    · exact .inl h
  have base : ∀ r1 r2 a b : α, 0 < r1 → 0 < r2 → 0 < a → 0 < b → ∃ kp, kpBinary f1 r1 r2 a b = some kp ∧ 0 < kp := by
    intro r1 r2 a b hr1 hr2 ha hb
    obtain ⟨kp, h, hlo, -⟩ := C29_between f1 r1 r2 a b (min (min a (a / r1)) (min (b / r2) b)) (max (max a (a / r1)) (max (b / r2) b)) h0 h1 hr1 hr2 ha hb (by
      intro k hk
      simp only [List.mem_cons, List.not_mem_nil, or_false] at hk
      rcases hk with rfl | rfl | rfl | rfl <;> simp)
    exact ⟨kp, h, lt_of_lt_of_le (by positivity) hlo⟩
  have pen : ∀ ra rb s1 s2 : α, 0 < ra → 0 < rb → 0 < s1 → 0 < s2 → ∃ a b, penKii ra rb s1 s2 f1 (k1 T) (k2 T) = some (a, b) ∧ 0 < a ∧ 0 < b := by
    intro ra rb s1 s2 hra hrb hs1 hs2
    have e1 : 0 < f1 * ra + (1 - f1) / s1 := by rcases hor with h | h <;> positivity
    have e2 : 0 < (1 - f1) * rb + f1 / s2 := by rcases hor with h | h <;> positivity
    have n1 : 0 < f1 * ra + (1 - f1) := by rcases hor with h | h <;> positivity
    have n2 : 0 < (1 - f1) * rb + f1 := by rcases hor with h | h <;> positivity
    refine ⟨_, _, ?_, div_pos (mul_pos hk1 n1) e1, div_pos (mul_pos hk2 n2) e2⟩
    unfold penKii
    dsimp only
    rw [fdiv_ne hs1.ne', fdiv_ne hs2.ne']
    dsimp only
    rw [fdiv_ne e1.ne', fdiv_ne e2.ne']
  refine ⟨fun r1 r2 m hr1 hr2 hm => ?_, fun r1 r2 s1 s2 m hr1 hr2 hs1 hs2 hm => ?_, fun r11 r12 r21 r22 s1 s2 m a b c d hs1 hs2 hm => ?_⟩
  · obtain ⟨-, -, -, rfl⟩ := ((C108_terminal _ _ _ _ _ _ _).2.2 m).1 hm
    obtain ⟨kp, h, hp⟩ := base r1 r2 (k1 T) (k2 T) hr1 hr2 hk1 hk2
    refine ⟨kp, ?_, hp⟩
    simp [Terminal.kp, modelKp, h0, h1, terminalKii, Except.map, h]
  · obtain ⟨-, -, -, -, -, rfl⟩ := ((C108_implicit _ _ _ _ _ _ _ _ _).2.2 m).1 hm
    obtain ⟨u, v, hk, hu, hv⟩ := pen r1 r2 s1 s2 hr1 hr2 hs1 hs2
    obtain ⟨kp, h, hp⟩ := base r1 r2 u v hr1 hr2 hu hv
    refine ⟨kp, ?_, hp⟩
    simp [Implicit.kp, modelKp, h0, h1, penKiiE, hk, h]
  · obtain ⟨-, -, rfl⟩ := ((C108_penultimate _ _ _ _ _ _ _ _ _ _ _).2.2 m).1 hm
    obtain ⟨u, v, hk, hu, hv⟩ := pen r11 r22 s1 s2 a d hs1 hs2
    have n1 : 0 < f1 * r11 + (1 - f1) := by rcases hor with h | h <;> positivity
    have n2 : 0 < (1 - f1) * r22 + f1 := by rcases hor with h | h <;> positivity
    have n3 : 0 < f1 * r21 + (1 - f1) := by rcases hor with h | h <;> positivity
    have n4 : 0 < (1 - f1) * r12 + f1 := by rcases hor with h | h <;> positivity
    obtain ⟨kp, h, hp⟩ := base _ _ u v (div_pos (mul_pos c n1) n3) (div_pos (mul_pos b n2) n4) hu hv
    refine ⟨kp, ?_, hp⟩
    have hri := pen_ri (⟨r11, r12, r21, r22, s1, s2⟩ : Pen α) f1 h0 h1 c b
    simp [Penultimate.kp, modelKp, h0, h1, penKiiE, hk, hri, h]

/-- **C108.** With `s1 = s2 = 1` the implicit penultimate model has the propagation coefficient of the terminal model. -/
theorem C108_implicit_one (r1 r2 : α) (hr1 : 0 < r1) (hr2 : 0 < r2) (k1 k2 : Option (τ → α)) (M1 M2 name : String) (m : Implicit α τ)
    (hm : (implicit r1 r2 1 1 k1 k2 M1 M2 name).out = .ok m) (f1 : α) (T : τ) : m.kp f1 T = m.toTerminal.kp f1 T := by
  obtain ⟨-, -, -, -, -, rfl⟩ := ((C108_implicit _ _ _ _ _ _ _ _ _).2.2 m).1 hm
  unfold Implicit.kp Terminal.kp modelKp
  dsimp only
  split_ifs with hf
  · rcases k1 with _ | k1 <;> rcases k2 with _ | k2
    · rfl
    · rfl
    · rfl
    · have hg : 0 ≤ 1 - f1 := sub_nonneg.mpr hf.2
      have hor : 0 < f1 ∨ 0 < 1 - f1 := by
        rcases hf.1.eq_or_lt with rfl | h
        · right; norm_num
        · exact .inl h
      have n1 : 0 < f1 * r1 + (1 - f1) := by rcases hor with h | h <;> [skip; skip] <;> first | (have := mul_pos h hr1; linarith) | (have := mul_nonneg hf.1 hr1.le; linarith)
      have n2 : 0 < (1 - f1) * r2 + f1 := by
        rcases hor with h | h
        · have := mul_nonneg hg hr2.le; linarith
        · have := mul_pos h hr2; linarith [hf.1]
      have hk : penKii r1 r2 1 1 f1 (k1 T) (k2 T) = some (k1 T, k2 T) := by
        unfold penKii
        dsimp only
        rw [fdiv_ne one_ne_zero, fdiv_ne one_ne_zero]
        dsimp only
        rw [div_one, div_one, fdiv_ne n1.ne', fdiv_ne n2.ne', mul_div_cancel_right₀ _ n1.ne', mul_div_cancel_right₀ _ n2.ne']
      simp [penKiiE, terminalKii, Except.map, hk]
  · rfl

/-- **C108**, false of the code: a radical reactivity ratio of zero passes the check of the constructor, but then `kp` has no finite
value for any composition (it divides by the ratio), although the limit of the formula exists. -/
theorem C108_zero_s_false : ∃ m : Implicit ℚ Unit, (implicit 1 1 0 1 (some fun _ => 1) (some fun _ => 1) "A" "B" "").out = .ok m ∧
    ∀ f1, 0 ≤ f1 → f1 ≤ 1 → m.kp f1 () = .ok none := by
  refine ⟨_, ((C108_implicit _ _ _ _ _ _ _ _ _).2.2 _).2 ⟨by norm_num, by norm_num, by norm_num, by norm_num, ⟨by decide, by decide, by decide +kernel⟩, rfl⟩, fun f1 h0 h1 => ?_⟩
  simp [Implicit.kp, modelKp, h0, h1, penKiiE, penKii, fdiv]

example : (terminal (2 : ℚ) 3 (none : Option (Unit → ℚ)) none "A" "B" "").warned = true ∧
    (terminal (2 : ℚ) (-3) (none : Option (Unit → ℚ)) none "A" "B" "").out.toOption.isNone ∧
    (terminal (2 : ℚ) 3 (none : Option (Unit → ℚ)) none "A" "a" "").out.toOption.isNone := by decide +kernel

example : ∃ m : Penultimate ℚ Unit, (penultimate 1 0 1 1 1 1 none none "A" "B" "").out = .ok m ∧ m.F1 0 = .ok none := by
  have h := ((C108_penultimate (1 : ℚ) 0 1 1 1 1 (none : Option (Unit → ℚ)) none "A" "B" "").2.2 _).2 ⟨by simp, ⟨by decide, by decide, by decide +kernel⟩, rfl⟩
  exact ⟨_, h, (C108_penultimate_F1 _ _ _ _ _ _ _ _ _ _ _ _ h 0).2.1.2 (by simp)⟩

example : (fromQe (1, -4 / 5) (39 / 50, 2 / 5) (none : Option (Unit → ℝ)) none "Sty" "MMA" "").warned = false :=
  (C108_from_Qe _ _ _ _ _ _ _ (by norm_num) (by norm_num) ⟨by decide, by decide, by decide +kernel⟩).1

example : (fromQe (0, -4 / 5) (39 / 50, 2 / 5) (none : Option (Unit → ℝ)) none "Sty" "MMA" "").out = .error .ZeroDivisionError :=
  (C108_from_Qe_errors _ _ _ _ _ _ _).2.1 (by norm_num)

example : (fromQe (-1, -4 / 5) (39 / 50, 2 / 5) (none : Option (Unit → ℝ)) none "Sty" "MMA" "").out = .error .RangeError :=
  (C108_from_Qe_errors _ _ _ _ _ _ _).2.2.1 (by norm_num)

end Verif.CopoClass
