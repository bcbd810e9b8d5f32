import Verif.Lemmas.CopoPen

/-!
# C32: penultimate models; C75: azeotrope of a general model
-/

namespace Verif.Copo

variable {α : Type*} [Field α] [LinearOrder α] [IsStrictOrderedRing α]

/-- **C32.** With `r11 = r21 = a`, `r22 = r12 = b` the effective ratios are constant, so `F1` is that of the terminal model. -/
theorem C32_F1_reduces (a b s1 s2 f1 : α) (ha : 0 < a) (hb : 0 < b) :
    modelF1 (Pen.ri ⟨a, b, a, b, s1, s2⟩) f1 = modelF1 (fun _ => some (a, b)) f1 := by
  unfold modelF1
  split_ifs with h
  · rw [pen_ri ⟨a, b, a, b, s1, s2⟩ f1 h.1 h.2 ha hb]
    have e1 := tden_pos h.1 h.2 ha.le (fun _ => ha.ne')
    have e2 := tden_pos (f := 1 - f1) (r := b) (sub_nonneg.mpr h.2) (by linarith [h.1]) hb.le (fun _ => hb.ne')
    rw [sub_sub_cancel] at e2
    rw [mul_comm] at e1 e2
    dsimp only
    rw [mul_div_assoc, div_self e1.ne', mul_one, mul_div_assoc, div_self e2.ne', mul_one]
  · rfl

/-- **C32.** With `s1 = s2 = 1` also the average propagation coefficient is that of the terminal model (and the same exception is
raised when a coefficient is missing or `f1` is out of range). -/
theorem C32_kp_reduces (a b f1 : α) (k1 k2 : Option α) (ha : 0 < a) (hb : 0 < b) :
    modelKp (Pen.ri ⟨a, b, a, b, 1, 1⟩) (penKiiE a b 1 1 k1 k2) f1 =
      modelKp (fun _ => some (a, b)) (fun _ => (terminalKii k1 k2).map some) f1 := by
  unfold modelKp
  split_ifs with h
  · rw [pen_ri ⟨a, b, a, b, 1, 1⟩ f1 h.1 h.2 ha hb]
    have e1 := tden_pos h.1 h.2 ha.le (fun _ => ha.ne')
    have e2 := tden_pos (f := 1 - f1) (r := b) (sub_nonneg.mpr h.2) (by linarith [h.1]) hb.le (fun _ => hb.ne')
    rw [sub_sub_cancel] at e2
    rw [mul_comm] at e1 e2
    dsimp only
    rw [mul_div_assoc, div_self e1.ne', mul_one, mul_div_assoc, div_self e2.ne', mul_one]
    cases k1 with
    | none => rfl
    | some k1 =>
      cases k2 with
      | none => rfl
      | some k2 =>
        unfold penKiiE penKii terminalKii
        dsimp only [Except.map]
        rw [fdiv_ne one_ne_zero, fdiv_ne one_ne_zero]
        dsimp only
        rw [div_one, div_one, fdiv_ne e1.ne', fdiv_ne e2.ne', mul_div_assoc, div_self e1.ne', mul_one, mul_div_assoc,
          div_self e2.ne', mul_one]
  · rfl

/-- **C32.** The transition probabilities do not depend on the penultimate unit and are those of the terminal model. -/
theorem C32_transitions_reduce (a b s1 s2 f1 : α) :
    Pen.transitions ⟨a, b, a, b, s1, s2⟩ f1 = (transitions a b f1).map
      (Option.map fun P => ⟨P.P11, P.P11, P.P12, P.P12, P.P22, P.P22, P.P21, P.P21⟩) := by
  unfold Pen.transitions transitions
  split_ifs with h
  · dsimp only
    cases fdiv (a * f1) (a * f1 + (1 - f1)) <;> cases fdiv (b * (1 - f1)) (b * (1 - f1) + f1) <;> rfl
  · rfl

/-- **C32.** The sequence length distributions agree for every length `k ≥ 1`; the reported means agree up to the factor `1 + eps`. -/
theorem C32_sequence_reduces (a b s1 s2 f1 : α) (ha : 0 < a) (hb : 0 < b) :
    (∀ k, 1 ≤ k → Pen.sequence ⟨a, b, a, b, s1, s2⟩ f1 (some k) = sequence a b f1 (some k)) ∧
    Pen.sequence ⟨a, b, a, b, s1, s2⟩ f1 none =
      (sequence a b f1 none).map (Option.map fun m => ((1 + eps) * m.1, (1 + eps) * m.2)) := by
  have key : ∀ (P : α) (k : ℕ), 1 ≤ k → penSeqProb P P k = seqProb P k := by
    intro P k hk
    unfold penSeqProb seqProb
    split_ifs with h1
    · subst h1; simp
    · obtain ⟨j, rfl⟩ : ∃ j, k = j + 2 := ⟨k - 2, by omega⟩
      simp only [Nat.add_sub_cancel, show j + 2 - 1 = j + 1 by omega]
      ring
  by_cases h : 0 ≤ f1 ∧ f1 ≤ 1
  · have e1 := tden_pos h.1 h.2 ha.le (fun _ => ha.ne')
    have e2 := tden_pos (f := 1 - f1) (r := b) (sub_nonneg.mpr h.2) (by linarith [h.1]) hb.le (fun _ => hb.ne')
    rw [sub_sub_cancel] at e2
    have p1 : a * f1 / (a * f1 + (1 - f1)) ≤ 1 := by rw [div_le_one e1]; linarith
    have p2 : b * (1 - f1) / (b * (1 - f1) + f1) ≤ 1 := by rw [div_le_one e2]; linarith
    have mean : ∀ P : α, P ≤ 1 → penSeqMean P P = (1 + eps) * seqMean P := by
      intro P hP
      have : (0 : α) < 1 - P + eps := by have := eps_pos (α := α); linarith
      unfold penSeqMean seqMean
      field_simp
      ring
    unfold Pen.sequence sequence
    rw [C32_transitions_reduce, transitions_eq h.1 h.2 ha.le hb.le (fun _ => ha.ne') (fun _ => hb.ne')]
    refine ⟨fun k hk => ?_, ?_⟩
    · simp only [Except.map, Option.map_some, key _ k hk]
    · simp only [Except.map, Option.map_some, mean _ p1, mean _ p2]
  · unfold Pen.sequence sequence
    rw [C32_transitions_reduce]
    have e : transitions a b f1 = .error .RangeError := if_neg h
    rw [e]
    exact ⟨fun _ _ => rfl, rfl⟩

/-- **C32.** Triads of the penultimate model: non-negative and normalised to one within each of the two groups. -/
theorem C32_triads_group_sums (m : Pen α) (f1 : α) (h0 : 0 ≤ f1) (h1 : f1 ≤ 1) (h11 : 0 < m.r11) (h12 : 0 < m.r12)
    (h21 : 0 < m.r21) (h22 : 0 < m.r22) :
    ∃ A, m.triads f1 = .ok (some A) ∧ A.A111 + A.A112 + A.A212 = 1 ∧ A.A222 + A.A221 + A.A121 = 1 ∧
      (0 ≤ A.A111 ∧ 0 ≤ A.A112 ∧ 0 ≤ A.A212 ∧ 0 ≤ A.A222 ∧ 0 ≤ A.A221 ∧ 0 ≤ A.A121) := by
  have hp : ∀ r : α, 0 < r → 0 < r * f1 + (1 - f1) := fun r hr => tden_pos h0 h1 hr.le (fun _ => hr.ne')
  have hq : ∀ r : α, 0 < r → 0 < r * (1 - f1) + f1 := fun r hr => by
    have := tden_pos (f := 1 - f1) (r := r) (sub_nonneg.mpr h1) (by linarith) hr.le (fun _ => hr.ne')
    rwa [sub_sub_cancel] at this
  have h2 : 0 ≤ 1 - f1 := sub_nonneg.mpr h1
  have pr : ∀ x d : α, 0 ≤ x → x ≤ d → 0 < d → 0 ≤ x / d ∧ x / d ≤ 1 := fun x d a b c =>
    ⟨by positivity, by rw [div_le_one c]; exact b⟩
  have g : ∀ x y : α, 0 ≤ x → x ≤ 1 → 0 ≤ y → y ≤ 1 → (penTriad x y).1 + (penTriad x y).2.1 + (penTriad x y).2.2 = 1 ∧
      0 ≤ (penTriad x y).1 ∧ 0 ≤ (penTriad x y).2.1 ∧ 0 ≤ (penTriad x y).2.2 := by
    intro x y x0 x1 y0 y1
    have he := eps_pos (α := α)
    have hd : 0 < 1 - x + eps := by linarith
    have ha : 0 ≤ y * x / (1 - x + eps) := by positivity
    have hs : 0 < y * x / (1 - x + eps) + 2 * y + (1 - y) := by linarith
    have hy : 0 ≤ 1 - y := by linarith
    unfold penTriad
    dsimp only
    refine ⟨?_, by positivity, by positivity, by positivity⟩
    rw [← add_div, ← add_div, div_self hs.ne']
  obtain ⟨a0, a1⟩ := pr (m.r11 * f1) _ (by positivity) (by linarith) (hp m.r11 h11)
  obtain ⟨b0, b1⟩ := pr (m.r21 * f1) _ (by positivity) (by linarith) (hp m.r21 h21)
  obtain ⟨c0, c1⟩ := pr (m.r22 * (1 - f1)) _ (by positivity) (by linarith) (hq m.r22 h22)
  obtain ⟨d0, d1⟩ := pr (m.r12 * (1 - f1)) _ (by positivity) (by linarith) (hq m.r12 h12)
  obtain ⟨g1, g2, g3, g4⟩ := g _ _ a0 a1 b0 b1
  obtain ⟨k1, k2, k3, k4⟩ := g _ _ c0 c1 d0 d1
  unfold Pen.triads Pen.transitions
  rw [if_pos ⟨h0, h1⟩]
  dsimp only
  rw [fdiv_ne (hp _ h11).ne', fdiv_ne (hp _ h21).ne', fdiv_ne (hq _ h22).ne', fdiv_ne (hq _ h12).ne']
  exact ⟨_, rfl, g1, k1, g2, g3, g4, k2, k3, k4⟩

/-- **C32 (counterexample).** The triads do not reduce: those of the terminal model have total one (`C31_triads`), those of the
penultimate model with the same parameters total two. -/
theorem C32_triads_reduce_false : ¬ ∀ a b f1 : ℚ, 0 < a → 0 < b → 0 < f1 → f1 < 1 →
    Pen.triads ⟨a, b, a, b, 1, 1⟩ f1 = triads a b f1 := by
  intro h
  have e := h 1 1 (1 / 2) one_pos one_pos (by norm_num) (by norm_num)
  obtain ⟨A, hA, s1, s2, _⟩ := C32_triads_group_sums (⟨1, 1, 1, 1, 1, 1⟩ : Pen ℚ) (1 / 2) (by norm_num) (by norm_num) one_pos
    one_pos one_pos one_pos
  obtain ⟨P, B, _, hB, _, s3, _⟩ := C31_triads (1 / 2 : ℚ) 1 1 (1 / 2) (by norm_num) (by norm_num) one_pos one_pos (C28_ideal _)
  rw [hA, hB] at e
  simp only [Except.ok.injEq, Option.some.injEq] at e
  subst e
  linarith

/-- **C32.** Sequence lengths of the penultimate model: the distribution over `k ≥ 1` sums to one and has mean
`1 + Pjii/(1 - Piii)`; the reported mean is that value up to the guard `eps`. -/
theorem C32_sequence (m : Pen ℝ) (f1 : ℝ) (h0 : 0 < f1) (h1 : f1 < 1) (h11 : 0 < m.r11) (h12 : 0 < m.r12)
    (h21 : 0 < m.r21) (h22 : 0 < m.r22) :
    ∃ P : PenTrans ℝ, m.transitions f1 = .ok (some P) ∧
    ∃ s : ℕ → ℝ × ℝ, ∃ mn : ℝ × ℝ, (∀ k, 1 ≤ k → m.sequence f1 (some k) = .ok (some (s k))) ∧ m.sequence f1 none = .ok (some mn) ∧
      HasSum (fun k => (s (k + 1)).1) 1 ∧ HasSum (fun k => (s (k + 1)).2) 1 ∧
      ∃ μ₁ μ₂ : ℝ, HasSum (fun k : ℕ => ((k + 1 : ℕ) : ℝ) * (s (k + 1)).1) μ₁ ∧
        HasSum (fun k : ℕ => ((k + 1 : ℕ) : ℝ) * (s (k + 1)).2) μ₂ ∧
        mn.1 ≤ μ₁ ∧ μ₁ - mn.1 ≤ eps * μ₁ * (1 / P.P112) ∧ mn.2 ≤ μ₂ ∧ μ₂ - mn.2 ≤ eps * μ₂ * (1 / P.P221) ∧
        instBinary f1 (m.r21 * (f1 * m.r11 + (1 - f1)) / (f1 * m.r21 + (1 - f1)))
          (m.r12 * ((1 - f1) * m.r22 + f1) / ((1 - f1) * m.r12 + f1)) = some (μ₁ / (μ₁ + μ₂)) := by
  have h2 : 0 < 1 - f1 := sub_pos.mpr h1
  have he : (0 : ℝ) < eps := eps_pos
  have geo : ∀ x y : ℝ, 0 ≤ x → x < 1 → HasSum (fun k => penSeqProb x y (k + 1)) 1 ∧
      HasSum (fun k : ℕ => ((k + 1 : ℕ) : ℝ) * penSeqProb x y (k + 1)) (1 + y / (1 - x)) := by
    intro x y x0 x1
    have hne : 1 - x ≠ 0 := (sub_pos.mpr x1).ne'
    constructor
    · rw [← hasSum_nat_add_iff' 1]
      refine hasSum_of_eq ((hasSum_geom x x0 x1).mul_left y) (fun k => ?_) (by simp [penSeqProb])
      simp only [penSeqProb]
      rw [if_neg (by omega)]
      simp only [show k + 1 + 1 - 2 = k by omega]
      ring
    · rw [← hasSum_nat_add_iff' 1]
      refine hasSum_of_eq (((hasSum_geom_mean x x0 x1).add (hasSum_geom x x0 x1)).mul_left y) (fun k => ?_) ?_
      · simp only [penSeqProb]
        rw [if_neg (by omega)]
        simp only [show k + 1 + 1 - 2 = k by omega]
        push_cast
        ring
      · simp [penSeqProb]
        field_simp
  have lt1 : ∀ x z : ℝ, 0 ≤ x → 0 < z → 0 ≤ x / (x + z) ∧ x / (x + z) < 1 := fun x z hx hz =>
    ⟨by positivity, by rw [div_lt_one (by positivity)]; linarith⟩
  have mean : ∀ x y : ℝ, 0 ≤ x → x < 1 → 0 ≤ y → penSeqMean x y ≤ 1 + y / (1 - x) ∧
      1 + y / (1 - x) - penSeqMean x y ≤ eps * (1 + y / (1 - x)) * (1 / (1 - x)) := by
    intro x y x0 x1 y0
    have hx : 0 < 1 - x := sub_pos.mpr x1
    unfold penSeqMean
    constructor
    · have := div_le_div_of_nonneg_left y0 hx (by linarith : 1 - x ≤ 1 - x + eps); linarith
    · have hd : 0 < 1 - x + eps := by linarith
      have e : 1 + y / (1 - x) - (1 + y / (1 - x + eps)) = eps * (y / (1 - x)) * (1 / (1 - x + eps)) := by field_simp; ring
      rw [e]
      have a : 0 ≤ y / (1 - x) := by positivity
      apply mul_le_mul _ (one_div_le_one_div_of_le hx (by linarith)) (by positivity) (by positivity)
      apply mul_le_mul_of_nonneg_left _ he.le
      linarith
  have e11 : 0 < m.r11 * f1 + (1 - f1) := by positivity
  have e21 : 0 < m.r21 * f1 + (1 - f1) := by positivity
  have e22 : 0 < m.r22 * (1 - f1) + f1 := by positivity
  have e12 : 0 < m.r12 * (1 - f1) + f1 := by positivity
  obtain ⟨a0, a1⟩ := lt1 (m.r11 * f1) (1 - f1) (by positivity) h2
  obtain ⟨b0, b1⟩ := lt1 (m.r21 * f1) (1 - f1) (by positivity) h2
  obtain ⟨c0, c1⟩ := lt1 (m.r22 * (1 - f1)) f1 (by positivity) h0
  obtain ⟨d0, d1⟩ := lt1 (m.r12 * (1 - f1)) f1 (by positivity) h0
  obtain ⟨g1, g2⟩ := geo (m.r11 * f1 / (m.r11 * f1 + (1 - f1))) (m.r21 * f1 / (m.r21 * f1 + (1 - f1))) a0 a1
  obtain ⟨g3, g4⟩ := geo (m.r22 * (1 - f1) / (m.r22 * (1 - f1) + f1)) (m.r12 * (1 - f1) / (m.r12 * (1 - f1) + f1)) c0 c1
  obtain ⟨m1, m2⟩ := mean _ _ a0 a1 b0
  obtain ⟨m3, m4⟩ := mean _ _ c0 c1 d0
  have hP : m.transitions f1 = .ok (some ⟨m.r11 * f1 / (m.r11 * f1 + (1 - f1)), m.r21 * f1 / (m.r21 * f1 + (1 - f1)),
      1 - m.r11 * f1 / (m.r11 * f1 + (1 - f1)), 1 - m.r21 * f1 / (m.r21 * f1 + (1 - f1)),
      m.r22 * (1 - f1) / (m.r22 * (1 - f1) + f1), m.r12 * (1 - f1) / (m.r12 * (1 - f1) + f1),
      1 - m.r22 * (1 - f1) / (m.r22 * (1 - f1) + f1), 1 - m.r12 * (1 - f1) / (m.r12 * (1 - f1) + f1)⟩) := by
    unfold Pen.transitions
    rw [if_pos ⟨h0.le, h1.le⟩]
    dsimp only
    rw [fdiv_ne e11.ne', fdiv_ne e21.ne', fdiv_ne e22.ne', fdiv_ne e12.ne']
  refine ⟨_, hP, fun k => (penSeqProb _ _ k, penSeqProb _ _ k), (penSeqMean _ _, penSeqMean _ _), ?_, ?_, g1, g3, _, _, g2, g4, m1, m2,
    m3, m4, ?_⟩
  · intro k _; unfold Pen.sequence; rw [hP]; rfl
  · unfold Pen.sequence; rw [hP]; rfl
  · have q1 : 0 < f1 * m.r21 + (1 - f1) := by positivity
    have q2 : 0 < (1 - f1) * m.r12 + f1 := by positivity
    have q3 : 0 < f1 * m.r11 + (1 - f1) := by positivity
    have q4 : 0 < (1 - f1) * m.r22 + f1 := by positivity
    rw [instBinary_eq h0.le h1.le (by positivity) (by positivity) (fun h => absurd h h1.ne) (fun h => absurd h h0.ne')]
    rw [Option.some.injEq]
    have n1 : 1 + m.r21 * f1 / (m.r21 * f1 + (1 - f1)) / (1 - m.r11 * f1 / (m.r11 * f1 + (1 - f1))) =
        (m.r21 * (f1 * m.r11 + (1 - f1)) / (f1 * m.r21 + (1 - f1)) * f1 + (1 - f1)) / (1 - f1) := by
      have : 1 - m.r11 * f1 / (m.r11 * f1 + (1 - f1)) = (1 - f1) / (m.r11 * f1 + (1 - f1)) := by field_simp; ring
      rw [this]; field_simp; ring
    have n2 : 1 + m.r12 * (1 - f1) / (m.r12 * (1 - f1) + f1) / (1 - m.r22 * (1 - f1) / (m.r22 * (1 - f1) + f1)) =
        (m.r12 * ((1 - f1) * m.r22 + f1) / ((1 - f1) * m.r12 + f1) * (1 - f1) + f1) / f1 := by
      have : 1 - m.r22 * (1 - f1) / (m.r22 * (1 - f1) + f1) = f1 / (m.r22 * (1 - f1) + f1) := by field_simp; ring
      rw [this]; field_simp; ring
    rw [n1, n2]
    have hR1 : 0 < m.r21 * (f1 * m.r11 + (1 - f1)) / (f1 * m.r21 + (1 - f1)) := by positivity
    have hR2 : 0 < m.r12 * ((1 - f1) * m.r22 + f1) / ((1 - f1) * m.r12 + f1) := by positivity
    generalize m.r21 * (f1 * m.r11 + (1 - f1)) / (f1 * m.r21 + (1 - f1)) = R1 at hR1 ⊢
    generalize m.r12 * ((1 - f1) * m.r22 + f1) / ((1 - f1) * m.r12 + f1) = R2 at hR2 ⊢
    rw [div_eq_div_iff (by positivity) (by positivity)]
    field_simp
    ring

/-- **C32.** Mechanistic meaning of the penultimate model. The eight rate coefficients `kijk` are those defined by the parameters
(`r11 = k111/k112`, `r21 = k211/k212`, `s1 = k211/k111`, …); `pij` are the fractions of radicals with terminal unit `j` and
penultimate unit `i` at the steady state. Then `kp` is the total rate of propagation per radical and monomer. -/
theorem C32_kp_mechanism (m : Pen α) (f1 k1 k2 p11 p21 p22 p12 k111 k112 k211 k212 k222 k221 k122 k121 : α)
    (h0 : 0 < f1) (h1 : f1 < 1) (h11 : 0 < m.r11) (h12 : 0 < m.r12) (h21 : 0 < m.r21) (h22 : 0 < m.r22)
    (hs1 : 0 < m.s1) (hs2 : 0 < m.s2) (hk1 : 0 < k1) (hk2 : 0 < k2)
    (a1 : k111 = k1) (a2 : k112 * m.r11 = k111) (a3 : k211 = m.s1 * k111) (a4 : k212 * m.r21 = k211)
    (b1 : k222 = k2) (b2 : k221 * m.r22 = k222) (b3 : k122 = m.s2 * k222) (b4 : k121 * m.r12 = k122)
    (hsum : p11 + p21 + p22 + p12 = 1)
    (bal11 : k211 * p21 * f1 = k112 * p11 * (1 - f1))
    (bal22 : k122 * p12 * (1 - f1) = k221 * p22 * f1)
    (bal12 : k112 * p11 * (1 - f1) + k212 * p21 * (1 - f1) = k121 * p12 * f1 + k221 * p22 * f1) :
    modelKp m.ri (penKiiE m.r11 m.r22 m.s1 m.s2 (some k1) (some k2)) f1 =
      .ok (some ((k111 * p11 + k211 * p21 + k121 * p12 + k221 * p22) * f1 +
        (k112 * p11 + k212 * p21 + k122 * p12 + k222 * p22) * (1 - f1))) := by
  have h2 : 0 < 1 - f1 := sub_pos.mpr h1
  subst a1 b1 a3 b3
  obtain rfl : k112 = k111 / m.r11 := by rw [eq_div_iff h11.ne', a2]
  obtain rfl : k221 = k222 / m.r22 := by rw [eq_div_iff h22.ne', b2]
  obtain rfl : k212 = m.s1 * k111 / m.r21 := by rw [eq_div_iff h21.ne', a4]
  obtain rfl : k121 = m.s2 * k222 / m.r12 := by rw [eq_div_iff h12.ne', b4]
  have c1 : p11 * (1 - f1) = m.r11 * m.s1 * f1 * p21 := by
    field_simp at bal11; linear_combination -bal11
  have c2 : p22 * f1 = m.r22 * m.s2 * (1 - f1) * p12 := by
    field_simp at bal22; linear_combination -bal22
  -- effective coefficients
  have d1 : 0 < f1 * m.r11 + (1 - f1) / m.s1 := by positivity
  have d2 : 0 < (1 - f1) * m.r22 + f1 / m.s2 := by positivity
  have q1 : 0 < f1 * m.r21 + (1 - f1) := by positivity
  have q2 : 0 < (1 - f1) * m.r12 + f1 := by positivity
  have q3 : 0 < f1 * m.r11 + (1 - f1) := by positivity
  have q4 : 0 < (1 - f1) * m.r22 + f1 := by positivity
  have hp11 : p11 = m.r11 * m.s1 * f1 * p21 / (1 - f1) := by rw [eq_div_iff h2.ne', c1]
  have hp22 : p22 = m.r22 * m.s2 * (1 - f1) * p12 / f1 := by rw [eq_div_iff h0.ne', c2]
  have w1 : (p11 + p21) * (k111 * (f1 * m.r11 + (1 - f1)) / (f1 * m.r11 + (1 - f1) / m.s1)) = k111 * p11 + m.s1 * k111 * p21 := by
    rw [hp11]; field_simp
  have w2 : (p22 + p12) * (k222 * ((1 - f1) * m.r22 + f1) / ((1 - f1) * m.r22 + f1 / m.s2)) = k222 * p22 + m.s2 * k222 * p12 := by
    rw [hp22]; field_simp
  have w3 : (p11 + p21) * (k111 * (f1 * m.r11 + (1 - f1)) / (f1 * m.r11 + (1 - f1) / m.s1) /
      (m.r21 * (f1 * m.r11 + (1 - f1)) / (f1 * m.r21 + (1 - f1)))) = k111 / m.r11 * p11 + m.s1 * k111 / m.r21 * p21 := by
    rw [hp11]; field_simp
  have w4 : (p22 + p12) * (k222 * ((1 - f1) * m.r22 + f1) / ((1 - f1) * m.r22 + f1 / m.s2) /
      (m.r12 * ((1 - f1) * m.r22 + f1) / ((1 - f1) * m.r12 + f1))) = k222 / m.r22 * p22 + m.s2 * k222 / m.r12 * p12 := by
    rw [hp22]; field_simp
  unfold modelKp
  rw [if_pos ⟨h0.le, h1.le⟩, pen_ri m f1 h0.le h1.le h21 h12]
  unfold penKiiE penKii
  dsimp only
  rw [fdiv_ne hs1.ne', fdiv_ne hs2.ne']
  dsimp only
  rw [fdiv_ne d1.ne', fdiv_ne d2.ne']
  dsimp only
  have hR1 : 0 < m.r21 * (f1 * m.r11 + (1 - f1)) / (f1 * m.r21 + (1 - f1)) := by positivity
  have hR2 : 0 < m.r12 * ((1 - f1) * m.r22 + f1) / ((1 - f1) * m.r12 + f1) := by positivity
  have hK1 : 0 < k111 * (f1 * m.r11 + (1 - f1)) / (f1 * m.r11 + (1 - f1) / m.s1) := by positivity
  have hK2 : 0 < k222 * ((1 - f1) * m.r22 + f1) / ((1 - f1) * m.r22 + f1 / m.s2) := by positivity
  generalize m.r21 * (f1 * m.r11 + (1 - f1)) / (f1 * m.r21 + (1 - f1)) = R1 at hR1 w3 ⊢
  generalize m.r12 * ((1 - f1) * m.r22 + f1) / ((1 - f1) * m.r12 + f1) = R2 at hR2 w4 ⊢
  generalize k111 * (f1 * m.r11 + (1 - f1)) / (f1 * m.r11 + (1 - f1) / m.s1) = K1 at hK1 w1 w3 ⊢
  generalize k222 * ((1 - f1) * m.r22 + f1) / ((1 - f1) * m.r22 + f1 / m.s2) = K2 at hK2 w2 w4 ⊢
  rw [C29_weighted_sum f1 R1 R2 K1 K2 (p11 + p21) (p22 + p12) h0.le h1.le hR1 hR2 hK1 hK2 (by linear_combination hsum)
    (by linear_combination (1 - f1) * w3 - f1 * w4 + bal12)]
  congr 2
  linear_combination f1 * w1 + (1 - f1) * w3 + f1 * w4 + (1 - f1) * w2

-- non-vacuity: the steady state of the unit system
example : modelKp (Pen.ri (⟨1, 1, 1, 1, 1, 1⟩ : Pen ℚ)) (penKiiE 1 1 1 1 (some 1) (some 1)) (1 / 2) =
    .ok (some ((1 * (1 / 4) + 1 * (1 / 4) + 1 * (1 / 4) + 1 * (1 / 4)) * (1 / 2) +
        (1 * (1 / 4) + 1 * (1 / 4) + 1 * (1 / 4) + 1 * (1 / 4)) * (1 - 1 / 2))) :=
  C32_kp_mechanism ⟨1, 1, 1, 1, 1, 1⟩ (1 / 2) 1 1 (1 / 4) (1 / 4) (1 / 4) (1 / 4) 1 1 1 1 1 1 1 1 (by norm_num) (by norm_num)
    (by norm_num) (by norm_num) (by norm_num) (by norm_num) (by norm_num) (by norm_num) (by norm_num) (by norm_num) (by norm_num)
    (by norm_num) (by norm_num) (by norm_num) (by norm_num) (by norm_num) (by norm_num) (by norm_num) (by norm_num) (by norm_num)
    (by norm_num) (by norm_num)

/-! ### C75 -/

/-- **C75.** A reported azeotrope of a penultimate model lies in `[1e-4, 0.9999]`, and there the copolymer composition differs from
the monomer composition by at most `1e-6`, or an exact azeotrope is within `4·eps + 1e-6`. -/
theorem C75_reported (m : Pen ℝ) (a : ℝ) (h12 : 0 < m.r12) (h21 : 0 < m.r21) (h11 : 0 < m.r11) (h22 : 0 < m.r22)
    (h : copoAzeotrope m.ri = some a) :
    1 / 10000 ≤ a ∧ a ≤ 9999 / 10000 ∧
      ((∃ F, modelF1 m.ri a = .ok (some F) ∧ |F - a| ≤ 1 / 1000000) ∨
       ∃ z, 0 < z ∧ z < 1 ∧ modelF1 m.ri z = .ok (some z) ∧ |z - a| ≤ 4 * eps * |a| + 1 / 1000000) := by
  -- on the search interval the residual is the explicit function `g`
  let R1 : ℝ → ℝ := fun f => m.r21 * (f * m.r11 + (1 - f)) / (f * m.r21 + (1 - f))
  let R2 : ℝ → ℝ := fun f => m.r12 * ((1 - f) * m.r22 + f) / ((1 - f) * m.r12 + f)
  let g : ℝ → ℝ := fun f => (R1 f * f ^ 2 + f * (1 - f)) / (R1 f * f ^ 2 + 2 * f * (1 - f) + R2 f * (1 - f) ^ 2)
  have pos : ∀ f : ℝ, 0 < f → f < 1 → 0 < R1 f ∧ 0 < R2 f ∧ 0 < f * m.r21 + (1 - f) ∧ 0 < (1 - f) * m.r12 + f ∧
      0 < R1 f * f ^ 2 + 2 * f * (1 - f) + R2 f * (1 - f) ^ 2 := by
    intro f f0 f1
    have : 0 < 1 - f := sub_pos.mpr f1
    have q1 : 0 < R1 f := by simp only [R1]; positivity
    have q2 : 0 < R2 f := by simp only [R2]; positivity
    exact ⟨q1, q2, by positivity, by positivity, by positivity⟩
  have hF : ∀ f : ℝ, 0 < f → f < 1 → modelF1 m.ri f = .ok (some (g f)) ∧ fzero m.ri f = g f - f := by
    intro f f0 f1
    obtain ⟨q1, q2, _, _, _⟩ := pos f f0 f1
    have e := instBinary_eq f0.le f1.le q1.le q2.le (fun h => absurd h f1.ne) (fun h => absurd h f0.ne')
    constructor
    · unfold modelF1
      rw [if_pos ⟨f0.le, f1.le⟩, pen_ri m f f0.le f1.le h21 h12]
      exact congrArg Except.ok e
    · unfold fzero
      rw [pen_ri m f f0.le f1.le h21 h12]
      dsimp only
      rw [show instBinary f (m.r21 * (f * m.r11 + (1 - f)) / (f * m.r21 + (1 - f)))
        (m.r12 * ((1 - f) * m.r22 + f) / ((1 - f) * m.r12 + f)) = some (g f) from e]
  have hI : ∀ x ∈ Set.uIcc (1 / 10000 : ℝ) (9999 / 10000), 0 < x ∧ x < 1 := by
    intro x hx
    rw [Set.uIcc_of_le (by norm_num)] at hx
    exact ⟨by linarith [hx.1], by linarith [hx.2]⟩
  have hc : ContinuousOn (fzero m.ri) (Set.uIcc (1 / 10000 : ℝ) (9999 / 10000)) := by
    have hg : ContinuousOn (fun f => g f - f) (Set.uIcc (1 / 10000 : ℝ) (9999 / 10000)) := by
      have c1 : ContinuousOn R1 (Set.uIcc (1 / 10000 : ℝ) (9999 / 10000)) :=
        ContinuousOn.div (by fun_prop) (by fun_prop) fun x hx => (pos x (hI x hx).1 (hI x hx).2).2.2.1.ne'
      have c2 : ContinuousOn R2 (Set.uIcc (1 / 10000 : ℝ) (9999 / 10000)) :=
        ContinuousOn.div (by fun_prop) (by fun_prop) fun x hx => (pos x (hI x hx).1 (hI x hx).2).2.2.2.1.ne'
      exact ContinuousOn.sub (ContinuousOn.div (by fun_prop) (by fun_prop)
        fun x hx => (pos x (hI x hx).1 (hI x hx).2).2.2.2.2.ne') continuousOn_id
    exact hg.congr fun x hx => (hF x (hI x hx).1 (hI x hx).2).2
  unfold copoAzeotrope at h
  dsimp only at h
  split_ifs at h
  generalize hb : rootBrent (fzero m.ri) (1 / 10000) (9999 / 10000) (1 / 1000000) (1 / 1000000) 50 = res at h
  rcases res with e | ⟨sol, calls⟩
  · simp at h
  · dsimp only at h
    split_ifs at h with hs
    simp only [Option.some.injEq] at h
    subst h
    have hmem := (C03_brent_stays_in_bracket _ _ _ _ _ _ (by norm_num) (by norm_num) _ _ hb).2.1
    obtain ⟨x0, x1⟩ := hI _ hmem
    have hmem' := hmem
    rw [Set.uIcc_of_le (by norm_num)] at hmem'
    refine ⟨hmem'.1, hmem'.2, ?_⟩
    rcases C04_brent_exact_root _ _ _ _ _ _ (by norm_num) (by norm_num) hc _ _ hb hs with h | ⟨z, hz, hz0, hd⟩
    · left
      rw [(hF _ x0 x1).2] at h
      exact ⟨_, (hF _ x0 x1).1, h⟩
    · right
      obtain ⟨z0, z1⟩ := hI _ hz
      rw [(hF _ z0 z1).2, sub_eq_zero] at hz0
      exact ⟨z, z0, z1, by rw [(hF _ z0 z1).1, hz0], hd⟩

/-- **C75 (counterexample).** A reported azeotrope need not be near an azeotrope: for `r11 = r21 = 0.5`, `r22 = r12 = 1.005` the value
`1e-4` is reported (the residual test is absolute, `1e-6`), although no composition in `(0, 1)` is azeotropic. -/
theorem C75_spurious_false : copoAzeotrope (Pen.ri (⟨1 / 2, 1005 / 1000, 1 / 2, 1005 / 1000, 1, 1⟩ : Pen ℚ)) = some (1 / 10000) ∧
    ∀ f : ℚ, 0 < f → f < 1 → modelF1 (Pen.ri (⟨1 / 2, 1005 / 1000, 1 / 2, 1005 / 1000, 1, 1⟩ : Pen ℚ)) f ≠ .ok (some f) := by
  constructor
  · norm_num [copoAzeotrope, Pen.ri, fdiv, allcloseOne, rootBrent, fzero, instBinary, abs_le, abs_of_neg]
  · intro f f0 f1 h
    rw [C32_F1_reduces _ _ _ _ _ (by norm_num) (by norm_num)] at h
    unfold modelF1 at h
    rw [if_pos ⟨f0.le, f1.le⟩] at h
    simp only [Except.ok.injEq] at h
    rw [azeotrope_iff f _ _ f0 f1 (by norm_num) (by norm_num)] at h
    linarith

end Verif.Copo
