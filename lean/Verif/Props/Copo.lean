import Verif.Lemmas.CopoAux

/-!
# C28-C32: binary copolymerization models

`f1` is the mole fraction of monomer 1 in the monomer mixture, `1 - f1` that of monomer 2.
-/

namespace Verif.Copo

variable {α : Type*} [Field α] [LinearOrder α] [IsStrictOrderedRing α]

/-! ### C28 -/

/-- **C28.** The result is a number of `[0, 1]`; exactly `0` and `1` at the pure ends, strictly inside otherwise. -/
theorem C28_range (f1 r1 r2 : α) (h0 : 0 ≤ f1) (h1 : f1 ≤ 1) (hr1 : 0 < r1) (hr2 : 0 < r2) :
    ∃ F, instBinary f1 r1 r2 = some F ∧ 0 ≤ F ∧ F ≤ 1 ∧ (F = 0 ↔ f1 = 0) ∧ (F = 1 ↔ f1 = 1) := by
  have hd := den_pos h0 h1 hr1.le hr2.le (fun _ => hr1.ne') (fun _ => hr2.ne')
  have h2 : 0 ≤ 1 - f1 := sub_nonneg.mpr h1
  refine ⟨_, instBinary_eq h0 h1 hr1.le hr2.le (fun _ => hr1.ne') (fun _ => hr2.ne'), by positivity, ?_, ?_, ?_⟩
  · rw [div_le_one hd]
    have : 0 ≤ f1 * (1 - f1) := by positivity
    have : 0 ≤ r2 * (1 - f1) ^ 2 := by positivity
    linarith
  · rw [div_eq_zero_iff]
    constructor
    · rintro (h | h)
      · by_contra hne
        have hp : 0 < f1 := lt_of_le_of_ne h0 (Ne.symm hne)
        have : 0 < r1 * f1 ^ 2 + f1 * (1 - f1) := by positivity
        exact this.ne' h
      · exact absurd h hd.ne'
    · rintro rfl; left; ring
  · rw [div_eq_one_iff_eq hd.ne']
    constructor
    · intro h
      by_contra hne
      have hp : 0 < 1 - f1 := sub_pos.mpr (lt_of_le_of_ne h1 hne)
      have : 0 < f1 * (1 - f1) + r2 * (1 - f1) ^ 2 := by positivity
      linarith
    · rintro rfl; ring

/-- **C28.** Exactly when there is no finite result, for the reactivity ratios accepted by the models (`r ≥ 0`). -/
theorem C28_finite_iff (f1 r1 r2 : α) (h0 : 0 ≤ f1) (h1 : f1 ≤ 1) (hr1 : 0 ≤ r1) (hr2 : 0 ≤ r2) :
    instBinary f1 r1 r2 = none ↔ (f1 = 1 ∧ r1 = 0) ∨ (f1 = 0 ∧ r2 = 0) := by
  constructor
  · intro h
    by_contra hc
    push Not at hc
    rw [instBinary_eq h0 h1 hr1 hr2 hc.1 hc.2] at h
    simp at h
  · rintro (⟨rfl, rfl⟩ | ⟨rfl, rfl⟩) <;> simp [instBinary, fdiv]

/-- **C28.** Exchanging the two monomers gives the complement. -/
theorem C28_exchange (f1 r1 r2 : α) : instBinary (1 - f1) r2 r1 = (instBinary f1 r1 r2).map (1 - ·) := by
  unfold instBinary
  dsimp only
  rw [sub_sub_cancel]
  have e : r2 * (1 - f1) ^ 2 + 2 * (1 - f1) * f1 + r1 * f1 ^ 2 = r1 * f1 ^ 2 + 2 * f1 * (1 - f1) + r2 * (1 - f1) ^ 2 := by ring
  rw [e]
  unfold fdiv
  split_ifs with h
  · rfl
  · simp only [Option.map_some, Option.some.injEq]
    rw [div_eq_iff h, sub_mul (1 : α) (_ / _), div_mul_cancel₀ _ h]
    ring

/-- **C28.** Strictly increasing in `f1`. -/
theorem C28_strictMono (f g r1 r2 : α) (h0 : 0 ≤ f) (hfg : f < g) (h1 : g ≤ 1) (hr1 : 0 < r1) (hr2 : 0 < r2) :
    ∃ F G, instBinary f r1 r2 = some F ∧ instBinary g r1 r2 = some G ∧ F < G := by
  have hf1 : f ≤ 1 := (hfg.trans_le h1).le
  have hg0 : 0 ≤ g := h0.trans hfg.le
  have d1 := den_pos h0 hf1 hr1.le hr2.le (fun _ => hr1.ne') (fun _ => hr2.ne')
  have d2 := den_pos hg0 h1 hr1.le hr2.le (fun _ => hr1.ne') (fun _ => hr2.ne')
  refine ⟨_, _, instBinary_eq h0 hf1 hr1.le hr2.le (fun _ => hr1.ne') (fun _ => hr2.ne'),
    instBinary_eq hg0 h1 hr1.le hr2.le (fun _ => hr1.ne') (fun _ => hr2.ne'), ?_⟩
  rw [div_lt_div_iff₀ d1 d2, ← sub_pos]
  have key : (r1 * g ^ 2 + g * (1 - g)) * (r1 * f ^ 2 + 2 * f * (1 - f) + r2 * (1 - f) ^ 2) -
      (r1 * f ^ 2 + f * (1 - f)) * (r1 * g ^ 2 + 2 * g * (1 - g) + r2 * (1 - g) ^ 2) =
      (g - f) * (r1 * r2 * (g * (1 - f) + f * (1 - g)) + r1 * (f * g) + r2 * ((1 - f) * (1 - g))) := by ring
  rw [key]
  have a : 0 < g - f := sub_pos.mpr hfg
  have b : 0 < 1 - f := sub_pos.mpr (hfg.trans_le h1)
  have c : 0 < g := h0.trans_lt hfg
  have d : 0 ≤ 1 - g := sub_nonneg.mpr h1
  positivity

/-- **C28.** With both reactivity ratios equal to one the copolymer has the composition of the monomer mixture. -/
theorem C28_ideal (f1 : α) : instBinary f1 1 1 = some f1 := by
  unfold instBinary
  dsimp only
  have : 1 * f1 ^ 2 + 2 * f1 * (1 - f1) + 1 * (1 - f1) ^ 2 = 1 := by ring
  rw [this, fdiv_ne one_ne_zero]
  congr 1
  ring

/-- **C28.** The Mayo-Lewis equation `F1/F2 = (f1/f2)·(r1 f1 + f2)/(r2 f2 + f1)`. -/
theorem C28_mayo_lewis (f1 r1 r2 F : α) (h0 : 0 < f1) (h1 : f1 < 1) (hr1 : 0 ≤ r1) (hr2 : 0 ≤ r2)
    (h : instBinary f1 r1 r2 = some F) :
    F / (1 - F) = f1 / (1 - f1) * ((r1 * f1 + (1 - f1)) / (r2 * (1 - f1) + f1)) := by
  have hd := den_pos h0.le h1.le hr1 hr2 (fun h => absurd h h1.ne) (fun h => absurd h h0.ne')
  rw [instBinary_eq h0.le h1.le hr1 hr2 (fun h => absurd h h1.ne) (fun h => absurd h h0.ne')] at h
  simp only [Option.some.injEq] at h
  have h2 : 0 < 1 - f1 := sub_pos.mpr h1
  have e2 : 0 < r2 * (1 - f1) + f1 := by positivity
  have e : 1 - F = (1 - f1) * (r2 * (1 - f1) + f1) / (r1 * f1 ^ 2 + 2 * f1 * (1 - f1) + r2 * (1 - f1) ^ 2) := by
    rw [← h, eq_div_iff hd.ne', sub_mul, div_mul_cancel₀ _ hd.ne']
    ring
  rw [e, ← h, div_div_div_cancel_right₀ hd.ne', div_mul_div_comm]
  congr 1
  ring

-- non-vacuity: styrene-like values
example : ∃ F, instBinary (1 / 2 : ℚ) (16 / 100) (70 / 100) = some F ∧ F = 29 / 2 * (4 / 143) := by
  refine ⟨_, instBinary_eq (by norm_num) (by norm_num) (by norm_num) (by norm_num) (by norm_num) (by norm_num), by norm_num⟩

example : ∃ F G, instBinary (1 / 5 : ℚ) (1 / 2) 3 = some F ∧ instBinary (1 / 4) (1 / 2) 3 = some G ∧ F < G :=
  C28_strictMono _ _ _ _ (by norm_num) (by norm_num) (by norm_num) (by norm_num) (by norm_num)

/-! ### C29 -/

/-- **C29.** `p1`, `p2` are the fractions of the two radicals at the steady state of the terminal model: the rate of cross
propagation is the same in both directions, with `k12 = k11/r1`, `k21 = k22/r2`. The average is the rate per radical and monomer. -/
theorem C29_weighted_sum (f1 r1 r2 k11 k22 p1 p2 : α) (h0 : 0 ≤ f1) (h1 : f1 ≤ 1) (hr1 : 0 < r1) (hr2 : 0 < r2)
    (hk1 : 0 < k11) (hk2 : 0 < k22) (hp : p1 + p2 = 1) (hss : k11 / r1 * p1 * (1 - f1) = k22 / r2 * p2 * f1) :
    kpBinary f1 r1 r2 k11 k22 =
      some (p1 * f1 * k11 + p1 * (1 - f1) * (k11 / r1) + p2 * f1 * (k22 / r2) + p2 * (1 - f1) * k22) := by
  have h2 : 0 ≤ 1 - f1 := sub_nonneg.mpr h1
  have hden : 0 < r1 * f1 / k11 + r2 * (1 - f1) / k22 := by
    rcases h0.eq_or_lt with rfl | h
    · simp; positivity
    · positivity
  unfold kpBinary
  dsimp only
  rw [fdiv_ne hk1.ne', fdiv_ne hk2.ne']
  dsimp only
  rw [fdiv_ne hden.ne', Option.some.injEq, div_eq_iff hden.ne']
  obtain rfl : p2 = 1 - p1 := by linear_combination hp
  have e : k11 * p1 * (1 - f1) * r2 = k22 * (1 - p1) * f1 * r1 := by
    field_simp at hss
    linear_combination hss
  field_simp
  linear_combination ((f1 + r2 * (1 - f1)) * k22 * r1 - (r1 * f1 + (1 - f1)) * r2 * k11) * e

/-- The steady-state fractions exist and are unique. -/
theorem C29_fractions_exist (f1 r1 r2 k11 k22 : α) (h0 : 0 ≤ f1) (h1 : f1 ≤ 1) (hr1 : 0 < r1) (hr2 : 0 < r2)
    (hk1 : 0 < k11) (hk2 : 0 < k22) : ∃ p1 p2 : α, p1 + p2 = 1 ∧ 0 ≤ p1 ∧ 0 ≤ p2 ∧
      k11 / r1 * p1 * (1 - f1) = k22 / r2 * p2 * f1 ∧
      ∀ p1' p2' : α, p1' + p2' = 1 → k11 / r1 * p1' * (1 - f1) = k22 / r2 * p2' * f1 → p1' = p1 ∧ p2' = p2 := by
  have h2 : 0 ≤ 1 - f1 := sub_nonneg.mpr h1
  have hden : 0 < k22 / r2 * f1 + k11 / r1 * (1 - f1) := by
    rcases h0.eq_or_lt with rfl | h
    · simp; positivity
    · positivity
  refine ⟨k22 / r2 * f1 / (k22 / r2 * f1 + k11 / r1 * (1 - f1)), k11 / r1 * (1 - f1) / (k22 / r2 * f1 + k11 / r1 * (1 - f1)), ?_,
    by positivity, by positivity, ?_, ?_⟩
  · rw [← add_div, div_self hden.ne']
  · ring
  · intro p1' p2' e1 e2
    have h3 : p1' = k22 / r2 * f1 / (k22 / r2 * f1 + k11 / r1 * (1 - f1)) := by
      rw [eq_div_iff hden.ne']
      linear_combination e2 + k22 / r2 * f1 * e1
    refine ⟨h3, ?_⟩
    rw [eq_div_iff hden.ne']
    rw [eq_div_iff hden.ne'] at h3
    linear_combination (k22 / r2 * f1 + k11 / r1 * (1 - f1)) * e1 - h3

/-- **C29.** The average lies between any bounds of the four propagation coefficients `k11, k12, k21, k22`. -/
theorem C29_between (f1 r1 r2 k11 k22 lo hi : α) (h0 : 0 ≤ f1) (h1 : f1 ≤ 1) (hr1 : 0 < r1) (hr2 : 0 < r2)
    (hk1 : 0 < k11) (hk2 : 0 < k22) (hb : ∀ k ∈ [k11, k11 / r1, k22 / r2, k22], lo ≤ k ∧ k ≤ hi) :
    ∃ kp, kpBinary f1 r1 r2 k11 k22 = some kp ∧ lo ≤ kp ∧ kp ≤ hi := by
  obtain ⟨p1, p2, hp, hp1, hp2, hss, _⟩ := C29_fractions_exist f1 r1 r2 k11 k22 h0 h1 hr1 hr2 hk1 hk2
  refine ⟨_, C29_weighted_sum f1 r1 r2 k11 k22 p1 p2 h0 h1 hr1 hr2 hk1 hk2 hp hss, ?_, ?_⟩
  all_goals
    have h2 : 0 ≤ 1 - f1 := sub_nonneg.mpr h1
    obtain ⟨a1, a2⟩ := hb k11 (by simp)
    obtain ⟨b1, b2⟩ := hb (k11 / r1) (by simp)
    obtain ⟨c1, c2⟩ := hb (k22 / r2) (by simp)
    obtain ⟨d1, d2⟩ := hb k22 (by simp)
    have w1 : 0 ≤ p1 * f1 := by positivity
    have w2 : 0 ≤ p1 * (1 - f1) := by positivity
    have w3 : 0 ≤ p2 * f1 := by positivity
    have w4 : 0 ≤ p2 * (1 - f1) := by positivity
    have e : p1 * f1 + p1 * (1 - f1) + p2 * f1 + p2 * (1 - f1) = 1 := by linear_combination hp
  · have := mul_le_mul_of_nonneg_left a1 w1
    have := mul_le_mul_of_nonneg_left b1 w2
    have := mul_le_mul_of_nonneg_left c1 w3
    have := mul_le_mul_of_nonneg_left d1 w4
    have : lo = p1 * f1 * lo + p1 * (1 - f1) * lo + p2 * f1 * lo + p2 * (1 - f1) * lo := by linear_combination (-lo) * e
    linarith
  · have := mul_le_mul_of_nonneg_left a2 w1
    have := mul_le_mul_of_nonneg_left b2 w2
    have := mul_le_mul_of_nonneg_left c2 w3
    have := mul_le_mul_of_nonneg_left d2 w4
    have : hi = p1 * f1 * hi + p1 * (1 - f1) * hi + p2 * f1 * hi + p2 * (1 - f1) * hi := by linear_combination (-hi) * e
    linarith

/-- **C29.** `k22` and `k11` at the pure ends. -/
theorem C29_ends (r1 r2 k11 k22 : α) (hr1 : 0 < r1) (hr2 : 0 < r2) (hk1 : 0 < k11) (hk2 : 0 < k22) :
    kpBinary 0 r1 r2 k11 k22 = some k22 ∧ kpBinary 1 r1 r2 k11 k22 = some k11 := by
  have := C29_weighted_sum 0 r1 r2 k11 k22 0 1 le_rfl zero_le_one hr1 hr2 hk1 hk2 (by simp) (by simp)
  have := C29_weighted_sum 1 r1 r2 k11 k22 1 0 zero_le_one le_rfl hr1 hr2 hk1 hk2 (by simp) (by simp)
  constructor <;> simp_all

/-- **C29.** Relabelling the monomers changes nothing. -/
theorem C29_exchange (f1 r1 r2 k11 k22 : α) : kpBinary (1 - f1) r2 r1 k22 k11 = kpBinary f1 r1 r2 k11 k22 := by
  unfold kpBinary
  dsimp only
  rw [sub_sub_cancel]
  by_cases h1 : k11 = 0
  · subst h1; rw [fdiv_zero]; cases fdiv (r2 * (1 - f1)) k22 <;> rfl
  by_cases h2 : k22 = 0
  · subst h2; rw [fdiv_zero]; cases fdiv (r1 * f1) k11 <;> rfl
  rw [fdiv_ne h1, fdiv_ne h2]
  dsimp only
  rw [add_comm (r2 * (1 - f1) / k22)]
  congr 1
  ring

-- non-vacuity
example : ∃ kp, kpBinary (1 / 3 : ℚ) (1 / 2) 2 100 400 = some kp ∧ 100 ≤ kp ∧ kp ≤ 400 :=
  C29_between _ _ _ _ _ _ _ (by norm_num) (by norm_num) (by norm_num) (by norm_num) (by norm_num) (by norm_num) (by
    intro k hk
    simp only [List.mem_cons, List.not_mem_nil, or_false] at hk
    rcases hk with rfl | rfl | rfl | rfl <;> norm_num)

/-! ### C30 -/

/-- **C30.** A reported azeotrope is one, lies strictly inside `(0, 1)`, and is the only one there. -/
theorem C30_reported (r1 r2 a : α) (hr1 : 0 ≤ r1) (hr2 : 0 ≤ r2) (h : azeotrope r1 r2 = some a) :
    0 < a ∧ a < 1 ∧ instBinary a r1 r2 = some a ∧
      ∀ f, 0 < f → f < 1 → instBinary f r1 r2 = some f → f = a := by
  unfold azeotrope at h
  split_ifs at h with hc
  obtain ⟨c1, c2⟩ := hc
  simp only [Option.some.injEq] at h
  have hd : 0 < 2 - r1 - r2 := by linarith
  have ha0 : 0 < a := by rw [← h]; exact div_pos (by linarith) hd
  have ha1 : a < 1 := by rw [← h, div_lt_one hd]; linarith
  have hm : a * (2 - r1 - r2) = 1 - r2 := by rw [← h, div_mul_cancel₀ _ hd.ne']
  refine ⟨ha0, ha1, (azeotrope_iff a r1 r2 ha0 ha1 hr1 hr2).mpr (by linear_combination hm), ?_⟩
  intro f f0 f1 hf
  have := (azeotrope_iff f r1 r2 f0 f1 hr1 hr2).mp hf
  have : (2 - r1 - r2) * (f - a) = 0 := by linear_combination this - hm
  rcases mul_eq_zero.mp this with h' | h'
  · exact absurd h' hd.ne'
  · linarith

/-- **C30.** When `None` is right: if nothing is reported, an azeotrope exists after all exactly if both ratios exceed one (a missed
azeotrope) or both equal one (every composition is azeotropic). -/
theorem C30_none (r1 r2 : α) (hr1 : 0 ≤ r1) (hr2 : 0 ≤ r2) (h : azeotrope r1 r2 = none) :
    (∃ f, 0 < f ∧ f < 1 ∧ instBinary f r1 r2 = some f) ↔ (1 < r1 ∧ 1 < r2) ∨ (r1 = 1 ∧ r2 = 1) := by
  constructor
  · rintro ⟨f, f0, f1, hf⟩
    have e := (azeotrope_iff f r1 r2 f0 f1 hr1 hr2).mp hf
    have g0 : 0 < 1 - f := sub_pos.mpr f1
    unfold azeotrope at h
    split_ifs at h with hc
    rcases lt_trichotomy r1 1 with a | a | a <;> rcases lt_trichotomy r2 1 with b | b | b
    · exact (hc ⟨a, b⟩).elim
    · subst b; have := mul_pos (sub_pos.mpr a) f0; rw [e] at this; simp at this
    · have := mul_pos (sub_pos.mpr a) f0; have := mul_pos (sub_pos.mpr b) g0; linarith
    · subst a; have := mul_pos (sub_pos.mpr b) g0; rw [← e] at this; simp at this
    · exact .inr ⟨a, b⟩
    · subst a; have := mul_pos (sub_pos.mpr b) g0; linarith
    · have := mul_pos (sub_pos.mpr a) f0; have := mul_pos (sub_pos.mpr b) g0; linarith
    · subst b; have := mul_pos (sub_pos.mpr a) f0; linarith
    · exact .inl ⟨a, b⟩
  · rintro (⟨h1, h2⟩ | ⟨rfl, rfl⟩)
    · have hd : 0 < r1 + r2 - 2 := by linarith
      have f0 : 0 < (r2 - 1) / (r1 + r2 - 2) := div_pos (by linarith) hd
      have f1 : (r2 - 1) / (r1 + r2 - 2) < 1 := by rw [div_lt_one hd]; linarith
      refine ⟨_, f0, f1, (azeotrope_iff _ r1 r2 f0 f1 hr1 hr2).mpr ?_⟩
      field_simp
      ring
    · exact ⟨1 / 2, by norm_num, by norm_num, (azeotrope_iff _ 1 1 (by norm_num) (by norm_num) hr1 hr2).mpr (by ring)⟩

/-- **C30 (counterexample).** With `r1 = r2 = 2` the composition `1/2` is azeotropic, but `None` is reported: "reported exactly
when one exists" is false. -/
theorem C30_none_false : ¬ ∀ r1 r2 : ℚ, 0 ≤ r1 → 0 ≤ r2 → azeotrope r1 r2 = none →
    ∀ f, 0 < f → f < 1 → instBinary f r1 r2 ≠ some f := by
  intro h
  exact h 2 2 (by norm_num) (by norm_num) (by norm_num [azeotrope]) (1 / 2) (by norm_num) (by norm_num)
    ((azeotrope_iff _ _ _ (by norm_num) (by norm_num) (by norm_num) (by norm_num)).mpr (by norm_num))

-- non-vacuity
example : azeotrope (16 / 100 : ℚ) (70 / 100) = some (30 / 114) := by norm_num [azeotrope]
example : azeotrope (16 / 100 : ℚ) 3 = none := by norm_num [azeotrope]

/-! ### C31 -/

/-- **C31.** `transitions` succeeds on `[0, 1]`; the entries are probabilities with unit row sums, and
`P11/P12 = r1 f1/f2`, `P22/P21 = r2 f2/f1`. -/
theorem C31_transitions (f1 r1 r2 : α) (h0 : 0 ≤ f1) (h1 : f1 ≤ 1) (hr1 : 0 < r1) (hr2 : 0 < r2) :
    ∃ P, transitions r1 r2 f1 = .ok (some P) ∧ P.P11 + P.P12 = 1 ∧ P.P21 + P.P22 = 1 ∧
      0 ≤ P.P11 ∧ 0 ≤ P.P12 ∧ 0 ≤ P.P21 ∧ 0 ≤ P.P22 ∧
      P.P11 * (1 - f1) = P.P12 * (r1 * f1) ∧ P.P22 * f1 = P.P21 * (r2 * (1 - f1)) := by
  have h2 : 0 ≤ 1 - f1 := sub_nonneg.mpr h1
  have e1 := tden_pos h0 h1 hr1.le (fun _ => hr1.ne')
  have e2 := tden_pos (f := 1 - f1) (r := r2) h2 (by linarith) hr2.le (fun _ => hr2.ne')
  rw [sub_sub_cancel] at e2
  refine ⟨_, transitions_eq h0 h1 hr1.le hr2.le (fun _ => hr1.ne') (fun _ => hr2.ne'), by ring, by ring, by positivity, ?_, ?_,
    by positivity, ?_, ?_⟩
  · rw [sub_nonneg, div_le_one e1]; linarith
  · rw [sub_nonneg, div_le_one e2]; linarith
  · dsimp only; field_simp; ring
  · dsimp only; field_simp; ring

/-- **C31.** Outside `[0, 1]` `transitions`, `triads` and `sequence` raise `RangeError`. -/
theorem C31_range_error (f1 r1 r2 : α) (k : Option ℕ) (h : ¬(0 ≤ f1 ∧ f1 ≤ 1)) :
    transitions r1 r2 f1 = .error .RangeError ∧ triads r1 r2 f1 = .error .RangeError ∧
      sequence r1 r2 f1 k = .error .RangeError := by
  have e : transitions r1 r2 f1 = .error .RangeError := if_neg h
  refine ⟨e, ?_, ?_⟩
  · unfold triads; rw [e]
  · unfold sequence; rw [e]

/-- **C31.** The Markov chain has the composition of the Mayo-Lewis equation: `F1 P12 = (1 - F1) P21`. -/
theorem C31_composition (f1 r1 r2 F : α) (P : Trans α) (h0 : 0 ≤ f1) (h1 : f1 ≤ 1) (hr1 : 0 < r1) (hr2 : 0 < r2)
    (hF : instBinary f1 r1 r2 = some F) (hP : transitions r1 r2 f1 = .ok (some P)) :
    F * P.P12 = (1 - F) * P.P21 ∧ 0 < P.P12 + P.P21 := by
  have h2 : 0 ≤ 1 - f1 := sub_nonneg.mpr h1
  have e1 := tden_pos h0 h1 hr1.le (fun _ => hr1.ne')
  have e2 := tden_pos (f := 1 - f1) (r := r2) h2 (by linarith) hr2.le (fun _ => hr2.ne')
  rw [sub_sub_cancel] at e2
  have hd := den_pos h0 h1 hr1.le hr2.le (fun _ => hr1.ne') (fun _ => hr2.ne')
  rw [transitions_eq h0 h1 hr1.le hr2.le (fun _ => hr1.ne') (fun _ => hr2.ne')] at hP
  rw [instBinary_eq h0 h1 hr1.le hr2.le (fun _ => hr1.ne') (fun _ => hr2.ne'), Option.some.injEq] at hF
  simp only [Except.ok.injEq, Option.some.injEq] at hP
  subst hP
  dsimp only
  have a : 1 - r1 * f1 / (r1 * f1 + (1 - f1)) = (1 - f1) / (r1 * f1 + (1 - f1)) := by field_simp; ring
  have b : 1 - r2 * (1 - f1) / (r2 * (1 - f1) + f1) = f1 / (r2 * (1 - f1) + f1) := by field_simp; ring
  have c : 1 - F = (1 - f1) * (r2 * (1 - f1) + f1) / (r1 * f1 ^ 2 + 2 * f1 * (1 - f1) + r2 * (1 - f1) ^ 2) := by
    rw [← hF, eq_div_iff hd.ne', sub_mul, div_mul_cancel₀ _ hd.ne']
    ring
  rw [a, b]
  constructor
  · rw [c, ← hF, show r1 * f1 ^ 2 + f1 * (1 - f1) = f1 * (r1 * f1 + (1 - f1)) by ring]
    generalize r1 * f1 ^ 2 + 2 * f1 * (1 - f1) + r2 * (1 - f1) ^ 2 = D at hd ⊢
    generalize r1 * f1 + (1 - f1) = E1 at e1 ⊢
    generalize r2 * (1 - f1) + f1 = E2 at e2 ⊢
    field_simp
  · rcases h0.eq_or_lt with rfl | h
    · simp
    · positivity

/-- **C31.** Triads: non-negative, total exactly one, and consistent with the diads. `F1` is the composition of the chain up to a
relative error of `eps`: `0 ≤ F1 - S1 ≤ F1·eps/(P12 + P21)`, where `S1` is the sum of the triads centred on monomer 1. -/
theorem C31_triads (f1 r1 r2 F : α) (h0 : 0 ≤ f1) (h1 : f1 ≤ 1) (hr1 : 0 < r1) (hr2 : 0 < r2)
    (hF : instBinary f1 r1 r2 = some F) :
    ∃ P A, transitions r1 r2 f1 = .ok (some P) ∧ triads r1 r2 f1 = .ok (some A) ∧
      (0 ≤ A.A111 ∧ 0 ≤ A.A112 ∧ 0 ≤ A.A212 ∧ 0 ≤ A.A222 ∧ 0 ≤ A.A221 ∧ 0 ≤ A.A121) ∧
      A.A111 + A.A112 + A.A212 + A.A222 + A.A221 + A.A121 = 1 ∧
      A.A111 + A.A112 + A.A212 ≤ F ∧ F - (A.A111 + A.A112 + A.A212) ≤ F * (eps / (P.P12 + P.P21)) ∧
      A.A111 + A.A112 / 2 = (A.A111 + A.A112 + A.A212) * P.P11 ∧
      A.A222 + A.A221 / 2 = (A.A222 + A.A221 + A.A121) * P.P22 := by
  obtain ⟨P, hP, r1s, r2s, p11, p12, p21, p22, _, _⟩ := C31_transitions f1 r1 r2 h0 h1 hr1 hr2
  obtain ⟨hc, hs⟩ := C31_composition f1 r1 r2 F P h0 h1 hr1 hr2 hF hP
  have he : (0 : α) < eps := eps_pos
  have hd : 0 < P.P12 + P.P21 + eps := by linarith
  have hFe : F * (P.P12 + P.P21) = P.P21 := by linear_combination hc
  have hF0 : 0 ≤ F := by
    have : F = P.P21 / (P.P12 + P.P21) := by rw [eq_div_iff hs.ne', hFe]
    rw [this]; positivity
  refine ⟨P, triadsOf P, hP, by unfold triads; rw [hP]; rfl, ?_, ?_, ?_, ?_, ?_, ?_⟩
  · have q1 : 0 ≤ P.P21 / (P.P12 + P.P21 + eps) := by positivity
    have q2 : 0 ≤ 1 - P.P21 / (P.P12 + P.P21 + eps) := by rw [sub_nonneg, div_le_one hd]; linarith
    unfold triadsOf
    dsimp only
    refine ⟨?_, ?_, ?_, ?_, ?_, ?_⟩ <;> positivity
  all_goals
    obtain ⟨P11, P12, P21, P22⟩ := P
    dsimp only at *
    obtain rfl : P12 = 1 - P11 := by linear_combination r1s
    obtain rfl : P22 = 1 - P21 := by linear_combination r2s
    unfold triadsOf
    dsimp only
  · ring
  · have e : P21 / (1 - P11 + P21 + eps) * P11 ^ 2 + P21 / (1 - P11 + P21 + eps) * 2 * P11 * (1 - P11) +
        P21 / (1 - P11 + P21 + eps) * (1 - P11) ^ 2 = P21 / (1 - P11 + P21 + eps) := by ring
    rw [e, div_le_iff₀ hd]
    have := mul_nonneg hF0 he.le
    linarith
  · have e : P21 / (1 - P11 + P21 + eps) * P11 ^ 2 + P21 / (1 - P11 + P21 + eps) * 2 * P11 * (1 - P11) +
        P21 / (1 - P11 + P21 + eps) * (1 - P11) ^ 2 = P21 / (1 - P11 + P21 + eps) := by ring
    rw [e]
    have e2 : F - P21 / (1 - P11 + P21 + eps) = F * (eps / (1 - P11 + P21 + eps)) := by
      have e3 : P21 / (1 - P11 + P21 + eps) = F * (1 - P11 + P21) / (1 - P11 + P21 + eps) := by rw [hFe]
      rw [e3]; field_simp; ring
    rw [e2]
    apply mul_le_mul_of_nonneg_left _ hF0
    apply div_le_div_of_nonneg_left he.le hs; linarith
  · ring
  · ring

/-- **C31.** Sequence lengths: both distributions sum to one over `k ≥ 1`; their means are `1/(1 - Pii)`, and the reported
mean differs from it only through the guard `eps` (smaller by a relative amount of at most `eps` times the mean). -/
theorem C31_sequence (f1 r1 r2 : ℝ) (h0 : 0 < f1) (h1 : f1 < 1) (hr1 : 0 < r1) (hr2 : 0 < r2) :
    ∃ s : ℕ → ℝ × ℝ, ∃ m : ℝ × ℝ, (∀ k, 1 ≤ k → sequence r1 r2 f1 (some k) = .ok (some (s k))) ∧
      sequence r1 r2 f1 none = .ok (some m) ∧
      HasSum (fun k => (s (k + 1)).1) 1 ∧ HasSum (fun k => (s (k + 1)).2) 1 ∧
      ∃ μ₁ μ₂ : ℝ, HasSum (fun k : ℕ => ((k + 1 : ℕ) : ℝ) * (s (k + 1)).1) μ₁ ∧
        HasSum (fun k : ℕ => ((k + 1 : ℕ) : ℝ) * (s (k + 1)).2) μ₂ ∧
        μ₁ = 1 + r1 * (f1 / (1 - f1)) ∧ μ₂ = 1 + r2 * ((1 - f1) / f1) ∧
        m.1 ≤ μ₁ ∧ μ₁ ≤ m.1 * (1 + eps * μ₁) ∧ m.2 ≤ μ₂ ∧ μ₂ ≤ m.2 * (1 + eps * μ₂) := by
  obtain ⟨P, hP, r1s, r2s, p11, p12, p21, p22, g1, g2⟩ := C31_transitions f1 r1 r2 h0.le h1.le hr1 hr2
  have h2 : 0 < 1 - f1 := sub_pos.mpr h1
  have he : (0 : ℝ) < eps := eps_pos
  have l1 : P.P11 < 1 := by
    by_contra hc
    have : P.P12 = 0 := by linarith
    rw [this, zero_mul] at g1
    have : P.P11 = 0 := by rcases mul_eq_zero.mp g1 with h | h <;> linarith
    linarith
  have l2 : P.P22 < 1 := by
    by_contra hc
    have : P.P21 = 0 := by linarith
    rw [this, zero_mul] at g2
    have : P.P22 = 0 := by rcases mul_eq_zero.mp g2 with h | h <;> linarith
    linarith
  have a1 : 0 < 1 - P.P11 := by linarith
  have a2 : 0 < 1 - P.P22 := by linarith
  refine ⟨fun k => (seqProb P.P11 k, seqProb P.P22 k), (seqMean P.P11, seqMean P.P22), ?_, ?_, ?_, ?_, 1 / (1 - P.P11), 1 / (1 - P.P22),
    ?_, ?_, ?_, ?_, ?_⟩
  · intro k _; unfold sequence; rw [hP]; rfl
  · unfold sequence; rw [hP]; rfl
  · exact hasSum_geom _ p11 l1
  · exact hasSum_geom _ p22 l2
  · exact hasSum_of_eq (hasSum_geom_mean _ p11 l1) (fun k => by simp [seqProb]) rfl
  · exact hasSum_of_eq (hasSum_geom_mean _ p22 l2) (fun k => by simp [seqProb]) rfl
  · obtain e : P.P12 = 1 - P.P11 := by linarith
    rw [e] at g1
    field_simp
    linarith
  · obtain e : P.P21 = 1 - P.P22 := by linarith
    rw [e] at g2
    field_simp
    linarith
  · unfold seqMean
    refine ⟨?_, ?_, ?_, ?_⟩
    · apply one_div_le_one_div_of_le a1; linarith
    · rw [div_mul_eq_mul_div, one_mul, div_le_div_iff₀ a1 (by linarith)]
      apply le_of_eq; field_simp
    · apply one_div_le_one_div_of_le a2; linarith
    · rw [div_mul_eq_mul_div, one_mul, div_le_div_iff₀ a2 (by linarith)]
      apply le_of_eq; field_simp

-- non-vacuity: the hypotheses hold for f1 = 1/2, r = (0.16, 0.70)
example : ∃ P : Trans ℚ, transitions (16 / 100) (70 / 100) (1 / 2) = .ok (some P) ∧ P.P11 = 16 / 116 := by
  refine ⟨_, transitions_eq (by norm_num) (by norm_num) (by norm_num) (by norm_num) (by norm_num) (by norm_num), by norm_num⟩

end Verif.Copo
