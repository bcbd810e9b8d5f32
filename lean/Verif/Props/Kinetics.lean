import Verif.Lemmas.Kinetics
import Verif.Lemmas.NBar
import Verif.Lemmas.LiBrooks

/-!
# C43, C44, C45: kinetic coefficients
-/

namespace Verif.Kin

open Real

/-! ### C43 -/

/-- Reciprocal of a temperature, `1/∞ = 0`. -/
noncomputable def recip : WithTop ℝ → ℝ
  | ⊤ => 0
  | (t : ℝ) => 1 / t

/-- The textbook Arrhenius law `k0 exp(-Ea/R (1/T - 1/T0))`. -/
noncomputable def law (k0 EaR : ℝ) (T0 : WithTop ℝ) (T : ℝ) : ℝ := k0 * exp (-EaR * (1 / T - recip T0))

/-- Expressions a user can write with Arrhenius coefficients. -/
inductive Expr where
  | coef (k0 EaR : ℝ) (T0 Tmin Tmax : WithTop ℝ)
  | mul (a b : Expr)
  | mulc (a : Expr) (c : ℝ)
  | div (a b : Expr)
  | divc (a : Expr) (c : ℝ)
  | rdivc (c : ℝ) (a : Expr)
  | pow (a : Expr) (c : ℝ)

/-- Evaluation by the code; `none`: a coefficient with infinite `k0`, on which nothing is claimed. -/
noncomputable def Expr.build : Expr → Except Err (Option Arrhenius)
  | .coef k0 EaR T0 Tmin Tmax => (init k0 EaR T0 Tmin Tmax).map some
  | .mul a b => do
    let ka ← a.build
    let kb ← b.build
    match ka, kb with
    | some k, some l => (Kin.mul k l).map some
    | _, _ => .ok none
  | .mulc a c => do
    match ← a.build with
    | some k => (Kin.mulc k c).map some
    | none => .ok none
  | .div a b => do
    let ka ← a.build
    let kb ← b.build
    match ka, kb with
    | some k, some l => Kin.div k l
    | _, _ => .ok none
  | .divc a c => do
    match ← a.build with
    | some k => (Kin.divc k c).map some
    | none => .ok none
  | .rdivc c a => do
    match ← a.build with
    | some k => (Kin.rdivc c k).map some
    | none => .ok none
  | .pow a c => do
    match ← a.build with
    | some k => (Kin.pow k c).map some
    | none => .ok none

/-- The number the expression stands for at temperature `T`. -/
noncomputable def Expr.value (T : ℝ) : Expr → ℝ
  | .coef k0 EaR T0 _ _ => law k0 EaR T0 T
  | .mul a b => a.value T * b.value T
  | .mulc a c => a.value T * c
  | .div a b => a.value T / b.value T
  | .divc a c => a.value T / c
  | .rdivc c a => c / a.value T
  | .pow a c => a.value T ^ c

/-- Lower end of the common validity range. -/
noncomputable def Expr.lo : Expr → WithTop ℝ
  | .coef _ _ _ Tmin _ => Tmin
  | .mul a b => max a.lo b.lo
  | .mulc a _ => a.lo
  | .div a b => max a.lo b.lo
  | .divc a _ => a.lo
  | .rdivc _ a => a.lo
  | .pow a _ => a.lo

/-- Upper end of the common validity range. -/
noncomputable def Expr.hi : Expr → WithTop ℝ
  | .coef _ _ _ _ Tmax => Tmax
  | .mul a b => min a.hi b.hi
  | .mulc a _ => a.hi
  | .div a b => min a.hi b.hi
  | .divc a _ => a.hi
  | .rdivc _ a => a.hi
  | .pow a _ => a.hi

/-- All reference temperatures are nonzero. -/
def Expr.refs : Expr → Prop
  | .coef _ _ T0 _ _ => T0 ≠ 0
  | .mul a b => a.refs ∧ b.refs
  | .mulc a _ => a.refs
  | .div a b => a.refs ∧ b.refs
  | .divc a _ => a.refs
  | .rdivc _ a => a.refs
  | .pow a _ => a.refs

theorem invT_inv {T : WithTop ℝ} {a : ℝ} (h : invT T = .ok a) : a = recip T ∧ T ≠ 0 := by
  cases T with
  | top => exact ⟨(Except.ok.inj h).symm, by simp⟩
  | coe t => obtain ⟨h1, h2⟩ := pdiv_inv h; exact ⟨h2, by simpa using h1⟩

theorem invT_ok {T : WithTop ℝ} (h : T ≠ 0) : invT T = .ok (recip T) := by
  cases T with
  | top => rfl
  | coe t => exact if_neg (by simpa using h)

theorem call_ok {k : Arrhenius} {T : ℝ} (hT : 0 < T) (h : k.T0 ≠ 0) :
    call k T = .ok (law k.k0 k.EaR k.T0 T, decide ((T : WithTop ℝ) < k.Tmin ∨ (T : WithTop ℝ) > k.Tmax)) := by
  have h1 : ¬ (T : WithTop ℝ) < 0 := not_lt.2 (by exact_mod_cast hT.le)
  have h2 : (T : WithTop ℝ) ≠ 0 := by exact_mod_cast hT.ne'
  simp only [call, equation, if_neg h1, invT_ok h, invT_ok h2]
  rfl

theorem preexp_inv {k : Arrhenius} {a : ℝ} (h : preexp k = .ok a) : a = k.k0 * exp (k.EaR * recip k.T0) ∧ k.T0 ≠ 0 := by
  have h1 : ¬ (⊤ : WithTop ℝ) < 0 := not_lt.2 le_top
  simp only [preexp, call, equation, if_neg h1] at h
  obtain ⟨v, hv, h⟩ := bind_ok h
  obtain ⟨w, hw, hv⟩ := bind_ok hv
  obtain ⟨x, hx, hw⟩ := bind_ok hw
  obtain ⟨y, hy, hw⟩ := bind_ok hw
  obtain ⟨e1, h0⟩ := invT_inv hy
  have : x = 0 := (Except.ok.inj hx).symm
  have e2 := Except.ok.inj hw
  have e3 := Except.ok.inj hv
  have e4 := Except.ok.inj h
  refine ⟨?_, h0⟩
  rw [← e4, ← e3]
  show w = _
  rw [← e2, this, e1]
  congr 2
  ring

/-- What a successfully built coefficient is. -/
theorem build_spec (e : Expr) : ∀ k, e.build = .ok (some k) → 0 ≤ k.k0 ∧ k.Tmin = e.lo ∧ k.Tmax = e.hi ∧
    (e.refs → k.T0 ≠ 0) ∧ (k.T0 ≠ 0 → ∀ T, 0 < T → law k.k0 k.EaR k.T0 T = e.value T) := by
  have lawpos : ∀ (k0 E : ℝ) (T0 : WithTop ℝ) (T : ℝ), law k0 E T0 T = k0 * exp (-E * (1 / T - recip T0)) := fun _ _ _ _ => rfl
  induction e with
  | coef k0 EaR T0 Tmin Tmax =>
    intro k h
    obtain ⟨k', h', e⟩ := map_ok h
    obtain rfl := Option.some.inj e
    obtain ⟨rfl, h1, -, -⟩ := init_inv h'
    exact ⟨h1, rfl, rfl, fun h => h, fun _ T _ => rfl⟩
  | mul a b iha ihb =>
    intro k h
    simp only [Expr.build] at h
    obtain ⟨ka, ha, h⟩ := bind_ok h
    obtain ⟨kb, hb, h⟩ := bind_ok h
    cases ka with
    | none => cases h
    | some ka =>
      cases kb with
      | none => cases h
      | some kb =>
        obtain ⟨k', h', e⟩ := map_ok h
        obtain rfl := Option.some.inj e
        obtain ⟨a1, a2, a3, a5, a4⟩ := iha ka ha
        obtain ⟨b1, b2, b3, b5, b4⟩ := ihb kb hb
        simp only [mul] at h'
        obtain ⟨x, hx, h'⟩ := bind_ok h'
        obtain ⟨y, hy, h'⟩ := bind_ok h'
        obtain ⟨rfl, h1, -, -⟩ := init_inv h'
        obtain ⟨ex, hx0⟩ := preexp_inv hx
        obtain ⟨ey, hy0⟩ := preexp_inv hy
        refine ⟨h1, by rw [a2, b2]; rfl, by rw [a3, b3]; rfl, fun _ => WithTop.top_ne_zero, fun _ T hT => ?_⟩
        show law (x * y) (ka.EaR + kb.EaR) ⊤ T = _
        rw [Expr.value, ← a4 hx0 T hT, ← b4 hy0 T hT, lawpos, lawpos, lawpos, ex, ey]
        rw [show recip ⊤ = 0 from rfl]
        have : -(ka.EaR + kb.EaR) * (1 / T - 0) = -ka.EaR * (1 / T) + -kb.EaR * (1 / T) := by ring
        have e1 : -ka.EaR * (1 / T - recip ka.T0) = ka.EaR * recip ka.T0 + -ka.EaR * (1 / T) := by ring
        have e2 : -kb.EaR * (1 / T - recip kb.T0) = kb.EaR * recip kb.T0 + -kb.EaR * (1 / T) := by ring
        rw [this, e1, e2, exp_add, exp_add, exp_add]
        ring
  | mulc a c iha =>
    intro k h
    simp only [Expr.build] at h
    obtain ⟨ka, ha, h⟩ := bind_ok h
    cases ka with
    | none => cases h
    | some ka =>
      obtain ⟨k', h', e⟩ := map_ok h
      obtain rfl := Option.some.inj e
      obtain ⟨a1, a2, a3, a5, a4⟩ := iha ka ha
      obtain ⟨rfl, h1, -, -⟩ := init_inv h'
      refine ⟨h1, a2, a3, a5, fun h0 T hT => ?_⟩
      rw [Expr.value, ← a4 h0 T hT, lawpos, lawpos]
      ring
  | div a b iha ihb =>
    intro k h
    simp only [Expr.build] at h
    obtain ⟨ka, ha, h⟩ := bind_ok h
    obtain ⟨kb, hb, h⟩ := bind_ok h
    cases ka with
    | none => cases h
    | some ka =>
      cases kb with
      | none => cases h
      | some kb =>
        obtain ⟨a1, a2, a3, a5, a4⟩ := iha ka ha
        obtain ⟨b1, b2, b3, b5, b4⟩ := ihb kb hb
        simp only [div] at h
        obtain ⟨x, hx, h⟩ := bind_ok h
        obtain ⟨y, hy, h⟩ := bind_ok h
        split_ifs at h with hy0 hx0
        · cases h
        · cases h
        obtain ⟨k', h', e⟩ := bind_ok h
        have e := Except.ok.inj e
        obtain rfl := Option.some.inj e
        obtain ⟨rfl, h1, -, -⟩ := init_inv h'
        obtain ⟨ex, hx0⟩ := preexp_inv hx
        obtain ⟨ey, hy1⟩ := preexp_inv hy
        refine ⟨h1, by rw [a2, b2]; rfl, by rw [a3, b3]; rfl, fun _ => WithTop.top_ne_zero, fun _ T hT => ?_⟩
        show law (x / y) (ka.EaR - kb.EaR) ⊤ T = _
        rw [Expr.value, ← a4 hx0 T hT, ← b4 hy1 T hT, lawpos, lawpos, lawpos, ex, ey]
        rw [show recip ⊤ = 0 from rfl]
        have kb0 : kb.k0 ≠ 0 := fun h => hy0 (by rw [ey, h, zero_mul])
        have : -(ka.EaR - kb.EaR) * (1 / T - 0) = -ka.EaR * (1 / T) - -kb.EaR * (1 / T) := by ring
        have e1 : -ka.EaR * (1 / T - recip ka.T0) = ka.EaR * recip ka.T0 + -ka.EaR * (1 / T) := by ring
        have e2 : -kb.EaR * (1 / T - recip kb.T0) = kb.EaR * recip kb.T0 + -kb.EaR * (1 / T) := by ring
        rw [this, e1, e2, exp_add, exp_sub, exp_add]
        have := (exp_pos (kb.EaR * recip kb.T0)).ne'
        have := (exp_pos (-kb.EaR * (1 / T))).ne'
        field_simp
  | divc a c iha =>
    intro k h
    simp only [Expr.build] at h
    obtain ⟨ka, ha, h⟩ := bind_ok h
    cases ka with
    | none => cases h
    | some ka =>
      obtain ⟨k', h', e⟩ := map_ok h
      obtain rfl := Option.some.inj e
      obtain ⟨a1, a2, a3, a5, a4⟩ := iha ka ha
      obtain ⟨q, hq, h'⟩ := bind_ok h'
      obtain ⟨hc, rfl⟩ := pdiv_inv hq
      obtain ⟨rfl, h1, -, -⟩ := init_inv h'
      refine ⟨h1, a2, a3, a5, fun h0 T hT => ?_⟩
      rw [Expr.value, ← a4 h0 T hT, lawpos, lawpos]
      ring
  | rdivc c a iha =>
    intro k h
    simp only [Expr.build] at h
    obtain ⟨ka, ha, h⟩ := bind_ok h
    cases ka with
    | none => cases h
    | some ka =>
      obtain ⟨k', h', e⟩ := map_ok h
      obtain rfl := Option.some.inj e
      obtain ⟨a1, a2, a3, a5, a4⟩ := iha ka ha
      obtain ⟨q, hq, h'⟩ := bind_ok h'
      obtain ⟨hc, rfl⟩ := pdiv_inv hq
      obtain ⟨rfl, h1, -, -⟩ := init_inv h'
      refine ⟨h1, a2, a3, a5, fun h0 T hT => ?_⟩
      rw [Expr.value, ← a4 h0 T hT, lawpos, lawpos]
      have : -(-ka.EaR) * (1 / T - recip ka.T0) = -(-ka.EaR * (1 / T - recip ka.T0)) := by ring
      show c / ka.k0 * exp (-(-ka.EaR) * (1 / T - recip ka.T0)) = _
      rw [this, exp_neg, div_mul_eq_div_div, div_eq_mul_inv (c / ka.k0)]
  | pow a c iha =>
    intro k h
    simp only [Expr.build] at h
    obtain ⟨ka, ha, h⟩ := bind_ok h
    cases ka with
    | none => cases h
    | some ka =>
      obtain ⟨k', h', e⟩ := map_ok h
      obtain rfl := Option.some.inj e
      obtain ⟨a1, a2, a3, a5, a4⟩ := iha ka ha
      simp only [pow] at h'
      split_ifs at h'
      obtain ⟨rfl, h1, -, -⟩ := init_inv h'
      refine ⟨h1, a2, a3, a5, fun h0 T hT => ?_⟩
      rw [Expr.value, ← a4 h0 T hT, lawpos, lawpos, mul_rpow a1 (exp_pos _).le, ← exp_mul]
      congr 2
      ring

/-- **C43.** Whatever expression of products, quotients, powers and multiples is built, calling the result at a temperature `T` returns
the same expression of the values at `T`, and warns exactly if `T` is outside the intersection of the validity ranges. -/
theorem C43_expressions (e : Expr) (k : Arrhenius) (h : e.build = .ok (some k)) (T : ℝ) (hT : 0 < T) (h0 : e.refs) :
    ∃ warned, call k T = .ok (e.value T, warned) ∧ (warned = true ↔ ¬ (e.lo ≤ T ∧ (T : WithTop ℝ) ≤ e.hi)) := by
  obtain ⟨-, h2, h3, h5, h4⟩ := build_spec e k h
  replace h0 := h5 h0
  refine ⟨_, (call_ok hT h0).trans (by rw [h4 h0 T hT]), ?_⟩
  rw [h2, h3, decide_eq_true_iff, not_and_or, not_le, not_le]

/-- **C43.** At the reference temperature the value is `k0`. -/
theorem C43_reference (k0 EaR T0 : ℝ) (Tmin Tmax : WithTop ℝ) (hT0 : 0 < T0) (k : Arrhenius) (h : init k0 EaR T0 Tmin Tmax = .ok k) :
    ∃ w, call k T0 = .ok (k0, w) := by
  obtain ⟨rfl, -, -, -⟩ := init_inv h
  refine ⟨decide ((T0 : WithTop ℝ) < Tmin ∨ (T0 : WithTop ℝ) > Tmax),
    (call_ok hT0 (show (T0 : WithTop ℝ) ≠ 0 by exact_mod_cast hT0.ne')).trans ?_⟩
  simp only [law, recip, sub_self, mul_zero, exp_zero, mul_one]

/-- **C43.** A reference temperature of zero is accepted, and every later call fails. -/
theorem C43_zero_reference_false : ∃ k, init 1 1000 0 0 ⊤ = .ok k ∧ ∀ T : ℝ, 0 < T → call k T = .error .ZeroDivisionError := by
  refine ⟨⟨1, 1000, 0, 0, ⊤⟩, ?_, fun T hT => ?_⟩
  · have h : okSpan 0 ⊤ := trivial
    simp [init, h]
  · have h1 : ¬ (T : WithTop ℝ) < 0 := not_lt.2 (by exact_mod_cast hT.le)
    have h2 : (T : WithTop ℝ) ≠ 0 := by exact_mod_cast hT.ne'
    have h3 : invT 0 = .error .ZeroDivisionError := if_pos rfl
    simp only [call, equation, if_neg h1, invT_ok h2, h3]
    rfl

/-- **C43.** A coefficient is refused exactly if `k0`, `T0` or the range bounds are negative, or the range is (almost) empty. -/
theorem C43_refused (k0 EaR a b T0 : ℝ) :
    (∃ k, init k0 EaR T0 a b = .ok k) ↔ 0 ≤ k0 ∧ 0 ≤ T0 ∧ 0 ≤ a ∧ 0 ≤ b ∧ eps ≤ b - a := by
  have c : ∀ x : ℝ, (0 : WithTop ℝ) ≤ x ↔ 0 ≤ x := fun x => by exact_mod_cast Iff.rfl
  constructor
  · rintro ⟨k, h⟩
    unfold init at h
    split_ifs at h with h1 h2 h3 h4 h5
    rw [c] at h2 h3 h4
    exact ⟨h1, h2, h3, h4, h5⟩
  · rintro ⟨h1, h2, h3, h4, h5⟩
    refine ⟨⟨k0, EaR, T0, a, b⟩, ?_⟩
    unfold init
    rw [if_neg (not_not.2 h1), if_neg (not_not.2 ((c _).2 h2)), if_neg (not_not.2 ((c _).2 h3)), if_neg (not_not.2 ((c _).2 h4)),
      if_neg (not_not.2 (show okSpan a b from h5))]

/-- **C43.** The product of coefficients whose validity ranges do not overlap is refused. -/
theorem C43_disjoint (k l : Arrhenius) (hk : k.T0 ≠ 0) (hl : l.T0 ≠ 0) (h : k.Tmax ≤ l.Tmin) : mul k l = .error .RangeError := by
  have pre : ∀ m : Arrhenius, m.T0 ≠ 0 → ∃ a, preexp m = .ok a := fun m hm => by
    have h1 : ¬ (⊤ : WithTop ℝ) < 0 := not_lt.2 le_top
    simp only [preexp, call, equation, if_neg h1, invT_ok hm, invT_ok (show (⊤ : WithTop ℝ) ≠ 0 by simp)]
    exact ⟨_, rfl⟩
  obtain ⟨a, ha⟩ := pre k hk
  obtain ⟨b, hb⟩ := pre l hl
  have hs : ¬ okSpan (max k.Tmin l.Tmin) (min k.Tmax l.Tmax) := by
    have hle : min k.Tmax l.Tmax ≤ max k.Tmin l.Tmin := (min_le_left _ _).trans (h.trans (le_max_right _ _))
    generalize min k.Tmax l.Tmax = x at hle
    generalize max k.Tmin l.Tmin = y at hle
    cases y with
    | top => exact id
    | coe y =>
      cases x with
      | top => exact absurd hle (by simp)
      | coe x =>
        have : x ≤ y := by exact_mod_cast hle
        intro h'
        have h' : eps ≤ x - y := h'
        have : (0 : ℝ) < eps := by unfold eps; positivity
        linarith
  simp only [mul]
  rw [ha, hb]
  show init _ _ _ _ _ = _
  unfold init
  split_ifs
  all_goals rfl

/-- The hypotheses of `C43_expressions` are met, for instance by `kp / kt^(1/2)`. -/
example : ∃ k, (Expr.div (.coef 2 1000 300 200 400) (.pow (.coef 4 500 ⊤ 100 ⊤) (1 / 2))).build = .ok (some k) ∧
    (Expr.div (.coef 2 1000 300 200 400) (.pow (.coef 4 500 ⊤ 100 ⊤) (1 / 2))).refs ∧ (Expr.div (.coef 2 1000 300 200 400) (.pow (.coef 4 500 ⊤ 100 ⊤) (1 / 2))).hi = 400 := by
  have c : ∀ x : ℝ, 0 ≤ x → (0 : WithTop ℝ) ≤ (x : WithTop ℝ) := fun x h => by exact_mod_cast h
  have ini : ∀ (k0 E : ℝ) (T0 a b : WithTop ℝ), 0 ≤ k0 → 0 ≤ T0 → 0 ≤ a → 0 ≤ b → okSpan a b → init k0 E T0 a b = .ok ⟨k0, E, T0, a, b⟩ := by
    intro k0 E T0 a b h1 h2 h3 h4 h5
    simp only [init, h1, h2, h3, h4, h5, not_true_eq_false, if_false]
  have pre : ∀ m : Arrhenius, m.T0 ≠ 0 → 0 < m.k0 → ∃ a, 0 < a ∧ preexp m = .ok a := fun m hm hp => by
    have h1 : ¬ (⊤ : WithTop ℝ) < 0 := not_lt.2 le_top
    simp only [preexp, call, equation, if_neg h1, invT_ok hm, invT_ok (show (⊤ : WithTop ℝ) ≠ 0 by simp)]
    exact ⟨_, mul_pos hp (exp_pos _), rfl⟩
  have e1 := ini 2 1000 ((300 : ℝ) : WithTop ℝ) ((200 : ℝ) : WithTop ℝ) ((400 : ℝ) : WithTop ℝ) (by norm_num) (c _ (by norm_num))
    (c _ (by norm_num)) (c _ (by norm_num)) (show eps ≤ 400 - 200 by unfold eps; norm_num)
  have e2 := ini 4 500 ⊤ ((100 : ℝ) : WithTop ℝ) ⊤ (by norm_num) le_top (c _ (by norm_num)) le_top trivial
  have e3 := ini (4 ^ (1 / 2 : ℝ)) (500 * (1 / 2)) ⊤ ((100 : ℝ) : WithTop ℝ) ⊤ (by positivity) le_top (c _ (by norm_num)) le_top trivial
  obtain ⟨a, ha, ea⟩ := pre ⟨2, 1000, ((300 : ℝ) : WithTop ℝ), ((200 : ℝ) : WithTop ℝ), ((400 : ℝ) : WithTop ℝ)⟩
    (show ((300 : ℝ) : WithTop ℝ) ≠ 0 by exact_mod_cast (by norm_num : (300 : ℝ) ≠ 0)) (by norm_num)
  obtain ⟨b, hb, eb⟩ := pre ⟨4 ^ (1 / 2 : ℝ), 500 * (1 / 2), ⊤, ((100 : ℝ) : WithTop ℝ), ⊤⟩ (show (⊤ : WithTop ℝ) ≠ 0 by simp)
    (show (0 : ℝ) < 4 ^ (1 / 2 : ℝ) by positivity)
  have hmax : max ((200 : ℝ) : WithTop ℝ) ((100 : ℝ) : WithTop ℝ) = ((200 : ℝ) : WithTop ℝ) := max_eq_left (by exact_mod_cast (by norm_num : (100 : ℝ) ≤ 200))
  have e4 := ini (a / b) (1000 - 500 * (1 / 2)) ⊤ ((200 : ℝ) : WithTop ℝ) ((400 : ℝ) : WithTop ℝ) (by positivity) le_top
    (c _ (by norm_num)) (c _ (by norm_num)) (show eps ≤ 400 - 200 by unfold eps; norm_num)
  refine ⟨⟨a / b, 1000 - 500 * (1 / 2), ⊤, ((200 : ℝ) : WithTop ℝ), ((400 : ℝ) : WithTop ℝ)⟩, ?_, by simp [Expr.refs], by simp [Expr.hi]⟩
  have b1 : (Expr.coef 2 1000 300 200 400).build = .ok (some ⟨2, 1000, ((300 : ℝ) : WithTop ℝ), ((200 : ℝ) : WithTop ℝ), ((400 : ℝ) : WithTop ℝ)⟩) :=
    congrArg (Except.map some) e1
  have b2 : (Expr.coef 4 500 ⊤ 100 ⊤).build = .ok (some ⟨4, 500, ⊤, ((100 : ℝ) : WithTop ℝ), ⊤⟩) := congrArg (Except.map some) e2
  have b3 : (Expr.pow (.coef 4 500 ⊤ 100 ⊤) (1 / 2)).build = .ok (some ⟨4 ^ (1 / 2 : ℝ), 500 * (1 / 2), ⊤, ((100 : ℝ) : WithTop ℝ), ⊤⟩) := by
    rw [Expr.build, b2]
    show Except.map some (pow _ _) = _
    rw [pow, if_neg (by norm_num), e3]
    rfl
  rw [Expr.build, b1, b3]
  show div _ _ = _
  rw [div, ea, eb]
  show (do
    if b = 0 then
      if a = 0 then throw .RangeError else return none
    let r ← init (a / b) (1000 - 500 * (1 / 2)) ⊤ (max ((200 : ℝ) : WithTop ℝ) ((100 : ℝ) : WithTop ℝ)) (min ((400 : ℝ) : WithTop ℝ) ⊤)
    return some r : Except Err (Option Arrhenius)) = _
  rw [if_neg hb.ne', hmax, min_eq_left le_top, e4]
  rfl

/-! ### C78 -/

/-- **C78.** When it warns: exactly if the upper temperature bound of a factor is finite. -/
theorem C78_warns (k l : Arrhenius) (hk : k.T0 ≠ 0) (hl : l.T0 ≠ 0) :
    mulWarns k l = .ok true ∧ (k.Tmax < ⊤ ∨ l.Tmax < ⊤) ∨ mulWarns k l = .ok false ∧ k.Tmax = ⊤ ∧ l.Tmax = ⊤ := by
  have h1 : ¬ (⊤ : WithTop ℝ) < 0 := not_lt.2 le_top
  have e : mulWarns k l = .ok (decide (k.Tmax < ⊤ ∨ l.Tmax < ⊤)) := by
    simp only [mulWarns, call, equation, if_neg h1, invT_ok hk, invT_ok hl, invT_ok (show (⊤ : WithTop ℝ) ≠ 0 by simp)]
    refine congrArg Except.ok ?_
    simp
  rw [e]
  by_cases h : k.Tmax < ⊤ ∨ l.Tmax < ⊤
  · exact .inl ⟨congrArg _ (decide_eq_true h), h⟩
  · refine .inr ⟨congrArg _ (decide_eq_false h), ?_⟩
    simpa [not_or] using h

/-- **C78.** Multiplying or dividing two coefficients warns about an out-of-range temperature although none was supplied. -/
theorem C78_silent_false : ∃ k l : Arrhenius, init 1 1000 300 200 400 = .ok k ∧ init 1 1000 300 200 400 = .ok l ∧ mulWarns k l = .ok true := by
  have c : ∀ x : ℝ, 0 ≤ x → (0 : WithTop ℝ) ≤ (x : WithTop ℝ) := fun x h => by exact_mod_cast h
  have h1 : (0 : WithTop ℝ) ≤ 300 := c 300 (by norm_num)
  have h2 : (0 : WithTop ℝ) ≤ 200 := c 200 (by norm_num)
  have h3 : (0 : WithTop ℝ) ≤ 400 := c 400 (by norm_num)
  have h4 : okSpan 200 400 := show eps ≤ 400 - 200 by unfold eps; norm_num
  have e : init 1 1000 300 200 400 = .ok ⟨1, 1000, 300, 200, 400⟩ := by
    simp [init, h1, h2, h3, h4]
  have h0 : (300 : WithTop ℝ) ≠ 0 := by simp
  have hf : (400 : WithTop ℝ) < ⊤ := WithTop.coe_lt_top (400 : ℝ)
  refine ⟨_, _, e, e, ?_⟩
  rcases C78_warns ⟨1, 1000, 300, 200, 400⟩ ⟨1, 1000, 300, 200, 400⟩ h0 h0 with h | h
  · exact h.1
  · exact (hf.ne h.2.1).elim

example : (⟨1, 1000, ⊤, 0, ⊤⟩ : Arrhenius).T0 ≠ 0 ∧ (⟨1, 1000, ⊤, 0, ⊤⟩ : Arrhenius).Tmax = ⊤ := by simp

/-! ### C44 -/

/-- **C44.** Symmetric in the two chain lengths. -/
theorem C44_termination_symm (i j : ℕ) (kt11 : ℝ) (icrit : ℕ) (aS aL : ℝ) : ktij i j kt11 icrit aS aL = ktij j i kt11 icrit aS aL := by
  unfold ktij; rw [mul_comm]

/-- **C44.** Equal to `kt11` for two radicals of length one. -/
theorem C44_termination_one (kt11 : ℝ) (hk : 0 ≤ kt11) (icrit : ℕ) (hc : 1 ≤ icrit) (aS aL : ℝ) : ktij 1 1 kt11 icrit aS aL = kt11 := by
  simp only [ktij, ktii, if_pos hc, Nat.cast_one, one_rpow, mul_one]
  exact Real.sqrt_mul_self hk

/-- **C44.** The cross coefficient is the geometric mean of the like ones. -/
theorem C44_termination_mean (kt11 : ℝ) (hk : 0 < kt11) (icrit : ℕ) (hc : 1 ≤ icrit) (aS aL : ℝ) (i j : ℕ) (hi : 1 ≤ i) (hj : 1 ≤ j) :
    ktij i j kt11 icrit aS aL ^ 2 = ktij i i kt11 icrit aS aL * ktij j j kt11 icrit aS aL := by
  have h1 := ktii_pos hk hc (aS := aS) (aL := aL) hi
  have h2 := ktii_pos hk hc (aS := aS) (aL := aL) hj
  simp only [ktij]
  rw [Real.sq_sqrt (by positivity), Real.sqrt_mul_self h1.le, Real.sqrt_mul_self h2.le]

/-- **C44.** Short chains follow `kt11 i^(-aS)`, long ones a power law with exponent `-aL`, and the two laws meet at `icrit`. -/
theorem C44_termination_laws (kt11 : ℝ) (hk : 0 < kt11) (icrit : ℕ) (hc : 1 ≤ icrit) (aS aL : ℝ) :
    (∀ i : ℕ, 1 ≤ i → i ≤ icrit → ktij i i kt11 icrit aS aL = kt11 * (i : ℝ) ^ (-aS)) ∧
    (∀ i : ℕ, icrit ≤ i → ktij i i kt11 icrit aS aL = ktij icrit icrit kt11 icrit aS aL * ((i : ℝ) / icrit) ^ (-aL)) := by
  have hc' : (0 : ℝ) < icrit := by exact_mod_cast hc
  have like : ∀ i : ℕ, 1 ≤ i → ktij i i kt11 icrit aS aL = ktii kt11 icrit aS aL i := fun i hi =>
    Real.sqrt_mul_self (ktii_pos hk hc hi).le
  refine ⟨fun i h1 h2 => by rw [like i h1, ktii, if_pos h2], fun i hi => ?_⟩
  have hi' : (0 : ℝ) < i := by exact_mod_cast hc.trans hi
  rw [like i (hc.trans hi), like icrit hc, ktii, ktii, if_pos le_rfl, div_rpow hi'.le hc'.le]
  have e : (icrit : ℝ) ^ (-aS) = (icrit : ℝ) ^ (-aS + aL) * (icrit : ℝ) ^ (-aL) := by rw [← rpow_add hc']; congr 1; ring
  have := (rpow_pos_of_pos hc' (-aL)).ne'
  split_ifs with h
  · obtain rfl : i = icrit := le_antisymm h hi
    field_simp
  · rw [e]; field_simp

/-- **C44.** Longer radicals terminate more slowly. -/
theorem C44_termination_antitone (kt11 : ℝ) (hk : 0 < kt11) (icrit : ℕ) (hc : 1 ≤ icrit) (aS aL : ℝ) (hS : 0 ≤ aS) (hL : 0 ≤ aL)
    (i i' j j' : ℕ) (hi : 1 ≤ i) (hj : 1 ≤ j) (hii : i ≤ i') (hjj : j ≤ j') : ktij i' j' kt11 icrit aS aL ≤ ktij i j kt11 icrit aS aL := by
  have hc' : (0 : ℝ) < icrit := by exact_mod_cast hc
  have anti : ∀ {x y a : ℝ}, 0 < x → x ≤ y → 0 ≤ a → y ^ (-a) ≤ x ^ (-a) := fun hx hxy ha =>
    rpow_le_rpow_of_nonpos hx hxy (by linarith)
  have mono : ∀ i i' : ℕ, 1 ≤ i → i ≤ i' → ktii kt11 icrit aS aL i' ≤ ktii kt11 icrit aS aL i := by
    intro i i' hi hii
    have h1 : (0 : ℝ) < i := by exact_mod_cast hi
    have h2 : (i : ℝ) ≤ i' := by exact_mod_cast hii
    have e : (icrit : ℝ) ^ (-aS) = (icrit : ℝ) ^ (-aS + aL) * (icrit : ℝ) ^ (-aL) := by rw [← rpow_add hc']; congr 1; ring
    unfold ktii
    split_ifs with a b b
    · exact mul_le_mul_of_nonneg_left (anti h1 h2 hS) hk.le
    · omega
    · have b' : (i : ℝ) ≤ icrit := by exact_mod_cast b
      have a' : (icrit : ℝ) ≤ i' := by exact_mod_cast (not_le.1 a).le
      rw [mul_assoc]
      refine mul_le_mul_of_nonneg_left ?_ hk.le
      calc (icrit : ℝ) ^ (-aS + aL) * (i' : ℝ) ^ (-aL) ≤ (icrit : ℝ) ^ (-aS + aL) * (icrit : ℝ) ^ (-aL) :=
            mul_le_mul_of_nonneg_left (anti hc' a' hL) (by positivity)
        _ = (icrit : ℝ) ^ (-aS) := e.symm
        _ ≤ _ := anti h1 b' hS
    · exact mul_le_mul_of_nonneg_left (anti h1 h2 hL) (by positivity)
  refine Real.sqrt_le_sqrt (mul_le_mul (mono i i' hi hii) (mono j j' hj hjj) (ktii_pos hk hc (hj.trans hjj)).le (ktii_pos hk hc hi).le)

/-- **C44.** `PropagationHalfLength`: `C kp` for monomeric radicals, the excess over `kp` halves at every half-length. -/
theorem C44_propagation_half (i kp C ihalf : ℝ) (h : 0 < ihalf) :
    kpi 1 kp C ihalf = C * kp ∧ kpi (i + ihalf) kp C ihalf - kp = (kpi i kp C ihalf - kp) / 2 := by
  constructor
  · simp only [kpi, sub_self, mul_zero, zero_div, exp_zero]; ring
  · simp only [kpi]
    have : -log 2 * (i + ihalf - 1) / ihalf = -log 2 * (i - 1) / ihalf + -log 2 := by field_simp; ring
    rw [this, exp_add, exp_neg (log 2), exp_log two_pos]
    ring

/-- **C44.** It decreases with chain length, stays above `kp` and tends to `kp`. -/
theorem C44_propagation_decreases (kp C ihalf : ℝ) (hk : 0 ≤ kp) (hC : 1 ≤ C) (h : 0 < ihalf) :
    Antitone (fun i => kpi i kp C ihalf) ∧ (∀ i, kp ≤ kpi i kp C ihalf) ∧
      Filter.Tendsto (fun i => kpi i kp C ihalf) Filter.atTop (nhds kp) := by
  have hl : 0 < log 2 := log_pos one_lt_two
  refine ⟨fun a b hab => ?_, fun i => ?_, ?_⟩
  · refine mul_le_mul_of_nonneg_left (add_le_add le_rfl (mul_le_mul_of_nonneg_left (exp_le_exp.2 ?_) (by linarith))) hk
    rw [div_le_div_iff_of_pos_right h]
    nlinarith
  · have : 0 ≤ (C - 1) * exp (-log 2 * (i - 1) / ihalf) := mul_nonneg (by linarith) (exp_pos _).le
    unfold kpi; nlinarith
  · have t1 : Filter.Tendsto (fun i : ℝ => (log 2 / ihalf) * (i - 1)) Filter.atTop Filter.atTop :=
      (Filter.tendsto_id.atTop_add (tendsto_const_nhds (x := (-1 : ℝ)))).const_mul_atTop (by positivity)
    have t2 := tendsto_exp_neg_atTop_nhds_zero.comp t1
    have t3 := ((t2.const_mul (C - 1)).const_add 1).const_mul kp
    simp only [mul_zero, add_zero, mul_one] at t3
    refine t3.congr fun i => ?_
    simp only [kpi, Function.comp_apply]
    congr 4
    ring

example : (0 : ℝ) < 1e9 ∧ (1 : ℕ) ≤ 50 ∧ (0 : ℝ) ≤ 1 / 2 ∧ (1 : ℝ) ≤ 10 ∧ (3 : ℕ) ≤ 7 := by norm_num

/-! ### C45 -/

/-- **C45.** Without desorption the Li-Brooks formula is `√(2α + 1)/2`, hence 1/2 in the limit of slow entry. -/
theorem C45_zero_one_limit : (∀ α, 0 < α → nbarLiBrooks α 0 = √(2 * α + 1) / 2) ∧
    Filter.Tendsto (fun α => nbarLiBrooks α 0) (nhdsWithin 0 (Set.Ioi 0)) (nhds (1 / 2)) := by
  have key : ∀ α, 0 < α → nbarLiBrooks α 0 = √(2 * α + 1) / 2 := by
    intro α h
    have h1 : 0 < 2 * α + 1 := by positivity
    have e : (0 : ℝ) ^ 2 + 8 * α * (2 * α + 0) / (2 * α + 0 + 1) = (4 * α / √(2 * α + 1)) ^ 2 := by
      rw [div_pow, Real.sq_sqrt h1.le]; field_simp; ring
    rw [nbarLiBrooks, e, Real.sqrt_sq (by positivity), zero_add]
    have := (Real.sqrt_pos.2 h1).ne'
    field_simp
    norm_num
  refine ⟨key, ?_⟩
  have t : Filter.Tendsto (fun α : ℝ => √(2 * α + 1) / 2) (nhdsWithin 0 (Set.Ioi 0)) (nhds (1 / 2)) := by
    have : Continuous fun α : ℝ => √(2 * α + 1) / 2 := by fun_prop
    have := this.tendsto 0
    simp only [mul_zero, zero_add, Real.sqrt_one] at this
    exact this.mono_left nhdsWithin_le_nhds
  refine t.congr' ?_
  filter_upwards [self_mem_nhdsWithin] with α hα
  exact (key α hα).symm

/-- **C45.** More frequent entry gives more radicals, more frequent desorption fewer. -/
theorem C45_monotone (α α' m m' : ℝ) (hα : 0 < α) (hαα : α ≤ α') (hm : 0 ≤ m) (hmm : m ≤ m') :
    0 < nbarLiBrooks α m ∧ nbarLiBrooks α m ≤ nbarLiBrooks α' m ∧ nbarLiBrooks α m' ≤ nbarLiBrooks α m := by
  have hα' : 0 < α' := hα.trans_le hαα
  have form : ∀ a m : ℝ, 0 < a → 0 ≤ m → nbarLiBrooks a m = 2 / (m / a + √((m / a) ^ 2 + 8 * ((2 + m / a) / (2 * a + m + 1)))) := by
    intro a m ha hm
    have h1 : 0 < 2 * a + m + 1 := by positivity
    have e : (m / a) ^ 2 + 8 * ((2 + m / a) / (2 * a + m + 1)) = (m ^ 2 + 8 * a * (2 * a + m) / (2 * a + m + 1)) / a ^ 2 := by
      field_simp
    have h2 : 0 < m ^ 2 + 8 * a * (2 * a + m) / (2 * a + m + 1) := by positivity
    rw [e, Real.sqrt_div h2.le, Real.sqrt_sq ha.le, nbarLiBrooks, ← add_div]
    have : 0 < √(m ^ 2 + 8 * a * (2 * a + m) / (2 * a + m + 1)) := Real.sqrt_pos.2 h2
    field_simp
  have dpos : ∀ a m : ℝ, 0 < a → 0 ≤ m → 0 < m + √(m ^ 2 + 8 * a * (2 * a + m) / (2 * a + m + 1)) := by
    intro a m ha hm
    have : 0 < √(m ^ 2 + 8 * a * (2 * a + m) / (2 * a + m + 1)) := Real.sqrt_pos.2 (by positivity)
    positivity
  refine ⟨div_pos (by positivity) (dpos α m hα hm), ?_, ?_⟩
  · rw [form α m hα hm, form α' m hα' hm]
    have h1 : m / α' ≤ m / α := div_le_div_of_nonneg_left hm hα hαα
    have h2 : (2 + m / α') / (2 * α' + m + 1) ≤ (2 + m / α) / (2 * α + m + 1) :=
      div_le_div₀ (by positivity) (by linarith) (by positivity) (by linarith)
    have h0 : 0 ≤ m / α' := by positivity
    have h3 : √((m / α') ^ 2 + 8 * ((2 + m / α') / (2 * α' + m + 1))) ≤ √((m / α) ^ 2 + 8 * ((2 + m / α) / (2 * α + m + 1))) :=
      Real.sqrt_le_sqrt (by nlinarith)
    have h4 : 0 < √((m / α') ^ 2 + 8 * ((2 + m / α') / (2 * α' + m + 1))) := Real.sqrt_pos.2 (by positivity)
    exact div_le_div_of_nonneg_left (by norm_num) (by positivity) (by linarith)
  · have hm' : 0 ≤ m' := hm.trans hmm
    refine div_le_div_of_nonneg_left (by positivity) (dpos α m hα hm) (add_le_add hmm (Real.sqrt_le_sqrt ?_))
    have h2 : 8 * α * (2 * α + m) / (2 * α + m + 1) ≤ 8 * α * (2 * α + m') / (2 * α + m' + 1) := by
      rw [div_le_div_iff₀ (by positivity) (by positivity)]
      nlinarith [mul_nonneg hα.le (sub_nonneg.2 hmm)]
    nlinarith

/-- **C45.** No entry, no radicals (with desorption). Without entry and without desorption the call returns NaN; everywhere else it is defined. -/
theorem C45_no_entry : (∀ m, 0 < m → nbarLiBrooksCall 0 m = some 0) ∧ nbarLiBrooksCall 0 0 = none ∧
    ∀ α m, 0 ≤ α → 0 ≤ m → (nbarLiBrooksCall α m = none ↔ α = 0 ∧ m = 0) ∧
      ∀ x, nbarLiBrooksCall α m = some x → x = nbarLiBrooks α m := by
  have key : ∀ α m, 0 ≤ α → 0 ≤ m → (m + √(m ^ 2 + 8 * α * (2 * α + m) / (2 * α + m + 1)) = 0 ↔ α = 0 ∧ m = 0) := by
    intro α m hα hm
    have hs := Real.sqrt_nonneg (m ^ 2 + 8 * α * (2 * α + m) / (2 * α + m + 1))
    constructor
    · intro h
      have h1 : m = 0 := by linarith
      subst h1
      have h2 : √((0 : ℝ) ^ 2 + 8 * α * (2 * α + 0) / (2 * α + 0 + 1)) = 0 := by linarith
      rw [Real.sqrt_eq_zero (by positivity)] at h2
      have h3 : 8 * α * (2 * α + 0) / (2 * α + 0 + 1) = 0 := by linarith
      rw [div_eq_zero_iff] at h3
      rcases h3 with h3 | h3
      · exact ⟨by nlinarith, rfl⟩
      · linarith
    · rintro ⟨rfl, rfl⟩; simp
  have call : ∀ α m, 0 ≤ α → 0 ≤ m → nbarLiBrooksCall α m = if α = 0 ∧ m = 0 then none else some (nbarLiBrooks α m) := by
    intro α m hα hm
    unfold nbarLiBrooksCall
    simp only [key α m hα hm]
  refine ⟨fun m hm => ?_, ?_, fun α m hα hm => ?_⟩
  · rw [call 0 m le_rfl hm.le, if_neg (by rintro ⟨_, h⟩; exact hm.ne' h)]
    simp [nbarLiBrooks]
  · rw [call 0 0 le_rfl le_rfl, if_pos ⟨rfl, rfl⟩]
  · rw [call α m hα hm]
    split_ifs with h
    · exact ⟨⟨fun _ => h, fun _ => rfl⟩, by simp⟩
    · refine ⟨⟨by simp, fun h' => absurd h' h⟩, fun x hx => ?_⟩
      simpa using hx.symm

example : (0 : ℝ) < 1 ∧ (1 : ℝ) ≤ 2 ∧ (0 : ℝ) ≤ 1 / 2 := by norm_num

/-! ### C77 -/

/-- **C77.** The Stockmayer-O'Toole number satisfies the exact recurrence in the desorption frequency: `n(α, m) = α/(m + 2 n(α, m + 1))`. -/
theorem C77_recurrence (α m : ℝ) (hα : 0 < α) (hm : 0 ≤ m) : nbarOToole α m * (m + 2 * nbarOToole α (m + 1)) = α := by
  have ha : 0 < √(8 * α) := Real.sqrt_pos.2 (by positivity)
  have e : √(8 * α) ^ 2 = 8 * α := Real.sq_sqrt (by positivity)
  have r := iv_rec' hm ha
  have h1 := iv_pos (m := m) (by linarith) ha
  have h2 := iv_pos (m := m + 1) (by linarith) ha
  have h0 : 0 < iv (m - 1) √(8 * α) := by rw [r]; positivity
  unfold nbarOToole
  rw [add_sub_cancel_right]
  generalize √(8 * α) = a at *
  have e' : α = a ^ 2 / 8 := by linarith
  have : a / 4 * iv m a / iv (m - 1) a * (m + 2 * (a / 4 * iv (m + 1) a / iv m a)) =
      a ^ 2 / 8 * (2 * m / a * iv m a + iv (m + 1) a) / iv (m - 1) a := by
    field_simp
    ring
  rw [this, ← r, e', mul_div_assoc, div_self h0.ne', mul_one]

/-- **C77.** It is positive, and with desorption it is below `α/m`. -/
theorem C77_bounds (α m : ℝ) (hα : 0 < α) (hm : 0 ≤ m) : 0 < nbarOToole α m ∧ (0 < m → nbarOToole α m < α / m) := by
  have pos : ∀ m, 0 ≤ m → 0 < nbarOToole α m := by
    intro m hm
    have ha : 0 < √(8 * α) := Real.sqrt_pos.2 (by positivity)
    have h1 := iv_pos (m := m) (by linarith) ha
    have h2 := iv_pos (m := m + 1) (by linarith) ha
    have h0 : 0 < iv (m - 1) √(8 * α) := by rw [iv_rec' hm ha]; positivity
    unfold nbarOToole
    positivity
  refine ⟨pos m hm, fun h => ?_⟩
  rw [lt_div_iff₀ h]
  have := C77_recurrence α m hα hm
  nlinarith [pos m hm, pos (m + 1) (by linarith), mul_pos (pos m hm) (pos (m + 1) (by linarith))]

/-- **C77.** Without desorption there is at least half a radical per particle. -/
theorem C77_no_desorption (α : ℝ) (hα : 0 < α) : 1 / 2 ≤ nbarOToole α 0 := by
  have ha : 0 < √(8 * α) := Real.sqrt_pos.2 (by positivity)
  have h1 := iv_pos (m := 1) (by linarith) ha
  have h2 := iv_one_le ha
  unfold nbarOToole
  rw [zero_sub, iv_neg_one ha, le_div_iff₀ h1]
  linarith

/-- **C77.** Explicit bounds: `2α/(m + √(8α + m²)) ≤ n ≤ 2α/(m - 1 + √(8α + (m + 1)²))`. -/
theorem C77_explicit_bounds (α m : ℝ) (hα : 0 < α) (hm : 0 ≤ m) :
    2 * α / (m + √(8 * α + m ^ 2)) ≤ nbarOToole α m ∧ nbarOToole α m ≤ 2 * α / (m - 1 + √(8 * α + (m + 1) ^ 2)) :=
  NBar.bounds hα (nbarOToole α) (fun m hm => (C77_bounds α m hα hm).1) (fun m hm => C77_recurrence α m hα hm) m hm

/-- **C45.** The Li-Brooks formula never exceeds the exact (Stockmayer-O'Toole) number and is at most 4% below it: `0.96 n ≤ n_LB ≤ n`. -/
theorem C45_accuracy (α m : ℝ) (hα : 0 < α) (hm : 0 ≤ m) :
    nbarLiBrooks α m ≤ nbarOToole α m ∧ 0.96 * nbarOToole α m ≤ nbarLiBrooks α m := by
  have low : ∀ m, 0 ≤ m → nbarLiBrooks α m ≤ nbarOToole α m := by
    intro m hm
    have hD : 0 < 2 * α + m + 1 := by positivity
    obtain ⟨_, b2⟩ := C77_explicit_bounds α (m + 1) hα (by linarith)
    have hq : 0 < m ^ 2 + 8 * α * (2 * α + m) / (2 * α + m + 1) := by positivity
    have hd : 0 < m + √(m ^ 2 + 8 * α * (2 * α + m) / (2 * α + m + 1)) := by linarith [Real.sqrt_pos.2 hq]
    have u := NBar.up_succ hα hm
    have key : 4 * NBar.up α (m + 1) + m ≤ √(m ^ 2 + 8 * α * (2 * α + m) / (2 * α + m + 1)) := by
      rw [u]
      apply Real.le_sqrt_of_sq_le
      have hs : √(8 * α + (m + 2) ^ 2) ^ 2 = 8 * α + (m + 2) ^ 2 := Real.sq_sqrt (by positivity)
      rw [NBar.mean_sq hα, hs]
      have hp : 0 ≤ 2 * α / (2 * α + m + 1) := by positivity
      have e : 2 * α / (2 * α + m + 1) * (8 * α + (m + 2) ^ 2) + (1 - 2 * α / (2 * α + m + 1)) * m ^ 2 =
          m ^ 2 + 8 * α * (2 * α + m) / (2 * α + m + 1) + 2 * α / (2 * α + m + 1) * 4 := by
        field_simp; ring
      rw [e]
      suffices h : 4 ≤ (1 - 2 * α / (2 * α + m + 1)) * (√(8 * α + (m + 2) ^ 2) - m) ^ 2 by
        have := mul_le_mul_of_nonneg_left h hp
        linarith
      have e1 : 1 - 2 * α / (2 * α + m + 1) = (m + 1) / (2 * α + m + 1) := by field_simp; ring
      rw [e1, div_mul_eq_mul_div, le_div_iff₀ hD]
      -- `m + 2 t ≤ S` with `t² = D/(m + 1)`
      set t := √((2 * α + m + 1) / (m + 1)) with ht
      have ht2 : t ^ 2 * (m + 1) = 2 * α + m + 1 := by
        rw [ht, Real.sq_sqrt (by positivity)]; field_simp
      have ht1 : 1 ≤ t := by
        rw [ht, Real.one_le_sqrt, le_div_iff₀ (by linarith)]; linarith
      have hS : m + 2 * t ≤ √(8 * α + (m + 2) ^ 2) := by
        apply Real.le_sqrt_of_sq_le
        nlinarith [mul_nonneg hm (mul_nonneg (by linarith : (0 : ℝ) ≤ t) (sub_nonneg.2 ht1))]
      have : (2 * t) ^ 2 ≤ (√(8 * α + (m + 2) ^ 2) - m) ^ 2 := by
        apply pow_le_pow_left₀ (by linarith); linarith
      nlinarith
    have h1 : 2 * nbarOToole α (m + 1) ≤ 2 * NBar.up α (m + 1) := by
      unfold NBar.up; linarith
    have hr := C77_recurrence α m hα hm
    have hp := (C77_bounds α m hα hm).1
    have hp' := (C77_bounds α (m + 1) hα (by linarith)).1
    unfold nbarLiBrooks
    rw [div_le_iff₀ hd]
    have : 2 * (m + 2 * nbarOToole α (m + 1)) ≤ m + √(m ^ 2 + 8 * α * (2 * α + m) / (2 * α + m + 1)) := by linarith
    nlinarith
  exact ⟨low m hm, by linarith [LiBrooks.upper hα hm]⟩

/-- **C45.** The 4% is sharp to two tenths of a percent: at `α = 4`, `m = 0` the formula gives 1.5, more than 3.8% below the exact number. -/
theorem C45_accuracy_sharp : nbarLiBrooks 4 0 = 3 / 2 ∧ nbarLiBrooks 4 0 < 0.962 * nbarOToole 4 0 := by
  have h0 : nbarLiBrooks 4 0 = 3 / 2 := by
    rw [C45_zero_one_limit.1 4 (by norm_num), show (2 * 4 + 1 : ℝ) = 3 ^ 2 by norm_num, Real.sqrt_sq (by norm_num)]
  refine ⟨h0, ?_⟩
  have r : ∀ m : ℝ, 0 ≤ m → nbarOToole 4 m * (m + 2 * nbarOToole 4 (m + 1)) = 4 ∧ 0 < nbarOToole 4 m := fun m hm =>
    ⟨C77_recurrence 4 m (by norm_num) hm, (C77_bounds 4 m (by norm_num) hm).1⟩
  have b5 : nbarOToole 4 5 ≤ 0.6533 := by
    refine (C77_explicit_bounds 4 5 (by norm_num) (by norm_num)).2.trans ?_
    have : (4123 / 500 : ℝ) ≤ √(8 * 4 + (5 + 1) ^ 2) := Real.le_sqrt_of_sq_le (by norm_num)
    generalize √(8 * 4 + (5 + 1) ^ 2 : ℝ) = q at *
    rw [div_le_iff₀ (by linarith)]
    norm_num
    linarith
  have r0 := r 0 (by norm_num)
  have r1 := r 1 (by norm_num)
  have r2 := r 2 (by norm_num)
  have r3 := r 3 (by norm_num)
  have r4 := r 4 (by norm_num)
  norm_num at r0 r1 r2 r3 r4 b5
  have b4 : 0.75377 ≤ nbarOToole 4 4 := by nlinarith [r4.1, r4.2]
  have b3 : nbarOToole 4 3 ≤ 0.88742 := by nlinarith [r3.1, r3.2]
  have b2 : 1.05964 ≤ nbarOToole 4 2 := by nlinarith [r2.1, r2.2]
  have b1 : nbarOToole 4 1 ≤ 1.28236 := by nlinarith [r1.1, r1.2]
  have b0 : 1.5596 ≤ nbarOToole 4 0 := by nlinarith [r0.1, r0.2]
  rw [h0]
  norm_num at b0 ⊢
  linarith

example : (0 : ℝ) < 4 ∧ (0 : ℝ) ≤ 0 := by norm_num

/-- **C77.** Zero-one kinetics: without desorption the exact number tends to 1/2 for slow entry. -/
theorem C77_zero_one_limit : Filter.Tendsto (fun α => nbarOToole α 0) (nhdsWithin 0 (Set.Ioi 0)) (nhds (1 / 2)) := by
  have t : Filter.Tendsto (fun α : ℝ => (√(8 * α + 1) + 1) / 4) (nhdsWithin 0 (Set.Ioi 0)) (nhds (1 / 2)) := by
    have hc : Continuous fun α : ℝ => (√(8 * α + 1) + 1) / 4 := by fun_prop
    have := hc.tendsto 0
    rw [show (√(8 * 0 + 1) + 1) / 4 = (1 / 2 : ℝ) by norm_num] at this
    exact this.mono_left nhdsWithin_le_nhds
  refine tendsto_of_tendsto_of_tendsto_of_le_of_le' tendsto_const_nhds t ?_ ?_
  · filter_upwards [self_mem_nhdsWithin] with α hα
    exact C77_no_desorption α hα
  · filter_upwards [self_mem_nhdsWithin] with α hα
    have hα : 0 < α := hα
    refine (C77_explicit_bounds α 0 hα le_rfl).2.trans (le_of_eq ?_)
    rw [zero_sub, zero_add, one_pow]
    have e : √(8 * α + 1) ^ 2 = 8 * α + 1 := Real.sq_sqrt (by positivity)
    have h1 : 1 < √(8 * α + 1) := Real.lt_sqrt_of_sq_lt (by linarith)
    have : -1 + √(8 * α + 1) ≠ 0 := by linarith
    rw [div_eq_iff this]
    linear_combination (-1 / 4) * e

example : (0 : ℝ) < 1 / 10 ∧ (0 : ℝ) ≤ 3 := by norm_num

end Verif.Kin
