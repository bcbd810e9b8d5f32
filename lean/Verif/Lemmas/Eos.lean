import Verif.Model.Eos
import Verif.Lemmas.Mixing
import Mathlib.Analysis.SpecialFunctions.Log.Deriv
import Mathlib.Analysis.Calculus.Deriv.Inv
import Mathlib.Topology.Order.IntermediateValue
import Mathlib.Analysis.Complex.Polynomial.Basic

/-! Helper lemmas on the equations of state. -/

namespace Verif.Eos

open Finset Verif.Mixing

variable {N : ℕ}

/-! ### Root selection -/

theorem foldl_min_le (rs : List ℝ) : ∀ r, rs.foldl min r ≤ r ∧ ∀ x ∈ rs, rs.foldl min r ≤ x := by
  induction rs with
  | nil => intro r; simp
  | cons a rs ih =>
    intro r
    obtain ⟨h1, h2⟩ := ih (min r a)
    simp only [List.foldl_cons, List.mem_cons, forall_eq_or_imp]
    exact ⟨h1.trans (min_le_left _ _), h1.trans (min_le_right _ _), h2⟩

theorem foldl_min_mem (rs : List ℝ) : ∀ r, rs.foldl min r ∈ r :: rs := by
  induction rs with
  | nil => intro r; simp
  | cons a rs ih =>
    intro r
    have h := ih (min r a)
    simp only [List.foldl_cons, List.mem_cons] at h ⊢
    rcases h with h | h
    · rcases min_choice r a with h' | h' <;> rw [h, h'] <;> simp
    · simp [h]

theorem le_foldl_max (rs : List ℝ) : ∀ r, r ≤ rs.foldl max r ∧ ∀ x ∈ rs, x ≤ rs.foldl max r := by
  induction rs with
  | nil => intro r; simp
  | cons a rs ih =>
    intro r
    obtain ⟨h1, h2⟩ := ih (max r a)
    simp only [List.foldl_cons, List.mem_cons, forall_eq_or_imp]
    exact ⟨(le_max_left _ _).trans h1, (le_max_right _ _).trans h1, h2⟩

theorem foldl_max_mem (rs : List ℝ) : ∀ r, rs.foldl max r ∈ r :: rs := by
  induction rs with
  | nil => intro r; simp
  | cons a rs ih =>
    intro r
    have h := ih (max r a)
    simp only [List.foldl_cons, List.mem_cons] at h ⊢
    rcases h with h | h
    · rcases max_choice r a with h' | h' <;> rw [h, h'] <;> simp
    · simp [h]

/-- What the selection returns when at least one root qualifies. -/
theorem selectRoots_spec (roots : List (ℝ × ℝ)) (B : ℝ) (h : ∃ x ∈ roots, |x.2| < eps ∧ x.1 > B) :
    ∃ lo hi Z, selectRoots roots B = .ok Z ∧ (Z = [lo, hi] ∨ Z = [lo] ∧ lo = hi) ∧ lo ≤ hi ∧
      (∃ y, (lo, y) ∈ roots ∧ |y| < eps ∧ lo > B) ∧ (∃ y, (hi, y) ∈ roots ∧ |y| < eps ∧ hi > B) ∧
      ∀ x ∈ roots, |x.2| < eps → x.1 > B → lo ≤ x.1 ∧ x.1 ≤ hi := by
  unfold selectRoots
  have hmem : ∀ x, x ∈ (roots.filter fun x => decide (|x.2| < eps ∧ x.1 > B)).map Prod.fst ↔ ∃ y, (x, y) ∈ roots ∧ |y| < eps ∧ x > B := by
    intro x
    simp only [List.mem_map, List.mem_filter, decide_eq_true_eq, Prod.exists, exists_and_right, exists_eq_right]
  generalize (roots.filter fun x => decide (|x.2| < eps ∧ x.1 > B)).map Prod.fst = L at hmem
  match L with
  | [] =>
    obtain ⟨x, hx, h1, h2⟩ := h
    exact absurd ((hmem x.1).2 ⟨x.2, hx, h1, h2⟩) (by simp)
  | r :: rs =>
    have hlo := foldl_min_le rs r
    have hhi := le_foldl_max rs r
    refine ⟨rs.foldl min r, rs.foldl max r, _, rfl, ?_, hlo.1.trans hhi.1, (hmem _).1 (foldl_min_mem rs r), (hmem _).1 (foldl_max_mem rs r), ?_⟩
    · cases rs with
      | nil => right; simp
      | cons a rs => left; simp
    · intro x hx h1 h2
      have := (hmem x.1).2 ⟨x.2, hx, h1, h2⟩
      rcases List.mem_cons.1 this with h | h
      · rw [h]; exact ⟨hlo.1, hhi.1⟩
      · exact ⟨hlo.2 _ h, hhi.2 _ h⟩

/-! ### The cubic -/

/-- The monic cubic. -/
def cub (c2 c1 c0 Z : ℝ) : ℝ := Z ^ 3 + c2 * Z ^ 2 + c1 * Z + c0

theorem cub_at_B (u w A B : ℝ) :
    cub (cubicCoefs u w A B).1 (cubicCoefs u w A B).2.1 (cubicCoefs u w A B).2.2 B = -(1 + u + w) * B ^ 2 := by
  simp only [cub, cubicCoefs]; ring

/-- The cubic is the equation of state multiplied out. -/
theorem cub_factor (u w A B Z : ℝ) :
    cub (cubicCoefs u w A B).1 (cubicCoefs u w A B).2.1 (cubicCoefs u w A B).2.2 Z =
      (Z - B) * (Z ^ 2 + u * Z * B + w * B ^ 2) - (Z ^ 2 + u * Z * B + w * B ^ 2) + A * (Z - B) := by
  simp only [cub, cubicCoefs]; ring

/-- A cubic negative at `B` has a root above `B`. -/
theorem cub_root (c2 c1 c0 B : ℝ) (h : cub c2 c1 c0 B < 0) : ∃ Z, B < Z ∧ cub c2 c1 c0 Z = 0 := by
  set M := |B| + 1 + |c2| + |c1| + |c0| with hM
  have hB := abs_nonneg B
  have h2 := abs_nonneg c2
  have h1 := abs_nonneg c1
  have h0 := abs_nonneg c0
  have hM1 : 1 ≤ M := by rw [hM]; linarith
  have hBM : B ≤ M := (le_abs_self B).trans (by rw [hM]; linarith)
  have hpos : 0 ≤ cub c2 c1 c0 M := by
    have a2 : -|c2| * M ^ 2 ≤ c2 * M ^ 2 := mul_le_mul_of_nonneg_right (neg_abs_le c2) (sq_nonneg M)
    have a1 : -|c1| * M ^ 2 ≤ c1 * M := by
      have : -|c1| * M ≤ c1 * M := mul_le_mul_of_nonneg_right (neg_abs_le c1) (by linarith)
      nlinarith [mul_nonneg h1 (show 0 ≤ M ^ 2 - M by nlinarith)]
    have a0 : -|c0| * M ^ 2 ≤ c0 := by
      have : -|c0| ≤ c0 := neg_abs_le c0
      nlinarith [mul_nonneg h0 (show 0 ≤ M ^ 2 - 1 by nlinarith)]
    have hfin : (|B| + 1) * M ^ 2 ≤ cub c2 c1 c0 M := by
      have : M ^ 3 = (|B| + 1 + |c2| + |c1| + |c0|) * M ^ 2 := by rw [← hM]; ring
      unfold cub
      rw [this]; linarith
    exact le_trans (by positivity) hfin
  have hc : ContinuousOn (cub c2 c1 c0) (Set.Icc B M) := by unfold cub; fun_prop
  obtain ⟨Z, hZ, hZ0⟩ := intermediate_value_Icc hBM hc ⟨h.le, hpos⟩
  refine ⟨Z, lt_of_le_of_ne hZ.1 ?_, hZ0⟩
  rintro rfl
  rw [hZ0] at h; exact lt_irrefl _ h

theorem Kind.sum_pos (k : Kind) : 0 < 1 + k.u + k.w := by
  cases k <;> norm_num [Kind.u, Kind.w]

theorem Kind.d_sq (k : Kind) : √(k.u ^ 2 - 4 * k.w) ^ 2 = k.u ^ 2 - 4 * k.w :=
  Real.sq_sqrt (by cases k <;> norm_num [Kind.u, Kind.w])

theorem Kind.d_pos (k : Kind) : 0 < √(k.u ^ 2 - 4 * k.w) :=
  Real.sqrt_pos.2 (by cases k <;> norm_num [Kind.u, Kind.w])

theorem Kind.u_pos (k : Kind) : 0 < k.u := by cases k <;> norm_num [Kind.u]

theorem Kind.d_le (k : Kind) : √(k.u ^ 2 - 4 * k.w) ≤ k.u + 1 :=
  Real.sqrt_le_iff.2 (by cases k <;> norm_num [Kind.u, Kind.w])

/-- The attractive denominator is positive beyond the co-volume. -/
theorem Kind.den_pos (k : Kind) {v b : ℝ} (hb : 0 < b) (hv : b < v) : 0 < v ^ 2 + k.u * v * b + k.w * b ^ 2 := by
  have : 0 < v * b := mul_pos (hb.trans hv) hb
  cases k <;> simp only [Kind.u, Kind.w] <;> nlinarith

theorem Kind.Ωb_pos (k : Kind) : 0 < k.Ωb := by cases k <;> norm_num [Kind.Ωb]
theorem Kind.Ωa_pos (k : Kind) : 0 < k.Ωa := by cases k <;> norm_num [Kind.Ωa]

theorem sum_mul_pos (z f : Fin N → ℝ) (hz : 0 < ∑ i, z i) (hz0 : ∀ i, 0 ≤ z i) (hf : ∀ i, 0 < f i) : 0 < ∑ i, z i * f i := by
  obtain ⟨i, hi⟩ : ∃ i, 0 < z i := by
    by_contra h
    push Not at h
    have : ∑ i, z i ≤ 0 := sum_nonpos fun i _ => h i
    linarith
  exact sum_pos' (fun j _ => mul_nonneg (hz0 j) (hf j).le) ⟨i, mem_univ _, mul_pos hi (hf i)⟩

theorem b_pos {R : ℝ} (hR : 0 < R) (e : Cubic N) (hT : ∀ i, 0 < e.Tc i) (hP : ∀ i, 0 < e.Pc i) (i : Fin N) : 0 < b R e i := by
  have := e.kind.Ωb_pos
  have := hT i
  have := hP i
  unfold b; positivity

theorem bm_pos {R : ℝ} (hR : 0 < R) (e : Cubic N) (hT : ∀ i, 0 < e.Tc i) (hP : ∀ i, 0 < e.Pc i) (z : Fin N → ℝ) (hz : 0 < ∑ i, z i)
    (hz0 : ∀ i, 0 ≤ z i) : 0 < bm R e z := sum_mul_pos z _ hz hz0 (b_pos hR e hT hP)

theorem a_nonneg {R : ℝ} (e : Cubic N) (hP : ∀ i, 0 < e.Pc i) (T : ℝ) (i : Fin N) : 0 ≤ a R e T i := by
  have h1 := e.kind.Ωa_pos
  have h2 := hP i
  have h3 : 0 ≤ alpha e T i := by
    unfold alpha
    split <;> positivity
  unfold a; positivity

/-- The equation of state holds at a root of the cubic. -/
theorem P_of_root {R T P : ℝ} (hR : 0 < R) (hT : 0 < T) (hP : 0 < P) (e : Cubic N) (z : Fin N → ℝ) (hb : 0 < bm R e z) {Z : ℝ}
    (hZB : bm R e z * P / (R * T) < Z)
    (hZ : cub (cubicCoefs e.kind.u e.kind.w (am R e T z * P / (R * T) ^ 2) (bm R e z * P / (R * T))).1
      (cubicCoefs e.kind.u e.kind.w (am R e T z * P / (R * T) ^ 2) (bm R e z * P / (R * T))).2.1
      (cubicCoefs e.kind.u e.kind.w (am R e T z * P / (R * T) ^ 2) (bm R e z * P / (R * T))).2.2 Z = 0) :
    bm R e z < vol R Z T P ∧ cubicP R e T (vol R Z T P) z = P := by
  set B := bm R e z * P / (R * T) with hB
  set A := am R e T z * P / (R * T) ^ 2 with hA
  have hRT : 0 < R * T := mul_pos hR hT
  have hB0 : 0 < B := by positivity
  have hbm : bm R e z = B * (R * T) / P := by rw [hB]; field_simp
  have ham : am R e T z = A * (R * T) ^ 2 / P := by rw [hA]; field_simp
  have hq := e.kind.den_pos hB0 hZB
  have hZB' : 0 < Z - B := sub_pos.2 hZB
  constructor
  · rw [hbm, vol, div_lt_div_iff_of_pos_right hP]
    nlinarith
  rw [cub_factor] at hZ
  simp only [cubicP]
  rw [hbm, ham, vol]
  set u := e.kind.u
  set w := e.kind.w
  set q := Z ^ 2 + u * Z * B + w * B ^ 2 with hqd
  have h1 : Z * R * T / P - B * (R * T) / P = (Z - B) * (R * T) / P := by ring
  have h2 : (Z * R * T / P) ^ 2 + u * (Z * R * T / P) * (B * (R * T) / P) + w * (B * (R * T) / P) ^ 2 = q * (R * T) ^ 2 / P ^ 2 := by
    rw [hqd]; ring
  rw [h1, h2]
  have hq' := hq.ne'
  have hz' := hZB'.ne'
  have hP' := hP.ne'
  have hRT' := hRT.ne'
  have h3 : R * T / ((Z - B) * (R * T) / P) - A * (R * T) ^ 2 / P / (q * (R * T) ^ 2 / P ^ 2) = P * (1 / (Z - B) - A / q) := by
    field_simp
  rw [h3]
  have h4 : 1 / (Z - B) - A / q = 1 := by
    field_simp
    linarith
  rw [h4, mul_one]

/-- The relative pressure error at a trial compressibility factor is the value of the cubic over `(Z - B) (Z² + u Z B + w B²)`. -/
theorem P_residual {R T P : ℝ} (hR : 0 < R) (hT : 0 < T) (hP : 0 < P) (e : Cubic N) (z : Fin N → ℝ) (hb : 0 < bm R e z) {Z : ℝ}
    (hZB : bm R e z * P / (R * T) < Z) :
    (P - cubicP R e T (vol R Z T P) z) * ((Z - bm R e z * P / (R * T)) *
        (Z ^ 2 + e.kind.u * Z * (bm R e z * P / (R * T)) + e.kind.w * (bm R e z * P / (R * T)) ^ 2)) =
      P * cub (cubicCoefs e.kind.u e.kind.w (am R e T z * P / (R * T) ^ 2) (bm R e z * P / (R * T))).1
      (cubicCoefs e.kind.u e.kind.w (am R e T z * P / (R * T) ^ 2) (bm R e z * P / (R * T))).2.1
      (cubicCoefs e.kind.u e.kind.w (am R e T z * P / (R * T) ^ 2) (bm R e z * P / (R * T))).2.2 Z := by
  set B := bm R e z * P / (R * T) with hB
  set A := am R e T z * P / (R * T) ^ 2 with hA
  have hRT : 0 < R * T := mul_pos hR hT
  have hB0 : 0 < B := by positivity
  have hbm : bm R e z = B * (R * T) / P := by rw [hB]; field_simp
  have ham : am R e T z = A * (R * T) ^ 2 / P := by rw [hA]; field_simp
  have hq := e.kind.den_pos hB0 hZB
  have hZB' : 0 < Z - B := sub_pos.2 hZB
  rw [cub_factor]
  simp only [cubicP]
  rw [hbm, ham, vol]
  set u := e.kind.u
  set w := e.kind.w
  set q := Z ^ 2 + u * Z * B + w * B ^ 2 with hqd
  have h1 : Z * R * T / P - B * (R * T) / P = (Z - B) * (R * T) / P := by ring
  have h2 : (Z * R * T / P) ^ 2 + u * (Z * R * T / P) * (B * (R * T) / P) + w * (B * (R * T) / P) ^ 2 = q * (R * T) ^ 2 / P ^ 2 := by
    rw [hqd]; ring
  rw [h1, h2]
  have hq' := hq.ne'
  have hz' := hZB'.ne'
  have h3 : R * T / ((Z - B) * (R * T) / P) - A * (R * T) ^ 2 / P / (q * (R * T) ^ 2 / P ^ 2) = P * (1 / (Z - B) - A / q) := by
    field_simp
  rw [h3]
  generalize Z - B = x at *
  field_simp
  ring

/-! ### Derivatives -/

theorem log_ratio_deriv {V c d' : ℝ} (h1 : 0 < 2 * V + c) (h2 : 0 < 2 * V + d') :
    HasDerivAt (fun V => Real.log ((2 * V + c) / (2 * V + d'))) (2 / (2 * V + c) - 2 / (2 * V + d')) V := by
  have l1 : HasDerivAt (fun V : ℝ => 2 * V + c) 2 V := by simpa using ((hasDerivAt_id V).const_mul 2).add_const c
  have l2 : HasDerivAt (fun V : ℝ => 2 * V + d') 2 V := by simpa using ((hasDerivAt_id V).const_mul 2).add_const d'
  refine ((l1.log h1.ne').sub (l2.log h2.ne')).congr_of_eventuallyEq ?_
  have e1 : ∀ᶠ x in nhds V, 0 < 2 * x + c := (l1.continuousAt).eventually (lt_mem_nhds h1)
  have e2 : ∀ᶠ x in nhds V, 0 < 2 * x + d' := (l2.continuousAt).eventually (lt_mem_nhds h2)
  filter_upwards [e1, e2] with x hx1 hx2
  exact Real.log_div hx1.ne' hx2.ne'

/-- The volume derivative of the Helmholtz function of a cubic equation, in terms of `D = n b` and `S = n² a`. -/
theorem helmholtz_deriv (k : Kind) {V D S nRT m : ℝ} (hD : 0 < D) (hV : D < V) (hm : 0 < m) :
    HasDerivAt (fun V => S / (D * √(k.u ^ 2 - 4 * k.w)) *
        Real.log ((2 * V + D * (k.u - √(k.u ^ 2 - 4 * k.w))) / (2 * V + D * (k.u + √(k.u ^ 2 - 4 * k.w)))) - nRT * Real.log ((V - D) / m))
      (-(nRT / (V - D) - S / (V ^ 2 + k.u * V * D + k.w * D ^ 2))) V := by
  have hd := k.d_pos
  have hd2 := k.d_sq
  have hdl := k.d_le
  have hu := k.u_pos
  have hq := k.den_pos hD hV
  generalize √(k.u ^ 2 - 4 * k.w) = d at *
  have p1 : 0 < 2 * V + D * (k.u - d) := by nlinarith
  have p2 : 0 < 2 * V + D * (k.u + d) := by
    have : 0 < D * (k.u + d) := by positivity
    linarith
  have hp : (2 * V + D * (k.u - d)) * (2 * V + D * (k.u + d)) = 4 * (V ^ 2 + k.u * V * D + k.w * D ^ 2) := by
    linear_combination (-D ^ 2) * hd2
  have hVD : 0 < V - D := sub_pos.2 hV
  have l3 : HasDerivAt (fun V : ℝ => Real.log ((V - D) / m)) (1 / (V - D)) V := by
    have l : HasDerivAt (fun V : ℝ => (V - D) / m) (1 / m) V := ((hasDerivAt_id V).sub_const D).div_const m
    refine (l.log (div_pos hVD hm).ne').congr_deriv ?_
    field_simp
  refine (((log_ratio_deriv p1 p2).const_mul _).sub (l3.const_mul nRT)).congr_deriv ?_
  have key : 2 / (2 * V + D * (k.u - d)) - 2 / (2 * V + D * (k.u + d)) = D * d / (V ^ 2 + k.u * V * D + k.w * D ^ 2) := by
    rw [div_sub_div _ _ p1.ne' p2.ne', hp, div_eq_div_iff (by positivity) hq.ne']
    ring
  rw [key]
  field_simp
  ring

theorem sum_add_single (n f : Fin N → ℝ) (i : Fin N) (t : ℝ) : ∑ j, (n + Pi.single i t : Fin N → ℝ) j * f j = (∑ j, n j * f j) + t * f i := by
  simp [add_mul, sum_add_distrib, Pi.single_apply, ite_mul]

theorem sum_add_single' (n : Fin N → ℝ) (i : Fin N) (t : ℝ) : ∑ j, (n + Pi.single i t : Fin N → ℝ) j = (∑ j, n j) + t := by
  simp [sum_add_distrib, Pi.single_apply]

/-- Composition derivative of the residual Helmholtz function along component `i`. -/
theorem residual_deriv (k : Kind) {V D S0 S1 S2 bi RT nT : ℝ} (hD : 0 < D) (hV : D < V) :
    HasDerivAt (fun t => (S0 + t * S1 + t ^ 2 * S2) / ((D + t * bi) * √(k.u ^ 2 - 4 * k.w)) *
        Real.log ((2 * V + (D + t * bi) * (k.u - √(k.u ^ 2 - 4 * k.w))) / (2 * V + (D + t * bi) * (k.u + √(k.u ^ 2 - 4 * k.w)))) -
          (nT + t) * RT * Real.log ((V - (D + t * bi)) / V))
      ((S1 / (D * √(k.u ^ 2 - 4 * k.w)) - S0 * bi / (D ^ 2 * √(k.u ^ 2 - 4 * k.w))) *
        Real.log ((2 * V + D * (k.u - √(k.u ^ 2 - 4 * k.w))) / (2 * V + D * (k.u + √(k.u ^ 2 - 4 * k.w)))) -
        S0 * bi * V / (D * (V ^ 2 + k.u * V * D + k.w * D ^ 2)) - RT * Real.log ((V - D) / V) + nT * RT * bi / (V - D)) 0 := by
  have hd := k.d_pos
  have hd2 := k.d_sq
  have hdl := k.d_le
  have hu := k.u_pos
  have hq := k.den_pos hD hV
  generalize √(k.u ^ 2 - 4 * k.w) = d at *
  have hV0 : 0 < V := hD.trans hV
  have p1 : 0 < 2 * V + D * (k.u - d) := by nlinarith
  have p2 : 0 < 2 * V + D * (k.u + d) := by
    have : 0 < D * (k.u + d) := by positivity
    linarith
  have hp : (2 * V + D * (k.u - d)) * (2 * V + D * (k.u + d)) = 4 * (V ^ 2 + k.u * V * D + k.w * D ^ 2) := by
    linear_combination (-D ^ 2) * hd2
  have hVD : 0 < V - D := sub_pos.2 hV
  have lin : ∀ c x : ℝ, HasDerivAt (fun t : ℝ => c + t * x) x 0 := by
    intro c x
    simpa using ((hasDerivAt_id (0 : ℝ)).mul_const x).const_add c
  have lD := lin D bi
  have l1 : HasDerivAt (fun t : ℝ => 2 * V + (D + t * bi) * (k.u - d)) (bi * (k.u - d)) 0 := (lD.mul_const _).const_add _
  have l2 : HasDerivAt (fun t : ℝ => 2 * V + (D + t * bi) * (k.u + d)) (bi * (k.u + d)) 0 := (lD.mul_const _).const_add _
  have l3 : HasDerivAt (fun t : ℝ => (V - (D + t * bi)) / V) (-bi / V) 0 := (lD.const_sub V).div_const V
  have l4 : HasDerivAt (fun t : ℝ => (nT + t) * RT) RT 0 := by simpa using ((hasDerivAt_id (0 : ℝ)).const_add nT).mul_const RT
  have z1 : 2 * V + (D + 0 * bi) * (k.u - d) = 2 * V + D * (k.u - d) := by ring
  have z2 : 2 * V + (D + 0 * bi) * (k.u + d) = 2 * V + D * (k.u + d) := by ring
  have z3 : (V - (D + 0 * bi)) / V = (V - D) / V := by ring
  have lr := (l1.div l2 (by rw [z2]; exact p2.ne')).log (by
    simp only [Pi.div_apply]; rw [z1, z2]; exact (div_pos p1 p2).ne')
  have l5 := l3.log (by rw [z3]; exact (div_pos hVD hV0).ne')
  have hquad : HasDerivAt (fun t : ℝ => S0 + t * S1 + t ^ 2 * S2) S1 0 := by
    have h2 : HasDerivAt (fun t : ℝ => t ^ 2 * S2) 0 0 := by
      simpa using ((hasDerivAt_id (0 : ℝ)).pow 2).mul_const S2
    exact ((lin S0 S1).add h2).congr_deriv (add_zero _)
  have hco := hquad.div (lD.mul_const d) (by rw [zero_mul, add_zero]; exact (mul_pos hD hd).ne')
  refine ((hco.mul lr).sub (l4.mul l5)).congr_deriv ?_
  simp only [Pi.div_apply, z1, z2, z3, zero_mul, add_zero, ne_eq, OfNat.ofNat_ne_zero, not_false_eq_true, zero_pow]
  have key : bi * (k.u - d) / (2 * V + D * (k.u - d)) - bi * (k.u + d) / (2 * V + D * (k.u + d)) =
      -(bi * V * d) / (V ^ 2 + k.u * V * D + k.w * D ^ 2) := by
    rw [div_sub_div _ _ p1.ne' p2.ne', hp, div_eq_div_iff (by positivity) hq.ne']
    ring
  have key2 : (bi * (k.u - d) * (2 * V + D * (k.u + d)) - (2 * V + D * (k.u - d)) * (bi * (k.u + d))) / (2 * V + D * (k.u + d)) ^ 2 /
      ((2 * V + D * (k.u - d)) / (2 * V + D * (k.u + d))) = -(bi * V * d) / (V ^ 2 + k.u * V * D + k.w * D ^ 2) := by
    rw [← key]
    generalize 2 * V + D * (k.u + d) = x2 at *
    generalize 2 * V + D * (k.u - d) = x1 at *
    have := p1.ne'
    have := p2.ne'
    field_simp
  rw [key2]
  generalize Real.log ((2 * V + D * (k.u - d)) / (2 * V + D * (k.u + d))) = L1
  generalize Real.log ((V - D) / V) = L2
  generalize hqq : V ^ 2 + k.u * V * D + k.w * D ^ 2 = q at *
  generalize hvd : V - D = x at *
  field_simp
  ring

/-- Composition derivative of the residual Helmholtz energy of a cubic equation whose `n² am` changes as `S0 + S1 t + S2 t²` when `t` moles of component `i` are
added. -/
theorem phi_derivative {R T V v0 : ℝ} (hR : 0 < R) (hT : 0 < T) (e : Cubic N) (n : Fin N → ℝ) (hTc : ∀ i, 0 < e.Tc i)
    (hPc : ∀ i, 0 < e.Pc i) (hn : ∀ i, 0 ≤ n i) (hn0 : 0 < ∑ i, n i) (hv0 : 0 < v0) (hV : ∑ i, n i * b R e i < V) (i : Fin N) (S0 S1 S2 : ℝ) (hS0 : 0 < S0)
    (hamt : ∀ t, am R e T (fun j => (n + Pi.single i t : Fin N → ℝ) j / ((∑ i, n i) + t)) = (S0 + t * S1 + t ^ 2 * S2) / ((∑ i, n i) + t) ^ 2)
    (P : ℝ) (hP : P = cubicP R e T (V / ∑ i, n i) (fun i => n i / ∑ i, n i)) (hP0 : 0 < P) :
    HasDerivAt (fun t => cubicDA R e T V (n + Pi.single i t) v0 +
        (∑ j, (n + Pi.single i t : Fin N → ℝ) j) * R * T * Real.log (V / ((∑ j, (n + Pi.single i t : Fin N → ℝ) j) * v0)))
      (R * T * (lnPhi R e T P (fun i => n i / ∑ i, n i) (P * V / ((∑ i, n i) * R * T)) i +
        am R e T (fun i => n i / ∑ i, n i) / (bm R e (fun i => n i / ∑ i, n i) * √(e.kind.u ^ 2 - 4 * e.kind.w) * (R * T)) *
          (delta R e T (fun i => n i / ∑ i, n i) i - S1 / S0 * ∑ i, n i) *
          Real.log ((2 * V + (∑ i, n i * b R e i) * (e.kind.u + √(e.kind.u ^ 2 - 4 * e.kind.w))) /
            (2 * V + (∑ i, n i * b R e i) * (e.kind.u - √(e.kind.u ^ 2 - 4 * e.kind.w)))) +
        Real.log (P * V / ((∑ i, n i) * R * T)))) 0 := by
  set nT := ∑ i, n i with hnT
  set D := ∑ i, n i * b R e i with hDd
  have hD : 0 < D := sum_mul_pos n _ hn0 hn (b_pos hR e hTc hPc)
  have hV0 : 0 < V := hD.trans hV
  have hbm : bm R e (fun i => n i / nT) = D / nT := by
    rw [bm, hDd, sum_div]; exact sum_congr rfl fun i _ => by ring
  have ham0 : am R e T (fun i => n i / nT) = S0 / nT ^ 2 := by
    have := hamt 0
    simpa using this
  have hbms : ∀ (m : Fin N → ℝ) (c : ℝ), bm R e (fun i => m i / c) = (∑ i, m i * b R e i) / c := by
    intro m c
    rw [bm, sum_div]; exact sum_congr rfl fun i _ => by ring
  have hd := e.kind.d_pos
  have hd2 := e.kind.d_sq
  have hdl := e.kind.d_le
  have hu := e.kind.u_pos
  have hq := e.kind.den_pos hD hV
  have hVD : 0 < V - D := sub_pos.2 hV
  refine ((residual_deriv e.kind (S0 := S0) (S1 := S1) (S2 := S2) (bi := b R e i) (RT := R * T) (nT := nT) hD hV).congr_of_eventuallyEq ?_).congr_deriv ?_
  · have c1 : ∀ᶠ t in nhds (0 : ℝ), 0 < nT + t :=
      (continuous_const.add continuous_id).continuousAt.eventually (lt_mem_nhds (by simpa using hn0))
    have c2 : ∀ᶠ t in nhds (0 : ℝ), 0 < D + t * b R e i :=
      (continuous_const.add (continuous_id.mul continuous_const)).continuousAt.eventually (lt_mem_nhds (by simpa using hD))
    have c3 : ∀ᶠ t in nhds (0 : ℝ), 0 < V - (D + t * b R e i) :=
      (continuous_const.sub (continuous_const.add (continuous_id.mul continuous_const))).continuousAt.eventually (lt_mem_nhds (by simpa using hV))
    filter_upwards [c1, c2, c3] with t h1 h2 h3
    simp only [cubicDA]
    rw [sum_add_single', ← hnT, hamt, hbms, sum_add_single, ← hDd, mul_div_cancel₀ _ h1.ne']
    have l1 : Real.log ((V - (D + t * b R e i)) / V) = Real.log (V - (D + t * b R e i)) - Real.log V := Real.log_div h3.ne' hV0.ne'
    have l2 : Real.log ((V - (D + t * b R e i)) / ((nT + t) * v0)) = Real.log (V - (D + t * b R e i)) - Real.log ((nT + t) * v0) :=
      Real.log_div h3.ne' (mul_pos h1 hv0).ne'
    have l3 : Real.log (V / ((nT + t) * v0)) = Real.log V - Real.log ((nT + t) * v0) := Real.log_div hV0.ne' (mul_pos h1 hv0).ne'
    rw [l1, l2, l3]
    generalize D + t * b R e i = D' at *
    generalize nT + t = n' at *
    have hco : n' * ((S0 + t * S1 + t ^ 2 * S2) / n' ^ 2) / (D' / n' * √(e.kind.u ^ 2 - 4 * e.kind.w)) =
        (S0 + t * S1 + t ^ 2 * S2) / (D' * √(e.kind.u ^ 2 - 4 * e.kind.w)) := by
      field_simp
    rw [hco]; ring
  · simp only [lnPhi]
    rw [hbm, ham0]
    generalize delta R e T (fun i => n i / nT) i = δ
    have hPV : P = nT * R * T / (V - D) - S0 / (V ^ 2 + e.kind.u * V * D + e.kind.w * D ^ 2) := by
      rw [hP]
      simp only [cubicP]
      rw [hbm, ham0]
      have h1 : V / nT - D / nT = (V - D) / nT := by ring
      have h2 : (V / nT) ^ 2 + e.kind.u * (V / nT) * (D / nT) + e.kind.w * (D / nT) ^ 2 = (V ^ 2 + e.kind.u * V * D + e.kind.w * D ^ 2) / nT ^ 2 := by ring
      rw [h1, h2]
      generalize V ^ 2 + e.kind.u * V * D + e.kind.w * D ^ 2 = q at *
      generalize V - D = x at *
      field_simp
    set d := √(e.kind.u ^ 2 - 4 * e.kind.w) with hdd
    have p1 : 0 < 2 * V + D * (e.kind.u - d) := by nlinarith
    have p2 : 0 < 2 * V + D * (e.kind.u + d) := by
      have : 0 < D * (e.kind.u + d) := by positivity
      linarith
    have g1 : (2 * (P * V / (nT * R * T)) + D / nT * P / (R * T) * (e.kind.u + d)) / (2 * (P * V / (nT * R * T)) + D / nT * P / (R * T) * (e.kind.u - d)) =
        ((2 * V + D * (e.kind.u - d)) / (2 * V + D * (e.kind.u + d)))⁻¹ := by
      have h1 : ∀ x, 2 * (P * V / (nT * R * T)) + D / nT * P / (R * T) * x = (2 * V + D * x) * (P / (nT * R * T)) := by
        intro x; field_simp
      rw [h1, h1, mul_div_mul_right _ _ (by positivity), inv_div]
    have g2 : Real.log (P * V / (nT * R * T) - D / nT * P / (R * T)) = Real.log ((V - D) / V) + Real.log (P * V / (nT * R * T)) := by
      rw [← Real.log_mul (by positivity) (by positivity)]
      congr 1
      field_simp
    have g3 : (2 * V + D * (e.kind.u + d)) / (2 * V + D * (e.kind.u - d)) = ((2 * V + D * (e.kind.u - d)) / (2 * V + D * (e.kind.u + d)))⁻¹ :=
      (inv_div _ _).symm
    rw [g1, g2, g3, Real.log_inv]
    generalize Real.log ((2 * V + D * (e.kind.u - d)) / (2 * V + D * (e.kind.u + d))) = L1
    generalize Real.log ((V - D) / V) = L2
    generalize Real.log (P * V / (nT * R * T)) = L3
    have hmain : -(S0 * b R e i * V / (D * (V ^ 2 + e.kind.u * V * D + e.kind.w * D ^ 2))) + nT * (R * T) * b R e i / (V - D) =
        b R e i / D * (P * V - nT * R * T) := by
      rw [hPV]
      generalize V ^ 2 + e.kind.u * V * D + e.kind.w * D ^ 2 = q at *
      have : V = (V - D) + D := by ring
      generalize V - D = x at *
      subst this
      field_simp
      ring
    have : (S1 / (D * d) - S0 * b R e i / (D ^ 2 * d)) * L1 -
        S0 * b R e i * V / (D * (V ^ 2 + e.kind.u * V * D + e.kind.w * D ^ 2)) - R * T * L2 + nT * (R * T) * b R e i / (V - D) =
        (S1 / (D * d) - S0 * b R e i / (D ^ 2 * d)) * L1 - R * T * L2 + b R e i / D * (P * V - nT * R * T) := by
      rw [← hmain]; ring
    rw [this]
    clear hmain this hPV g1 g2 g3 hP
    field_simp
    ring

end Verif.Eos
