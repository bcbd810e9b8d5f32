import Verif.Model.NDiff
import Verif.Lemmas.Tactics
import Mathlib.Algebra.Polynomial.Taylor
import Mathlib.Algebra.Polynomial.AlgebraMap
import Mathlib.Algebra.Polynomial.Derivative
import Mathlib.Data.Complex.BigOperators
import Mathlib.Analysis.Complex.Norm
import Mathlib.Analysis.Real.Sqrt

/-! # Helper lemmas for `ndiff.py` -/

namespace Verif.NDiff

open Function Polynomial

theorem eps_pos : (0 : ℝ) < eps := by unfold eps; positivity
theorem eps_le_one : (eps : ℝ) ≤ 1 := by unfold eps; norm_num

theorem hDefault_pos : 0 < hDefault := Real.rpow_pos_of_pos (by have := eps_pos; positivity) _

theorem noise_pos (d : Option ℕ) : 0 < noise d := by
  cases d with
  | none => exact eps_pos
  | some d => exact pow_pos (by norm_num) d

/-- Expansion of a real polynomial at a complex point. -/
theorem aeval_expand (p : ℝ[X]) (x : ℝ) :
    aeval (⟨x, eps⟩ : ℂ) p =
      ∑ j ∈ Finset.range (p.natDegree + 1), (((taylor x p).coeff j : ℝ) : ℂ) * ((eps : ℝ) * Complex.I) ^ j := by
  have h1 : (⟨x, eps⟩ : ℂ) = ((eps : ℝ) : ℂ) * Complex.I + algebraMap ℝ ℂ x := by
    apply Complex.ext <;> simp
  have h2 : aeval (((eps : ℝ) : ℂ) * Complex.I + algebraMap ℝ ℂ x) p = aeval (((eps : ℝ) : ℂ) * Complex.I) (taylor x p) := by
    rw [taylor_apply, aeval_comp]; simp
  rw [h1, h2, Polynomial.aeval_eq_sum_range, Polynomial.natDegree_taylor]
  refine Finset.sum_congr rfl fun j _ => ?_
  rw [Complex.real_smul]

theorem term_im (a e : ℝ) (j : ℕ) : ((a : ℂ) * ((e : ℂ) * Complex.I) ^ j).im = a * e ^ j * (Complex.I ^ j).im := by
  rw [mul_pow, ← Complex.ofReal_pow, ← mul_assoc, ← Complex.ofReal_mul, Complex.im_ofReal_mul]

theorem term_re (a e : ℝ) (j : ℕ) : ((a : ℂ) * ((e : ℂ) * Complex.I) ^ j).re = a * e ^ j * (Complex.I ^ j).re := by
  rw [mul_pow, ← Complex.ofReal_pow, ← mul_assoc, ← Complex.ofReal_mul, Complex.re_ofReal_mul]

theorem abs_I_pow_im (j : ℕ) : |(Complex.I ^ j).im| ≤ 1 := by
  refine (Complex.abs_im_le_norm _).trans ?_
  simp

theorem abs_I_pow_re (j : ℕ) : |(Complex.I ^ j).re| ≤ 1 := by
  refine (Complex.abs_re_le_norm _).trans ?_
  simp

theorem complex_im_bound (p : ℝ[X]) (x : ℝ) :
    |(aeval (⟨x, eps⟩ : ℂ) p).im / eps - p.derivative.eval x| ≤
      eps ^ 2 * ∑ j ∈ Finset.range (p.natDegree + 1), if j < 3 then 0 else |(hasseDeriv j p).eval x| := by
  have he := eps_pos
  have h1 : (p.derivative.eval x) = (∑ j ∈ Finset.range (p.natDegree + 1), if j = 1 then (taylor x p).coeff 1 else 0) := by
    rw [Finset.sum_ite_eq' (Finset.range _) 1 (fun _ => (taylor x p).coeff 1)]
    split_ifs with h
    · rw [taylor_coeff_one]
    · rw [← taylor_coeff_one, coeff_eq_zero_of_natDegree_lt]
      rw [natDegree_taylor]
      simpa using h
  rw [h1, aeval_expand, Complex.im_sum, Finset.sum_div, ← Finset.sum_sub_distrib, Finset.mul_sum]
  refine (Finset.abs_sum_le_sum_abs _ _).trans (Finset.sum_le_sum fun j _ => ?_)
  rw [term_im]
  rcases j with _ | _ | _ | j
  · simp
  · simp [he.ne']
  · simp
  · rw [if_neg (by omega), if_neg (by omega), sub_zero, taylor_coeff]
    have h2 := abs_I_pow_im (j + 1 + 1 + 1)
    rw [abs_div, abs_mul, abs_mul, abs_of_pos he, abs_pow, abs_of_pos he]
    rw [show eps ^ (j + 1 + 1 + 1) = (eps : ℝ) ^ j * (eps ^ 2 * eps) by ring]
    have h3 : (eps : ℝ) ^ j ≤ 1 := pow_le_one₀ he.le eps_le_one
    rw [div_le_iff₀ he]
    set A := |eval x ((hasseDeriv (j + 1 + 1 + 1)) p)|
    have hA : 0 ≤ A := abs_nonneg _
    set B := |(Complex.I ^ (j + 1 + 1 + 1)).im|
    have hB : 0 ≤ B := abs_nonneg _
    have h4 : (eps : ℝ) ^ j * B ≤ 1 := mul_le_one₀ h3 hB h2
    calc A * (eps ^ j * (eps ^ 2 * eps)) * B = (eps ^ j * B) * (eps ^ 2 * A * eps) := by ring
      _ ≤ 1 * (eps ^ 2 * A * eps) := mul_le_mul_of_nonneg_right h4 (by positivity)
      _ = _ := by ring

theorem complex_re_bound (p : ℝ[X]) (x : ℝ) :
    |(aeval (⟨x, eps⟩ : ℂ) p).re - p.eval x| ≤
      eps ^ 2 * ∑ j ∈ Finset.range (p.natDegree + 1), if j < 2 then 0 else |(hasseDeriv j p).eval x| := by
  have he := eps_pos
  have h1 : (p.eval x) = (∑ j ∈ Finset.range (p.natDegree + 1), if j = 0 then (taylor x p).coeff 0 else 0) := by
    rw [Finset.sum_ite_eq' (Finset.range _) 0 (fun _ => (taylor x p).coeff 0)]
    simp
  rw [h1, aeval_expand, Complex.re_sum, ← Finset.sum_sub_distrib, Finset.mul_sum]
  refine (Finset.abs_sum_le_sum_abs _ _).trans (Finset.sum_le_sum fun j _ => ?_)
  rw [term_re]
  rcases j with _ | _ | j
  · simp
  · simp
  · rw [if_neg (by omega), if_neg (by omega), sub_zero, taylor_coeff]
    have h2 := abs_I_pow_re (j + 1 + 1)
    rw [abs_mul, abs_mul, abs_pow, abs_of_pos he]
    rw [show eps ^ (j + 1 + 1) = (eps : ℝ) ^ j * eps ^ 2 by ring]
    have h3 : (eps : ℝ) ^ j ≤ 1 := pow_le_one₀ he.le eps_le_one
    set A := |eval x ((hasseDeriv (j + 1 + 1)) p)|
    have hA : 0 ≤ A := abs_nonneg _
    set B := |(Complex.I ^ (j + 1 + 1)).re|
    have hB : 0 ≤ B := abs_nonneg _
    have h4 : (eps : ℝ) ^ j * B ≤ 1 := mul_le_one₀ h3 hB h2
    calc A * (eps ^ j * eps ^ 2) * B = (eps ^ j * B) * (eps ^ 2 * A) := by ring
      _ ≤ 1 * (eps ^ 2 * A) := mul_le_mul_of_nonneg_right h4 (by positivity)
      _ = _ := by ring

/-! ### Loops -/

/-- `x` with `d` added to component `i`. -/
noncomputable def bump {n : ℕ} (x : Fin n → ℝ) (i : Fin n) (d : ℝ) : Fin n → ℝ := update x i (x i + d)

theorem jacobianForward_eq {n m : ℕ} (f : (Fin n → ℝ) → (Fin m → ℝ)) (x : Fin n → ℝ) (fx : Fin m → ℝ)
    (sclx : Fin n → ℝ) (ndigit : Option ℕ) (J0 : Fin m → Fin n → ℝ) (r : Fin m) (c : Fin n) :
    jacobianForward f x fx sclx ndigit J0 r c =
      (f (bump x c (stepSize (√(noise ndigit)) x sclx c)) r - fx r) / stepSize (√(noise ndigit)) x sclx c := by
  unfold jacobianForward
  have key : ∀ (l : List (Fin n)) (J : Fin m → Fin n → ℝ),
      (l.foldl (jacStep f x fx sclx √(noise ndigit)) (x, J)).2 r c =
      if c ∈ l then (f (bump x c (stepSize (√(noise ndigit)) x sclx c)) r - fx r) / stepSize (√(noise ndigit)) x sclx c
      else J r c := by
    intro l
    induction l with
    | nil => intro J; simp
    | cons i l ih =>
      intro J
      rw [List.foldl_cons]
      have hs : jacStep f x fx sclx √(noise ndigit) (x, J) i = (x, fun r => update (J r) i
          ((f (bump x i (stepSize (√(noise ndigit)) x sclx i)) r - fx r) / stepSize (√(noise ndigit)) x sclx i)) := by
        simp [jacStep, bump, stepSize]
      rw [hs, ih]
      by_cases hc : c ∈ l
      · simp [hc]
      · by_cases hi : c = i
        · subst hi
          simp [hc]
        · simp [hc, hi]
  rw [key]
  simp

theorem hessianLoop1_eq {n : ℕ} (f : (Fin n → ℝ) → ℝ) (x sclx : Fin n → ℝ) (h0 : ℝ) (h00 fh0 : Fin n → ℝ) :
    hessianLoop1 f x sclx h0 (x, h00, fh0) =
      (x, fun i => stepSize h0 x sclx i, fun i => f (bump x i (stepSize h0 x sclx i))) := by
  unfold hessianLoop1
  have key : ∀ (l : List (Fin n)) (h fh : Fin n → ℝ),
      l.foldl (hess1Step f x sclx h0) (x, h, fh) =
      (x, fun i => if i ∈ l then stepSize h0 x sclx i else h i,
        fun i => if i ∈ l then f (bump x i (stepSize h0 x sclx i)) else fh i) := by
    intro l
    induction l with
    | nil => intro h fh; simp
    | cons i l ih =>
      intro h fh
      rw [List.foldl_cons]
      have hs : hess1Step f x sclx h0 (x, h, fh) i = (x, update h i (stepSize h0 x sclx i),
          update fh i (f (bump x i (stepSize h0 x sclx i)))) := by
        simp [hess1Step, bump, stepSize]
      rw [hs, ih]
      simp only [Prod.mk.injEq, true_and]
      constructor
      · funext c
        by_cases hc : c ∈ l
        · simp [hc]
        · by_cases hi : c = i
          · subst hi; simp [hc]
          · simp [hc, hi]
      · funext c
        by_cases hc : c ∈ l
        · simp [hc]
        · by_cases hi : c = i
          · subst hi; simp [hc]
          · simp [hc, hi]
  rw [key]
  simp

/-- Off-diagonal quotient. -/
noncomputable def offDiag {n : ℕ} (f : (Fin n → ℝ) → ℝ) (fx : ℝ) (x h fh : Fin n → ℝ) (i j : Fin n) : ℝ :=
  ((fx - fh i) + (f (bump (bump x i (h i)) j (h j)) - fh j)) / (h i * h j)

theorem hessianInner_eq {n : ℕ} (f : (Fin n → ℝ) → ℝ) (fx : ℝ) (x h fh : Fin n → ℝ) (i : Fin n)
    (H : Fin n → Fin n → ℝ) :
    hessianInner f fx h fh i (bump x i (h i), H) =
      (bump x i (h i), fun a b =>
        if a = i ∧ i < b then offDiag f fx x h fh i b
        else if b = i ∧ i < a then offDiag f fx x h fh i a
        else H a b) := by
  unfold hessianInner
  have key : ∀ (l : List (Fin n)), (∀ j ∈ l, i < j) → ∀ (H : Fin n → Fin n → ℝ),
      l.foldl (innerStep f fx h fh i) (bump x i (h i), H) =
      (bump x i (h i), fun a b =>
        if a = i ∧ b ∈ l then offDiag f fx x h fh i b
        else if b = i ∧ a ∈ l then offDiag f fx x h fh i a
        else H a b) := by
    intro l
    induction l with
    | nil => intro _ H; simp
    | cons j l ih =>
      intro hl H
      have hij : i < j := hl j (by simp)
      have hil : ∀ k ∈ l, i < k := fun k hk => hl k (by simp [hk])
      have hinl : i ∉ l := fun h => lt_irrefl _ (hil i h)
      rw [List.foldl_cons]
      have hs : innerStep f fx h fh i (bump x i (h i), H) j = (bump x i (h i),
          update (update H i (update (H i) j (offDiag f fx x h fh i j))) j
            (update (H j) i (offDiag f fx x h fh i j))) := by
        simp only [innerStep, update_idem, update_eq_self, Prod.mk.injEq, true_and]
        rw [update_self, update_self, update_of_ne hij.ne' ]
        rfl
      rw [hs, ih hil]
      simp only [Prod.mk.injEq, true_and]
      funext a b
      by_cases ha : a = i
      · subst ha
        by_cases hb : b ∈ l
        · simp [hb]
        · by_cases hbj : b = j
          · subst hbj
            simp [hb, hij.ne, hinl]
          · by_cases hbi : b = a
            · subst hbi; simp [hb, hij.ne, hbj]
            · simp [hb, hbj, hij.ne, hbi, hinl]
      · by_cases hb : b = i
        · subst hb
          by_cases hal : a ∈ l
          · simp [ha, hal]
          · by_cases haj : a = j
            · subst haj
              simp [ha, hal]
            · simp [ha, hal, haj]
        · by_cases haj : a = j
          · subst haj; simp [ha, hb]
          · simp [ha, hb, haj]
  rw [key _ (by simp)]
  simp only [List.mem_filter, List.mem_finRange, true_and, decide_eq_true_eq]

/-- Diagonal quotient. -/
noncomputable def diag {n : ℕ} (f : (Fin n → ℝ) → ℝ) (fx : ℝ) (x h fh : Fin n → ℝ) (i : Fin n) : ℝ :=
  ((fx - fh i) + (f (bump x i (2 * h i)) - fh i)) / (h i) ^ 2

theorem hessianLoop2_eq {n : ℕ} (f : (Fin n → ℝ) → ℝ) (fx : ℝ) (x h fh : Fin n → ℝ) (H : Fin n → Fin n → ℝ) (a b : Fin n) :
    (hessianLoop2 f fx h fh (x, H)).2 a b =
      if a = b then diag f fx x h fh a
      else if a < b then offDiag f fx x h fh a b
      else offDiag f fx x h fh b a := by
  unfold hessianLoop2
  have key : ∀ (l : List (Fin n)) (H : Fin n → Fin n → ℝ),
      (l.foldl (hess2Step f fx h fh) (x, H)).2 a b =
      if a = b then if a ∈ l then diag f fx x h fh a else H a b
      else if a < b then if a ∈ l then offDiag f fx x h fh a b else H a b
      else if b ∈ l then offDiag f fx x h fh b a else H a b := by
    intro l
    induction l with
    | nil => intro H; simp
    | cons i l ih =>
      intro H
      rw [List.foldl_cons]
      have hs : hess2Step f fx h fh (x, H) i = (x, fun a b =>
          if a = i ∧ i < b then offDiag f fx x h fh i b
          else if b = i ∧ i < a then offDiag f fx x h fh i a
          else update H i (update (H i) i (diag f fx x h fh i)) a b) := by
        simp only [hess2Step, update_idem]
        rw [show update x i (x i + h i) = bump x i (h i) from rfl, hessianInner_eq]
        dsimp only
        rw [show update (bump x i (h i)) i (x i) = x by simp [bump]]
        rfl
      rw [hs, ih]
      by_cases hab : a = b
      · subst hab
        simp only [if_true]
        by_cases hal : a ∈ l
        · simp [hal]
        · by_cases hai : a = i
          · subst hai; simp [hal]
          · simp [hal, hai]
      · simp only [if_neg hab]
        by_cases hlt : a < b
        · simp only [if_pos hlt]
          by_cases hal : a ∈ l
          · simp [hal]
          · by_cases hai : a = i
            · subst hai; simp [hal, hlt]
            · have : ¬ (b = i ∧ i < a) := by rintro ⟨rfl, h'⟩; exact absurd hlt (not_lt.mpr h'.le)
              simp [hal, hai, this]
        · have hba : b < a := lt_of_le_of_ne (not_lt.mp hlt) (Ne.symm hab)
          simp only [if_neg hlt]
          by_cases hbl : b ∈ l
          · simp [hbl]
          · by_cases hbi : b = i
            · subst hbi; simp [hbl, hba, hab]
            · have : ¬ (a = i ∧ i < b) := by rintro ⟨rfl, h'⟩; exact hlt h'
              simp only [hbl, if_false, this, List.mem_cons, hbi, or_self]
              by_cases hai : a = i
              · subst hai; simp [Ne.symm hab, hbi]
              · simp [hai, hbi]
  rw [key]
  simp

/-! ### Polynomials of degree at most two in several variables -/

/-- `c + b·x + ½ xᵀ A x`. -/
noncomputable def quad {n : ℕ} (c : ℝ) (b : Fin n → ℝ) (A : Fin n → Fin n → ℝ) (x : Fin n → ℝ) : ℝ :=
  c + ∑ i, b i * x i + (∑ i, ∑ j, A i j * x i * x j) / 2

theorem bump_apply {n : ℕ} (x : Fin n → ℝ) (i k : Fin n) (d : ℝ) : bump x i d k = x k + if k = i then d else 0 := by
  unfold bump
  by_cases h : k = i
  · subst h; simp
  · simp [h]

theorem sum_bump {n : ℕ} (b x : Fin n → ℝ) (i : Fin n) (d : ℝ) :
    ∑ k, b k * bump x i d k = ∑ k, b k * x k + b i * d := by
  simp [bump_apply, mul_add, Finset.sum_add_distrib]

theorem quad_bump {n : ℕ} (c : ℝ) (b : Fin n → ℝ) (A : Fin n → Fin n → ℝ) (hA : ∀ i j, A i j = A j i) (x : Fin n → ℝ)
    (i : Fin n) (d : ℝ) :
    quad c b A (bump x i d) = quad c b A x + d * (b i + ∑ j, A i j * x j) + d ^ 2 / 2 * A i i := by
  have h1 : ∑ k, ∑ l, A k l * bump x i d k * bump x i d l =
      ∑ k, ∑ l, A k l * x k * x l + 2 * d * ∑ j, A i j * x j + d ^ 2 * A i i := by
    have e1 : ∀ k, ∑ l, A k l * bump x i d k * bump x i d l =
        (∑ l, A k l * x l + A k i * d) * bump x i d k := by
      intro k
      rw [← sum_bump (A k) x i d, Finset.sum_mul]
      exact Finset.sum_congr rfl fun l _ => by ring
    simp_rw [e1]
    rw [sum_bump (fun k => ∑ l, A k l * x l + A k i * d) x i d]
    simp only [add_mul, Finset.sum_add_distrib, Finset.sum_mul]
    have e2 : ∑ k, ∑ l, A k l * x l * x k = ∑ k, ∑ l, A k l * x k * x l :=
      Finset.sum_congr rfl fun k _ => Finset.sum_congr rfl fun l _ => by ring
    have e3 : ∑ k, A k i * d * x k = d * ∑ j, A i j * x j := by
      rw [Finset.mul_sum]
      exact Finset.sum_congr rfl fun k _ => by rw [hA k i]; ring
    have e4 : ∑ l, A i l * x l * d = d * ∑ j, A i j * x j := by
      rw [Finset.mul_sum]
      exact Finset.sum_congr rfl fun k _ => by ring
    rw [e2, e3, e4]
    ring
  unfold quad
  rw [h1, sum_bump]
  ring

theorem stepSize_pos {n : ℕ} (h0 : ℝ) (h0p : 0 < h0) (x sclx : Fin n → ℝ) (i : Fin n) (hs : sclx i ≠ 0) :
    0 < stepSize h0 x sclx i := by
  unfold stepSize
  have : 0 < |1 / sclx i| := abs_pos.mpr (one_div_ne_zero hs)
  exact mul_pos h0p (lt_of_lt_of_le this (le_max_right _ _))

theorem offDiag_quad {n : ℕ} (c : ℝ) (b : Fin n → ℝ) (A : Fin n → Fin n → ℝ) (hA : ∀ i j, A i j = A j i)
    (x h : Fin n → ℝ) (i j : Fin n) (hi : h i ≠ 0) (hj : h j ≠ 0) :
    offDiag (quad c b A) (quad c b A x) x h (fun k => quad c b A (bump x k (h k))) i j = A i j := by
  unfold offDiag
  simp only [quad_bump _ _ _ hA, sum_bump]
  rw [hA j i]
  field_simp
  ring

theorem diag_quad {n : ℕ} (c : ℝ) (b : Fin n → ℝ) (A : Fin n → Fin n → ℝ) (hA : ∀ i j, A i j = A j i)
    (x h : Fin n → ℝ) (i : Fin n) (hi : h i ≠ 0) :
    diag (quad c b A) (quad c b A x) x h (fun k => quad c b A (bump x k (h k))) i = A i i := by
  unfold diag
  simp only [quad_bump _ _ _ hA]
  field_simp
  ring

/-! ### Scaling factors -/

theorem min?_pos_aux (l : List ℝ) (m : ℝ) (h : l.min? = some m) : m ∈ l ∧ ∀ v ∈ l, m ≤ v := by
  exact ⟨List.min?_mem h, fun v hv => (List.le_min?_iff h).mp le_rfl v hv⟩

theorem max?_aux (l : List ℝ) (m : ℝ) (h : l.max? = some m) : m ∈ l ∧ ∀ v ∈ l, v ≤ m := by
  exact ⟨List.max?_mem h, fun v hv => (List.max?_le_iff h).mp le_rfl v hv⟩

end Verif.NDiff
