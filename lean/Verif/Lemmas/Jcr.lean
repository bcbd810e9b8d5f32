import Verif.Model.Jcr
import Verif.Props.RootsScalar

/-! # Helper lemmas: joint confidence regions -/

namespace Verif.Jcr

open Real

theorem angle_cos_sin {x y : ℝ} (h : x ^ 2 + y ^ 2 = 1) : ∃ σ : ℝ, σ ^ 2 = 1 ∧ cos (angleOf x y * (π / 180)) = σ * x ∧ sin (angleOf x y * (π / 180)) = σ * y := by
  have hpi := pi_pos
  have e : ∀ z : ℝ, z * (180 / π) * (π / 180) = z := fun z => by field_simp
  unfold angleOf
  rw [e]
  split_ifs with h0 hy
  · subst h0
    have : y = 1 := by nlinarith
    exact ⟨1, by norm_num, by simp, by simp [this]⟩
  · subst h0
    have : y = -1 := by nlinarith
    exact ⟨1, by norm_num, by simp, by simp [this]⟩
  · have hs : 0 < √(1 + (y / x) ^ 2) := by positivity
    have hx : √(1 + (y / x) ^ 2) = 1 / |x| := by
      have : 1 + (y / x) ^ 2 = (1 / |x|) ^ 2 := by
        rw [div_pow 1, sq_abs]; field_simp; linarith
      rw [this, sqrt_sq (by positivity)]
    refine ⟨|x| / x, by rw [div_pow, sq_abs]; field_simp, ?_, ?_⟩
    · rw [cos_arctan, hx]; field_simp
    · rw [sin_arctan, hx]; field_simp

theorem exists_angle {c s : ℝ} (h : c ^ 2 + s ^ 2 = 1) : ∃ t, cos t = c ∧ sin t = s := by
  have h1 : -1 ≤ c := by nlinarith [sq_nonneg s]
  have h2 : c ≤ 1 := by nlinarith [sq_nonneg s]
  have h3 : √(1 - c ^ 2) = |s| := by rw [show 1 - c ^ 2 = s ^ 2 by linarith, sqrt_sq_eq_abs]
  rcases le_total 0 s with hs | hs
  · exact ⟨arccos c, cos_arccos h1 h2, by rw [sin_arccos, h3, abs_of_nonneg hs]⟩
  · exact ⟨-arccos c, by rw [cos_neg, cos_arccos h1 h2], by rw [sin_neg, sin_arccos, h3, abs_of_nonpos hs]; ring⟩

theorem findRadius_spec {g : ℝ → ℝ} {rtol r0 r : ℝ} (hr : 0 ≤ rtol) (h : findRadius g rtol r0 = some r) :
    0 < r ∧ (|g (log r)| ≤ 1e-4 ∨ ∃ r', 0 < r' ∧ r' ≤ r * (1 + rtol) ∧ r ≤ r' * (1 + rtol)) := by
  unfold findRadius at h
  split_ifs at h with h0
  cases hs : rootSecant g (log (r0 * 1.02)) (log r0) |log (1 + rtol)| 1e-4 100 with
  | error e => rw [hs] at h; cases h
  | ok p =>
    obtain ⟨s, c⟩ := p
    rw [hs] at h
    dsimp only at h
    split_ifs at h with hsu
    obtain ⟨-, -, -, h4, -⟩ := C02_secant_certificate _ _ _ _ _ _ _ _ hs
    obtain ⟨x, hx, -, -, h5⟩ := h4 hsu
    rw [hx, Option.map_some] at h
    injection h with h
    subst h
    refine ⟨exp_pos x, ?_⟩
    rcases h5 with ⟨-, h5⟩ | ⟨-, -, h5⟩
    · left; rwa [log_exp]
    · right
      generalize secantSeq g (log (r0 * 1.02)) (log r0) (s.nfeval - 2) = y at h5
      have h1 : 0 ≤ log (1 + rtol) := log_nonneg (by linarith)
      rw [abs_of_nonneg h1, abs_le] at h5
      have e : ∀ z : ℝ, exp z * (1 + rtol) = exp (z + log (1 + rtol)) := fun z => by rw [exp_add, exp_log (by linarith)]
      exact ⟨exp y, exp_pos y, by rw [e, exp_le_exp]; linarith [h5.1], by rw [e, exp_le_exp]; linarith [h5.2]⟩

theorem radii_spec (g : ℝ → ℝ → ℝ) (rtol guess0 : ℝ) (l : List ℝ) : ∀ guess, (radii g rtol guess0 guess l).length = l.length ∧
    ∀ (i : ℕ) r, (radii g rtol guess0 guess l)[i]? = some (some r) → ∃ θ r0, l[i]? = some θ ∧ findRadius (fun x => g x θ) rtol r0 = some r := by
  induction l with
  | nil => intro guess; exact ⟨rfl, fun i r h => by simp [radii] at h⟩
  | cons θ l ih =>
    intro guess
    unfold radii
    cases hf : findRadius (fun x => g x θ) rtol guess with
    | some r =>
      dsimp only
      refine ⟨by simp [(ih r).1], fun i r' h => ?_⟩
      cases i with
      | zero => simp only [List.getElem?_cons_zero, Option.some.injEq] at h; subst h; exact ⟨θ, guess, rfl, hf⟩
      | succ i => exact (ih r).2 i r' (by simpa using h)
    | none =>
      dsimp only
      refine ⟨by simp [(ih guess0).1], fun i r' h => ?_⟩
      cases i with
      | zero => simp at h
      | succ i => exact (ih guess0).2 i r' (by simpa using h)

end Verif.Jcr
