import Verif.Lemmas.FixPoint

/-!
# Convergence of `fixpoint_wegstein`
-/

namespace Verif.FixPoint

variable {α : Type*} [Field α] [LinearOrder α] [IsStrictOrderedRing α] {n : ℕ}

/-- The acceleration factor is small when the slope is. -/
theorem wegsteinQ_le {qmin qmax Δx Δg lam : α} (h0 : 0 ≤ lam) (h1 : lam < 1) (hq1 : qmin ≤ 0) (hq2 : 0 ≤ qmax) (h : |Δg| ≤ lam * |Δx|) :
    |wegsteinQ qmin qmax Δx Δg| ≤ lam / (1 - lam) := by
  have hs : |if |Δx| > eps then Δg / Δx else 0| ≤ lam := by
    split_ifs with hx
    · have : 0 < |Δx| := lt_trans eps_pos hx
      rw [abs_div, div_le_iff₀ this]; exact h
    · rw [abs_zero]; exact h0
  unfold wegsteinQ
  dsimp only
  generalize (if |Δx| > eps then Δg / Δx else 0) = s at *
  have hs' := abs_le.1 hs
  have hd : 0 < 1 - lam := by linarith
  rw [if_neg (by intro h; linarith [hs'.2])]
  have ht : |s / (s - 1)| ≤ lam / (1 - lam) := by
    rw [abs_div, abs_of_neg (by linarith [hs'.2] : s - 1 < 0), div_le_div_iff₀ (by linarith [hs'.2]) hd]
    have : |s| * (1 - lam) ≤ lam * (1 - lam) := mul_le_mul_of_nonneg_right hs hd.le
    have h3 : lam * (1 - lam) ≤ lam * -(s - 1) := mul_le_mul_of_nonneg_left (by linarith [hs'.2]) h0
    linarith
  have hκ : 0 ≤ lam / (1 - lam) := by positivity
  generalize s / (s - 1) = t at *
  unfold clip
  rw [abs_le] at *
  constructor
  · exact le_min (ht.1.trans (le_max_left _ _)) (by linarith)
  · exact (min_le_left _ _).trans (max_le ht.2 (by linarith))

/-- The loop of `fixpoint_wegstein` when some property of the iterates is passed on. -/
theorem wegstein_loop {g : (Fin n → α) → (Fin n → α)} {sclx : Fin n → α} {tolx qmin qmax : α} {wait maxiter N : ℕ} (P : ℕ → (Fin n → α) → Prop)
    (hg : ∀ k x, P k x → P (k + 1) (g x))
    (hw : ∀ k x xm, P k x → P (k + 1) (fun i => wegsteinQ qmin qmax (x i - xm i) (g x i - g xm i) * x i + (1 - wegsteinQ qmin qmax (x i - xm i) (g x i - g xm i)) * g x i))
    (hN : N < maxiter) (hP : ∀ x, P N x → ∀ i, |sclx i * (g x i - x i)| ≤ tolx) :
    ∀ m k x st nf calls, m + k = maxiter → k ≤ N → P k x → (∀ xm gxm fx, st = some (xm, gxm, fx) → gxm = g xm) →
      ∃ r tr, wegsteinLoop g sclx tolx qmin qmax wait maxiter m k x st nf calls = .ok (r, tr) ∧ r.success = true ∧ r.niter ≤ N + 1 ∧
        ∀ i, |sclx i * (g r.x i - r.x i)| ≤ tolx := by
  intro m
  induction m with
  | zero => intro k x st nf calls h1 h2; omega
  | succ m ih =>
    intro k x st nf calls h1 h2 hx hst
    unfold wegsteinLoop
    dsimp only
    split_ifs with c1 c2
    · exact ⟨_, _, rfl, rfl, by simpa using h2, c1⟩
    · have hkN : k < N := by
        rcases lt_or_eq_of_le h2 with h | h
        · exact h
        · exact absurd (hP x (h ▸ hx)) c1
      refine ih (k + 1) _ _ _ _ (by omega) hkN ?_ (by rintro _ _ _ ⟨⟩; rfl)
      match st, hst with
      | none, _ => exact hg k x hx
      | some (xm, gxm, fx), hst =>
        have := hst xm gxm fx rfl
        subst this
        simp only
        unfold wegsteinNext
        split_ifs
        · exact hg k x hx
        · exact hw k x xm hx
    · exfalso
      have hkN : k < N := by
        rcases lt_or_eq_of_le h2 with h | h
        · exact h
        · exact absurd (hP x (h ▸ hx)) c1
      omega

end Verif.FixPoint
