import Verif.Lemmas.Acm
import Mathlib.Order.Monotone.Union
import Mathlib.Analysis.Calculus.Deriv.MeanValue

/-! # Helper lemmas: C82: activity coefficient models -/

namespace Verif.Acm

open Finset

variable {N : ℕ}

theorem single_mul_sum (i : Fin N) (f : Fin N → ℝ) : ∑ j, (Pi.single i 1 : Fin N → ℝ) j * f j = f i := by
  simp [Pi.single_apply, ite_mul]

theorem mul_single_sum (i : Fin N) (f : Fin N → ℝ) : ∑ j, f j * (Pi.single i 1 : Fin N → ℝ) j = f i := by
  simp [Pi.single_apply, mul_ite]

theorem nrtl_diag {a b c d e f : Option (Mat N)} {m : Nrtl N} {l} (h : Nrtl.init a b c d e f = .ok (m, l)) :
    (∀ i T, m.tau T i i = 0) ∧ (∀ i T, m.alpha T i i = 0) ∧ ∀ i j T, m.alpha T i j = m.alpha T j i := by
  unfold Nrtl.init checkMat at h
  simp only [bind, Except.bind, pure, Except.pure] at h
  split_ifs at h
  simp only [Except.ok.injEq, Prod.mk.injEq] at h
  obtain ⟨rfl, -⟩ := h
  refine ⟨fun i T => ?_, fun i T => ?_, fun i j T => ?_⟩
  · simp [Nrtl.tau, fillDiag_diag]
  · simp [Nrtl.alpha, sym_diag]
  · simp only [Nrtl.alpha]; rw [sym_symm, sym_symm (orFull d 0)]

theorem fh_symm {a b c d e : Option (Mat N)} {f : FloryHuggins N} {l} (h : FloryHuggins.init a b c d e = .ok (f, l)) (T : ℝ) :
    (∀ i j, f.chi T i j = f.chi T j i) ∧ ∀ i, f.chi T i i = 0 := by
  unfold FloryHuggins.init checkMat at h
  simp only [bind, Except.bind, pure, Except.pure] at h
  split_ifs at h
  simp only [Except.ok.injEq, Prod.mk.injEq] at h
  obtain ⟨rfl, -⟩ := h
  refine ⟨fun i j => ?_, fun i => ?_⟩
  · simp only [FloryHuggins.chi]
    rw [sym_symm, sym_symm (orFull b 0), sym_symm (orFull c 0), sym_symm (orFull d 0), sym_symm (orFull e 0)]
  · simp [FloryHuggins.chi, sym_diag]

theorem fillDiag_id (a : Mat N) (h : ∀ i, a i i = 0) : fillDiag a = a := by
  funext i j
  simp only [fillDiag]
  split_ifs with hij
  · rw [← hij, h]
  · rfl

theorem sym_id (a : Mat N) (h : ∀ i, a i i = 0) (hs : ∀ i j, a i j = a j i) : enforceSymmetry (fillDiag a) = a := by
  rw [fillDiag_id a h]
  funext i j
  simp only [enforceSymmetry]
  split_ifs
  · rw [hs]
  · rfl

end Verif.Acm
