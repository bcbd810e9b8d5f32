import Verif.Model.RootsScalar
import Verif.Spec.RootsScalar
import Verif.Lemmas.Tactics

set_option linter.unusedSectionVars false

namespace Verif

variable {α : Type*} [Field α] [LinearOrder α] [IsStrictOrderedRing α]

theorem eps_pos : (0 : α) < eps := by unfold eps; positivity

theorem newtonLoop_spec (f : α × α → α × α) (x0 tolx tolf : α) (maxiter : ℕ) :
    ∀ (n k : ℕ) (x : α) (fx? : Option α) (calls : List (α × α)) (r : RootResult α) (tr : List (α × α)),
      n + k = maxiter →
      calls = (List.range k).map (fun i => ((newtonIter f)^[i] x0, eps)) →
      x = (newtonIter f)^[if k < maxiter then k else k - 1] x0 →
      (k = 0 → fx? = none) →
      (0 < k → ∃ p, p = (newtonIter f)^[k - 1] x0 ∧ fx? = some (f (p, eps)).1 ∧ tolf < |(f (p, eps)).1|) →
      newtonLoop f tolx tolf maxiter n k x fx? k calls = .ok (r, tr) →
      r.nfeval = r.niter ∧ 1 ≤ r.niter ∧ r.niter ≤ maxiter ∧
      tr = (List.range r.niter).map (fun i => ((newtonIter f)^[i] x0, eps)) ∧
      r.x = (newtonIter f)^[r.niter - 1] x0 ∧
      r.f = (f (r.x, eps)).1 ∧
      (r.success = true →
        (|r.f| ≤ tolf ∧ r.message = .tolf) ∨
        (r.message = .tolx ∧ tolf < |r.f| ∧ eps < |(f (r.x, eps)).2 / eps| ∧
          |r.f / ((f (r.x, eps)).2 / eps)| ≤ tolx)) ∧
      (r.success = false → tolf < |r.f| ∧
        ((r.message = .zeroSlope ∧ |(f (r.x, eps)).2 / eps| ≤ eps) ∨
         (r.message = .maxiter ∧ r.niter = maxiter))) := by
  intro n
  induction n with
  | zero =>
    intro k x fx? calls r tr hk hcalls hx h0 hs h
    unfold newtonLoop at h
    rcases Nat.eq_zero_or_pos k with hk0 | hkpos
    · rw [h0 hk0] at h; simp at h
    · obtain ⟨p, hp, hfx, hlt⟩ := hs hkpos
      rw [hfx] at h
      simp only [Except.ok.injEq, Prod.mk.injEq] at h
      obtain ⟨rfl, rfl⟩ := h
      have hkm : k = maxiter := by omega
      have hx' : x = p := by rw [hx, hp, if_neg (by omega)]
      subst hx'
      refine ⟨rfl, hkpos, by simp; omega, hcalls, by simpa using hp, rfl, by simp, ?_⟩
      intro _
      exact ⟨hlt, Or.inr ⟨rfl, hkm⟩⟩
  | succ n ih =>
    intro k x fx? calls r tr hk hcalls hx h0 hs h
    have hklt : k < maxiter := by omega
    rw [if_pos hklt] at hx
    unfold newtonLoop at h
    dsimp only [derivativeComplex] at h
    have htr : calls ++ [(x, eps)] =
        (List.range (k + 1)).map (fun i => ((newtonIter f)^[i] x0, eps)) := by
      rw [List.range_succ, List.map_append, ← hcalls, hx]; rfl
    split_ifs at h with h1 h2 h3 h4
    · simp only [Except.ok.injEq, Prod.mk.injEq] at h
      obtain ⟨rfl, rfl⟩ := h
      exact ⟨rfl, by simp, by simp; omega, htr, by simpa using hx, rfl, fun _ => Or.inl ⟨h1, rfl⟩, by simp⟩
    · simp only [Except.ok.injEq, Prod.mk.injEq] at h
      obtain ⟨rfl, rfl⟩ := h
      exact ⟨rfl, by simp, by simp; omega, htr, by simpa using hx, rfl, by simp,
        fun _ => ⟨not_le.mp h1, Or.inl ⟨rfl, h2⟩⟩⟩
    · simp only [Except.ok.injEq, Prod.mk.injEq] at h
      obtain ⟨rfl, rfl⟩ := h
      refine ⟨rfl, by simp, by simp; omega, htr, by simpa using hx, rfl, fun _ => Or.inr ⟨rfl, not_le.mp h1,
        not_le.mp h2, ?_⟩, by simp⟩
      simpa [neg_div, abs_neg] using h3
    · refine ih (k + 1) _ _ _ r tr (by omega) htr ?_ (by simp) ?_ h
      · rw [if_pos h4, Function.iterate_succ_apply', ← hx]
        simp [newtonIter, neg_div, sub_eq_add_neg]
      · intro _
        exact ⟨x, by simpa using hx, rfl, not_le.mp h1⟩
    · refine ih (k + 1) _ _ _ r tr (by omega) htr ?_ (by simp) ?_ h
      · rw [if_neg h4]; simpa using hx
      · intro _
        exact ⟨x, by simpa using hx, rfl, not_le.mp h1⟩

theorem newtonLoop_ok (f : α × α → α × α) (tolx tolf : α) (maxiter : ℕ) :
    ∀ (n k : ℕ) (x : α) (fx? : Option α) (nf : ℕ) (calls : List (α × α)),
      fx?.isSome ∨ 0 < n → ∃ r, newtonLoop f tolx tolf maxiter n k x fx? nf calls = .ok r := by
  intro n
  induction n with
  | zero =>
    intro k x fx? nf calls h
    cases fx? with
    | none => simp at h
    | some v => exact ⟨_, rfl⟩
  | succ n ih =>
    intro k x fx? nf calls _
    unfold newtonLoop
    simp only
    split_ifs
    all_goals first | exact ⟨_, rfl⟩ | exact ih _ _ _ _ _ (Or.inl rfl)

theorem secantLoop_spec (f : α → α) (x0 x1 tolx tolf : α) (maxiter : ℕ) :
    ∀ (n k : ℕ) (x2 f2 : Option α) (r : RootResult (Option α)) (tr : List α),
      n + k = maxiter →
      (x2 = if k = 0 then none else some (secantSeq f x0 x1 (k + 1))) →
      (f2 = if k = 0 then none else some (f (secantSeq f x0 x1 (k + 1)))) →
      tolf < |f (secantSeq f x0 x1 (k + 1))| →
      secantLoop f tolx tolf n k (secantSeq f x0 x1 k) (f (secantSeq f x0 x1 k)) (secantSeq f x0 x1 (k + 1))
        (f (secantSeq f x0 x1 (k + 1))) x2 f2 (k + 2)
        ((List.range (k + 2)).map (secantSeq f x0 x1)) = .ok (r, tr) →
      tr = (List.range r.nfeval).map (secantSeq f x0 x1) ∧ 2 ≤ r.nfeval ∧ 1 ≤ r.niter ∧ r.niter ≤ maxiter ∧
      (r.x = if r.nfeval = 2 then none else some (secantSeq f x0 x1 (r.nfeval - 1))) ∧
      (r.f = if r.nfeval = 2 then none else some (f (secantSeq f x0 x1 (r.nfeval - 1)))) ∧
      (r.success = true → r.nfeval = r.niter + 2 ∧
        ((r.message = .tolf ∧ |f (secantSeq f x0 x1 (r.nfeval - 1))| ≤ tolf) ∨
         (r.message = .tolx ∧
          |secantSeq f x0 x1 (r.nfeval - 1) - secantSeq f x0 x1 (r.nfeval - 2)| ≤ tolx))) ∧
      (r.success = false → tolf < |f (secantSeq f x0 x1 (r.nfeval - 1))| ∧
        ((r.message = .zeroSlope ∧ r.nfeval = r.niter + 1 ∧
          |f (secantSeq f x0 x1 (r.nfeval - 1)) - f (secantSeq f x0 x1 (r.nfeval - 2))| ≤
            eps * max (max |f (secantSeq f x0 x1 (r.nfeval - 2))| |f (secantSeq f x0 x1 (r.nfeval - 1))|) 1) ∨
         (r.message = .maxiter ∧ r.niter = maxiter ∧ r.nfeval = r.niter + 2))) := by
  intro n
  induction n with
  | zero =>
    intro k x2 f2 r tr hk hx2 hf2 htol h
    unfold secantLoop at h
    split_ifs at h with hk0
    simp only [Except.ok.injEq, Prod.mk.injEq] at h
    obtain ⟨rfl, rfl⟩ := h
    refine ⟨rfl, by simp, by simp; omega, by simp; omega, ?_, ?_, by simp, ?_⟩
    · simp [hx2, hk0]
    · simp [hf2, hk0]
    · intro _
      exact ⟨by simpa using htol, Or.inr ⟨rfl, by simp; omega, rfl⟩⟩
  | succ n ih =>
    intro k x2 f2 r tr hk hx2 hf2 htol h
    unfold secantLoop at h
    dsimp only at h
    have hseq : secantSeq f x0 x1 (k + 2) = secantSeq f x0 x1 (k + 1) - f (secantSeq f x0 x1 (k + 1)) *
      (secantSeq f x0 x1 (k + 1) - secantSeq f x0 x1 k) /
      (f (secantSeq f x0 x1 (k + 1)) - f (secantSeq f x0 x1 k)) := rfl
    rw [← hseq] at h
    have htr : (List.range (k + 2)).map (secantSeq f x0 x1) ++ [secantSeq f x0 x1 (k + 2)] =
        (List.range (k + 3)).map (secantSeq f x0 x1) := by
      rw [List.range_succ (n := k + 2), List.map_append]; rfl
    rw [htr] at h
    split_ifs at h with h1 h2 h3
    · simp only [Except.ok.injEq, Prod.mk.injEq] at h
      obtain ⟨rfl, rfl⟩ := h
      refine ⟨rfl, by simp, by simp, by simp; omega, ?_, ?_, by simp, ?_⟩
      · simp [hx2]
      · simp [hf2]
      · intro _
        exact ⟨by simpa using htol, Or.inl ⟨rfl, rfl, by simpa using h1⟩⟩
    · simp only [Except.ok.injEq, Prod.mk.injEq] at h
      obtain ⟨rfl, rfl⟩ := h
      refine ⟨rfl, by simp, by simp, by simp; omega, by simp, by simp, ?_, by simp⟩
      intro _
      exact ⟨rfl, Or.inr ⟨rfl, by simpa using h2⟩⟩
    · simp only [Except.ok.injEq, Prod.mk.injEq] at h
      obtain ⟨rfl, rfl⟩ := h
      refine ⟨rfl, by simp, by simp, by simp; omega, by simp, by simp, ?_, by simp⟩
      intro _
      exact ⟨rfl, Or.inl ⟨rfl, by simpa using h3⟩⟩
    · exact ih (k + 1) _ _ r tr (by omega) (by simp) (by simp) (not_le.mp h3) h

theorem secantLoop_ok (f : α → α) (tolx tolf : α) :
    ∀ (n k : ℕ) (a b c d : α) (x2 f2 : Option α) (nf : ℕ) (calls : List α),
      0 < k ∨ 0 < n → ∃ r, secantLoop f tolx tolf n k a b c d x2 f2 nf calls = .ok r := by
  intro n
  induction n with
  | zero =>
    intro k a b c d x2 f2 nf calls h
    unfold secantLoop
    rw [if_neg (by omega)]
    exact ⟨_, rfl⟩
  | succ n ih =>
    intro k a b c d x2 f2 nf calls _
    unfold secantLoop
    dsimp only
    split_ifs
    all_goals first | exact ⟨_, rfl⟩ | exact ih _ _ _ _ _ _ _ _ _ (Or.inl (Nat.succ_pos _))

end Verif
