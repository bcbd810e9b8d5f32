import Verif.Model.FixPoint
import Verif.Spec.FixPoint
import Verif.Lemmas.Tactics
import Verif.Lemmas.RootsScalar

set_option linter.unusedSectionVars false

namespace Verif.FixPoint

variable {α : Type*} [Field α] [LinearOrder α] [IsStrictOrderedRing α] {n : ℕ}

theorem wegsteinLoop_spec (g : (Fin n → α) → (Fin n → α)) (x0 sclx : Fin n → α) (tolx qmin qmax : α)
    (wait maxiter : ℕ) :
    ∀ (fuel k : ℕ) (x : Fin n → α) (st? : Option ((Fin n → α) × (Fin n → α) × (Fin n → α)))
      (calls : List (Fin n → α)) (r : FResult α n) (tr : List (Fin n → α)),
      fuel + k = maxiter →
      calls = (List.range k).map (wegsteinSeq g qmin qmax wait x0) →
      x = wegsteinSeq g qmin qmax wait x0 (if k < maxiter then k else k - 1) →
      (k = 0 → st? = none) →
      (∀ j < k, ∃ i, tolx < |sclx i * (g (wegsteinSeq g qmin qmax wait x0 j) i -
        wegsteinSeq g qmin qmax wait x0 j i)|) →
      (0 < k → ∃ p, p = wegsteinSeq g qmin qmax wait x0 (k - 1) ∧ st? = some (p, g p, fun i => g p i - p i) ∧
        ¬ scaledNormLe sclx (fun i => g p i - p i) tolx) →
      wegsteinLoop g sclx tolx qmin qmax wait maxiter fuel k x st? k calls = .ok (r, tr) →
      r.nfeval = r.niter ∧ 1 ≤ r.niter ∧ r.niter ≤ maxiter ∧
      tr = (List.range r.niter).map (wegsteinSeq g qmin qmax wait x0) ∧
      r.x = wegsteinSeq g qmin qmax wait x0 (r.niter - 1) ∧
      r.f = (fun i => g r.x i - r.x i) ∧
      (∀ j, j + 1 < r.niter → ∃ i, tolx < |sclx i * (g (wegsteinSeq g qmin qmax wait x0 j) i -
        wegsteinSeq g qmin qmax wait x0 j i)|) ∧
      (r.success = true → r.message = .tolx ∧ ∀ i, |sclx i * r.f i| ≤ tolx) ∧
      (r.success = false → r.message = .maxiter ∧ r.niter = maxiter ∧ ∃ i, tolx < |sclx i * r.f i|) := by
  intro fuel
  induction fuel with
  | zero =>
    intro k x st? calls r tr hk hcalls hx h0 hall hs h
    unfold wegsteinLoop at h
    rcases Nat.eq_zero_or_pos k with hk0 | hkpos
    · rw [h0 hk0] at h; simp at h
    · obtain ⟨p, hp, hst, hnot⟩ := hs hkpos
      rw [hst] at h
      simp only [Except.ok.injEq, Prod.mk.injEq] at h
      obtain ⟨rfl, rfl⟩ := h
      rw [if_neg (by omega), ← hp] at hx
      subst hx
      refine ⟨rfl, hkpos, by simp; omega, hcalls, by simpa using hp, rfl, fun j hj => hall j (by dsimp only at hj; omega), by simp, ?_⟩
      intro _
      refine ⟨rfl, by simp; omega, ?_⟩
      unfold scaledNormLe at hnot
      push Not at hnot
      exact hnot
  | succ fuel ih =>
    intro k x st? calls r tr hk hcalls hx h0 hall hs h
    have hklt : k < maxiter := by omega
    rw [if_pos hklt] at hx
    have htr : calls ++ [x] = (List.range (k + 1)).map (wegsteinSeq g qmin qmax wait x0) := by
      rw [List.range_succ, List.map_append, ← hcalls, hx]; rfl
    unfold wegsteinLoop at h
    dsimp only at h
    by_cases h1 : scaledNormLe sclx (fun i => g x i - x i) tolx
    · rw [if_pos h1] at h
      simp only [Except.ok.injEq, Prod.mk.injEq] at h
      obtain ⟨rfl, rfl⟩ := h
      exact ⟨rfl, by simp, by simp; omega, htr, by simpa using hx, rfl,
        fun j hj => hall j (by dsimp only at hj; omega), fun _ => ⟨rfl, h1⟩, by simp⟩
    · rw [if_neg h1] at h
      refine ih (k + 1) _ _ _ r tr (by omega) htr ?_ (by simp) ?_ ?_ h
      · by_cases h4 : k + 1 < maxiter
        · rw [if_pos h4, if_pos h4]
          rcases Nat.eq_zero_or_pos k with hk0 | hkpos
          · subst hk0
            rw [h0 rfl, hx]; rfl
          · obtain ⟨p, hp, hst, _⟩ := hs hkpos
            rw [hst]
            obtain ⟨j, rfl⟩ : ∃ j, k = j + 1 := ⟨k - 1, by omega⟩
            simp only [Nat.add_sub_cancel] at hp
            dsimp only
            unfold wegsteinNext
            show _ = wegsteinSeq g qmin qmax wait x0 (j + 2)
            unfold wegsteinSeq
            dsimp only
            rw [← hx, ← hp]
            split_ifs with hw
            · rfl
            · funext i
              unfold wegsteinQ clip
              dsimp only
              simp only [sub_eq_zero, gt_iff_lt]
        · rw [if_neg h4, if_neg h4]; simpa using hx
      · intro j hj
        rcases Nat.lt_succ_iff_lt_or_eq.mp hj with hj | hj
        · exact hall j hj
        · rw [hj, ← hx]
          unfold scaledNormLe at h1
          push Not at h1
          exact h1
      · intro _
        exact ⟨x, by simpa using hx, rfl, h1⟩

theorem wegsteinLoop_ok (g : (Fin n → α) → (Fin n → α)) (sclx : Fin n → α) (tolx qmin qmax : α)
    (wait maxiter : ℕ) :
    ∀ (fuel k : ℕ) (x : Fin n → α) (st? : Option ((Fin n → α) × (Fin n → α) × (Fin n → α))) (nf : ℕ)
      (calls : List (Fin n → α)), st?.isSome ∨ 0 < fuel →
      ∃ r, wegsteinLoop g sclx tolx qmin qmax wait maxiter fuel k x st? nf calls = .ok r := by
  intro fuel
  induction fuel with
  | zero =>
    intro k x st? nf calls h
    cases st? with
    | none => simp at h
    | some v => exact ⟨_, rfl⟩
  | succ fuel ih =>
    intro k x st? nf calls _
    unfold wegsteinLoop
    dsimp only
    split_ifs
    all_goals first | exact ⟨_, rfl⟩ | exact ih _ _ _ _ _ (Or.inl rfl)

theorem andersonLoop_spec (g : (Fin n → α) → (Fin n → α)) (ls : ℕ → List (Fin n → α) → (Fin n → α) → LS α)
    (sclx : Fin n → α) (tolx : α) (m maxiter : ℕ) :
    ∀ (fuel k : ℕ) (x gx fx : Fin n → α) (ΔG ΔF : List (Fin n → α)) (calls : List (Fin n → α))
      (r : FResult α n) (tr : List (Fin n → α)),
      fuel + k = max maxiter 1 → 1 ≤ k → calls.length = k →
      (k = maxiter → 1 < k → calls.getLast? = some x ∧ fx = (fun i => g x i - x i) ∧ ¬ scaledNormLe sclx fx tolx) →
      andersonLoop g ls sclx tolx m maxiter fuel k x gx fx ΔG ΔF k calls = .ok (r, tr) →
      r.nfeval = tr.length ∧ r.nfeval = r.niter ∧ r.niter ≤ maxiter ∧ calls <+: tr ∧
      tr.getLast? = some r.x ∧ r.f = (fun i => g r.x i - r.x i) ∧
      (r.success = true → r.message = .tolx ∧ ∀ i, |sclx i * r.f i| ≤ tolx) ∧
      (r.success = false → (∃ i, tolx < |sclx i * r.f i|) ∧
        (r.message = .qr ∨ r.message = .lstsq ∨ (r.message = .maxiter ∧ r.niter = maxiter))) := by
  intro fuel
  induction fuel with
  | zero =>
    intro k x gx fx ΔG ΔF calls r tr hk hk1 hlen hlast h
    unfold andersonLoop at h
    split_ifs at h with hk2
    simp only [Except.ok.injEq, Prod.mk.injEq] at h
    obtain ⟨rfl, rfl⟩ := h
    have hkm : k = maxiter := by omega
    obtain ⟨l1, l2, l3⟩ := hlast hkm (by omega)
    refine ⟨by simp [hlen], rfl, by simp [hkm], List.prefix_refl _, l1, l2, by simp, fun _ => ⟨?_, ?_⟩⟩
    · unfold scaledNormLe at l3
      push Not at l3
      exact l3
    · exact Or.inr (Or.inr ⟨rfl, hkm⟩)
  | succ fuel ih =>
    intro k x gx fx ΔG ΔF calls r tr hk hk1 hlen hlast h
    have hklt : k < maxiter := by omega
    unfold andersonLoop at h
    dsimp only at h
    by_cases h1 : scaledNormLe sclx (fun i => g x i - x i) tolx
    · rw [if_pos h1] at h
      simp only [Except.ok.injEq, Prod.mk.injEq] at h
      obtain ⟨rfl, rfl⟩ := h
      exact ⟨by simp [hlen], rfl, by simp; omega, List.prefix_append _ _, by simp, rfl, fun _ => ⟨rfl, h1⟩, by simp⟩
    · rw [if_neg h1] at h
      have hnot : ∃ i, tolx < |sclx i * (g x i - x i)| := by
        unfold scaledNormLe at h1
        push Not at h1
        exact h1
      split at h
      · simp only [Except.ok.injEq, Prod.mk.injEq] at h
        obtain ⟨rfl, rfl⟩ := h
        exact ⟨by simp [hlen], rfl, by simp; omega, List.prefix_append _ _, by simp, rfl, by simp,
          fun _ => ⟨hnot, Or.inl rfl⟩⟩
      · simp only [Except.ok.injEq, Prod.mk.injEq] at h
        obtain ⟨rfl, rfl⟩ := h
        exact ⟨by simp [hlen], rfl, by simp; omega, List.prefix_append _ _, by simp, rfl, by simp,
          fun _ => ⟨hnot, Or.inr (Or.inl rfl)⟩⟩
      · have := ih (k + 1) _ _ _ _ _ _ r tr (by omega) (by omega) (by simp [hlen]) ?_ h
        · obtain ⟨a1, a2, a3, a4, a5⟩ := this
          exact ⟨a1, a2, a3, (List.prefix_append _ _).trans a4, a5⟩
        · intro hkm _
          rw [if_neg (by omega)]
          exact ⟨by simp, rfl, h1⟩

theorem andersonLoop_ok (g : (Fin n → α) → (Fin n → α)) (ls : ℕ → List (Fin n → α) → (Fin n → α) → LS α)
    (sclx : Fin n → α) (tolx : α) (m maxiter : ℕ) :
    ∀ (fuel k : ℕ) (x gx fx : Fin n → α) (ΔG ΔF : List (Fin n → α)) (nf : ℕ) (calls : List (Fin n → α)),
      1 ≤ k → (1 < k ∨ 0 < fuel) →
      ∃ r, andersonLoop g ls sclx tolx m maxiter fuel k x gx fx ΔG ΔF nf calls = .ok r := by
  intro fuel
  induction fuel with
  | zero =>
    intro k x gx fx ΔG ΔF nf calls hk h
    unfold andersonLoop
    rw [if_neg (by omega)]
    exact ⟨_, rfl⟩
  | succ fuel ih =>
    intro k x gx fx ΔG ΔF nf calls hk _
    unfold andersonLoop
    dsimp only
    split
    · exact ⟨_, rfl⟩
    · split
      · exact ⟨_, rfl⟩
      · exact ⟨_, rfl⟩
      · exact ih _ _ _ _ _ _ _ _ (by omega) (Or.inl (by omega))

/-- Linear combinations of paired differences of an affine map. -/
theorem combine_affine (A : (Fin n → α) → (Fin n → α)) (hadd : ∀ u v, A (u + v) = A u + A v)
    (hsmul : ∀ (c : α) u, A (c • u) = c • A u) :
    ∀ (c : List α) (DG DF : List (Fin n → α)), List.Forall₂ (fun dg df => dg = A (dg - df)) DG DF →
      combine c DG = A (combine c DG - combine c DF) := by
  have h0 : A 0 = 0 := by have := hsmul 0 0; simpa using this
  have hz : ∀ c : List α, combine c ([] : List (Fin n → α)) = 0 := by
    intro c; funext i; simp [combine]
  have hc : ∀ (a : α) (c : List α) (v : Fin n → α) (D : List (Fin n → α)),
      combine (a :: c) (v :: D) = a • v + combine c D := by
    intro a c v D; funext i; simp [combine]
  intro c
  induction c with
  | nil =>
    intro DG DF _
    have : ∀ D : List (Fin n → α), combine ([] : List α) D = 0 := by intro D; funext i; simp [combine]
    rw [this, this, sub_zero, h0]
  | cons a c ih =>
    intro DG DF h
    cases h with
    | nil => rw [hz, sub_zero, h0]
    | @cons dg df DG DF hd hD =>
      rw [hc, hc]
      have e : a • dg + combine c DG - (a • df + combine c DF) =
          a • (dg - df) + (combine c DG - combine c DF) := by
        rw [smul_sub]; abel
      rw [e, hadd, hsmul, ← hd, ← ih DG DF hD]

/-- For an affine map, an iteration whose least-squares residual vanishes lands on a fixed point; the solver then stops
with success. -/
theorem andersonLoop_affine (A : (Fin n → α) → (Fin n → α)) (b : Fin n → α)
    (hadd : ∀ u v, A (u + v) = A u + A v) (hsmul : ∀ (c : α) u, A (c • u) = c • A u)
    (ls : ℕ → List (Fin n → α) → (Fin n → α) → LS α) (sclx : Fin n → α) (tolx : α) (ht : 0 ≤ tolx) (m maxiter K : ℕ)
    (hK : K + 1 < maxiter)
    (hres : ∀ D f c, ls K D f = .gamma c → combine c D = f) :
    ∀ (fuel k : ℕ) (x gx fx : Fin n → α) (ΔG ΔF : List (Fin n → α)) (calls : List (Fin n → α)),
      fuel + k = maxiter → 1 ≤ k → k ≤ K →
      List.Forall₂ (fun dg df => dg = A (dg - df)) ΔG ΔF →
      (∃ y, gx = A y + b ∧ fx = gx - y) →
      ∃ r tr, andersonLoop (fun x => A x + b) ls sclx tolx m maxiter fuel k x gx fx ΔG ΔF k calls = .ok (r, tr) ∧
        ((r.success = true ∧ r.nfeval ≤ K + 2 ∧ (r.nfeval = K + 2 → A r.x + b = r.x)) ∨
          r.message = .qr ∨ r.message = .lstsq) := by
  intro fuel
  induction fuel with
  | zero => intro k x gx fx ΔG ΔF calls hk; omega
  | succ fuel ih =>
    intro k x gx fx ΔG ΔF calls hk hk1 hkK hD hy
    unfold andersonLoop
    dsimp only
    by_cases h1 : scaledNormLe sclx (fun i => (A x + b) i - x i) tolx
    · rw [if_pos h1]
      exact ⟨_, _, rfl, Or.inl ⟨rfl, by simp; omega, by simp; omega⟩⟩
    · rw [if_neg h1]
      obtain ⟨y, hy1, hy2⟩ := hy
      have hD' : List.Forall₂ (fun dg df => dg = A (dg - df)) (ΔG.tail ++ [fun i => -gx i + (A x + b) i])
          (ΔF.tail ++ [fun i => -fx i + ((A x + b) i - x i)]) := by
        refine List.rel_append ?_ ?_
        · cases hD with
          | nil => exact List.Forall₂.nil
          | cons _ h => exact h
        · refine List.Forall₂.cons ?_ List.Forall₂.nil
          have e : ((fun i => -gx i + (A x + b) i) - fun i => -fx i + ((A x + b) i - x i)) = x - y := by
            funext i
            rw [hy2]
            simp only [Pi.sub_apply, Pi.add_apply]
            ring
          rw [e]
          have hsub : A (x - y) = A x - A y := by
            have := hsmul (-1) y
            rw [sub_eq_add_neg, hadd, ← neg_one_smul α y, this]
            simp [sub_eq_add_neg]
          rw [hsub, hy1]
          funext i
          simp only [Pi.sub_apply, Pi.add_apply]
          ring
      cases hc : ls k ((ΔF.tail ++ [fun i => -fx i + ((A x + b) i - x i)]).drop (m - min m k))
        (fun i => (A x + b) i - x i) with
      | qrError => exact ⟨_, _, rfl, Or.inr (Or.inl rfl)⟩
      | lsError => exact ⟨_, _, rfl, Or.inr (Or.inr rfl)⟩
      | gamma c =>
      dsimp only
      rw [if_pos (by omega)]
      rcases Nat.lt_or_ge k K with hlt | hge
      · exact ih (k + 1) _ _ _ _ _ _ (by omega) (by omega) (by omega) hD' ⟨x, rfl, rfl⟩
      · have hkK' : k = K := by omega
        subst hkK'
        have hr := hres _ _ _ hc
        have hDd := List.forall₂_drop (m - min m k) hD'
        have hcomb := combine_affine A hadd hsmul c _ _ hDd
        rw [hr] at hcomb
        set cg := combine c ((ΔG.tail ++ [fun i => -gx i + (A x + b) i]).drop (m - min m k)) with hcg
        have hsub : ∀ u v, A (u - v) = A u - A v := by
          intro u v
          have := hsmul (-1) v
          rw [sub_eq_add_neg, hadd, ← neg_one_smul α v, this]
          simp [sub_eq_add_neg]
        have hfix : A (fun i => (A x + b) i - cg i) + b = fun i => (A x + b) i - cg i := by
          have e1 : (fun i => (A x + b) i - cg i) = x - (cg - fun i => (A x + b) i - x i) := by
            funext i; simp only [Pi.sub_apply, Pi.add_apply]; ring
          rw [e1, hsub, ← hcomb]
          funext i; simp only [Pi.sub_apply, Pi.add_apply]; ring
        obtain ⟨fuel, rfl⟩ : ∃ q, fuel = q + 1 := ⟨fuel - 1, by omega⟩
        unfold andersonLoop
        dsimp only
        rw [hfix, if_pos]
        · exact ⟨_, _, rfl, Or.inl ⟨rfl, by simp, fun _ => hfix⟩⟩
        · intro i; simp [ht]

end Verif.FixPoint
