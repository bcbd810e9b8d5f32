import Verif.Lemmas.Split
import Verif.Props.CopoMulti

/-!
# C124: listing a substance more than once changes nothing
-/

namespace Verif.Split

open Finset Spec

variable {M N : ℕ} {σ : Fin M → Fin N} {w : Fin M → ℝ}

/-- Two substances, the second listed twice in the proportion 1:3. -/
theorem portions_example {α : Type*} [Field α] [LinearOrder α] [IsStrictOrderedRing α] :
    Portions (α := α) (![0, 1, 1] : Fin 3 → Fin 2) ![1, 1 / 4, 3 / 4] where
  nonneg j := by fin_cases j <;> norm_num
  whole i := by
    rw [sum_filter, Fin.sum_univ_three]
    fin_cases i
    · simp
    · simp; norm_num

/-! ### Activity coefficient models -/

section Acm

open Acm

theorem checkMat_copyM {A : Mat N} {lo hi : ℝ} (h : ∀ i j, lo ≤ A i j ∧ A i j ≤ hi) : checkMat (copyM σ A) lo hi = .ok () := if_pos fun _ _ => h _ _

theorem checkMat_inv {A : Mat N} {lo hi : ℝ} {u : Unit} (h : checkMat A lo hi = .ok u) : ∀ i j, lo ≤ A i j ∧ A i j ≤ hi := by
  unfold checkMat at h
  by_contra hn
  rw [if_neg hn] at h
  cases h

theorem fill_bounds {A : Mat N} {lo hi : ℝ} (h : ∀ i j, lo ≤ A i j ∧ A i j ≤ hi) (h0 : lo ≤ 0) (h1 : 0 ≤ hi) : ∀ i j, lo ≤ fillDiag A i j ∧ fillDiag A i j ≤ hi := by
  intro i j; unfold fillDiag; split_ifs
  · exact ⟨h0, h1⟩
  · exact h i j

theorem sym_bounds {A : Mat N} {lo hi : ℝ} (h : ∀ i j, lo ≤ A i j ∧ A i j ≤ hi) : ∀ i j, lo ≤ enforceSymmetry A i j ∧ enforceSymmetry A i j ≤ hi := by
  intro i j; unfold enforceSymmetry; split_ifs
  · exact h j i
  · exact h i j

theorem fill_copy {A : Mat N} (h : ∀ i, A i i = 0) : fillDiag (copyM σ A) = copyM σ A := by
  funext i j; unfold fillDiag; split_ifs with e
  · subst e; exact (h _).symm
  · rfl

theorem fill_zero (A : Mat N) (i : Fin N) : fillDiag A i i = 0 := if_pos rfl

theorem sym_zero (A : Mat N) (i : Fin N) : enforceSymmetry (fillDiag A) i i = 0 := by
  unfold enforceSymmetry; rw [if_neg (lt_irrefl i)]; exact fill_zero A i

theorem sym_sym (A : Mat N) (i j : Fin N) : enforceSymmetry A i j = enforceSymmetry A j i := by
  unfold enforceSymmetry
  rcases lt_trichotomy i j with h | h | h
  · rw [if_neg h.not_gt, if_pos h]
  · rw [h]
  · rw [if_pos h, if_neg h.not_gt]

theorem sym_copy {A : Mat N} (h : ∀ i j, A i j = A j i) : enforceSymmetry (copyM σ A) = copyM σ A := by
  funext i j; unfold enforceSymmetry; split_ifs
  · exact h _ _
  · rfl

theorem sy_copy (A : Mat N) : enforceSymmetry (fillDiag (copyM σ (enforceSymmetry (fillDiag A)))) = copyM σ (enforceSymmetry (fillDiag A)) := by
  rw [fill_copy (sym_zero A), sym_copy (sym_sym _)]

theorem nrtl_obj (h : Portions σ w) (A B C D E F : Mat N) (R T : ℝ) (x : Fin N → ℝ) :
    Nrtl.gE R ⟨copyM σ A, copyM σ B, copyM σ C, copyM σ D, copyM σ E, copyM σ F⟩ T (share σ w x) = Nrtl.gE R ⟨A, B, C, D, E, F⟩ T x ∧
    Nrtl.gamma ⟨copyM σ A, copyM σ B, copyM σ C, copyM σ D, copyM σ E, copyM σ F⟩ T (share σ w x) = copy σ (Nrtl.gamma ⟨A, B, C, D, E, F⟩ T x) :=
  ⟨nrtlGE_share h R T x (Nrtl.tau ⟨A, B, C, D, E, F⟩ T) (Nrtl.alpha ⟨A, B, C, D, E, F⟩ T),
    nrtlGamma_share h x (Nrtl.tau ⟨A, B, C, D, E, F⟩ T) (Nrtl.alpha ⟨A, B, C, D, E, F⟩ T)⟩

theorem wilson_obj (h : Portions σ w) (A B C D : Mat N) (R T : ℝ) (x : Fin N → ℝ) :
    Wilson.gE R ⟨copyM σ A, copyM σ B, copyM σ C, copyM σ D⟩ T (share σ w x) = Wilson.gE R ⟨A, B, C, D⟩ T x ∧
    Wilson.gamma ⟨copyM σ A, copyM σ B, copyM σ C, copyM σ D⟩ T (share σ w x) = copy σ (Wilson.gamma ⟨A, B, C, D⟩ T x) :=
  ⟨wilsonGE_share h R T x (Wilson.Lambda ⟨A, B, C, D⟩ T), wilsonGamma_share h x (Wilson.Lambda ⟨A, B, C, D⟩ T)⟩

theorem uniquac_obj (h : Portions σ w) (q r : Fin N → ℝ) (A B C D : Mat N) (R T : ℝ) (x : Fin N → ℝ) (hx : ∀ i, 0 ≤ x i) :
    Uniquac.gE R ⟨copy σ q, copy σ r, copyM σ A, copyM σ B, copyM σ C, copyM σ D⟩ T (share σ w x) = Uniquac.gE R ⟨q, r, A, B, C, D⟩ T x ∧
    Uniquac.gamma ⟨copy σ q, copy σ r, copyM σ A, copyM σ B, copyM σ C, copyM σ D⟩ T (share σ w x) = copy σ (Uniquac.gamma ⟨q, r, A, B, C, D⟩ T x) :=
  ⟨uniquacGE_share h R T x q r hx (Uniquac.tau ⟨q, r, A, B, C, D⟩ T), uniquacGamma_share h x q r (Uniquac.tau ⟨q, r, A, B, C, D⟩ T)⟩

theorem fh_obj (h : Portions σ w) (A B C D E : Mat N) (T : ℝ) (phi n : Fin N → ℝ) :
    fhActivity (share σ w phi) (copy σ n) (FloryHuggins.chi ⟨copyM σ A, copyM σ B, copyM σ C, copyM σ D, copyM σ E⟩ T) =
      share σ w (fhActivity phi n (FloryHuggins.chi ⟨A, B, C, D, E⟩ T)) := fhActivity_share h phi n (FloryHuggins.chi ⟨A, B, C, D, E⟩ T)

/-- **C124.** NRTL: an object made with the parameters repeated is accepted, has the same excess energy, and every portion has the activity coefficient of its
substance. -/
theorem C124_nrtl (h : Portions σ w) (a b c d e f : Option (Mat N)) (m l) (hm : Nrtl.init a b c d e f = .ok (m, l)) :
    ∃ m' l', Nrtl.init (some (copyM σ m.a)) (some (copyM σ m.b)) (some (copyM σ m.c)) (some (copyM σ m.d)) (some (copyM σ m.e)) (some (copyM σ m.f)) = .ok (m', l') ∧
      ∀ R T x, m'.gE R T (share σ w x) = m.gE R T x ∧ m'.gamma T (share σ w x) = copy σ (m.gamma T x) ∧
        Acm.activity (m'.gamma T (share σ w x)) (share σ w x) = share σ w (Acm.activity (m.gamma T x) x) := by
  unfold Nrtl.init at hm
  cases h1 : checkMat (orFull a 0) (-100) 100 with
  | error _ => simp [h1, bind, Except.bind] at hm
  | ok _ =>
  cases h2 : checkMat (orFull b 0) (-30000) 30000 with
  | error _ => simp [h1, h2, bind, Except.bind] at hm
  | ok _ =>
  cases h3 : checkMat (orFull c 0.3) 0 1 with
  | error _ => simp [h1, h2, h3, bind, Except.bind] at hm
  | ok _ =>
  cases h4 : checkMat (orFull d 0) (-0.02) 0.02 with
  | error _ => simp [h1, h2, h3, h4, bind, Except.bind] at hm
  | ok _ =>
  simp only [h1, h2, h3, h4, bind, Except.bind, pure, Except.pure, Except.ok.injEq, Prod.mk.injEq] at hm
  obtain ⟨rfl, -⟩ := hm
  have hi : ∃ l', Nrtl.init (some (copyM σ (fillDiag (orFull a 0)))) (some (copyM σ (fillDiag (orFull b 0))))
      (some (copyM σ (enforceSymmetry (fillDiag (orFull c 0.3))))) (some (copyM σ (enforceSymmetry (fillDiag (orFull d 0)))))
      (some (copyM σ (fillDiag (orFull e 0)))) (some (copyM σ (fillDiag (orFull f 0)))) = .ok (⟨copyM σ (fillDiag (orFull a 0)), copyM σ (fillDiag (orFull b 0)), copyM σ (enforceSymmetry (fillDiag (orFull c 0.3))),
      copyM σ (enforceSymmetry (fillDiag (orFull d 0))), copyM σ (fillDiag (orFull e 0)), copyM σ (fillDiag (orFull f 0))⟩, l') := by
    unfold Nrtl.init
    simp only [show ∀ A : Mat M, ∀ v, orFull (some A) v = A from fun _ _ => rfl]
    rw [checkMat_copyM (fill_bounds (checkMat_inv h1) (by norm_num) (by norm_num)), checkMat_copyM (fill_bounds (checkMat_inv h2) (by norm_num) (by norm_num)),
      checkMat_copyM (sym_bounds (fill_bounds (checkMat_inv h3) (by norm_num) (by norm_num))),
      checkMat_copyM (sym_bounds (fill_bounds (checkMat_inv h4) (by norm_num) (by norm_num)))]
    simp only [bind, Except.bind, pure, Except.pure, sy_copy]
    rw [fill_copy (fill_zero _), fill_copy (fill_zero _), fill_copy (fill_zero _), fill_copy (fill_zero _)]
    exact ⟨_, rfl⟩
  obtain ⟨l', hl⟩ := hi
  refine ⟨_, l', hl, fun R T x => ?_⟩
  obtain ⟨hE, hg⟩ := nrtl_obj h (fillDiag (orFull a 0)) (fillDiag (orFull b 0)) (enforceSymmetry (fillDiag (orFull c 0.3)))
    (enforceSymmetry (fillDiag (orFull d 0))) (fillDiag (orFull e 0)) (fillDiag (orFull f 0)) R T x
  refine ⟨hE, hg, ?_⟩
  funext i
  unfold Acm.activity
  rw [hg]
  simp only [share, copy]; ring

/-- **C124.** Wilson. -/
theorem C124_wilson (h : Portions σ w) (a b c d : Option (Mat N)) (m l) (hm : Wilson.init a b c d = .ok (m, l)) :
    ∃ m' l', Wilson.init (some (copyM σ m.a)) (some (copyM σ m.b)) (some (copyM σ m.c)) (some (copyM σ m.d)) = .ok (m', l') ∧
      ∀ R T x, m'.gE R T (share σ w x) = m.gE R T x ∧ m'.gamma T (share σ w x) = copy σ (m.gamma T x) := by
  unfold Wilson.init at hm
  cases h1 : checkMat (orFull a 0) (-50) 50 with
  | error _ => simp [h1, bind, Except.bind] at hm
  | ok _ =>
  cases h2 : checkMat (orFull b 0) (-15000) 15000 with
  | error _ => simp [h1, h2, bind, Except.bind] at hm
  | ok _ =>
  simp only [h1, h2, bind, Except.bind, pure, Except.pure, Except.ok.injEq, Prod.mk.injEq] at hm
  obtain ⟨rfl, -⟩ := hm
  have hi : ∃ l', Wilson.init (some (copyM σ (fillDiag (orFull a 0)))) (some (copyM σ (fillDiag (orFull b 0)))) (some (copyM σ (fillDiag (orFull c 0)))) (some (copyM σ (fillDiag (orFull d 0)))) = .ok (⟨copyM σ (fillDiag (orFull a 0)), copyM σ (fillDiag (orFull b 0)), copyM σ (fillDiag (orFull c 0)), copyM σ (fillDiag (orFull d 0))⟩, l') := by
    unfold Wilson.init
    simp only [show ∀ A : Mat M, ∀ v, orFull (some A) v = A from fun _ _ => rfl]
    rw [checkMat_copyM (fill_bounds (checkMat_inv h1) (by norm_num) (by norm_num)), checkMat_copyM (fill_bounds (checkMat_inv h2) (by norm_num) (by norm_num))]
    simp only [bind, Except.bind, pure, Except.pure]
    rw [fill_copy (fill_zero _), fill_copy (fill_zero _), fill_copy (fill_zero _), fill_copy (fill_zero _)]
    exact ⟨_, rfl⟩
  obtain ⟨l', hl⟩ := hi
  exact ⟨_, l', hl, fun R T x => wilson_obj h _ _ _ _ R T x⟩

/-- **C124.** UNIQUAC, for nonnegative mole fractions. -/
theorem C124_uniquac (h : Portions σ w) (q r : Fin N → ℝ) (a b c d : Option (Mat N)) (m l) (hm : Uniquac.init q r a b c d = .ok (m, l)) :
    ∃ m' l', Uniquac.init (copy σ q) (copy σ r) (some (copyM σ m.a)) (some (copyM σ m.b)) (some (copyM σ m.c)) (some (copyM σ m.d)) = .ok (m', l') ∧
      ∀ R T x, (∀ i, 0 ≤ x i) → m'.gE R T (share σ w x) = m.gE R T x ∧ m'.gamma T (share σ w x) = copy σ (m.gamma T x) := by
  unfold Uniquac.init at hm
  cases h1 : checkMat (orFull a 0) (-50) 50 with
  | error _ => simp [h1, bind, Except.bind] at hm
  | ok _ =>
  cases h2 : checkMat (orFull b 0) (-15000) 15000 with
  | error _ => simp [h1, h2, bind, Except.bind] at hm
  | ok _ =>
  simp only [h1, h2, bind, Except.bind, pure, Except.pure, Except.ok.injEq, Prod.mk.injEq] at hm
  obtain ⟨rfl, -⟩ := hm
  have hi : ∃ l', Uniquac.init (copy σ q) (copy σ r) (some (copyM σ (fillDiag (orFull a 0)))) (some (copyM σ (fillDiag (orFull b 0)))) (some (copyM σ (fillDiag (orFull c 0)))) (some (copyM σ (fillDiag (orFull d 0)))) = .ok (⟨copy σ q, copy σ r, copyM σ (fillDiag (orFull a 0)), copyM σ (fillDiag (orFull b 0)), copyM σ (fillDiag (orFull c 0)), copyM σ (fillDiag (orFull d 0))⟩, l') := by
    unfold Uniquac.init
    simp only [show ∀ A : Mat M, ∀ v, orFull (some A) v = A from fun _ _ => rfl]
    rw [checkMat_copyM (fill_bounds (checkMat_inv h1) (by norm_num) (by norm_num)), checkMat_copyM (fill_bounds (checkMat_inv h2) (by norm_num) (by norm_num))]
    simp only [bind, Except.bind, pure, Except.pure]
    rw [fill_copy (fill_zero _), fill_copy (fill_zero _), fill_copy (fill_zero _), fill_copy (fill_zero _)]
    exact ⟨_, rfl⟩
  obtain ⟨l', hl⟩ := hi
  exact ⟨_, l', hl, fun R T x hx => uniquac_obj h q r _ _ _ _ R T x hx⟩

/-- **C124.** Flory-Huggins: the activity of a substance is divided over its portions like its volume fraction. -/
theorem C124_flory_huggins (h : Portions σ w) (a b c d e : Option (Mat N)) (m l) (hm : FloryHuggins.init a b c d e = .ok (m, l)) :
    ∃ m' l', FloryHuggins.init (some (copyM σ m.a)) (some (copyM σ m.b)) (some (copyM σ m.c)) (some (copyM σ m.d)) (some (copyM σ m.e)) = .ok (m', l') ∧
      ∀ T phi n, fhActivity (share σ w phi) (copy σ n) (m'.chi T) = share σ w (fhActivity phi n (m.chi T)) := by
  unfold FloryHuggins.init at hm
  cases h1 : checkMat (orFull a 0) (-100) 100 with
  | error _ => simp [h1, bind, Except.bind] at hm
  | ok _ =>
  cases h2 : checkMat (orFull b 0) (-1000000) 1000000 with
  | error _ => simp [h1, h2, bind, Except.bind] at hm
  | ok _ =>
  cases h3 : checkMat (orFull c 0) (-1000000) 1000000 with
  | error _ => simp [h1, h2, h3, bind, Except.bind] at hm
  | ok _ =>
  cases h4 : checkMat (orFull d 0) (-1000000) 1000000 with
  | error _ => simp [h1, h2, h3, h4, bind, Except.bind] at hm
  | ok _ =>
  cases h5 : checkMat (orFull e 0) (-1000000) 1000000 with
  | error _ => simp [h1, h2, h3, h4, h5, bind, Except.bind] at hm
  | ok _ =>
  simp only [h1, h2, h3, h4, h5, bind, Except.bind, pure, Except.pure, Except.ok.injEq, Prod.mk.injEq] at hm
  obtain ⟨rfl, -⟩ := hm
  have hi : ∃ l', FloryHuggins.init (some (copyM σ (enforceSymmetry (fillDiag (orFull a 0))))) (some (copyM σ (enforceSymmetry (fillDiag (orFull b 0))))) (some (copyM σ (enforceSymmetry (fillDiag (orFull c 0))))) (some (copyM σ (enforceSymmetry (fillDiag (orFull d 0))))) (some (copyM σ (enforceSymmetry (fillDiag (orFull e 0))))) = .ok (⟨copyM σ (enforceSymmetry (fillDiag (orFull a 0))), copyM σ (enforceSymmetry (fillDiag (orFull b 0))), copyM σ (enforceSymmetry (fillDiag (orFull c 0))),
    copyM σ (enforceSymmetry (fillDiag (orFull d 0))), copyM σ (enforceSymmetry (fillDiag (orFull e 0)))⟩, l') := by
    unfold FloryHuggins.init
    simp only [show ∀ A : Mat M, ∀ v, orFull (some A) v = A from fun _ _ => rfl]
    rw [checkMat_copyM (sym_bounds (fill_bounds (checkMat_inv h1) (by norm_num) (by norm_num))), checkMat_copyM (sym_bounds (fill_bounds (checkMat_inv h2) (by norm_num) (by norm_num))),
      checkMat_copyM (sym_bounds (fill_bounds (checkMat_inv h3) (by norm_num) (by norm_num))), checkMat_copyM (sym_bounds (fill_bounds (checkMat_inv h4) (by norm_num) (by norm_num))),
      checkMat_copyM (sym_bounds (fill_bounds (checkMat_inv h5) (by norm_num) (by norm_num)))]
    simp only [bind, Except.bind, pure, Except.pure, sy_copy]
    exact ⟨_, rfl⟩
  obtain ⟨l', hl⟩ := hi
  exact ⟨_, l', hl, fun T phi n => fh_obj h _ _ _ _ _ T phi n⟩

/-- The constructors accept their defaults. -/
example : ∃ m l, Nrtl.init (N := 2) none none none none none none = .ok (m, l) := by
  have h0 : ∀ v lo hi : ℝ, lo ≤ v → v ≤ hi → checkMat (orFull (none : Option (Mat 2)) v) lo hi = .ok () := fun v lo hi a b => if_pos fun _ _ => ⟨a, b⟩
  unfold Nrtl.init
  rw [h0 _ _ _ (by norm_num) (by norm_num), h0 _ _ _ (by norm_num) (by norm_num), h0 _ _ _ (by norm_num) (by norm_num), h0 _ _ _ (by norm_num) (by norm_num)]
  exact ⟨_, _, rfl⟩

/-- **C124.** The exception: portions of one substance are counted as distinguishable by the ideal entropy of mixing, which grows by
`-R Σ x'_j ln w_j`, and with it `Dgmix` and `Dsmix`. -/
theorem C124_entropy (h : Portions σ w) (R : ℝ) (x : Fin N → ℝ) (hx : ∀ i, 0 ≤ x i) :
    dsmixIdeal R (share σ w x) = dsmixIdeal R x - R * ∑ j, share σ w x j * Real.log (w j) := by
  unfold dsmixIdeal
  rw [← sum_pos_share h x hx]
  have e : ∑ j, share σ w x j * Real.log (w j) = ∑ j ∈ univ.filter (fun j => share σ w x j > 0), share σ w x j * Real.log (w j) := by
    refine (sum_filter_of_ne fun j _ hj => ?_).symm
    exact lt_of_le_of_ne (mul_nonneg (h.nonneg j) (hx _)) (fun h0 => hj (by rw [← h0, zero_mul]))
  rw [e, mul_sum, mul_sum, mul_sum, ← sum_sub_distrib]
  refine sum_congr rfl fun j hj => ?_
  have hp := (mem_filter.1 hj).2
  have hw : w j ≠ 0 := by rintro h0; simp [share, h0] at hp
  have hxx : x (σ j) ≠ 0 := by rintro h0; simp [share, h0] at hp
  have : Real.log (share σ w x j) = Real.log (w j) + Real.log (x (σ j)) := Real.log_mul hw hxx
  rw [this]; ring

/-- A pure substance called by two names is given a mixing entropy of `R ln 2`. -/
example (R : ℝ) : dsmixIdeal R (share (fun _ => 0 : Fin 2 → Fin 1) (fun _ => 1 / 2) fun _ => 1) = R * Real.log 2 := by
  have hp : Portions (fun _ => 0 : Fin 2 → Fin 1) (fun _ => (1 / 2 : ℝ)) := ⟨fun _ => by norm_num, fun i => by
    rw [sum_filter, Fin.sum_univ_two]; have : i = 0 := Subsingleton.elim _ _; subst this; norm_num⟩
  rw [C124_entropy hp R _ (fun _ => zero_le_one)]
  simp [dsmixIdeal, share, Real.log_inv]

end Acm

/-! ### Equations of state -/

section Eos

open Eos

/-- The same fluids, listed again. -/
def cubicCopy (σ : Fin M → Fin N) (e : Cubic N) : Cubic M := ⟨e.kind, copy σ e.Tc, copy σ e.Pc, copy σ e.w, e.k.map (copyM σ)⟩

/-- The same for a virial equation. -/
def virialCopy (σ : Fin M → Fin N) (e : Virial N) : Virial M := ⟨copy σ e.Tc, copy σ e.Pc, copy σ e.Zc, copy σ e.w⟩

variable (R : ℝ) (e : Cubic N)

theorem a_copy (T : ℝ) : a R (cubicCopy σ e) T = copy σ (a R e T) := by
  funext i; unfold a alpha cubicCopy copy
  cases e.kind with
  | RK => rfl
  | SRK g => cases g <;> rfl
  | PR => rfl

theorem a_nonneg (hPc : ∀ i, 0 < e.Pc i) (T : ℝ) (i : Fin N) : 0 ≤ a R e T i := by
  unfold a
  have h1 : 0 ≤ e.kind.Ωa := by cases e.kind <;> norm_num [Kind.Ωa]
  have h2 : 0 ≤ alpha e T i := by unfold alpha; split <;> positivity
  have := hPc i
  positivity

theorem am_share (h : Portions σ w) (hPc : ∀ i, 0 < e.Pc i) (hk : ∀ k ∈ e.k, Relabel.Spec.Symm k ∧ ∀ i, k i i = 0) (T : ℝ) (z : Fin N → ℝ) :
    am R (cubicCopy σ e) T (share σ w z) = am R e T z := by
  unfold am; rw [a_copy]; exact geometric_share h z _ (a_nonneg R e hPc T) _ hk

theorem bm_share (h : Portions σ w) (z : Fin N → ℝ) : bm R (cubicCopy σ e) (share σ w z) = bm R e z := sum_share h z (b R e)

theorem delta_share (h : Portions σ w) (hPc : ∀ i, 0 < e.Pc i) (hk : ∀ k ∈ e.k, Relabel.Spec.Symm k ∧ ∀ i, k i i = 0) (T : ℝ) (z : Fin N → ℝ) :
    delta R (cubicCopy σ e) T (share σ w z) = copy σ (delta R e T z) := by
  funext i
  have h1 := am_share R e h hPc hk T z
  have h2 := a_copy (σ := σ) R e T
  unfold delta
  rw [h1, h2]
  unfold copy
  have : (cubicCopy σ e).k = e.k.map (copyM σ) := rfl
  rw [this]
  cases e.k with
  | none => rfl
  | some k =>
    simp only [Option.map_some]
    rw [← sum_share' h]
    exact sum_congr rfl fun j _ => by simp only [share, copyM]; ring

theorem lnPhi_share (h : Portions σ w) (hPc : ∀ i, 0 < e.Pc i) (hk : ∀ k ∈ e.k, Relabel.Spec.Symm k ∧ ∀ i, k i i = 0) (T P : ℝ) (z : Fin N → ℝ) (Z : ℝ) :
    lnPhi R (cubicCopy σ e) T P (share σ w z) Z = copy σ (lnPhi R e T P z Z) := by
  funext i
  unfold lnPhi
  rw [am_share R e h hPc hk, bm_share R e h, delta_share R e h hPc hk]
  rfl

/-- **C124.** Cubic equations of state with a symmetric matrix of interaction parameters, zero on the diagonal, or none: pressure, compressibility factors, second
virial coefficient, Helmholtz departure; every portion has the fugacity coefficient and the K-value of its substance. -/
theorem C124_cubic (npRoots : ℝ → ℝ → ℝ → List (ℝ × ℝ)) (h : Portions σ w) (hPc : ∀ i, 0 < e.Pc i)
    (hk : ∀ k ∈ e.k, Relabel.Spec.Symm k ∧ ∀ i, k i i = 0) (T : ℝ) (z : Fin N → ℝ) :
    cubicBm R (cubicCopy σ e) T (share σ w z) = cubicBm R e T z ∧
    (∀ v, cubicP R (cubicCopy σ e) T v (share σ w z) = cubicP R e T v z) ∧
    (∀ P, cubicZ npRoots R (cubicCopy σ e) T P (share σ w z) = cubicZ npRoots R e T P z) ∧
    (∀ P ph, cubicPhi npRoots R (cubicCopy σ e) T P (share σ w z) ph = (cubicPhi npRoots R e T P z ph).map (copy σ)) ∧
    (∀ P y, cubicK npRoots R (cubicCopy σ e) T P (share σ w z) (share σ w y) = (cubicK npRoots R e T P z y).map (copy σ)) ∧
    ∀ V v0, cubicDA R (cubicCopy σ e) T V (share σ w z) v0 = cubicDA R e T V z v0 := by
  have ham := am_share R e h hPc hk T
  have hbm := bm_share R e h
  have hZ : ∀ P z, cubicZ npRoots R (cubicCopy σ e) T P (share σ w z) = cubicZ npRoots R e T P z := by
    intro P z; unfold cubicZ; rw [ham, hbm]; rfl
  have hphi : ∀ P z ph, cubicPhi npRoots R (cubicCopy σ e) T P (share σ w z) ph = (cubicPhi npRoots R e T P z ph).map (copy σ) := by
    intro P z ph
    unfold cubicPhi
    simp only [hZ, lnPhi_share R e h hPc hk]
    cases cubicZ npRoots R e T P z with
    | error _ => rfl
    | ok Z => cases ph <;> rfl
  refine ⟨by unfold cubicBm; rw [ham, hbm], fun v => by unfold cubicP; rw [ham, hbm]; rfl, fun P => hZ P z, fun P ph => hphi P z ph, fun P y => ?_, fun V v0 => ?_⟩
  · unfold cubicK
    rw [hphi, hphi]
    cases cubicPhi npRoots R e T P y .V with
    | error _ => rfl
    | ok _ =>
      cases cubicPhi npRoots R e T P z .L with
      | error _ => rfl
      | ok _ => rfl
  · unfold cubicDA
    have hs : ∑ i, share σ w z i = ∑ i, z i := sum_share_total h z
    have hz : (fun i => share σ w z i / ∑ i, z i) = share σ w fun i => z i / ∑ i, z i := by funext i; simp only [share]; ring
    simp only [hs, hz, ham, hbm]
    rfl

/-- A matrix of interaction parameters as required. -/
example : ∀ k ∈ (some (fun i j => if i = j then 0 else 0.1) : Option (Fin 3 → Fin 3 → ℝ)), Relabel.Spec.Symm k ∧ ∀ i, k i i = 0 := by
  intro k hk
  obtain rfl := Option.mem_some_iff.1 hk
  exact ⟨fun i j => by simp only [eq_comm], fun i => if_pos rfl⟩

/-- **C124** (finding). The diagonal of the interaction parameters, which does not affect the mixture parameter of the original list, matters for the
portions: the code neither sets it to zero nor reports it. -/
theorem C124_cubic_false : ∃ k : Fin 1 → Fin 1 → ℝ, ∀ (kind : Kind) (T : ℝ), 0 < T →
    am 8 (cubicCopy (fun _ => 0 : Fin 2 → Fin 1) ⟨kind, fun _ => T, fun _ => 1, fun _ => 0, some k⟩) T (share (fun _ => 0 : Fin 2 → Fin 1) (fun _ => 1 / 2) fun _ => 1) ≠
      am 8 ⟨kind, fun _ => T, fun _ => 1, fun _ => 0, some k⟩ T fun _ => 1 := by
  refine ⟨fun _ _ => 1, fun kind T hT => ?_⟩
  have h0 : 0 < a 8 (⟨kind, fun _ => T, fun _ => 1, fun _ => 0, some fun _ _ => 1⟩ : Cubic 1) T 0 := by
    have h1 : alpha (⟨kind, fun _ => T, fun _ => 1, fun _ => 0, some fun _ _ => 1⟩ : Cubic 1) T 0 = 1 := by
      unfold alpha; rcases kind with _ | g | _
      · simp [div_self hT.ne']
      · cases g <;> simp [div_self hT.ne']
      · simp [div_self hT.ne']
    unfold a
    rw [h1]
    have : 0 < kind.Ωa := by cases kind <;> norm_num [Kind.Ωa]
    simp only
    positivity
  unfold am
  rw [a_copy]
  generalize a 8 (⟨kind, fun _ => T, fun _ => 1, fun _ => 0, some fun _ _ => 1⟩ : Cubic 1) T = A at *
  have f0 : (univ.filter fun j : Fin 2 => (0 : Fin 2) < j) = {1} := by decide
  have f1 : (univ.filter fun j : Fin 2 => (1 : Fin 2) < j) = ∅ := by decide
  have f2 : (univ.filter fun j : Fin 1 => (0 : Fin 1) < j) = ∅ := by decide
  simp only [cubicCopy, Option.map_some, Mixing.geometric, Fin.sum_univ_two, Fin.sum_univ_one, f0, f1, f2, sum_singleton, sum_empty, copy, copyM, share]
  intro h
  norm_num at h
  linarith

/-- **C124.** Virial equation of state, for positive critical constants. -/
theorem C124_virial (h : Portions σ w) (hR : 0 < R) (e : Virial N) (hTc : ∀ i, 0 < e.Tc i) (hPc : ∀ i, 0 < e.Pc i) (hZc : ∀ i, 0 < e.Zc i) (T : ℝ)
    (y : Fin N → ℝ) :
    virialB R (virialCopy σ e) T = copyM σ (virialB R e T) ∧ virialBm R (virialCopy σ e) T (share σ w y) = virialBm R e T y ∧
    (∀ P, virialZ R (virialCopy σ e) T P (share σ w y) = virialZ R e T P y) ∧ (∀ v, virialP R (virialCopy σ e) T v (share σ w y) = virialP R e T v y) ∧
    (∀ P, virialPhi R (virialCopy σ e) T P (share σ w y) = copy σ (virialPhi R e T P y)) ∧
    ∀ V v0, virialDA R (virialCopy σ e) T V (share σ w y) v0 = virialDA R e T V y v0 := by
  have hB : virialB R (virialCopy σ e) T = copyM σ (virialB R e T) := bMixture_copy hR _ _ _ _ hTc hPc hZc
  have hm : ∀ y, virialBm R (virialCopy σ e) T (share σ w y) = virialBm R e T y := by
    intro y; unfold virialBm; rw [hB]; exact quadratic_share h ..
  refine ⟨hB, hm y, fun P => by unfold virialZ; rw [hm], fun v => by unfold virialP; rw [hm], fun P => ?_, fun V v0 => ?_⟩
  · funext i
    unfold virialPhi
    rw [hm, hB, row_share h]; rfl
  · unfold virialDA
    have hs : ∑ i, share σ w y i = ∑ i, y i := sum_share_total h y
    have hz : (fun i => share σ w y i / ∑ i, y i) = share σ w fun i => y i / ∑ i, y i := by funext i; simp only [share]; ring
    simp only [hs, hz, hm]

example : (virialCopy ![0, 1, 1] ⟨![1, 2], ![3, 4], ![5, 6], ![7, 8]⟩).Tc 2 = 2 := by simp [virialCopy, copy]

end Eos

/-! ### Mixture properties -/

section Mix

open Transport

/-- **C124.** Mixing rules and mixture correlations, for positive gas constant and critical constants. -/
theorem C124_mixtures (h : Portions σ w) {R : ℝ} (hR : 0 < R) (NA T P v : ℝ) (y Mw Tc Pc Zc om dm q : Fin N → ℝ) (hTc : ∀ i, 0 < Tc i) (hPc : ∀ i, 0 < Pc i)
    (hZc : ∀ i, 0 < Zc i) (hc : Bool) :
    (∀ Q, Mixing.quadratic (share σ w y) (copyM σ Q) = Mixing.quadratic y Q) ∧
    (∀ k, (∀ i, 0 ≤ q i) → (∀ k' ∈ k, Relabel.Spec.Symm k' ∧ ∀ i, k' i i = 0) →
      Mixing.geometric (share σ w y) (copy σ q) (k.map (copyM σ)) = Mixing.geometric y q k) ∧
    (∀ o : Option (Fin N → ℝ), Mixing.pseudocritical R (share σ w y) (copy σ Tc) (copy σ Pc) (copy σ Zc) (o.map (copy σ)) = Mixing.pseudocritical R y Tc Pc Zc o) ∧
    Mixing.bMixture R T (copy σ Tc) (copy σ Pc) (copy σ Zc) (copy σ om) = copyM σ (Mixing.bMixture R T Tc Pc Zc om) ∧
    mulmx2Perry (share σ w y) (copy σ q) hc = mulmx2Perry y q hc ∧
    muvmx2HerningZipperer (share σ w y) (copy σ q) (copy σ Mw) = muvmx2HerningZipperer y q Mw ∧
    muvmxpcDeanStiel R v (share σ w y) (copy σ Mw) (copy σ Tc) (copy σ Pc) (copy σ Zc) = muvmxpcDeanStiel R v y Mw Tc Pc Zc ∧
    muvmxLucas R T P (share σ w y) (copy σ Mw) (copy σ Tc) (copy σ Pc) (copy σ Zc) (copy σ dm) = muvmxLucas R T P y Mw Tc Pc Zc dm ∧
    klmx2Li (share σ w y) (copy σ q) (copy σ Mw) = klmx2Li y q Mw ∧
    kvmxpc R NA v (share σ w y) (copy σ Mw) (copy σ Tc) (copy σ Pc) (copy σ Zc) (copy σ om) = kvmxpc R NA v y Mw Tc Pc Zc om ∧
    kvmx2Wassilijewa (share σ w y) (copy σ q) (copy σ Mw) = kvmx2Wassilijewa y q Mw ∧
    dvmx (share σ w y) (copy σ q) = dvmx y q := by
  have hpc : ∀ o : Option (Fin N → ℝ), Mixing.pseudocritical R (share σ w y) (copy σ Tc) (copy σ Pc) (copy σ Zc) (o.map (copy σ)) =
      Mixing.pseudocritical R y Tc Pc Zc o := by
    intro o
    unfold Mixing.pseudocritical
    have hv : ∑ i, share σ w y i * (copy σ Zc i * R * copy σ Tc i / copy σ Pc i) = ∑ i, y i * (Zc i * R * Tc i / Pc i) :=
      sum_share h y fun i => Zc i * R * Tc i / Pc i
    simp only [dot_share h, hv]
    cases o with
    | none => rfl
    | some o => simp only [Option.map_some, dot_share h]
  have hsm : ∀ q, sqrtMean (share σ w y) (copy σ q) (copy σ Mw) = sqrtMean y q Mw := by
    intro q
    unfold sqrtMean
    have h1 : ∑ i, share σ w y i * √(copy σ Mw i) = ∑ i, y i * √(Mw i) := sum_share h y fun i => √(Mw i)
    have h2 : ∑ i, share σ w y i * √(copy σ Mw i) / (∑ i, y i * √(Mw i)) * copy σ q i = ∑ i, y i * √(Mw i) / (∑ i, y i * √(Mw i)) * q i := by
      generalize (∑ i, y i * √(Mw i)) = s
      rw [← sum_share' h]
      exact sum_congr rfl fun j _ => by simp only [share, copy]; ring
    simp only [h1, h2]
  refine ⟨fun Q => quadratic_share h y Q, fun k hq hk => geometric_share h y q hq k hk, hpc, bMixture_copy hR _ _ _ _ hTc hPc hZc, ?_, hsm q, ?_, ?_, ?_, ?_, hsm q, ?_⟩
  · unfold mulmx2Perry
    have h1 : ∑ i, share σ w y i * copy σ q i ^ (1 / 3 : ℝ) = ∑ i, y i * q i ^ (1 / 3 : ℝ) := sum_share h y fun i => q i ^ (1 / 3 : ℝ)
    have h2 : ∑ i, share σ w y i * Real.log (copy σ q i) = ∑ i, y i * Real.log (q i) := sum_share h y fun i => Real.log (q i)
    rw [h1, h2]
  · unfold muvmxpcDeanStiel
    have := hpc none
    simp only [Option.map_none] at this
    simp only [dot_share h, this]
  · unfold muvmxLucas
    have h1 : ∑ i, share σ w y i * (R * copy σ Tc i * copy σ Zc i / copy σ Pc i) = ∑ i, y i * (R * Tc i * Zc i / Pc i) :=
      sum_share h y fun i => R * Tc i * Zc i / Pc i
    have h2 : odot (share σ w y) (fun i => lucasFP0 (T / copy σ Tc i) (copy σ Tc i) (copy σ Pc i) (copy σ Zc i) (copy σ dm i)) =
        odot y fun i => lucasFP0 (T / Tc i) (Tc i) (Pc i) (Zc i) (dm i) := by
      unfold odot
      have hall : (∀ i, (lucasFP0 (T / copy σ Tc i) (copy σ Tc i) (copy σ Pc i) (copy σ Zc i) (copy σ dm i)).isSome) ↔
          ∀ i, (lucasFP0 (T / Tc i) (Tc i) (Pc i) (Zc i) (dm i)).isSome :=
        ⟨fun h' i => by obtain ⟨j, rfl⟩ := surj h i; exact h' j, fun h' i => h' (σ i)⟩
      have hsum : ∑ i, share σ w y i * (lucasFP0 (T / copy σ Tc i) (copy σ Tc i) (copy σ Pc i) (copy σ Zc i) (copy σ dm i)).getD 0 =
          ∑ i, y i * (lucasFP0 (T / Tc i) (Tc i) (Pc i) (Zc i) (dm i)).getD 0 :=
        sum_share h y fun i => (lucasFP0 (T / Tc i) (Tc i) (Pc i) (Zc i) (dm i)).getD 0
      rw [hsum]
      by_cases h' : ∀ i, (lucasFP0 (T / Tc i) (Tc i) (Pc i) (Zc i) (dm i)).isSome
      · rw [if_pos h', if_pos (hall.2 h')]
      · rw [if_neg h', if_neg fun h'' => h' (hall.1 h'')]
    simp only [dot_share h, h1, h2]
  · unfold klmx2Li
    have h1 : ∑ i, share σ w y i / copy σ Mw i = ∑ i, y i / Mw i := by
      rw [← sum_share' h]
      exact sum_congr rfl fun j _ => by simp only [share, copy]; ring
    simp only [h1]
    rw [show (fun i => share σ w y i / copy σ Mw i / ∑ i, y i / Mw i) = share σ w (fun i => y i / Mw i / ∑ i, y i / Mw i) by
      funext i; simp only [share, copy]; ring]
    rw [show Mixing.quadratic (share σ w (fun i => y i / Mw i / ∑ i, y i / Mw i)) (fun i j => 2 / (1 / copy σ q j + 1 / copy σ q i)) = _ from
      quadratic_share h (fun i => y i / Mw i / ∑ i, y i / Mw i) fun i j => 2 / (1 / q j + 1 / q i)]
  · unfold kvmxpc
    have hvc : ∀ i, 0 ≤ Zc i * R * Tc i / Pc i := fun i => by
      have := hTc i; have := hPc i; have := hZc i; positivity
    have h1 := kvmx_share h y (fun i => Zc i * R * Tc i / Pc i) Tc hvc fun i => (hTc i).le
    have hv : (fun i => copy σ Zc i * R * copy σ Tc i / copy σ Pc i) = copy σ fun i => Zc i * R * Tc i / Pc i := rfl
    simp only [hv, h1, dot_share h]
  · unfold dvmx
    have h1 : ∑ i, share σ w y i = ∑ i, y i := sum_share_total h y
    have h2 : ∑ i, share σ w y i / copy σ q i = ∑ i, y i / q i := by
      rw [← sum_share' h]
      exact sum_congr rfl fun j _ => by simp only [share, copy]; ring
    rw [h1, h2]

example : share (![0, 1, 1] : Fin 3 → Fin 2) ![1, 1 / 4, 3 / 4] (![1 / 5, 4 / 5] : Fin 2 → ℝ) = ![1 / 5, 1 / 5, 3 / 5] := by
  funext i; fin_cases i
  · simp [share]
  · simp [share]; norm_num
  · simp [share]; norm_num

end Mix

/-! ### Flash -/

section Flash

open Flash

/-- A flash result for the longer list. -/
def resultShare (σ : Fin M → Fin N) (w : Fin M → ℝ) (r : FlashResult N) : FlashResult M :=
  ⟨r.success, r.message, r.T, r.P, r.F, r.L, r.V, r.beta, share σ w r.z, share σ w r.x, share σ w r.y, copy σ r.K⟩

theorem init_share (h : Portions σ w) (o : Option (Vec N)) (z : Vec N) :
    ((o.map (share σ w)).map Flash.normalize).getD (share σ w z) = share σ w ((o.map Flash.normalize).getD z) := by
  cases o with
  | none => rfl
  | some x => exact normalize_share h x

/-- **C124.** The flashes at given pressure and vapour fraction, and at given temperature and vapour fraction: with the feed and the starting values divided, and
K-values that do not depend on the division, iteration by iteration the same, so that the same temperature or pressure, phase amounts, message or error is returned. -/
theorem C124_flash (h : Portions σ w) {Kc : KFun N} {Kc' : KFun M} (hK : ∀ T P x y, Kc' T P (share σ w x) (share σ w y) = copy σ (Kc T P x y)) (F : ℝ) (z : Vec N)
    (x0 y0 : Option (Vec N)) (m : ℕ) (atol rtol : ℝ) :
    (∀ P beta T0, flashPV F (share σ w z) P beta Kc' (x0.map (share σ w)) (y0.map (share σ w)) T0 m atol rtol =
      (flashPV F z P beta Kc x0 y0 T0 m atol rtol).map (resultShare σ w)) ∧
    ∀ T beta P0, flashTV F (share σ w z) T beta Kc' (x0.map (share σ w)) (y0.map (share σ w)) P0 m atol rtol =
      (flashTV F z T beta Kc x0 y0 P0 m atol rtol).map (resultShare σ w) := by
  have hK' : KRel σ w Kc Kc' := hK
  refine ⟨fun P beta T0 => ?_, fun T beta P0 => ?_⟩
  · unfold flashPV
    simp only [normalize_share h, init_share h, hK, phaseX_share h, phaseY_share h, paramsPVall_share h hK']
    generalize Kc T0 P _ _ = K
    generalize paramsPVall T0 P _ _ beta Kc 300 = q
    have := pvLoop_share h hK' (Flash.normalize z) P beta 300 q.2.2.2 q.2.1 m atol rtol m ⟨false, .empty, T0, phaseX (Flash.normalize z) K beta,
      phaseY (Flash.normalize z) K beta, K, q.1, q.2.2.1⟩
    unfold ioShare at this
    simp only at this
    rw [this]
    cases pvLoop Kc (Flash.normalize z) P beta 300 q.2.2.2 q.2.1 m atol rtol m ⟨false, .empty, T0, phaseX (Flash.normalize z) K beta,
      phaseY (Flash.normalize z) K beta, K, q.1, q.2.2.1⟩ <;> rfl
  · unfold flashTV
    simp only [normalize_share h, init_share h, hK, phaseX_share h, phaseY_share h, paramsTVall_share h hK']
    generalize Kc T P0 _ _ = K
    generalize paramsTVall T P0 _ _ beta Kc 100000 = q
    have := tvLoop_share h hK' (Flash.normalize z) T beta 100000 q.2.2.2 q.2.1 m atol rtol m ⟨false, .empty, P0, phaseX (Flash.normalize z) K beta,
      phaseY (Flash.normalize z) K beta, K, q.1, q.2.2.1⟩
    unfold ioShare at this
    simp only at this
    rw [this]
    cases tvLoop Kc (Flash.normalize z) T beta 100000 q.2.2.2 q.2.1 m atol rtol m ⟨false, .empty, P0, phaseX (Flash.normalize z) K beta,
      phaseY (Flash.normalize z) K beta, K, q.1, q.2.2.1⟩ <;> rfl

/-- Raoult's law with vapour pressures `p` satisfies the hypothesis. -/
example (p : Fin N → ℝ → ℝ) (T P : ℝ) (x y : Vec N) : (fun i => copy σ p i T / P) = copy σ ((fun T P _ _ i => p i T / P : KFun N) T P x y) := rfl

/-- **C124.** Rachford-Rice: the residual and its derivative, and with the residuals at 0 and 1 the answers for a feed that is all liquid or all vapour. (The
starting interval depends on how the feed is divided, so that the iterates in the two-phase region do, too.) -/
theorem C124_rachford_rice_partial (h : Portions σ w) (K z : Fin N → ℝ) :
    (∀ beta, rr beta (copy σ K) (share σ w z) = rr beta K z ∧ drr beta (copy σ K) (share σ w z) = drr beta K z) ∧
    ∀ b0 m atol, rr 0 K z < 0 ∨ 0 < rr 1 K z → solveRR (copy σ K) (share σ w z) b0 m atol = solveRR K z b0 m atol := by
  have h1 : ∀ beta, rr beta (copy σ K) (share σ w z) = rr beta K z := fun beta => by
    unfold rr
    rw [← sum_share' h]
    exact sum_congr rfl fun j _ => by simp only [share, copy]; ring
  have h2 : ∀ beta, drr beta (copy σ K) (share σ w z) = drr beta K z := fun beta => by
    unfold drr
    rw [← sum_share' h]
    congr 1
    exact sum_congr rfl fun j _ => by simp only [share, copy]; ring
  refine ⟨fun beta => ⟨h1 beta, h2 beta⟩, fun b0 m atol hc => ?_⟩
  unfold solveRR
  simp only [h1]
  by_cases h0 : rr 0 K z < 0
  · rw [if_pos h0, if_pos h0]
  · rw [if_neg h0, if_neg h0, if_pos (hc.resolve_left h0), if_pos (hc.resolve_left h0)]

/-- **C124** (finding). The Rachford-Rice solver does not return the same iterate: a feed of which one half has K = 4 and the other half K = 1/4 is solved in one
iteration, and needs more if the second half is listed as two equal parts. -/
theorem C124_rachford_rice_false : ∃ (K z : Fin 2 → ℚ) (w : Fin 3 → ℚ), Portions (![0, 1, 1] : Fin 3 → Fin 2) w ∧
    ∃ a b, solveRR K z none 1 (1 / 100) = .ok a ∧
      solveRR (copy (![0, 1, 1] : Fin 3 → Fin 2) K) (share (![0, 1, 1] : Fin 3 → Fin 2) w z) none 1 (1 / 100) = .ok b ∧ a.success = true ∧ b.success = false := by
  refine ⟨![4, 1 / 4], ![1 / 2, 1 / 2], ![1, 1 / 2, 1 / 2], ⟨fun j => by fin_cases j <;> norm_num, fun i => ?_⟩, ⟨true, 1, 1 / 2, 0⟩, ?_⟩
  · rw [sum_filter, Fin.sum_univ_three]
    fin_cases i
    · simp
    · simp; norm_num
  · exact ⟨⟨false, 1, 20 / 39, -1 / 4⟩, by decide +kernel, by decide +kernel, rfl, rfl⟩

end Flash

/-! ### Copolymerisation -/

section Copo

open CopoMulti

variable {α : Type*} [Field α] [LinearOrder α] [IsStrictOrderedRing α] {m n : ℕ} {τ : Fin (m + 1) → Fin (n + 1)} {u : Fin (m + 1) → α}

/-- **C124.** Multicomponent copolymerisation: each portion of a monomer is incorporated in its proportion. -/
theorem C124_copolymer (h : Portions τ u) (solve : Matrix (Fin (n + 1)) (Fin (n + 1)) α → (Fin (n + 1) → α) → Option (Fin (n + 1) → α)) (hsolve : IsSolve solve)
    (solve' : Matrix (Fin (m + 1)) (Fin (m + 1)) α → (Fin (m + 1) → α) → Option (Fin (m + 1) → α)) (hsolve' : IsSolve solve')
    (f : Fin (n + 1) → α) (r : Matrix (Fin (n + 1)) (Fin (n + 1)) α) (hf : ∀ i, 0 ≤ f i) (hf0 : ∃ i, 0 < f i) (hr : ∀ i j, 0 < r i j) :
    (∀ i j, transitionsMulti (share τ u f) (copyM τ r) i j = u j * transitionsMulti f r (τ i) (τ j)) ∧
    (∃ F, instMulti solve (some f) (some r) none = .ok (some F) ∧ instMulti solve' (some (share τ u f)) (some (copyM τ r)) none = .ok (some (share τ u F))) ∧
    ∃ p, radMulti solve f r = some p ∧ radMulti solve' (share τ u f) (copyM τ r) = some (share τ u p) := by
  have hs : ∀ g : Fin (n + 1) → α, ∑ j, u j * g (τ j) = ∑ i, g i := sum_share' h
  have hf' : ∀ i, 0 ≤ share τ u f i := fun i => mul_nonneg (h.nonneg i) (hf _)
  have hf0' : ∃ i, 0 < share τ u f i := by
    by_contra hn
    push Not at hn
    obtain ⟨i, hi⟩ := hf0
    have h1 : ∑ j, share τ u f j = ∑ i, f i := hs f
    have h2 : ∑ j, share τ u f j ≤ 0 := sum_nonpos fun j _ => hn j
    have h3 : 0 < ∑ i, f i := sum_pos' (fun i _ => hf i) ⟨i, mem_univ _, hi⟩
    linarith
  have hr' : ∀ i j, 0 < copyM τ r i j := fun i j => hr _ _
  have hden : ∀ i, ∑ k, share τ u f k / copyM τ r i k = ∑ k, f k / r (τ i) k := fun i => by
    rw [← hs]
    exact sum_congr rfl fun k _ => by simp only [share, copyM, mul_div_assoc]
  have htr : ∀ i j, transitionsMulti (share τ u f) (copyM τ r) i j = u j * transitionsMulti f r (τ i) (τ j) := fun i j => by
    unfold transitionsMulti
    rw [hden]
    simp only [share, copyM, mul_div_assoc]
  refine ⟨htr, ?_, ?_⟩
  · obtain ⟨F, h1, -, h2, -, h3, -⟩ := C33_stationary solve hsolve f r hf hf0 hr
    obtain ⟨G, g1, -, -, -, -, g2⟩ := C33_stationary solve' hsolve' (share τ u f) (copyM τ r) hf' hf0' hr'
    refine ⟨F, h1, ?_⟩
    rw [g1, ← g2 (share τ u F)]
    · exact (hs F).trans h2
    · intro j
      have e : ∀ i, share τ u F i * (share τ u f j / copyM τ r i j / ∑ k, share τ u f k / copyM τ r i k) =
          u j * (u i * (F (τ i) * (f (τ j) / r (τ i) (τ j) / ∑ k, f k / r (τ i) k))) := fun i => by
        have := htr i j
        unfold transitionsMulti at this
        rw [this]
        simp only [share]; ring
      rw [sum_congr rfl fun i _ => e i, ← mul_sum, hs fun i => F i * (f (τ j) / r i (τ j) / ∑ k, f k / r i k), h3 (τ j)]
      rfl
  · obtain ⟨F, h1, -, h2, h3, -⟩ := C34_multi solve hsolve f r hf hf0 hr
    obtain ⟨G, g1, -, -, -, g2⟩ := C34_multi solve' hsolve' (share τ u f) (copyM τ r) hf' hf0' hr'
    refine ⟨F, h1, ?_⟩
    rw [g1, ← g2 (share τ u F)]
    · exact (hs F).trans h2
    · intro i
      have e1 : ∑ j, copyM τ r i j * share τ u F i * share τ u f j = u i * ∑ j, r (τ i) j * F (τ i) * f j := by
        rw [← hs, mul_sum]; exact sum_congr rfl fun j _ => by simp only [copyM, share]; ring
      have e2 : ∑ j, copyM τ r j i * share τ u F j * share τ u f i = u i * ∑ j, r j (τ i) * F j * f (τ i) := by
        rw [← hs, mul_sum]; exact sum_congr rfl fun j _ => by simp only [copyM, share]; ring
      rw [e1, e2, h3]

/-- The hypotheses hold with one monomer absent. -/
example : (∀ i, 0 ≤ (![1 / 2, 1 / 2, 0] : Fin 3 → ℚ) i) ∧ (∃ i, 0 < (![1 / 2, 1 / 2, 0] : Fin 3 → ℚ) i) := by
  refine ⟨fun i => by fin_cases i <;> norm_num, ⟨0, by norm_num⟩⟩

end Copo

end Verif.Split
