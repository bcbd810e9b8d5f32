import Verif.Lemmas.CopoDrift
import Verif.Props.CopoMulti
import Verif.Props.Copo

/-!
# C107: drift of the monomer composition

`Exact ivp`: whatever the integrator returns is a continuously differentiable solution of the initial value problem it was given. `a.at i j` is the entry of the
returned array in row `i`, column `j` (a vector is one row).
-/

namespace Verif.CopoDrift

open Set Verif.Copo Verif.CopoMulti Spec

/-- An integrator without error. -/
def Exact {n : ℕ} (ivp : Ivp n) : Prop := ∀ rhs T y0 y, ivp rhs T y0 = some y → ∃ d, IsSolution rhs T y0 y d

/-- Entry of an array. -/
def Arr.at : Arr → ℕ → ℕ → Option ℝ
  | .vec v, i, j => if i = 0 then v[j]? else none
  | .mat m, i, j => m[i]?.bind (·[j]?)

/-- Reactivity ratios that depend continuously on the composition wherever they are finite. -/
def RiCont (ri : ℝ → Option (ℝ × ℝ)) : Prop := ∃ a b : ℝ → ℝ, ∀ f r, ri f = some r → r = (a f, b f) ∧ ContinuousAt a f ∧ ContinuousAt b f

theorem riCont_const (r1 r2 : ℝ) : RiCont fun _ => some (r1, r2) :=
  ⟨fun _ => r1, fun _ => r2, fun _ _ h => ⟨(Option.some.inj h).symm, continuousAt_const, continuousAt_const⟩⟩

/-- The penultimate model. -/
theorem riCont_pen (m : Pen ℝ) : RiCont m.ri := by
  refine ⟨fun f => m.r21 * (f * m.r11 + (1 - f)) / (f * m.r21 + (1 - f)), fun f => m.r12 * ((1 - f) * m.r22 + f) / ((1 - f) * m.r12 + f), fun f r h => ?_⟩
  simp only [Pen.ri, fdiv] at h
  by_cases h1 : f * m.r21 + (1 - f) = 0
  · rw [if_pos h1] at h; cases h
  by_cases h2 : (1 - f) * m.r12 + f = 0
  · rw [if_pos h2, if_neg h1] at h; cases h
  rw [if_neg h1, if_neg h2] at h
  refine ⟨(Option.some.inj h).symm, ?_, ?_⟩
  · exact ContinuousAt.div (by fun_prop) (by fun_prop) h1
  · exact ContinuousAt.div (by fun_prop) (by fun_prop) h2

/-! ### Calls -/

theorem solveIvp_ok {n : ℕ} {ivp : Ivp n} {rhs : ℝ → (Fin n → ℝ) → Fin n → Option ℝ} {y0 : Fin n → ℝ} {x : List ℝ} {rows : Fin n → List ℝ}
    (h : solveIvp ivp rhs y0 x = .ok (some rows)) :
    ∃ tf y, tf ∈ x ∧ (∀ t ∈ x, t ≤ tf) ∧ ivp rhs tf y0 = some y ∧ rows = fun i => x.map fun t => y t i := by
  unfold solveIvp at h
  cases hm : x.max? with
  | none => rw [hm] at h; cases h
  | some tf =>
    rw [hm] at h
    simp only at h
    obtain ⟨h1, h2⟩ := List.max?_eq_some_iff.1 hm
    split_ifs at h with hE
    have h3 := Except.ok.inj h
    cases hy : ivp rhs tf y0 with
    | none => rw [hy] at h3; cases h3
    | some y =>
      rw [hy] at h3
      exact ⟨tf, y, h1, h2, hy, (Option.some.inj h3).symm⟩

theorem squeeze_at {n : ℕ} (y : Fin n → List ℝ) (i : Fin n) (j : ℕ) : (squeeze y).at i j = (y i)[j]?.map (max 0) := by
  have hl : (List.ofFn fun i => (y i).map (max 0)).length = n := List.length_ofFn
  have hi : (List.ofFn fun i => (y i).map (max 0))[(i : ℕ)]? = some ((y i).map (max 0)) := by
    rw [List.getElem?_ofFn]; simp
  unfold squeeze
  split
  · rename_i v hv
    rw [hv] at hl hi
    have hn : n = 1 := by simpa using hl.symm
    subst hn
    have hi0 : i = 0 := Subsingleton.elim _ _
    subst hi0
    simp only [Fin.val_zero, List.getElem?_cons_zero, Option.some.injEq] at hi
    simp [Arr.at, hi]
  · simp [Arr.at, hi]

theorem driftBinary_model {n : ℕ} (ivp : Ivp n) (f10 : Fin n → ℝ) (x : List ℝ) (r1 r2 : ℝ) (a : Arr) :
    driftBinary ivp f10 x r1 r2 = .value a ↔ driftModel ivp (fun _ => some (r1, r2)) f10 x = .value a := by
  have : (rhsBinary r1 r2 : ℝ → (Fin n → ℝ) → Fin n → Option ℝ) = rhsModel fun _ => some (r1, r2) := by
    funext x f i
    simp only [rhsBinary, rhsModel, df1dx]
    cases instBinary (f i) r1 r2 with
    | none => rfl
    | some F => simp [fdiv]
  unfold driftBinary driftModel
  rw [this]
  cases solveIvp ivp (rhsModel fun _ => some (r1, r2)) f10 x with
  | error e => simp
  | ok o => cases o <;> simp

theorem driftModel_value {n : ℕ} {ivp : Ivp n} {ri : ℝ → Option (ℝ × ℝ)} {f10 : Fin n → ℝ} {x : List ℝ} {a : Arr}
    (h : driftModel ivp ri f10 x = .value a) :
    ∃ tf y, tf ∈ x ∧ (∀ t ∈ x, t ≤ tf) ∧ ivp (rhsModel ri) tf f10 = some y ∧ ∀ (i : Fin n) (j : ℕ), a.at i j = x[j]?.map fun t => max 0 (y t i) := by
  unfold driftModel at h
  cases hs : solveIvp ivp (rhsModel ri) f10 x with
  | error e => rw [hs] at h; cases h
  | ok o =>
    rw [hs] at h
    cases o with
    | none => cases h
    | some rows =>
      obtain ⟨tf, y, h1, h2, h3, h4⟩ := solveIvp_ok hs
      refine ⟨tf, y, h1, h2, h3, fun i j => ?_⟩
      have : squeeze rows = a := by simpa using h
      rw [← this, squeeze_at, h4, List.getElem?_map, Option.map_map]
      rfl

theorem traj_of {n : ℕ} {ri : ℝ → Option (ℝ × ℝ)} (hri : RiCont ri) {T : ℝ} (hT : T ≤ 1) {y0 : Fin n → ℝ} {y d : ℝ → Fin n → ℝ}
    (h : IsSolution (rhsModel ri) T y0 y d) (i : Fin n) : ∃ a b F : ℝ → ℝ, Traj T (fun t => y t i) (fun t => d t i) a b F ∧
      ∀ t ∈ Icc 0 T, ri (y t i) = some (a t, b t) := by
  obtain ⟨a, b, hab⟩ := hri
  have key : ∀ t ∈ Icc 0 T, ri (y t i) = some (a (y t i), b (y t i)) ∧
      ∃ F, instBinary (y t i) (a (y t i)) (b (y t i)) = some F ∧ d t i = (y t i - F) / (1 - t + eps) := by
    intro t ht
    have h1 := h.rhs t ht i
    unfold rhsModel at h1
    cases hr : ri (y t i) with
    | none => rw [hr] at h1; cases h1
    | some r =>
      have h2 := (hab _ _ hr).1
      subst h2
      refine ⟨rfl, ?_⟩
      rw [hr] at h1
      simp only at h1
      cases hF : instBinary (y t i) (a (y t i)) (b (y t i)) with
      | none => rw [hF] at h1; cases h1
      | some F =>
        rw [hF] at h1
        simp only [fdiv] at h1
        rw [if_neg (Traj.w_pos hT ht).ne'] at h1
        exact ⟨F, rfl, (Option.some.inj h1).symm⟩
  classical
  refine ⟨fun t => a (y t i), fun t => b (y t i), fun t => y t i - (1 - t + eps) * d t i, ⟨h.cont i, h.contd i, ?_, ?_, ?_, ?_, fun t ht => h.deriv t ht i⟩,
    fun t ht => (key t ht).1⟩
  · intro t ht
    exact ((hab _ _ (key t ht).1).2.1).comp_continuousWithinAt (f := fun t => y t i) (h.cont i t ht)
  · intro t ht
    exact ((hab _ _ (key t ht).1).2.2).comp_continuousWithinAt (f := fun t => y t i) (h.cont i t ht)
  · intro t ht
    obtain ⟨-, F, hF, hd⟩ := key t ht
    have := (Traj.w_pos hT ht).ne'
    rw [hF, hd]
    congr 1
    field_simp; ring
  · intro t ht
    have := (Traj.w_pos hT ht).ne'
    field_simp; ring

theorem inst_mayoLewis {f a b F : ℝ} (h : instBinary f a b = some F) : F = mayoLewis a b f := by
  simp only [instBinary, fdiv] at h
  split_ifs at h
  exact (Option.some.inj h).symm

/-- **C107.** `drift` and `monomer_drift_binary` with an exact integrator, initial compositions in `[0, 1]` and conversions in `[0, 1]`: row `i` of the result is
the value at the given conversions of a trajectory that starts at `f10[i]`, satisfies the drift equation with the Mayo-Lewis composition, stays in `[0, 1]`
(strictly inside if it starts inside, so the lower clamp never acts), and fulfils the balance on monomer 1 up to the machine epsilon added to `1 - x`. -/
theorem C107_trajectory {n : ℕ} (ivp : Ivp n) (hx : Exact ivp) (ri : ℝ → Option (ℝ × ℝ)) (hri : RiCont ri) (f10 : Fin n → ℝ)
    (hf : ∀ i, f10 i ∈ Icc (0 : ℝ) 1) (x : List ℝ) (hx1 : ∀ t ∈ x, t ∈ Icc (0 : ℝ) 1) (a : Arr) (h : driftModel ivp ri f10 x = .value a) :
    ∀ i : Fin n, ∃ f F : ℝ → ℝ, (∀ j, a.at i j = x[j]?.map f) ∧ f 0 = f10 i ∧ ∀ T ∈ x,
      (∀ t ∈ Ico 0 T, HasDerivWithinAt f ((f t - F t) / (1 - t + 1 / 2 ^ 52)) (Ici t) t) ∧
      (∀ t ∈ Icc 0 T, ∃ r1 r2, ri (f t) = some (r1, r2) ∧ F t = mayoLewis r1 r2 (f t) ∧ f t ∈ Icc (0 : ℝ) 1 ∧ (f10 i ∈ Ioo (0 : ℝ) 1 → f t ∈ Ioo (0 : ℝ) 1) ∧
        (f10 i = 0 → f t = 0) ∧ (f10 i = 1 → f t = 1) ∧
        (1 - t + 1 / 2 ^ 52) * f t + ∫ u in (0 : ℝ)..t, F u = (1 + 1 / 2 ^ 52) * f10 i ∧
        |(1 - t) * f t + (∫ u in (0 : ℝ)..t, F u) - f10 i| ≤ 1 / 2 ^ 52) := by
  intro i
  obtain ⟨tf, y, htf, hmax, hy, hat⟩ := driftModel_value h
  obtain ⟨d, hd⟩ := hx _ _ _ _ hy
  have hT : tf ≤ 1 := (hx1 tf htf).2
  obtain ⟨ra, rb, F, ht, hr⟩ := traj_of hri hT hd i
  have h0 : y 0 i = f10 i := by rw [hd.init]
  have hmem := ht.mem hT (by simpa [h0] using hf i)
  refine ⟨fun t => y t i, F, fun j => ?_, h0, fun T hTx => ⟨fun t htT => ?_, fun t htT => ?_⟩⟩
  · rw [hat]
    cases hj : x[j]? with
    | none => rfl
    | some t =>
      have hm : t ∈ x := List.mem_of_getElem? hj
      simp only [Option.map_some, Option.some.injEq]
      exact max_eq_right (hmem t ⟨(hx1 t hm).1, hmax t hm⟩).1
  · have : t ∈ Ico 0 tf := ⟨htT.1, htT.2.trans_le (hmax T hTx)⟩
    refine (ht.deriv t this).congr_deriv ?_
    exact ht.deq t ⟨this.1, this.2.le⟩
  · have htt : t ∈ Icc 0 tf := ⟨htT.1, htT.2.trans (hmax T hTx)⟩
    have hb := ht.balance hT htt
    simp only [h0] at hb
    obtain ⟨E, hE⟩ := ht.low hT
    obtain ⟨G, hG⟩ := ht.high hT
    have hE' := hE t htt
    have hG' := hG t htt
    simp only [h0] at hE' hG'
    refine ⟨ra t, rb t, hr t htt, inst_mayoLewis (ht.inst t htt), hmem t htt, fun hio => ht.mem_Ioo hT (by simpa [h0] using hio) t htt, fun hz => ?_, fun hz => ?_,
      hb, ?_⟩
    · show y t i = 0
      rw [hE', hz, zero_mul]
    · show y t i = 1
      rw [hz, sub_self, zero_mul] at hG'; linarith
    · have e1 : (1 - t) * y t i + (∫ u in (0 : ℝ)..t, F u) - f10 i = eps * (f10 i - y t i) := by linarith
      have h1 := hmem t htt
      have h2 := hf i
      have h3 := eps_pos'
      show |(1 - t) * y t i + (∫ u in (0 : ℝ)..t, F u) - f10 i| ≤ eps
      rw [e1, abs_mul, abs_of_pos h3]
      have : |f10 i - y t i| ≤ 1 := by rw [abs_le]; constructor <;> linarith [h1.1, h1.2, h2.1, h2.2]
      nlinarith

/-- **C107.** Terminal model: `F1 - f1` has the same sign at all conversions. If the copolymer formed first is richer in monomer 1 than the feed, `f1` falls
strictly with conversion; if it is poorer, `f1` rises strictly; at an azeotrope `f1` is constant. -/
theorem C107_direction {n : ℕ} (ivp : Ivp n) (hx : Exact ivp) (r1 r2 : ℝ) (h1 : 0 ≤ r1) (h2 : 0 ≤ r2) (f10 : Fin n → ℝ) (i : Fin n)
    (hf : f10 i ∈ Ioo (0 : ℝ) 1) (x : List ℝ) (hx1 : ∀ t ∈ x, t ∈ Icc (0 : ℝ) 1) (a : Arr) (h : driftBinary ivp f10 x r1 r2 = .value a)
    (j k : ℕ) (s t u v : ℝ) (hj : x[j]? = some s) (hk : x[k]? = some t) (hst : s < t) (hu : a.at i j = some u) (hv : a.at i k = some v) :
    (f10 i < mayoLewis r1 r2 (f10 i) → v < u ∧ u < mayoLewis r1 r2 u) ∧ (mayoLewis r1 r2 (f10 i) < f10 i → u < v ∧ mayoLewis r1 r2 u < u) ∧
      (mayoLewis r1 r2 (f10 i) = f10 i → u = f10 i ∧ v = f10 i) := by
  obtain ⟨tf, y, htf, hmax, hy, hat⟩ := driftModel_value ((driftBinary_model ivp f10 x r1 r2 a).1 h)
  obtain ⟨d, hd⟩ := hx _ _ _ _ hy
  have hT : tf ≤ 1 := (hx1 tf htf).2
  obtain ⟨ra, rb, F, ht, hr⟩ := traj_of (riCont_const r1 r2) hT hd i
  have h0 : y 0 i = f10 i := by rw [hd.init]
  have ht' : Traj tf (fun t => y t i) (fun t => d t i) (fun _ => r1) (fun _ => r2) F := by
    refine ⟨ht.cf, ht.cd, continuousOn_const, continuousOn_const, fun t htt => ?_, ht.deq, ht.deriv⟩
    have := hr t htt
    simp only [Option.some.injEq, Prod.mk.injEq] at this
    rw [this.1, this.2]; exact ht.inst t htt
  have hmem := ht'.mem_Ioo hT (by simpa [h0] using hf)
  have hs : s ∈ x := List.mem_of_getElem? hj
  have htx : t ∈ x := List.mem_of_getElem? hk
  have hsI : s ∈ Icc 0 tf := ⟨(hx1 s hs).1, hmax s hs⟩
  have htI : t ∈ Icc 0 tf := ⟨(hx1 t htx).1, hmax t htx⟩
  have hu' : u = y s i := by
    rw [hat, hj] at hu
    rw [← Option.some.inj hu]; exact max_eq_right (hmem s hsI).1.le
  have hv' : v = y t i := by
    rw [hat, hk] at hv
    rw [← Option.some.inj hv]; exact max_eq_right (hmem t htI).1.le
  obtain ⟨E, hE⟩ := ht'.sign hT
  simp only [h0] at hE
  have hden : ∀ f ∈ Ioo (0 : ℝ) 1, 0 < den f r1 r2 := by
    intro f hf
    have := hf.1
    have h3 : 0 < 1 - f := sub_pos.2 hf.2
    unfold den; positivity
  have hsg : ∀ f ∈ Ioo (0 : ℝ) 1, f - mayoLewis r1 r2 f = f * (1 - f) / den f r1 r2 * sgn f r1 r2 := by
    intro f hf
    have h3 := (hden f hf).ne'
    have : mayoLewis r1 r2 f = (r1 * f ^ 2 + f * (1 - f)) / den f r1 r2 := rfl
    rw [this, div_mul_eq_mul_div, eq_div_iff h3, sub_mul, div_mul_cancel₀ _ h3]
    simp only [den, sgn]; ring
  have hpos : ∀ f ∈ Ioo (0 : ℝ) 1, 0 < f * (1 - f) / den f r1 r2 := fun f hf => div_pos (mul_pos hf.1 (sub_pos.2 hf.2)) (hden f hf)
  have hw : ∀ τ ∈ Icc 0 tf, 0 < 1 - τ + (eps : ℝ) := fun τ hτ => Traj.w_pos hT hτ
  have hdd : ∀ τ ∈ Icc 0 tf, d τ i = y τ i * (1 - y τ i) / den (y τ i) r1 r2 * (sgn (f10 i) r1 r2 * Real.exp (E τ)) / (1 - τ + eps) := by
    intro τ hτ
    rw [ht'.deq τ hτ, ← hE τ hτ, ← hsg _ (hmem τ hτ), inst_mayoLewis (ht'.inst τ hτ)]
  have hint := ht'.integral hsI.1 hst.le htI.2
  have hcont : ContinuousOn (fun τ => d τ i) (Icc s t) := ht'.cd.mono (Icc_subset_Icc hsI.1 htI.2)
  have hsub : ∀ τ ∈ Icc s t, τ ∈ Icc 0 tf := fun τ hτ => ⟨hsI.1.trans hτ.1, hτ.2.trans htI.2⟩
  have hii : IntervalIntegrable (fun τ => d τ i) MeasureTheory.volume s t := hcont.intervalIntegrable_of_Icc hst.le
  refine ⟨fun hlt => ?_, fun hlt => ?_, fun heq => ?_⟩
  · have hn : sgn (f10 i) r1 r2 < 0 := by
      have := hsg _ hf
      have hp := hpos _ hf
      by_contra hc
      have := mul_nonneg hp.le (not_lt.1 hc)
      linarith
    have hneg : ∀ τ ∈ Icc 0 tf, d τ i < 0 := by
      intro τ hτ
      rw [hdd τ hτ]
      exact div_neg_of_neg_of_pos (mul_neg_of_pos_of_neg (hpos _ (hmem τ hτ)) (mul_neg_of_neg_of_pos hn (Real.exp_pos _))) (hw τ hτ)
    refine ⟨?_, ?_⟩
    · have := intervalIntegral.intervalIntegral_pos_of_pos_on (f := fun τ => -d τ i) hii.neg (fun τ hτ => neg_pos.2 (hneg τ (hsub τ ⟨hτ.1.le, hτ.2.le⟩))) hst
      rw [intervalIntegral.integral_neg, hint] at this
      rw [hu', hv']; linarith
    · have := hsg _ (hmem s hsI)
      have h3 : sgn (y s i) r1 r2 < 0 := by rw [hE s hsI]; exact mul_neg_of_neg_of_pos hn (Real.exp_pos _)
      have := mul_neg_of_pos_of_neg (hpos _ (hmem s hsI)) h3
      rw [hu']; linarith
  · have hn : 0 < sgn (f10 i) r1 r2 := by
      have := hsg _ hf
      have hp := hpos _ hf
      by_contra hc
      have := mul_nonpos_of_nonneg_of_nonpos hp.le (not_lt.1 hc)
      linarith
    have hneg : ∀ τ ∈ Icc 0 tf, 0 < d τ i := by
      intro τ hτ
      rw [hdd τ hτ]
      exact div_pos (mul_pos (hpos _ (hmem τ hτ)) (mul_pos hn (Real.exp_pos _))) (hw τ hτ)
    refine ⟨?_, ?_⟩
    · have := intervalIntegral.intervalIntegral_pos_of_pos_on hii (fun τ hτ => hneg τ (hsub τ ⟨hτ.1.le, hτ.2.le⟩)) hst
      rw [hint] at this
      rw [hu', hv']; linarith
    · have := hsg _ (hmem s hsI)
      have h3 : 0 < sgn (y s i) r1 r2 := by rw [hE s hsI]; exact mul_pos hn (Real.exp_pos _)
      have := mul_pos (hpos _ (hmem s hsI)) h3
      rw [hu']; linarith
  · have hn : sgn (f10 i) r1 r2 = 0 := by
      have := hsg _ hf
      rw [heq, sub_self] at this
      exact (mul_eq_zero.1 this.symm).resolve_left (hpos _ hf).ne'
    have hz : ∀ τ ∈ Icc 0 tf, d τ i = 0 := by
      intro τ hτ
      rw [hdd τ hτ, hn]; simp
    have hc : ∀ τ ∈ Icc 0 tf, y τ i = f10 i := by
      intro τ hτ
      have h4 := ht'.integral le_rfl hτ.1 hτ.2
      rw [intervalIntegral.integral_congr (g := fun _ => (0 : ℝ)) (fun σ hσ => hz σ (by rw [uIcc_of_le hτ.1] at hσ; exact ⟨hσ.1, hσ.2.trans hτ.2⟩))] at h4
      simp only [intervalIntegral.integral_zero] at h4
      rw [← h0]; linarith
    exact ⟨by rw [hu', hc s hsI], by rw [hv', hc t htI]⟩

theorem ml_identity (f r1 r2 : ℝ) (h1 : r1 ≠ 1) (h2 : r2 ≠ 1) (hm : 2 - r1 - r2 ≠ 0) :
    (r2 / (1 - r2) * ((1 - f) * (f - (1 - r2) / (2 - r1 - r2))) - r1 / (1 - r1) * (f * (f - (1 - r2) / (2 - r1 - r2))) -
      (1 - r1 * r2) / ((1 - r1) * (1 - r2)) * (f * (1 - f))) * (2 - r1 - r2) = -den f r1 r2 := by
  have e1 : 1 - r1 ≠ 0 := sub_ne_zero.2 h1.symm
  have e2 : 1 - r2 ≠ 0 := sub_ne_zero.2 h2.symm
  unfold den
  field_simp
  ring

/-- **C107.** Terminal model: every computed composition satisfies the integrated equation of Meyer and Lowry, with `(1 - x + ε)/(1 + ε)` for the fraction of
monomer left. -/
theorem C107_meyer_lowry {n : ℕ} (ivp : Ivp n) (hx : Exact ivp) (r1 r2 : ℝ) (h1 : r1 ≠ 1) (h2 : r2 ≠ 1) (hm : 2 - r1 - r2 ≠ 0) (f10 : Fin n → ℝ)
    (i : Fin n) (hf : f10 i ∈ Ioo (0 : ℝ) 1) (hδ : f10 i ≠ (1 - r2) / (2 - r1 - r2)) (x : List ℝ) (hx1 : ∀ t ∈ x, t ∈ Icc (0 : ℝ) 1) (a : Arr)
    (h : driftBinary ivp f10 x r1 r2 = .value a) (j : ℕ) (t u : ℝ) (hj : x[j]? = some t) (hu : a.at i j = some u) :
    MeyerLowry r1 r2 (f10 i) u ((1 - t + 1 / 2 ^ 52) / (1 + 1 / 2 ^ 52)) := by
  obtain ⟨tf, y, htf, hmax, hy, hat⟩ := driftModel_value ((driftBinary_model ivp f10 x r1 r2 a).1 h)
  obtain ⟨d, hd⟩ := hx _ _ _ _ hy
  have hT : tf ≤ 1 := (hx1 tf htf).2
  obtain ⟨ra, rb, F, ht, hr⟩ := traj_of (riCont_const r1 r2) hT hd i
  have h0 : y 0 i = f10 i := by rw [hd.init]
  have ht' : Traj tf (fun t => y t i) (fun t => d t i) (fun _ => r1) (fun _ => r2) F := by
    refine ⟨ht.cf, ht.cd, continuousOn_const, continuousOn_const, fun t htt => ?_, ht.deq, ht.deriv⟩
    have := hr t htt
    simp only [Option.some.injEq, Prod.mk.injEq] at this
    rw [this.1, this.2]; exact ht.inst t htt
  have hmem := ht'.mem_Ioo hT (by simpa [h0] using hf)
  have htx : t ∈ x := List.mem_of_getElem? hj
  have htI : t ∈ Icc 0 tf := ⟨(hx1 t htx).1, hmax t htx⟩
  have h0I : (0 : ℝ) ∈ Icc 0 tf := ⟨le_rfl, htI.1.trans htI.2⟩
  have hu' : u = y t i := by
    rw [hat, hj] at hu
    rw [← Option.some.inj hu]; exact max_eq_right (hmem t htI).1.le
  obtain ⟨E, hE⟩ := ht'.sign hT
  simp only [h0] at hE
  set δ := (1 - r2) / (2 - r1 - r2) with hδd
  have hsg : ∀ f, sgn f r1 r2 = (2 - r1 - r2) * (f - δ) := by
    intro f; rw [hδd, sgn]; field_simp; ring
  have hE' : ∀ τ ∈ Icc 0 tf, y τ i - δ = (f10 i - δ) * Real.exp (E τ) := by
    intro τ hτ
    have := hE τ hτ
    rw [hsg, hsg, mul_assoc] at this
    exact mul_left_cancel₀ hm this
  have hne : ∀ τ ∈ Icc 0 tf, y τ i - δ ≠ 0 := by
    intro τ hτ
    rw [hE' τ hτ]
    exact mul_ne_zero (sub_ne_zero.2 hδ) (Real.exp_pos _).ne'
  set α := r2 / (1 - r2) with hα
  set β := r1 / (1 - r1) with hβ
  set γ := (1 - r1 * r2) / ((1 - r1) * (1 - r2)) with hγ
  let L : ℝ → ℝ := fun τ => α * Real.log (y τ i) + β * Real.log (1 - y τ i) - γ * Real.log (y τ i - δ) - Real.log (1 - τ + eps)
  have key : ∀ τ ∈ Icc 0 tf, L τ = L 0 := by
    refine constant_of_has_deriv_right_zero ?_ ?_
    · have c := ht'.cf
      refine ((ContinuousOn.add ?_ ?_).sub ?_).sub ?_
      · exact continuousOn_const.mul (c.log fun τ hτ => (hmem τ hτ).1.ne')
      · exact continuousOn_const.mul ((continuousOn_const.sub c).log fun τ hτ => (sub_pos.2 (hmem τ hτ).2).ne')
      · exact continuousOn_const.mul ((c.sub continuousOn_const).log hne)
      · exact ContinuousOn.log (by fun_prop) fun τ hτ => (Traj.w_pos hT hτ).ne'
    · intro τ hτ
      have hτ' : τ ∈ Icc 0 tf := ⟨hτ.1, hτ.2.le⟩
      have f0 := (hmem τ hτ').1.ne'
      have f1 := (sub_pos.2 (hmem τ hτ').2).ne'
      have w0 := (Traj.w_pos hT hτ').ne'
      have dd := ht'.deriv τ hτ
      have w1 : HasDerivWithinAt (fun u : ℝ => 1 - u + eps) (-1) (Ici τ) τ := by
        simpa using ((hasDerivWithinAt_id τ (Ici τ)).const_sub 1).add_const eps
      have := ((((dd.log f0).const_mul α).add (((dd.const_sub 1).log f1).const_mul β)).sub (((dd.sub_const δ).log (hne τ hτ')).const_mul γ)).sub (w1.log w0)
      refine this.congr_deriv ?_
      have hdeq := ht'.d_eq hτ'
      simp only [hsg] at hdeq
      have hden := (inst_den (ht'.inst τ hτ')).1
      have hid := ml_identity (y τ i) r1 r2 h1 h2 hm
      simp only [← hδd, ← hα, ← hβ, ← hγ] at hid
      have hdelta := hne τ hτ'
      rw [hdeq]
      generalize y τ i = f at *
      generalize den f r1 r2 = D at *
      have e1 : α * (f * (1 - f) * ((2 - r1 - r2) * (f - δ)) * D⁻¹ * (1 - τ + eps)⁻¹ / f) = α * ((1 - f) * (f - δ)) * (2 - r1 - r2) * D⁻¹ * (1 - τ + eps)⁻¹ := by
        field_simp
      have e2 : β * (-(f * (1 - f) * ((2 - r1 - r2) * (f - δ)) * D⁻¹ * (1 - τ + eps)⁻¹) / (1 - f)) = -(β * (f * (f - δ)) * (2 - r1 - r2) * D⁻¹ * (1 - τ + eps)⁻¹) := by
        field_simp
      have e3 : γ * (f * (1 - f) * ((2 - r1 - r2) * (f - δ)) * D⁻¹ * (1 - τ + eps)⁻¹ / (f - δ)) = γ * (f * (1 - f)) * (2 - r1 - r2) * D⁻¹ * (1 - τ + eps)⁻¹ := by
        field_simp
      rw [e1, e2, e3]
      have e4 : α * ((1 - f) * (f - δ)) * (2 - r1 - r2) * D⁻¹ * (1 - τ + eps)⁻¹ + -(β * (f * (f - δ)) * (2 - r1 - r2) * D⁻¹ * (1 - τ + eps)⁻¹) -
          γ * (f * (1 - f)) * (2 - r1 - r2) * D⁻¹ * (1 - τ + eps)⁻¹ - -1 / (1 - τ + eps) =
          ((α * ((1 - f) * (f - δ)) - β * (f * (f - δ)) - γ * (f * (1 - f))) * (2 - r1 - r2)) * D⁻¹ * (1 - τ + eps)⁻¹ + (1 - τ + eps)⁻¹ := by
        rw [neg_div, one_div]; ring
      rw [e4, hid, neg_mul, mul_inv_cancel₀ hden]; ring
  have hk := key t htI
  simp only [L, h0, sub_zero] at hk
  have m0 := hf
  have mt := hmem t htI
  have wt := Traj.w_pos hT htI
  have w0 : (0 : ℝ) < 1 + eps := by have := eps_pos'; linarith
  have hr3 : (f10 i - δ) / (y t i - δ) = Real.exp (-E t) := by
    rw [hE' t htI, Real.exp_neg]
    have := sub_ne_zero.2 hδ
    have := (Real.exp_pos (E t)).ne'
    field_simp
  have hlog3 : -E t = Real.log (f10 i - δ) - Real.log (y t i - δ) := by
    rw [← Real.log_div (sub_ne_zero.2 hδ) (hne t htI), hr3, Real.log_exp]
  unfold MeyerLowry
  simp only [← hδd, ← hα, ← hβ, ← hγ, hu']
  show (1 - t + eps) / (1 + eps) = _
  rw [hr3, Real.rpow_def_of_pos (div_pos mt.1 m0.1), Real.rpow_def_of_pos (div_pos (sub_pos.2 mt.2) (sub_pos.2 m0.2)), ← Real.exp_mul, ← Real.exp_add, ← Real.exp_add,
    Real.log_div mt.1.ne' m0.1.ne', Real.log_div (sub_pos.2 mt.2).ne' (sub_pos.2 m0.2).ne', hlog3]
  rw [← Real.exp_log (div_pos wt w0), Real.log_div wt.ne' w0.ne']
  congr 1
  linarith

/-! ### Several monomers -/

theorem append_last {n : ℕ} (f : Fin n → ℝ) : append f (Fin.last n) = 1 - ∑ i, f i := by simp [append]

theorem append_cast {n : ℕ} (f : Fin n → ℝ) (i : Fin n) : append f i.castSucc = f i := by simp [append]

theorem append_sum {n : ℕ} (f : Fin n → ℝ) : ∑ i, append f i = 1 := by
  rw [Fin.sum_univ_castSucc, append_last]
  simp only [append_cast]; ring

/-- The trajectory of all fractions. -/
theorem multi_traj {n : ℕ} {solve : Matrix (Fin (n + 1)) (Fin (n + 1)) ℝ → (Fin (n + 1) → ℝ) → Option (Fin (n + 1) → ℝ)} (hs : IsSolve solve)
    {r : Matrix (Fin (n + 1)) (Fin (n + 1)) ℝ} {T : ℝ} (hT : T ≤ 1) {y0 : Fin n → ℝ} {y d : ℝ → Fin n → ℝ} (hn : 0 < n)
    (h : IsSolution (rhsMulti solve r) T y0 y d) : ∃ F : ℝ → Fin (n + 1) → ℝ,
      (∀ t ∈ Icc 0 T, instMulti solve (some (append (y t))) (some r) none = .ok (some (F t)) ∧ (∀ i j, r i j ≠ 0) ∧
        (∀ i, ∑ k, append (y t) k / r i k ≠ 0) ∧ ∑ i, F t i = 1 ∧ ∀ j, ∑ i, F t i * ((append (y t) j / r i j) / ∑ k, append (y t) k / r i k) = F t j) ∧
      (∀ i, ContinuousOn (fun t => append (y t) i) (Icc 0 T)) ∧ (∀ i, ContinuousOn (fun t => F t i) (Icc 0 T)) ∧
      ∀ i, ∀ t ∈ Ico 0 T, HasDerivWithinAt (fun s => append (y s) i) ((append (y t) i - F t i) / (1 - t + eps)) (Ici t) t := by
  have key : ∀ t ∈ Icc 0 T, ∃ F, instMulti solve (some (append (y t))) (some r) none = .ok (some F) ∧ (∀ i j, r i j ≠ 0) ∧
      (∀ i, ∑ k, append (y t) k / r i k ≠ 0) ∧ ∀ i : Fin n, d t i = (y t i - F i.castSucc) / (1 - t + eps) := by
    intro t ht
    have hc : (∀ i j, r i j ≠ 0) ∧ ∀ i, ∑ k, append (y t) k / r i k ≠ 0 := by
      by_contra hc
      have := h.rhs t ht ⟨0, hn⟩
      rw [rhsMulti, if_neg hc] at this
      cases this
    have hr : ∀ i, rhsMulti solve r t (y t) i = some (d t i) := h.rhs t ht
    simp only [rhsMulti, if_pos hc] at hr
    cases hi : instMulti solve (some (append (y t))) (some r) none with
    | error e => simp only [hi] at hr; cases hr ⟨0, hn⟩
    | ok o =>
      simp only [hi] at hr
      cases o with
      | none => cases hr ⟨0, hn⟩
      | some F =>
        refine ⟨F, rfl, hc.1, hc.2, fun i => ?_⟩
        have := hr i
        simp only [fdiv] at this
        rw [if_neg (Traj.w_pos hT ht).ne'] at this
        exact (Option.some.inj this).symm
  choose! F hF using key
  have hst : ∀ t ∈ Icc 0 T, ∑ i, F t i = 1 ∧ ∀ j, ∑ i, F t i * ((append (y t) j / r i j) / ∑ k, append (y t) k / r i k) = F t j := by
    intro t ht
    obtain ⟨h1, -, h3, -⟩ := hF t ht
    have h4 : solve (compMatrix (transitionsMulti (append (y t)) r)) lastOne = some (F t) := by
      simpa [instMulti] using h1
    have hrow : ∀ i, ∑ j, transitionsMulti (append (y t)) r i j = 1 := by
      intro i
      simp only [transitionsMulti]
      rw [← Finset.sum_div, div_self (h3 i)]
    have h5 := (comp_solution_iff _ hrow _).1 (hs.sound _ _ _ h4)
    exact ⟨h5.2, h5.1⟩
  have hFi : ∀ i : Fin n, ∀ t ∈ Icc 0 T, F t i.castSucc = y t i - (1 - t + eps) * d t i := by
    intro i t ht
    have := (Traj.w_pos hT ht).ne'
    rw [(hF t ht).2.2.2 i]; field_simp; ring
  have hFl : ∀ t ∈ Icc 0 T, F t (Fin.last n) = 1 - ∑ i : Fin n, F t i.castSucc := by
    intro t ht
    have := (hst t ht).1
    rw [Fin.sum_univ_castSucc] at this
    linarith
  have hcF : ∀ i : Fin n, ContinuousOn (fun t => F t i.castSucc) (Icc 0 T) := by
    intro i
    refine ContinuousOn.congr (f := fun t => y t i - (1 - t + eps) * d t i) ?_ fun t ht => hFi i t ht
    have := h.cont i
    have := h.contd i
    fun_prop
  refine ⟨F, fun t ht => ⟨(hF t ht).1, (hF t ht).2.1, (hF t ht).2.2.1, hst t ht⟩, fun i => ?_, fun i => ?_, fun i t ht => ?_⟩
  · refine Fin.lastCases ?_ (fun i => ?_) i
    · simp only [append_last]
      exact continuousOn_const.sub (continuousOn_finsetSum _ fun i _ => h.cont i)
    · simp only [append_cast]; exact h.cont i
  · refine Fin.lastCases ?_ (fun i => hcF i) i
    refine ContinuousOn.congr (f := fun t => 1 - ∑ i : Fin n, F t i.castSucc) ?_ fun t ht => hFl t ht
    exact continuousOn_const.sub (continuousOn_finsetSum _ fun i _ => hcF i)
  · have ht' : t ∈ Icc 0 T := ⟨ht.1, ht.2.le⟩
    refine Fin.lastCases ?_ (fun i => ?_) i
    · simp only [append_last]
      refine ((HasDerivWithinAt.fun_sum fun i _ => h.deriv t ht i).const_sub 1).congr_deriv ?_
      rw [hFl t ht']
      simp only [(hF t ht').2.2.2, ← Finset.sum_div, Finset.sum_sub_distrib]
      ring
    · simp only [append_cast]
      exact (h.deriv t ht i).congr_deriv ((hF t ht').2.2.2 i)

/-- Every fraction keeps its sign. -/
theorem multi_lin {n : ℕ} {solve : Matrix (Fin (n + 1)) (Fin (n + 1)) ℝ → (Fin (n + 1) → ℝ) → Option (Fin (n + 1) → ℝ)} {r : Matrix (Fin (n + 1)) (Fin (n + 1)) ℝ}
    {tf : ℝ} (hT : tf ≤ 1) {y : ℝ → Fin n → ℝ} {F : ℝ → Fin (n + 1) → ℝ}
    (hF : ∀ t ∈ Icc 0 tf, instMulti solve (some (append (y t))) (some r) none = .ok (some (F t)) ∧ (∀ i j, r i j ≠ 0) ∧
        (∀ i, ∑ k, append (y t) k / r i k ≠ 0) ∧ ∑ i, F t i = 1 ∧ ∀ j, ∑ i, F t i * ((append (y t) j / r i j) / ∑ k, append (y t) k / r i k) = F t j)
    (hcg : ∀ i, ContinuousOn (fun t => append (y t) i) (Icc 0 tf)) (hcF : ∀ i, ContinuousOn (fun t => F t i) (Icc 0 tf))
    (hder : ∀ i, ∀ t ∈ Ico 0 tf, HasDerivWithinAt (fun s => append (y s) i) ((append (y t) i - F t i) / (1 - t + eps)) (Ici t) t) (i : Fin (n + 1)) :
    ∃ E : ℝ → ℝ, ∀ t ∈ Icc 0 tf, append (y t) i = append (y 0) i * Real.exp (E t) := by
  refine lin_ode (y := fun t => append (y t) i) (c := fun t => (1 - ∑ l, F t l * ((r l i)⁻¹ * (∑ k, append (y t) k / r l k)⁻¹)) * (1 - t + eps)⁻¹) ?_ (hcg i) ?_
  · refine (continuousOn_const.sub (continuousOn_finsetSum _ fun l _ => (hcF l).mul (continuousOn_const.mul (ContinuousOn.inv₀ ?_ fun t ht => (hF t ht).2.2.1 l)))).mul
      (Traj.cw hT)
    exact continuousOn_finsetSum _ fun k _ => (hcg k).div_const _
  · intro t ht
    refine (hder i t ht).congr_deriv ?_
    have h5 := (hF t ⟨ht.1, ht.2.le⟩).2.2.2.2 i
    have h6 : F t i = (∑ l, F t l * ((r l i)⁻¹ * (∑ k, append (y t) k / r l k)⁻¹)) * append (y t) i := by
      rw [← h5, Finset.sum_mul]
      refine Finset.sum_congr rfl fun l _ => ?_
      rw [div_eq_mul_inv, div_eq_mul_inv]; ring
    rw [h6, div_eq_mul_inv]; ring

/-- Entry of a list of rows. -/
theorem assemble_at {n : ℕ} (x : List ℝ) (y : ℝ → Fin n → ℝ) (j : ℕ) :
    (assemble (fun i => x.map fun t => y t i) x.length)[j]? = x[j]?.map fun t => List.ofFn (append (y t)) := by
  unfold assemble
  rw [List.getElem?_map]
  by_cases hj : j < x.length
  · rw [List.getElem?_range hj, List.getElem?_eq_getElem hj]
    simp [List.getD, hj]
  · have h1 : (List.range x.length)[j]? = none := by simp; omega
    have h2 : x[j]? = none := by simp; omega
    rw [h1, h2]; rfl

theorem driftMulti_value {n : ℕ} {solve : Matrix (Fin (n + 1)) (Fin (n + 1)) ℝ → (Fin (n + 1) → ℝ) → Option (Fin (n + 1) → ℝ)} {ivp : Ivp n}
    {f0 : Fin (n + 1) → ℝ} {x : List ℝ} {r : Matrix (Fin (n + 1)) (Fin (n + 1)) ℝ} {a : Arr} (h : driftMulti solve ivp f0 x r = .value a) :
    ∃ tf y, tf ∈ x ∧ (∀ t ∈ x, t ≤ tf) ∧ ivp (rhsMulti solve r) tf (fun i => f0 i.castSucc) = some y ∧
      ∃ rows : List (List ℝ), a = .mat rows ∧ ∀ j : ℕ, rows[j]? = x[j]?.map fun t => List.ofFn (append (y t)) := by
  unfold driftMulti at h
  rw [dif_pos ⟨rfl, rfl⟩] at h
  simp only [Fin.cast_eq_self] at h
  cases hs : solveIvp ivp (rhsMulti solve fun i j => r i j) (fun i => f0 i.castSucc) x with
  | error e => rw [hs] at h; cases h
  | ok o =>
    rw [hs] at h
    cases o with
    | none => cases h
    | some rows =>
      obtain ⟨tf, y, h1, h2, h3, h4⟩ := solveIvp_ok hs
      refine ⟨tf, y, h1, h2, h3, _, (by simpa using h.symm), fun j => ?_⟩
      rw [h4, assemble_at]

/-- **C107.** `monomer_drift_multi`: the result has one row per conversion and one column per monomer, and every row sums to one — whatever the integrator does. -/
theorem C107_multi_shape {n : ℕ} (solve : Matrix (Fin (n + 1)) (Fin (n + 1)) ℝ → (Fin (n + 1) → ℝ) → Option (Fin (n + 1) → ℝ)) (ivp : Ivp n)
    (f0 : Fin (n + 1) → ℝ) (x : List ℝ) (r : Matrix (Fin (n + 1)) (Fin (n + 1)) ℝ) (a : Arr) (h : driftMulti solve ivp f0 x r = .value a) :
    ∃ rows : List (List ℝ), a = .mat rows ∧ rows.length = x.length ∧ ∀ row ∈ rows, row.length = n + 1 ∧ row.sum = 1 := by
  obtain ⟨tf, y, -, -, -, rows, rfl, hrows⟩ := driftMulti_value h
  have he : rows = x.map fun t => List.ofFn (append (y t)) := by
    apply List.ext_getElem?
    intro j
    rw [hrows, List.getElem?_map]
  refine ⟨rows, rfl, by rw [he, List.length_map], fun row hrow => ?_⟩
  rw [he, List.mem_map] at hrow
  obtain ⟨t, -, rfl⟩ := hrow
  exact ⟨List.length_ofFn, by rw [List.sum_ofFn, append_sum]⟩

/-- **C107.** `monomer_drift_multi` with an exact integrator and linear solver: each column follows the drift equation with the stationary composition of the
propagation chain; fractions that start non-negative, zero or positive stay so; the balance of every monomer holds up to the machine epsilon added to `1 - x`. -/
theorem C107_multi {n : ℕ} (hn : 0 < n) (solve : Matrix (Fin (n + 1)) (Fin (n + 1)) ℝ → (Fin (n + 1) → ℝ) → Option (Fin (n + 1) → ℝ)) (hs : IsSolve solve)
    (ivp : Ivp n) (hx : Exact ivp) (f0 : Fin (n + 1) → ℝ) (hsum : ∑ i, f0 i = 1) (x : List ℝ) (hx1 : ∀ t ∈ x, t ∈ Icc (0 : ℝ) 1)
    (r : Matrix (Fin (n + 1)) (Fin (n + 1)) ℝ) (a : Arr) (h : driftMulti solve ivp f0 x r = .value a) :
    ∃ f F : ℝ → Fin (n + 1) → ℝ, (∀ (i : Fin (n + 1)) j, a.at j i = x[j]?.map fun t => f t i) ∧ f 0 = f0 ∧ ∀ T ∈ x,
      (∀ i, ∀ t ∈ Ico 0 T, HasDerivWithinAt (fun s => f s i) ((f t i - F t i) / (1 - t + 1 / 2 ^ 52)) (Ici t) t) ∧
      ∀ t ∈ Icc 0 T, ∑ i, f t i = 1 ∧ ∑ i, F t i = 1 ∧ (∀ j, ∑ i, F t i * ((f t j / r i j) / ∑ k, f t k / r i k) = F t j) ∧
        (∀ i, (0 ≤ f0 i → 0 ≤ f t i) ∧ (f0 i = 0 → f t i = 0) ∧ (0 < f0 i → 0 < f t i)) ∧
        ∀ i, (1 - t + 1 / 2 ^ 52) * f t i + ∫ u in (0 : ℝ)..t, F u i = (1 + 1 / 2 ^ 52) * f0 i := by
  obtain ⟨tf, y, htf, hmax, hy, rows, rfl, hrows⟩ := driftMulti_value h
  obtain ⟨d, hd⟩ := hx _ _ _ _ hy
  have hT : tf ≤ 1 := (hx1 tf htf).2
  obtain ⟨F, hF, hcg, hcF, hder⟩ := multi_traj hs hT hn hd
  have h0 : append (y 0) = f0 := by
    ext i
    refine Fin.lastCases ?_ (fun i => ?_) i
    · rw [append_last, hd.init, ← hsum, Fin.sum_univ_castSucc]; ring
    · rw [append_cast, hd.init]
  have hlin : ∀ i, ∃ E : ℝ → ℝ, ∀ t ∈ Icc 0 tf, append (y t) i = append (y 0) i * Real.exp (E t) := by
    intro i
    exact multi_lin hT hF hcg hcF hder i
  refine ⟨fun t => append (y t), F, fun i j => ?_, h0, fun T hTx => ⟨fun i t ht => hder i t ⟨ht.1, ht.2.trans_le (hmax T hTx)⟩, fun t htT => ?_⟩⟩
  · simp only [Arr.at, hrows]
    cases x[j]? with
    | none => rfl
    | some t =>
      simp only [Option.map_some, Option.bind_some]
      rw [List.getElem?_ofFn]; simp; omega
  · have htt : t ∈ Icc 0 tf := ⟨htT.1, htT.2.trans (hmax T hTx)⟩
    obtain ⟨-, -, -, h4, h5⟩ := hF t htt
    refine ⟨append_sum _, h4, h5, fun i => ?_, fun i => ?_⟩
    · obtain ⟨E, hE⟩ := hlin i
      have := hE t htt
      rw [h0] at this
      simp only [this]
      exact ⟨fun h => mul_nonneg h (Real.exp_pos _).le, fun h => by rw [h, zero_mul], fun h => mul_pos h (Real.exp_pos _)⟩
    · have key : ∫ u in (0 : ℝ)..t, -F u i = (1 - t + eps) * append (y t) i - (1 - 0 + eps) * append (y 0) i := by
        refine intervalIntegral.integral_eq_sub_of_hasDeriv_right (f := fun u => (1 - u + eps) * append (y u) i) ?_ ?_ ?_
        · rw [uIcc_of_le htt.1]
          have := (hcg i).mono (Icc_subset_Icc_right htt.2)
          fun_prop
        · intro u hu
          rw [min_eq_left htt.1, max_eq_right htt.1] at hu
          have hu' : u ∈ Ico 0 tf := ⟨hu.1.le, hu.2.trans_le htt.2⟩
          have h1 : HasDerivWithinAt (fun u : ℝ => 1 - u + eps) (-1) (Ioi u) u := by
            simpa using ((hasDerivWithinAt_id u (Ioi u)).const_sub 1).add_const eps
          refine (h1.mul ((hder i u hu').mono Ioi_subset_Ici_self)).congr_deriv ?_
          have := (Traj.w_pos hT ⟨hu'.1, hu'.2.le⟩).ne'
          field_simp; ring
        · refine ContinuousOn.intervalIntegrable ?_
          rw [uIcc_of_le htt.1]; exact ((hcF i).mono (Icc_subset_Icc_right htt.2)).neg
      rw [intervalIntegral.integral_neg, h0, sub_zero] at key
      show (1 - t + eps) * append (y t) i + _ = (1 + eps) * f0 i
      linarith

/-! ### Independence of grid and companions -/

theorem Traj.mono {T T' : ℝ} {f d a b F : ℝ → ℝ} (h : Traj T f d a b F) (hT : T' ≤ T) : Traj T' f d a b F :=
  have hs : Icc 0 T' ⊆ Icc 0 T := Icc_subset_Icc_right hT
  ⟨h.cf.mono hs, h.cd.mono hs, h.ca.mono hs, h.cb.mono hs, fun t ht => h.inst t (hs ht), fun t ht => h.deq t (hs ht),
    fun t ht => h.deriv t ⟨ht.1, ht.2.trans_le hT⟩⟩

/-- The trajectory behind a result of the terminal model. -/
theorem binary_traj {n : ℕ} {ivp : Ivp n} (hx : Exact ivp) {r1 r2 : ℝ} {f10 : Fin n → ℝ} {x : List ℝ} (hx1 : ∀ t ∈ x, t ∈ Icc (0 : ℝ) 1) {a : Arr}
    (h : driftBinary ivp f10 x r1 r2 = .value a) (i : Fin n) : ∃ T f d F, T ≤ 1 ∧ (∀ t ∈ x, t ≤ T) ∧ Traj T f d (fun _ => r1) (fun _ => r2) F ∧ f 0 = f10 i ∧
      ∀ j, a.at i j = x[j]?.map fun t => max 0 (f t) := by
  obtain ⟨tf, y, htf, hmax, hy, hat⟩ := driftModel_value ((driftBinary_model ivp f10 x r1 r2 a).1 h)
  obtain ⟨d, hd⟩ := hx _ _ _ _ hy
  have hT : tf ≤ 1 := (hx1 tf htf).2
  obtain ⟨ra, rb, F, ht, hr⟩ := traj_of (riCont_const r1 r2) hT hd i
  refine ⟨tf, fun t => y t i, fun t => d t i, F, hT, hmax, ⟨ht.cf, ht.cd, continuousOn_const, continuousOn_const, fun t htt => ?_, ht.deq, ht.deriv⟩, by simp [hd.init],
    fun j => hat i j⟩
  have := hr t htt
  simp only [Option.some.injEq, Prod.mk.injEq] at this
  rw [this.1, this.2]; exact ht.inst t htt

/-- **C107.** Terminal model, exact integrators: the value at a conversion depends only on the initial composition, not on the other conversions or initial
compositions in the call, nor on whether `monomer_drift_binary` or the method `drift` is used. -/
theorem C107_unique {n m : ℕ} (ivp : Ivp n) (hx : Exact ivp) (ivp' : Ivp m) (hx' : Exact ivp') (r1 r2 : ℝ) (f10 : Fin n → ℝ) (g10 : Fin m → ℝ)
    (x x' : List ℝ) (hx1 : ∀ t ∈ x, t ∈ Icc (0 : ℝ) 1) (hx1' : ∀ t ∈ x', t ∈ Icc (0 : ℝ) 1) (a b : Arr) (h : driftBinary ivp f10 x r1 r2 = .value a)
    (h' : driftBinary ivp' g10 x' r1 r2 = .value b ∨ driftModel ivp' (fun _ => some (r1, r2)) g10 x' = .value b) (i : Fin n) (i' : Fin m)
    (hi : f10 i = g10 i') (j k : ℕ) (t : ℝ) (hj : x[j]? = some t) (hk : x'[k]? = some t) : a.at i j = b.at i' k := by
  have h' : driftBinary ivp' g10 x' r1 r2 = .value b := by
    rcases h' with h' | h'
    · exact h'
    · exact (driftBinary_model ivp' g10 x' r1 r2 b).2 h'
  obtain ⟨T, f, d, F, hT, hm, ht, h0, hat⟩ := binary_traj hx hx1 h i
  obtain ⟨T', g, e, G, hT', hm', ht', h0', hat'⟩ := binary_traj hx' hx1' h' i'
  have htx := List.mem_of_getElem? hj
  have := (ht.mono (hm t htx)).unique (ht'.mono (hm' t (List.mem_of_getElem? hk))) (hx1 t htx).2 (by rw [h0, h0', hi]) t ⟨(hx1 t htx).1, le_rfl⟩
  rw [hat, hat', hj, hk]
  simp [this]

/-- **C107.** For two monomers `monomer_drift_multi` gives what `monomer_drift_binary` gives. -/
theorem C107_multi_binary (solve : Matrix (Fin 2) (Fin 2) ℝ → (Fin 2 → ℝ) → Option (Fin 2 → ℝ)) (hs : IsSolve solve) (ivp ivp' : Ivp 1) (hx : Exact ivp)
    (hx' : Exact ivp') (r1 r2 f : ℝ) (h1 : 0 < r1) (h2 : 0 < r2) (hf : f ∈ Icc (0 : ℝ) 1) (x : List ℝ) (hx1 : ∀ t ∈ x, t ∈ Icc (0 : ℝ) 1) (a b : Arr)
    (h : driftMulti solve ivp ![f, 1 - f] x !![1, r1; r2, 1] = .value a) (h' : driftBinary ivp' (fun _ => f) x r1 r2 = .value b) (j : ℕ) :
    a.at j 0 = b.at 0 j ∧ a.at j 1 = (b.at 0 j).map fun v => 1 - v := by
  obtain ⟨T, g, e, G, hT, hm, ht, h0, hat⟩ := binary_traj hx' hx1 h' 0
  obtain ⟨tf, y, htf, hmax, hy, rows, rfl, hrows⟩ := driftMulti_value h
  obtain ⟨d, hd⟩ := hx _ _ _ _ hy
  have hTf : tf ≤ 1 := (hx1 tf htf).2
  obtain ⟨F, hF, hcg, hcF, hder⟩ := multi_traj hs hTf Nat.one_pos hd
  have hy0 : y 0 0 = f := by rw [hd.init]; rfl
  have ap0 : ∀ t, append (y t) 0 = y t 0 := fun t => append_cast (y t) 0
  have ap1 : ∀ t, append (y t) 1 = 1 - y t 0 := fun t => by
    have := append_last (y t)
    simpa using this
  have apv : ∀ t, append (y t) = ![y t 0, 1 - y t 0] := by
    intro t; ext i
    fin_cases i
    · exact ap0 t
    · exact ap1 t
  have hlin : ∀ i, ∃ E : ℝ → ℝ, ∀ t ∈ Icc 0 tf, append (y t) i = append (y 0) i * Real.exp (E t) :=
    fun i => multi_lin hTf hF hcg hcF hder i
  have hmem : ∀ t ∈ Icc 0 tf, y t 0 ∈ Icc (0 : ℝ) 1 := by
    intro t htt
    obtain ⟨E, hE⟩ := hlin 0
    obtain ⟨E', hE'⟩ := hlin 1
    have q0 := hE t htt
    have q1 := hE' t htt
    rw [ap0, ap0, hy0] at q0
    rw [ap1, ap1, hy0] at q1
    refine ⟨by rw [q0]; exact mul_nonneg hf.1 (Real.exp_pos _).le, ?_⟩
    have : 0 ≤ 1 - y t 0 := by rw [q1]; exact mul_nonneg (sub_nonneg.2 hf.2) (Real.exp_pos _).le
    linarith
  have htr : Traj tf (fun t => y t 0) (fun t => d t 0) (fun _ => r1) (fun _ => r2) (fun t => F t 0) := by
    have hin : ∀ t ∈ Icc 0 tf, instBinary (y t 0) r1 r2 = some (F t 0) := by
      intro t htt
      obtain ⟨F', e1, e2, -⟩ := C33_binary solve hs (y t 0) r1 r2 (hmem t htt).1 (hmem t htt).2 h1 h2
      have e3 := (hF t htt).1
      rw [apv, e1] at e3
      have : F' = F t := by simpa using e3
      rw [e2, this]
    refine ⟨hd.cont 0, hd.contd 0, continuousOn_const, continuousOn_const, hin, fun t htt => ?_, fun t htt => hd.deriv t htt 0⟩
    have e4 := hd.rhs t htt 0
    have hc : (∀ i j, (!![1, r1; r2, 1] : Matrix (Fin 2) (Fin 2) ℝ) i j ≠ 0) ∧ ∀ i, ∑ k, append (y t) k / (!![1, r1; r2, 1] : Matrix (Fin 2) (Fin 2) ℝ) i k ≠ 0 :=
      ⟨(hF t htt).2.1, (hF t htt).2.2.1⟩
    rw [rhsMulti, if_pos hc, (hF t htt).1] at e4
    simp only [fdiv] at e4
    rw [if_neg (Traj.w_pos hTf htt).ne'] at e4
    exact (Option.some.inj e4).symm
  have hat' := hat j
  rw [Fin.val_zero] at hat'
  rw [hat']
  simp only [Arr.at, hrows]
  cases hj : x[j]? with
  | none => simp
  | some t =>
    have htx := List.mem_of_getElem? hj
    have hmt := hmem t ⟨(hx1 t htx).1, hmax t htx⟩
    have heq := (htr.mono (hmax t htx)).unique (ht.mono (hm t htx)) (hx1 t htx).2 (by rw [h0]; exact hy0) t ⟨(hx1 t htx).1, le_rfl⟩
    rw [heq] at hmt
    simp only [Option.map_some, Option.bind_some, max_eq_right hmt.1]
    rw [List.getElem?_ofFn, List.getElem?_ofFn]
    simp only [Nat.zero_lt_succ, dif_pos, Nat.one_lt_ofNat]
    refine ⟨?_, ?_⟩
    · have := ap0 t
      simp only [heq] at this
      exact congrArg some this
    · have := ap1 t
      simp only [heq] at this
      exact congrArg some this

/-! ### Errors and shapes -/

theorem solveIvp_nonneg {n : ℕ} (ivp : Ivp n) (rhs : ℝ → (Fin n → ℝ) → Fin n → Option ℝ) (y0 : Fin n → ℝ) (x : List ℝ) (h0 : ∀ t ∈ x, 0 ≤ t)
    (hp : ∃ t ∈ x, 0 < t) : ∃ tf ∈ x, (∀ t ∈ x, t ≤ tf) ∧ (x.Pairwise (· < ·) →
      solveIvp ivp rhs y0 x = .ok ((ivp rhs tf y0).map fun y i => x.map fun t => y t i)) ∧
      (¬ x.Pairwise (· < ·) → solveIvp ivp rhs y0 x = .error .ValueError) := by
  obtain ⟨p, hpx, hp⟩ := hp
  cases hm : x.max? with
  | none => rw [List.max?_eq_none_iff.1 hm] at hpx; cases hpx
  | some tf =>
    obtain ⟨h1, h2⟩ := List.max?_eq_some_iff.1 hm
    have htf : 0 < tf := hp.trans_le (h2 p hpx)
    refine ⟨tf, h1, h2, fun h => ?_, fun h => ?_⟩
    · simp only [solveIvp, hm]
      rw [if_pos]
      refine ⟨fun t ht => ⟨?_, ?_⟩, fun _ => h, fun hc => absurd hc (not_lt.2 htf.le)⟩
      · rw [min_eq_left htf.le]; exact h0 t ht
      · rw [max_eq_right htf.le]; exact h2 t ht
    · simp only [solveIvp, hm]
      rw [if_neg]
      rintro ⟨-, hc, -⟩
      exact h (hc htf)

/-- **C107.** Conversions that are non-negative, not all zero: `ValueError` exactly if they are not strictly increasing; otherwise the outcome is that of the
integrator, whose failure is `ODESolverError` for the functions and an array of `nan` for the method. An empty list of conversions is a `ValueError`, a matrix `r`
of the wrong shape a `ShapeError`. -/
theorem C107_errors {n k : ℕ} (ivp : Ivp n) (ri : ℝ → Option (ℝ × ℝ)) (r1 r2 : ℝ) (f10 : Fin n → ℝ) (f0 : Fin (n + 1) → ℝ)
    (solve : Matrix (Fin (n + 1)) (Fin (n + 1)) ℝ → (Fin (n + 1) → ℝ) → Option (Fin (n + 1) → ℝ)) (r : Matrix (Fin (n + 1)) (Fin (n + 1)) ℝ) :
    (∀ x : List ℝ, (∀ t ∈ x, 0 ≤ t) → (∃ t ∈ x, 0 < t) →
      (¬ x.Pairwise (· < ·) → driftBinary ivp f10 x r1 r2 = .raised .ValueError ∧ driftModel ivp ri f10 x = .raised .ValueError ∧
        driftMulti solve ivp f0 x r = .raised .ValueError) ∧
      (x.Pairwise (· < ·) → ((∃ a, driftBinary ivp f10 x r1 r2 = .value a) ∨ driftBinary ivp f10 x r1 r2 = .odeError) ∧
        ((∃ a, driftModel ivp ri f10 x = .value a) ∨ driftModel ivp ri f10 x = .nan x.length) ∧
        ((∃ a, driftMulti solve ivp f0 x r = .value a) ∨ driftMulti solve ivp f0 x r = .odeError) ∧
        ((∀ rhs T y0, (ivp rhs T y0).isSome) → (∃ a, driftBinary ivp f10 x r1 r2 = .value a) ∧ (∃ a, driftModel ivp ri f10 x = .value a) ∧
          ∃ a, driftMulti solve ivp f0 x r = .value a))) ∧
    driftBinary ivp f10 [] r1 r2 = .raised .ValueError ∧ driftModel ivp ri f10 [] = .raised .ValueError ∧ driftMulti solve ivp f0 [] r = .raised .ValueError ∧
    ∀ (x : List ℝ) (r' : Matrix (Fin k) (Fin k) ℝ), k ≠ n + 1 → driftMulti solve ivp f0 x r' = .raised .ShapeError := by
  refine ⟨fun x h0 hp => ⟨fun hx => ?_, fun hx => ?_⟩, rfl, rfl, ?_, fun x r' hk => ?_⟩
  · obtain ⟨-, -, -, -, e1⟩ := solveIvp_nonneg ivp (rhsBinary r1 r2) f10 x h0 hp
    obtain ⟨-, -, -, -, e2⟩ := solveIvp_nonneg ivp (rhsModel ri) f10 x h0 hp
    obtain ⟨-, -, -, -, e3⟩ := solveIvp_nonneg ivp (rhsMulti solve fun i j => r i j) (fun i => f0 i.castSucc) x h0 hp
    refine ⟨by rw [driftBinary, e1 hx], by rw [driftModel, e2 hx], ?_⟩
    rw [driftMulti, dif_pos ⟨rfl, rfl⟩]
    simp only [Fin.cast_eq_self, e3 hx]
  · obtain ⟨t1, -, -, e1, -⟩ := solveIvp_nonneg ivp (rhsBinary r1 r2) f10 x h0 hp
    obtain ⟨t2, -, -, e2, -⟩ := solveIvp_nonneg ivp (rhsModel ri) f10 x h0 hp
    obtain ⟨t3, -, -, e3, -⟩ := solveIvp_nonneg ivp (rhsMulti solve fun i j => r i j) (fun i => f0 i.castSucc) x h0 hp
    have m3 : ∀ o, driftMulti solve ivp f0 x r = o ↔ (match (ivp (rhsMulti solve fun i j => r i j) t3 fun i => f0 i.castSucc) with
        | none => Out.odeError | some y => .value (.mat (assemble (fun i => x.map fun t => y t i) x.length))) = o := by
      intro o
      rw [driftMulti, dif_pos ⟨rfl, rfl⟩]
      simp only [Fin.cast_eq_self, e3 hx]
      cases ivp (rhsMulti solve fun i j => r i j) t3 fun i => f0 i.castSucc <;> rfl
    simp only [m3]
    refine ⟨?_, ?_, ?_, fun hall => ⟨?_, ?_, ?_⟩⟩
    · rw [driftBinary, e1 hx]
      cases ivp (rhsBinary r1 r2) t1 f10 with
      | none => exact Or.inr rfl
      | some y => exact Or.inl ⟨_, rfl⟩
    · rw [driftModel, e2 hx]
      cases ivp (rhsModel ri) t2 f10 with
      | none => exact Or.inr rfl
      | some y => exact Or.inl ⟨_, rfl⟩
    · cases ivp (rhsMulti solve fun i j => r i j) t3 fun i => f0 i.castSucc with
      | none => exact Or.inr rfl
      | some y => exact Or.inl ⟨_, rfl⟩
    · obtain ⟨y, hy⟩ := Option.isSome_iff_exists.1 (hall (rhsBinary r1 r2) t1 f10)
      rw [driftBinary, e1 hx, hy]; exact ⟨_, rfl⟩
    · obtain ⟨y, hy⟩ := Option.isSome_iff_exists.1 (hall (rhsModel ri) t2 f10)
      rw [driftModel, e2 hx, hy]; exact ⟨_, rfl⟩
    · obtain ⟨y, hy⟩ := Option.isSome_iff_exists.1 (hall (rhsMulti solve fun i j => r i j) t3 fun i => f0 i.castSucc)
      rw [hy]; exact ⟨_, rfl⟩
  · rw [driftMulti, dif_pos ⟨rfl, rfl⟩]; rfl
  · rw [driftMulti, dif_neg fun h => hk h.1]

/-- **C107.** Shape of the binary result: one row per initial composition, one column per conversion; a single row is returned as a vector. All entries are
non-negative whatever the integrator does. -/
theorem C107_shape {n : ℕ} (ivp : Ivp n) (f10 : Fin n → ℝ) (x : List ℝ) (r1 r2 : ℝ) (a : Arr) (h : driftBinary ivp f10 x r1 r2 = .value a) :
    (n = 1 → ∃ v, a = .vec v ∧ v.length = x.length ∧ ∀ e ∈ v, 0 ≤ e) ∧
      (n ≠ 1 → ∃ m, a = .mat m ∧ m.length = n ∧ ∀ row ∈ m, row.length = x.length ∧ ∀ e ∈ row, 0 ≤ e) := by
  unfold driftBinary at h
  cases hs : solveIvp ivp (rhsBinary r1 r2) f10 x with
  | error e => rw [hs] at h; cases h
  | ok o =>
    rw [hs] at h
    cases o with
    | none => cases h
    | some rows =>
      obtain ⟨tf, y, -, -, -, h4⟩ := solveIvp_ok hs
      have ha : squeeze rows = a := by simpa using h
      subst ha
      have hlen : (List.ofFn fun i => (rows i).map (max 0)).length = n := List.length_ofFn
      have hrow : ∀ row ∈ List.ofFn fun i => (rows i).map (max 0), row.length = x.length ∧ ∀ e ∈ row, 0 ≤ e := by
        intro row hrow
        obtain ⟨i, rfl⟩ := (List.mem_ofFn' _ _).1 hrow
        refine ⟨by simp [h4], fun e he => ?_⟩
        obtain ⟨u, -, rfl⟩ := List.mem_map.1 he
        exact le_max_left _ _
      unfold squeeze
      split
      · rename_i v hv
        rw [hv] at hlen hrow
        refine ⟨fun _ => ⟨v, rfl, hrow v (by simp)⟩, fun hn => absurd ?_ hn⟩
        simpa using hlen.symm
      · rename_i hm
        refine ⟨fun hn => ?_, fun _ => ⟨_, rfl, hlen, hrow⟩⟩
        subst hn
        exact absurd (by simp) (hm ((rows 0).map (max 0)))

/-- **C107**, false of the code: the result is documented as `(M, N)`, conversions by compositions; it is `(N, M)`. -/
theorem C107_shape_false : ∃ (ivp : Ivp 2) (rows : List (List ℝ)), driftBinary ivp ![1 / 5, 4 / 5] [1 / 10, 1 / 2, 9 / 10] (4 / 25) (7 / 10) = .value (.mat rows) ∧
    rows.length = 2 ∧ (∀ row ∈ rows, row.length = 3) := by
  have hx : [(1 : ℝ) / 10, 1 / 2, 9 / 10].Pairwise (· < ·) := by simp; norm_num
  obtain ⟨a, ha⟩ := (((C107_errors (k := 0) (fun _ _ y0 => some fun _ => y0) (fun _ => none) (4 / 25) (7 / 10) ![1 / 5, 4 / 5] 0 (fun _ _ => none) 0).1 [1 / 10, 1 / 2, 9 / 10]
    (by intro t ht; fin_cases ht <;> norm_num) ⟨1 / 2, by simp, by norm_num⟩).2 hx).2.2.2 (fun _ _ _ => rfl) |>.1
  obtain ⟨m, rfl, h1, h2⟩ := (C107_shape _ _ _ _ _ a ha).2 (by norm_num)
  exact ⟨_, m, ha, h1, fun row hrow => (h2 row hrow).1⟩

/-- **C107**, false of the code: conversions are documented as any vector; a decreasing or repeated one is refused. -/
theorem C107_unsorted_false {n : ℕ} (ivp : Ivp n) (f10 : Fin n → ℝ) (r1 r2 : ℝ) :
    driftBinary ivp f10 [1 / 2, 1 / 10] r1 r2 = .raised .ValueError ∧ driftBinary ivp f10 [1 / 2, 1 / 2] r1 r2 = .raised .ValueError := by
  have h := fun x => (C107_errors (k := 0) ivp (fun _ => none) r1 r2 f10 0 (fun _ _ => none) 0).1 x
  refine ⟨((h _ ?_ ⟨1 / 2, by simp, by norm_num⟩).1 (by simp; norm_num)).1, ((h _ ?_ ⟨1 / 2, by simp, by norm_num⟩).1 (by simp)).1⟩
  · intro t ht; fin_cases ht <;> norm_num
  · intro t ht; fin_cases ht <;> norm_num

/-! ### Exact integrator -/

open Classical in
/-- An integrator that returns a solution whenever there is one. -/
noncomputable def bestIvp (n : ℕ) : Ivp n := fun rhs T y0 => if h : ∃ y d, IsSolution rhs T y0 y d then some h.choose else none

theorem bestIvp_exact (n : ℕ) : Exact (bestIvp n) := by
  intro rhs T y0 y h
  unfold bestIvp at h
  split_ifs at h with hex
  have := Option.some.inj h
  subst this
  exact hex.choose_spec

theorem bestIvp_some {n : ℕ} {rhs : ℝ → (Fin n → ℝ) → Fin n → Option ℝ} {T : ℝ} {y0 : Fin n → ℝ} {y d : ℝ → Fin n → ℝ} (h : IsSolution rhs T y0 y d) :
    ∃ z, bestIvp n rhs T y0 = some z := ⟨_, dif_pos ⟨y, d, h⟩⟩

/-- Alternating copolymerization: the explicit solution. -/
theorem alternating_solution : IsSolution (rhsBinary 0 0) (1 / 2) (fun _ : Fin 1 => 3 / 5) (fun t _ => 1 / 2 + 1 / 10 * (1 + eps) / (1 - t + eps))
    (fun t _ => 1 / 10 * (1 + eps) / (1 - t + eps) ^ 2) := by
  have he := eps_pos'
  have hw : ∀ t ∈ Icc (0 : ℝ) (1 / 2), 0 < 1 - t + eps := fun t ht => by linarith [ht.2]
  refine ⟨?_, fun i => ?_, fun i => ?_, fun t ht i => ?_, fun t ht i => ?_⟩
  · ext i
    have : (1 : ℝ) - 0 + eps ≠ 0 := by linarith
    have h2 : (1 : ℝ) + eps ≠ 0 := by linarith
    rw [sub_zero]
    field_simp; norm_num
  · exact continuousOn_const.add (continuousOn_const.div (by fun_prop) fun t ht => (hw t ht).ne')
  · exact continuousOn_const.div (by fun_prop) fun t ht => (pow_pos (hw t ht) 2).ne'
  · have h1 := hw t ht
    have h4 : 1 / 10 * (1 + eps) / (1 - t + eps) ≤ 1 / 5 := by
      rw [div_le_iff₀ h1]; linarith [ht.2]
    have h5 : 0 < 1 / 10 * (1 + eps) / (1 - t + eps) := by positivity
    simp only [rhsBinary, df1dx, instBinary]
    generalize hq : 1 / 10 * (1 + eps) / (1 - t + eps) = q at *
    have h6 : (0 : ℝ) * (1 / 2 + q) ^ 2 + 2 * (1 / 2 + q) * (1 - (1 / 2 + q)) + 0 * (1 - (1 / 2 + q)) ^ 2 ≠ 0 := by
      have : (0 : ℝ) < 2 * (1 / 2 + q) * (1 - (1 / 2 + q)) := by
        have : 0 < 1 - (1 / 2 + q) := by linarith
        positivity
      linarith
    simp only [fdiv]
    rw [if_neg h6]
    simp only
    rw [if_neg h1.ne']
    have h7 : (0 * (1 / 2 + q) ^ 2 + (1 / 2 + q) * (1 - (1 / 2 + q))) / (0 * (1 / 2 + q) ^ 2 + 2 * (1 / 2 + q) * (1 - (1 / 2 + q)) + 0 * (1 - (1 / 2 + q)) ^ 2) = 1 / 2 := by
      rw [div_eq_iff h6]; ring
    rw [h7, add_sub_cancel_left, ← hq]
    congr 1
    field_simp
  · have h1 : HasDerivWithinAt (fun u : ℝ => 1 - u + eps) (-1) (Ici t) t := by
      simpa using ((hasDerivWithinAt_id t (Ici t)).const_sub 1).add_const eps
    have h2 := ((hasDerivWithinAt_const t (Ici t) (1 / 10 * (1 + eps : ℝ))).div h1 (hw t ⟨ht.1, ht.2.le⟩).ne').const_add (1 / 2)
    refine h2.congr_deriv ?_
    ring

theorem alternating_value : ∃ a, driftBinary (bestIvp 1) (fun _ => 3 / 5) [1 / 4, 1 / 2] 0 0 = .value a := by
  obtain ⟨z, hz⟩ := bestIvp_some alternating_solution
  obtain ⟨tf, h1, h2, h3, -⟩ := solveIvp_nonneg (bestIvp 1) (rhsBinary 0 0) (fun _ => 3 / 5) [1 / 4, 1 / 2] (by intro t ht; fin_cases ht <;> norm_num)
    ⟨1 / 2, by simp, by norm_num⟩
  have : tf = 1 / 2 := by
    have := h2 (1 / 2) (by simp)
    fin_cases h1
    · norm_num at this
    · rfl
  subst this
  rw [driftBinary, h3 (by simp; norm_num), hz]
  exact ⟨_, rfl⟩

/-- **C107**, false of the code: the last initial fraction given to `monomer_drift_multi` is not used, so the initial condition need not hold. -/
theorem C107_multi_last_false (solve : Matrix (Fin 2) (Fin 2) ℝ → (Fin 2 → ℝ) → Option (Fin 2 → ℝ)) (hs : IsSolve solve) :
    ∃ a, driftMulti solve (bestIvp 1) ![1 / 2, 1 / 4] [0] !![1, 1; 1, 1] = .value a ∧ a.at 0 1 = some (1 / 2) := by
  have hsol : IsSolution (rhsMulti solve !![1, 1; 1, 1]) 0 (fun i : Fin 1 => (![1 / 2, 1 / 4] : Fin 2 → ℝ) i.castSucc) (fun _ _ => 1 / 2) (fun _ _ => 0) := by
    refine ⟨?_, fun _ => continuousOn_const, fun _ => continuousOn_const, fun t ht i => ?_, fun t ht => absurd (ht.1.trans_lt ht.2) (lt_irrefl _)⟩
    · ext i; fin_cases i; rfl
    · have hap : append (fun _ : Fin 1 => (1 : ℝ) / 2) = ![1 / 2, 1 - 1 / 2] := by
        ext i
        fin_cases i
        · exact append_cast (fun _ : Fin 1 => (1 : ℝ) / 2) 0
        · have := append_last (fun _ : Fin 1 => (1 : ℝ) / 2)
          simpa using this
      obtain ⟨F, e1, e2, -⟩ := C33_binary solve hs (1 / 2 : ℝ) 1 1 (by norm_num) (by norm_num) one_pos one_pos
      have hF : F 0 = 1 / 2 := by
        have := C28_ideal (1 / 2 : ℝ)
        rw [e2] at this
        exact Option.some.inj this
      simp only [rhsMulti]
      rw [if_pos]
      · simp only [hap, e1]
        have hi : i.castSucc = 0 := by fin_cases i; rfl
        rw [hi, hF, sub_self, fdiv, if_neg (Traj.w_pos zero_le_one ht).ne', zero_div]
      · rw [hap]
        refine ⟨fun i j => by fin_cases i <;> fin_cases j <;> simp, fun i => ?_⟩
        fin_cases i <;> simp [Fin.sum_univ_two]
  obtain ⟨z, hz⟩ := bestIvp_some hsol
  have he : EvalOk 0 [0] := ⟨by simp, fun h => absurd h (lt_irrefl _), fun h => absurd h (lt_irrefl _)⟩
  have hv : ∃ a, driftMulti solve (bestIvp 1) ![1 / 2, 1 / 4] [0] !![1, 1; 1, 1] = .value a := by
    rw [driftMulti, dif_pos ⟨rfl, rfl⟩]
    simp only [Fin.cast_eq_self, solveIvp]
    have : [(0 : ℝ)].max? = some 0 := rfl
    rw [this]
    simp only [if_pos he]
    have hr : (rhsMulti solve fun i j => (!![1, 1; 1, 1] : Matrix (Fin 2) (Fin 2) ℝ) i j) = rhsMulti solve !![1, 1; 1, 1] := rfl
    rw [hr, hz]
    exact ⟨_, rfl⟩
  obtain ⟨a, ha⟩ := hv
  refine ⟨a, ha, ?_⟩
  obtain ⟨tf, y, htf, -, hy, rows, rfl, hrows⟩ := driftMulti_value ha
  have htf0 : tf = 0 := by simpa using htf
  subst htf0
  obtain ⟨d, hd⟩ := bestIvp_exact 1 _ _ _ _ hy
  have h0 : y 0 0 = 1 / 2 := by rw [hd.init]; rfl
  simp only [Arr.at, hrows]
  have hl := append_last (y 0)
  rw [Fin.sum_univ_one, h0] at hl
  show (List.ofFn (append (y 0)))[1]? = _
  rw [List.getElem?_ofFn, dif_pos (by norm_num)]
  refine congrArg some (Eq.trans ?_ (hl.trans (by norm_num)))
  rfl

/-- **C107**, false of the code: only negative values are clipped. An integrator within its absolute tolerance `1e-4` of the solution can give a fraction above one. -/
theorem C107_above_one_false : ∃ ivp : Ivp 1, (∀ rhs T y0 z, ivp rhs T y0 = some z → ∃ y d, IsSolution rhs T y0 y d ∧ ∀ t i, |z t i - y t i| ≤ 1 / 10 ^ 4) ∧
    ∃ a u, driftBinary ivp (fun _ => 1) [1 / 2] (1 / 2) (1 / 2) = .value a ∧ a.at 0 0 = some u ∧ 1 < u := by
  have hsol : IsSolution (rhsBinary (1 / 2) (1 / 2)) (1 / 2) (fun _ : Fin 1 => 1) (fun _ _ => 1) (fun _ _ => 0) := by
    refine ⟨rfl, fun _ => continuousOn_const, fun _ => continuousOn_const, fun t ht i => ?_, fun t ht i => hasDerivWithinAt_const _ _ _⟩
    have hw := (Traj.w_pos (T := 1 / 2) (by norm_num) ht).ne'
    simp only [rhsBinary, df1dx, instBinary, fdiv]
    rw [if_neg (by norm_num)]
    simp only
    rw [if_neg hw]
    norm_num
  obtain ⟨z, hz⟩ := bestIvp_some hsol
  obtain ⟨d, hd⟩ := bestIvp_exact 1 _ _ _ _ hz
  refine ⟨fun rhs T y0 => (bestIvp 1 rhs T y0).map fun y t i => y t i + 1 / 20000, fun rhs T y0 w hw => ?_, ?_⟩
  · obtain ⟨y, hy, rfl⟩ := Option.map_eq_some_iff.1 hw
    obtain ⟨d, hd⟩ := bestIvp_exact 1 _ _ _ _ hy
    refine ⟨y, d, hd, fun t i => ?_⟩
    rw [add_sub_cancel_left]; norm_num
  · have htr : z (1 / 2) 0 = 1 := by
      have h1 : IsSolution (rhsModel fun _ => some (1 / 2, 1 / 2)) (1 / 2) (fun _ : Fin 1 => 1) z d := by
        have : (rhsBinary (1 / 2) (1 / 2) : ℝ → (Fin 1 → ℝ) → Fin 1 → Option ℝ) = rhsModel fun _ => some (1 / 2, 1 / 2) := by
          funext x f i
          simp only [rhsBinary, rhsModel, df1dx]
          cases instBinary (f i) (1 / 2) (1 / 2) with
          | none => rfl
          | some F => simp [fdiv]
        rw [← this]; exact hd
      obtain ⟨ra, rb, F, ht, -⟩ := traj_of (riCont_const (1 / 2) (1 / 2)) (by norm_num) h1 0
      obtain ⟨E, hE⟩ := ht.high (by norm_num)
      have h2 := hE (1 / 2) (by norm_num)
      have h3 : z 0 0 = 1 := by rw [hd.init]
      simp only [h3, sub_self, zero_mul] at h2
      linarith
    have he : EvalOk (1 / 2) [1 / 2] := ⟨by simp, fun _ => by simp, fun h => by norm_num at h⟩
    refine ⟨squeeze fun i => [1 / 2].map fun t => z t i + 1 / 20000, max 0 (z (1 / 2) 0 + 1 / 20000), ?_, ?_, ?_⟩
    · rw [driftBinary, solveIvp]
      have : [(1 / 2 : ℝ)].max? = some (1 / 2) := rfl
      rw [this]
      simp only [if_pos he, hz, Option.map_some]
    · exact squeeze_at _ (0 : Fin 1) 0
    · rw [htr]; norm_num

-- non-vacuity: exact integrator, drift away from the azeotrope at 1/2, Meyer-Lowry
example : ∃ a u v, driftBinary (bestIvp 1) (fun _ => 3 / 5) [1 / 4, 1 / 2] 0 0 = .value a ∧ a.at 0 0 = some u ∧ a.at 0 1 = some v ∧ u < v ∧
    MeyerLowry 0 0 (3 / 5) v ((1 - 1 / 2 + 1 / 2 ^ 52) / (1 + 1 / 2 ^ 52)) := by
  obtain ⟨a, ha⟩ := alternating_value
  have hx1 : ∀ t ∈ [(1 : ℝ) / 4, 1 / 2], t ∈ Icc (0 : ℝ) 1 := by intro t ht; fin_cases ht <;> norm_num
  obtain ⟨f, F, hat, -, -⟩ := C107_trajectory (bestIvp 1) (bestIvp_exact 1) _ (riCont_const 0 0) (fun _ => 3 / 5) (fun _ => by norm_num) _ hx1 a
    ((driftBinary_model _ _ _ _ _ _).1 ha) 0
  have h0 := hat 0
  have h1 := hat 1
  simp only [Fin.val_zero, List.getElem?_cons_zero, List.getElem?_cons_succ, Option.map_some] at h0 h1
  refine ⟨a, _, _, ha, h0, h1, ?_, ?_⟩
  · refine ((C107_direction (bestIvp 1) (bestIvp_exact 1) 0 0 le_rfl le_rfl (fun _ => 3 / 5) 0 (by norm_num) _ hx1 a ha 0 1 (1 / 4) (1 / 2) _ _ rfl rfl (by norm_num) h0 h1).2.1 ?_).1
    norm_num [mayoLewis]
  · exact C107_meyer_lowry (bestIvp 1) (bestIvp_exact 1) 0 0 (by norm_num) (by norm_num) (by norm_num) (fun _ => 3 / 5) 0 (by norm_num) (by norm_num) _ hx1 a ha 1 (1 / 2) _ rfl h1

open Classical in
/-- An exact linear solver exists. -/
theorem exists_solve (n : ℕ) : ∃ solve : Matrix (Fin n) (Fin n) ℝ → (Fin n → ℝ) → Option (Fin n → ℝ), IsSolve solve := by
  refine ⟨fun A b => if A.det = 0 then none else some (A⁻¹.mulVec b), fun A b x h => ?_, fun A b h => ⟨_, if_neg h⟩, fun A b h => if_pos h⟩
  split_ifs at h with hd
  rw [← Option.some.inj h, Matrix.mulVec_mulVec, Matrix.mul_nonsing_inv A (isUnit_iff_ne_zero.mpr hd), Matrix.one_mulVec]

example : ∃ solve, IsSolve solve ∧ ∃ a, driftMulti solve (bestIvp 1) ![1 / 2, 1 / 4] [0] !![1, 1; 1, 1] = .value a := by
  obtain ⟨solve, hs⟩ := exists_solve 2
  obtain ⟨a, ha, -⟩ := C107_multi_last_false solve hs
  exact ⟨solve, hs, a, ha⟩

end Verif.CopoDrift
