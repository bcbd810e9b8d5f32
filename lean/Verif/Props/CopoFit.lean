import Verif.Lemmas.CopoFit
import Verif.Props.CopoDrift

/-!
# C109: fit of reactivity ratios
-/

namespace Verif.CopoFit

open Verif.Copo Verif.CopoDrift Verif.CopoDrift.Spec Verif.CopoFit.Spec Matrix

/-! ### Contracts of the optimisers -/

/-- What is assumed of `minimize`: it returns a point of the box and the value there, raises only what the objective raises, and raises if the objective
always does. -/
structure OptOk (opt : Minimize) : Prop where
  raised : ∀ s g e, opt s g = .raised e → ∃ r, s r = .error e
  done : ∀ s g r v, opt s g = .done r v → Box r ∧ s r = .ok v
  always : ∀ s g e, (∀ r, s r = .error e) → opt s g = .raised e

/-- A successful result is the smallest value in the box. -/
def Global (opt : Minimize) : Prop :=
  ∀ s g r v, opt s g = .done r v → ∃ m, v = some m ∧ ∀ q, Box q → ∀ m', s q = .ok (some m') → m ≤ m'

/-- Objective of orthogonal distance regression; `xp` are the corrected abscissae. -/
noncomputable def odrObjective (pts : List OdrPt) (b : ℝ × ℝ) (xp : List ℝ) : Option ℝ :=
  sumOpt (List.zipWith (fun p x => match p.wx, p.wy, instBinary x b.1 b.2 with
    | some wx, some wy, some F => some (wy * (p.y - F) ^ 2 + wx * (p.x - x) ^ 2)
    | _, _, _ => none) pts xp)

/-- A successful orthogonal distance regression is a global minimum. -/
def GlobalOdr (odr : Odr) : Prop :=
  ∀ pts g s, odr pts g = some s → s.xplusd.length = pts.length ∧
    ∃ m, odrObjective pts s.beta s.xplusd = some m ∧ ∀ b xp m', xp.length = pts.length → odrObjective pts b xp = some m' → m ≤ m'

/-! ### Errors and special values -/

/-- **C109.** All the ways the call can fail. -/
theorem C109_errors (opt : Minimize) (odr : Odr) (tq : ℝ → ℕ → ℝ) (ivp : Ivp 1) (dFf : List DataFf) (dfx dFx : List DataX) (guess : ℝ × ℝ)
    (method : String) (alpha : ℝ) (e : Fail) :
    fit opt odr tq ivp dFf dfx dFx guess method alpha = .error e ↔
      (numData dFf dfx dFx < 2 ∧ e = .fitError) ∨
      (2 ≤ numData dFf dfx dFx ∧
        ((method = "ODR" ∧ e = .fitError ∧ (dfx ≠ [] ∨ dFx ≠ [] ∨ odr (odrData dFf) guess = none)) ∨
         (method ≠ "ODR" ∧ method ≠ "NLLS" ∧ e = .py .ValueError) ∨
         (method = "NLLS" ∧ nlls opt (sse ivp dFf dfx dFx) guess (numData dFf dfx dFx) = .error e))) := by
  unfold fit
  dsimp only
  by_cases hn : numData dFf dfx dFx < 2
  · rw [if_pos hn]
    simp only [Except.error.injEq, hn, true_and, hn.not_ge, false_and, or_false]; exact eq_comm
  rw [if_neg hn]
  have hn' := not_lt.1 hn
  simp only [hn, false_and, false_or, hn', true_and]
  have hl : ∀ l : List DataX, 0 < l.length ↔ l ≠ [] := fun l => List.length_pos_iff
  simp only [hl]
  by_cases hO : method = "ODR"
  · subst hO
    simp only [true_and, ne_eq, not_true_eq_false, false_and, false_or]
    by_cases hd : dfx ≠ [] ∨ dFx ≠ []
    · rw [if_pos hd]
      simp only [Except.error.injEq, String.reduceEq, false_and, or_false]
      constructor
      · rintro rfl; exact ⟨rfl, by tauto⟩
      · rintro ⟨rfl, -⟩; rfl
    · rw [if_neg hd]
      push Not at hd
      simp only [hd.1, hd.2, not_true_eq_false, false_or, String.reduceEq, if_false, if_true, false_and, or_false]
      unfold odrFit
      cases odr (odrData dFf) guess with
      | none => simp only [Except.error.injEq, and_true]; exact eq_comm
      | some s => simp
  · simp only [hO, false_and, if_false, false_or, ne_eq, not_false_eq_true, true_and]
    by_cases hN : method = "NLLS"
    · subst hN
      simp only [if_true, not_true_eq_false, false_and, false_or, true_and]
      cases nlls opt (sse ivp dFf dfx dFx) guess (numData dFf dfx dFx) <;> simp
    · simp only [hN, if_false, not_false_eq_true, true_and, false_and, or_false, Except.error.injEq]; exact eq_comm

/-- **C109.** A result carries the given method and level; the covariance is `None` and errors and intervals are `nan` if there are just two observations; a
standard error is the root of the diagonal entry of the covariance, an interval is the error times the quantile of Student's distribution. -/
theorem C109_statistics (opt : Minimize) (odr : Odr) (tq : ℝ → ℕ → ℝ) (ivp : Ivp 1) (dFf : List DataFf) (dfx dFx : List DataX) (guess : ℝ × ℝ)
    (method : String) (alpha : ℝ) (res : Result) (h : fit opt odr tq ivp dFf dfx dFx guess method alpha = .ok res) :
    res.method = method ∧ res.alpha = alpha ∧
    (numData dFf dfx dFx = 2 → res.cov = none ∧ res.se1 = none ∧ res.se2 = none ∧ res.ci1 = none ∧ res.ci2 = none) ∧
    (2 < numData dFf dfx dFx → res.cov ≠ none) ∧
    (∀ C, 2 < numData dFf dfx dFx → res.cov = some (some C) → 0 ≤ C 0 0 → 0 ≤ C 1 1 →
      res.se1 = some (Real.sqrt (C 0 0)) ∧ res.se2 = some (Real.sqrt (C 1 1)) ∧
      res.ci1 = some (Real.sqrt (C 0 0) * tq (1 - alpha / 2) (numData dFf dfx dFx - 2)) ∧
      res.ci2 = some (Real.sqrt (C 1 1) * tq (1 - alpha / 2) (numData dFf dfx dFx - 2))) := by
  unfold fit at h
  dsimp only at h
  by_cases hn : numData dFf dfx dFx < 2
  · rw [if_pos hn] at h; cases h
  rw [if_neg hn] at h
  by_cases hO : method = "ODR" ∧ (0 < dfx.length ∨ 0 < dFx.length)
  · rw [if_pos hO] at h; cases h
  rw [if_neg hO] at h
  have hcov : ∀ w, (if method = "NLLS" then nlls opt (sse ivp dFf dfx dFx) guess (numData dFf dfx dFx)
      else if method = "ODR" then odrFit odr dFf guess else .error (.py .ValueError)) = .ok w →
      (numData dFf dfx dFx = 2 → w.cov = none) ∧ (2 < numData dFf dfx dFx → w.cov ≠ none) := by
    intro w hw
    by_cases hN : method = "NLLS"
    · rw [if_pos hN] at hw
      unfold nlls at hw
      split at hw
      · cases hw
      · cases hw
      · split_ifs at hw with h2
        · split at hw
          · cases hw
          · cases hw; exact ⟨fun h => by omega, fun _ => by simp⟩
          · split_ifs at hw
            cases hw; exact ⟨fun h => by omega, fun _ => by simp⟩
        · cases hw; exact ⟨fun _ => rfl, fun h => absurd h h2⟩
    · rw [if_neg hN] at hw
      by_cases hR : method = "ODR"
      · rw [if_pos hR] at hw
        have hx : dfx = [] ∧ dFx = [] := by
          constructor
          · by_contra hc; exact hO ⟨hR, .inl (List.length_pos_iff.2 hc)⟩
          · by_contra hc; exact hO ⟨hR, .inr (List.length_pos_iff.2 hc)⟩
        have hlen : (odrData dFf).length = numData dFf dfx dFx := by
          simp [odrData, numData, hx.1, hx.2, List.length_flatMap]
        unfold odrFit at hw
        split at hw
        · cases hw
        · cases hw
          rw [hlen]
          refine ⟨fun h => by simp [h], fun h => by simp [h]⟩
      · rw [if_neg hR] at hw; cases hw
  split at h
  · cases h
  · rename_i w hw
    obtain ⟨c1, c2⟩ := hcov w hw
    cases h
    refine ⟨rfl, rfl, fun h2 => ?_, c2, fun C h2 hC h0 h1 => ?_⟩
    · simp [stdErr, h2, c1 h2]
    · simp only at hC
      simp [stdErr, h2, hC, sqrtOpt, h0, h1]

/-! ### The objective -/

/-- The estimates of the three kinds of data, with `g` the computed drift curves. -/
noncomputable def observations (dFf : List DataFf) (dfx dFx : List DataX) (r : ℝ × ℝ) (g : DataX → List ℝ) : List (ℝ × List Obs) :=
  dFf.map (fun d => (d.weight, d.pts.map fun p => ⟨p.y, mayoLewis r.1 r.2 p.x, p.sy⟩)) ++
  dfx.map (fun d => (d.weight, List.zipWith (fun p f => ⟨p.y, f, p.sy⟩) d.pts (g d))) ++
  dFx.map (fun d => (d.weight, List.zipWith (fun p f => ⟨p.y, f + (d.f10 - f) / (p.x + 1 / 10 ^ 10), p.sy⟩) d.pts (g d)))

/-- **C109.** The objective is the weighted sum of squared scaled residuals over all observations of all data sets. -/
theorem C109_sse (ivp : Ivp 1) (dFf : List DataFf) (dfx dFx : List DataX) (r : ℝ × ℝ) (g : DataX → List ℝ)
    (h1 : ∀ d ∈ dFf, ∀ p ∈ d.pts, p.sy ≠ 0 ∧ instBinary p.x r.1 r.2 ≠ none)
    (h2 : ∀ d ∈ dfx ++ dFx, (∀ p ∈ d.pts, p.sy ≠ 0) ∧ driftVals ivp d.f10 (d.pts.map (·.x)) r = .ok (g d))
    (h3 : ∀ d ∈ dFx, ∀ p ∈ d.pts, 0 ≤ p.x) :
    sse ivp dFf dfx dFx r = .ok (some (weightedSS (observations dFf dfx dFx r g))) := by
  unfold sse
  rw [addAll_ok]
  refine ⟨(observations dFf dfx dFx r g).map fun d => d.1 * (d.2.map fun o => ((o.y - o.est) / o.s) ^ 2).sum, ?_, by simp [weightedSS]⟩
  unfold observations
  simp only [List.map_append, List.map_map]
  congr 1
  · congr 1
    · refine List.map_congr_left fun d hd => ?_
      simp only [Function.comp_apply, ffTerm]
      have : (d.pts.map fun p => sq p.y p.sy (instBinary p.x r.1 r.2)) = d.pts.map fun p => sq p.y p.sy (some (mayoLewis r.1 r.2 p.x)) := by
        refine List.map_congr_left fun p hp => ?_
        cases hF : instBinary p.x r.1 r.2 with
        | none => exact absurd hF (h1 d hd p hp).2
        | some F => rw [inst_mayoLewis hF]
      rw [this, sumOpt_sq_ok _ _ _ _ fun p hp => (h1 d hd p hp).1]
      simp [Function.comp_def]
    · refine List.map_congr_left fun d hd => ?_
      obtain ⟨hs, hg⟩ := h2 d (List.mem_append_left _ hd)
      simp only [Function.comp_apply, fxTerm, hg]
      rw [zipWith_eq_map, sumOpt_sq_ok (d.pts.zip (g d)) (fun p => p.1.y) (fun p => p.1.sy) (fun p => p.2) fun p hp => hs _ (List.of_mem_zip hp).1]
      simp [List.zip, List.map_zipWith]
  · refine List.map_congr_left fun d hd => ?_
    obtain ⟨hs, hg⟩ := h2 d (List.mem_append_right _ hd)
    simp only [Function.comp_apply, FxTerm, hg]
    have : List.zipWith (fun p f => sq p.y p.sy (meanF d.f10 p.x f)) d.pts (g d) =
        (d.pts.zip (g d)).map fun p => sq p.1.y p.1.sy (some (p.2 + (d.f10 - p.2) / (p.1.x + 1 / 10 ^ 10))) := by
      rw [zipWith_eq_map]
      refine List.map_congr_left fun p hp => ?_
      have hx := h3 d hd _ (List.of_mem_zip hp).1
      have : p.1.x + 1 / 10 ^ 10 ≠ 0 := by positivity
      simp only [meanF, fdiv, if_neg this, Option.map_some]
    rw [this, sumOpt_sq_ok (d.pts.zip (g d)) (fun p => p.1.y) (fun p => p.1.sy) (fun p => p.2 + (d.f10 - p.2) / (p.1.x + 1 / 10 ^ 10))
      fun p hp => hs _ (List.of_mem_zip hp).1]
    simp [List.zip, List.map_zipWith]

/-- **C109.** The estimate of the cumulative copolymer composition is the material balance `(f10 - f (1 - x))/x` up to `1e-10/x²`. -/
theorem C109_mean_composition (f10 x f : ℝ) (h0 : 0 ≤ f10 ∧ f10 ≤ 1) (hf : 0 ≤ f ∧ f ≤ 1) (hx : 0 < x) :
    ∃ F, meanF f10 x f = some F ∧ |F - (f10 - f * (1 - x)) / x| ≤ 1 / 10 ^ 10 / x ^ 2 := by
  have hxd : 0 < x + 1 / 10 ^ 10 := by positivity
  refine ⟨f + (f10 - f) / (x + 1 / 10 ^ 10), by rw [meanF, fdiv_ne hxd.ne', Option.map_some], ?_⟩
  have : f + (f10 - f) / (x + 1 / 10 ^ 10) - (f10 - f * (1 - x)) / x = -((f10 - f) * (1 / 10 ^ 10 / (x * (x + 1 / 10 ^ 10)))) := by
    have := hxd.ne'
    generalize (1 / 10 ^ 10 : ℝ) = δ at *
    field_simp
    ring
  rw [this, abs_neg, abs_mul, abs_of_nonneg (by positivity : (0 : ℝ) ≤ 1 / 10 ^ 10 / (x * (x + 1 / 10 ^ 10)))]
  have h1 : |f10 - f| ≤ 1 := abs_le.2 ⟨by linarith [h0.1, hf.2], by linarith [h0.2, hf.1]⟩
  have h2 : (1 / 10 ^ 10 : ℝ) / (x * (x + 1 / 10 ^ 10)) ≤ 1 / 10 ^ 10 / x ^ 2 := by
    apply div_le_div_of_nonneg_left (by positivity) (by positivity)
    nlinarith
  calc _ ≤ 1 * (1 / 10 ^ 10 / (x * (x + 1 / 10 ^ 10))) := mul_le_mul_of_nonneg_right h1 (by positivity)
    _ ≤ _ := by rw [one_mul]; exact h2

/-- **C109.** The order of the data sets does not matter, and neither does cutting a data set in pieces of the same weight. -/
theorem C109_regroup (l l' : List (ℝ × List Obs)) (w : ℝ) (a b : List Obs) (h : l.Perm l') :
    weightedSS l = weightedSS l' ∧ weightedSS ((w, a ++ b) :: l) = weightedSS ((w, a) :: (w, b) :: l) := by
  refine ⟨(h.map _).sum_eq, ?_⟩
  simp [weightedSS]; ring

/-! ### Exact data -/

/-- Non-negative weights. -/
def WeightsNonneg (dFf : List DataFf) (dfx dFx : List DataX) : Prop := (∀ d ∈ dFf, 0 ≤ d.weight) ∧ (∀ d ∈ dfx, 0 ≤ d.weight) ∧ ∀ d ∈ dFx, 0 ≤ d.weight

theorem ffTerm_some {d : DataFf} {r : ℝ × ℝ} {t : ℝ} (hw : 0 ≤ d.weight) (h : ffTerm d r = some t) :
    0 ≤ t ∧ (t = 0 → 0 < d.weight → ∀ p ∈ d.pts, instBinary p.x r.1 r.2 = some p.y) := by
  unfold ffTerm at h
  rw [Option.map_eq_some_iff] at h
  obtain ⟨v, hv, rfl⟩ := h
  obtain ⟨h0, hz⟩ := sumOpt_sq _ _ _ _ hv
  refine ⟨mul_nonneg hw h0, fun ht hw' => hz ?_⟩
  rcases mul_eq_zero.1 ht with h | h
  · exact absurd h hw'.ne'
  · exact h

theorem fxTerm_some {ivp : Ivp 1} {d : DataX} {r : ℝ × ℝ} {t : ℝ} (hw : 0 ≤ d.weight) (h : fxTerm ivp d r = .ok (some t)) : 0 ≤ t := by
  unfold fxTerm at h
  split at h
  · cases h
  · rw [Except.ok.injEq, Option.map_eq_some_iff] at h
    obtain ⟨v, hv, rfl⟩ := h
    rw [zipWith_eq_map] at hv
    exact mul_nonneg hw (sumOpt_sq _ (fun p : Pt × ℝ => p.1.y) (fun p => p.1.sy) (fun p => some p.2) hv).1

theorem FxTerm_some {ivp : Ivp 1} {d : DataX} {r : ℝ × ℝ} {t : ℝ} (hw : 0 ≤ d.weight) (h : FxTerm ivp d r = .ok (some t)) : 0 ≤ t := by
  unfold FxTerm at h
  split at h
  · cases h
  · rw [Except.ok.injEq, Option.map_eq_some_iff] at h
    obtain ⟨v, hv, rfl⟩ := h
    rw [zipWith_eq_map] at hv
    exact mul_nonneg hw (sumOpt_sq _ (fun p : Pt × ℝ => p.1.y) (fun p => p.1.sy) (fun p => meanF d.f10 p.1.x p.2) hv).1

/-- **C109.** A finite value of the objective is not negative; it is zero only if every `F(f)` observation of positive weight is met exactly. -/
theorem C109_nonneg (ivp : Ivp 1) (dFf : List DataFf) (dfx dFx : List DataX) (hw : WeightsNonneg dFf dfx dFx) (r : ℝ × ℝ) (v : ℝ)
    (h : sse ivp dFf dfx dFx r = .ok (some v)) :
    0 ≤ v ∧ (v = 0 → ∀ d ∈ dFf, 0 < d.weight → ∀ p ∈ d.pts, instBinary p.x r.1 r.2 = some p.y) := by
  unfold sse at h
  rw [addAll_ok] at h
  obtain ⟨ts, hts, rfl⟩ := h
  rw [zero_add]
  have hall : ∀ t ∈ ts, 0 ≤ t := by
    intro t ht
    have : (.ok (some t) : Except Fail (Option ℝ)) ∈ ts.map fun t => (.ok (some t) : Except Fail (Option ℝ)) := List.mem_map_of_mem ht
    rw [← hts, List.mem_append, List.mem_append, List.mem_map, List.mem_map, List.mem_map] at this
    rcases this with (⟨d, hd, h⟩ | ⟨d, hd, h⟩) | ⟨d, hd, h⟩
    · rw [Except.ok.injEq] at h; exact (ffTerm_some (hw.1 d hd) h).1
    · exact fxTerm_some (hw.2.1 d hd) h
    · exact FxTerm_some (hw.2.2 d hd) h
  refine ⟨List.sum_nonneg hall, fun hz d hd hwd p hp => ?_⟩
  have hmem : (.ok (ffTerm d r) : Except Fail (Option ℝ)) ∈ ts.map fun t => (.ok (some t) : Except Fail (Option ℝ)) := by
    rw [← hts]
    exact List.mem_append_left _ (List.mem_append_left _ (List.mem_map_of_mem (f := fun d => (.ok (ffTerm d r) : Except Fail (Option ℝ))) hd))
  obtain ⟨t, ht, he⟩ := List.mem_map.1 hmem
  rw [Except.ok.injEq] at he
  have ht0 : t = 0 := le_antisymm (hz ▸ List.single_le_sum hall t ht) (hall t ht)
  exact (ffTerm_some (hw.1 d hd) he.symm).2 ht0 hwd p hp

/-- **C109.** Two different feed compositions determine the reactivity ratios. -/
theorem C109_identifiable (r : ℝ × ℝ) (h1 : 0 ≤ r.1) (h2 : 0 ≤ r.2) (q : ℝ × ℝ) (f g F G : ℝ) (hf : 0 < f ∧ f < 1) (hg : 0 < g ∧ g < 1) (hfg : f ≠ g)
    (rf : instBinary f r.1 r.2 = some F) (rg : instBinary g r.1 r.2 = some G)
    (qf : instBinary f q.1 q.2 = some F) (qg : instBinary g q.1 q.2 = some G) : q = r := by
  have lin : ∀ (a b x X : ℝ), instBinary x a b = some X → X * (a * x ^ 2 + 2 * x * (1 - x) + b * (1 - x) ^ 2) = a * x ^ 2 + x * (1 - x) := by
    intro a b x X h
    unfold instBinary at h
    rw [fdiv_eq_some] at h
    exact h.2.symm
  have a1 := lin _ _ _ _ rf
  have a2 := lin _ _ _ _ rg
  have b1 := lin _ _ _ _ qf
  have b2 := lin _ _ _ _ qg
  obtain ⟨r1, r2⟩ := r
  obtain ⟨q1, q2⟩ := q
  simp only at *
  -- difference of the two systems
  have c1 : f ^ 2 * (1 - F) * (q1 - r1) = (1 - f) ^ 2 * F * (q2 - r2) := by linear_combination a1 - b1
  have c2 : g ^ 2 * (1 - G) * (q1 - r1) = (1 - g) ^ 2 * G * (q2 - r2) := by linear_combination a2 - b2
  have hf' : 0 < 1 - f := sub_pos.2 hf.2
  have hg' : 0 < 1 - g := sub_pos.2 hg.2
  set Df := r1 * f ^ 2 + 2 * f * (1 - f) + r2 * (1 - f) ^ 2 with hDf
  set Dg := r1 * g ^ 2 + 2 * g * (1 - g) + r2 * (1 - g) ^ 2 with hDg
  have pDf : 0 < Df := by have := hf.1; positivity
  have pDg : 0 < Dg := by have := hg.1; positivity
  have F1 : (1 - F) * Df = (1 - f) * (f + r2 * (1 - f)) := by rw [sub_mul, a1, hDf]; ring
  have G1 : (1 - G) * Dg = (1 - g) * (g + r2 * (1 - g)) := by rw [sub_mul, a2, hDg]; ring
  have F2 : F * Df = f * (r1 * f + (1 - f)) := by rw [a1]; ring
  have G2 : G * Dg = g * (r1 * g + (1 - g)) := by rw [a2]; ring
  have d1 : f * (1 - f) * (f * (f + r2 * (1 - f)) * (q1 - r1)) = f * (1 - f) * ((1 - f) * (r1 * f + (1 - f)) * (q2 - r2)) := by
    linear_combination Df * c1 - f ^ 2 * (q1 - r1) * F1 + (1 - f) ^ 2 * (q2 - r2) * F2
  have d2 : g * (1 - g) * (g * (g + r2 * (1 - g)) * (q1 - r1)) = g * (1 - g) * ((1 - g) * (r1 * g + (1 - g)) * (q2 - r2)) := by
    linear_combination Dg * c2 - g ^ 2 * (q1 - r1) * G1 + (1 - g) ^ 2 * (q2 - r2) * G2
  have e1 := mul_left_cancel₀ (mul_pos hf.1 hf').ne' d1
  have e2 := mul_left_cancel₀ (mul_pos hg.1 hg').ne' d2
  -- determinant
  have det : (f * (f + r2 * (1 - f)) * ((1 - g) * (r1 * g + (1 - g))) - g * (g + r2 * (1 - g)) * ((1 - f) * (r1 * f + (1 - f)))) =
      (f - g) * (r1 * f * g + (f * (1 - g) + g * (1 - f)) + r2 * (1 - f) * (1 - g)) := by ring
  have pdet : 0 < r1 * f * g + (f * (1 - g) + g * (1 - f)) + r2 * (1 - f) * (1 - g) := by
    have := hf.1
    have := hg.1
    positivity
  have hdet : (f - g) * (r1 * f * g + (f * (1 - g) + g * (1 - f)) + r2 * (1 - f) * (1 - g)) ≠ 0 := mul_ne_zero (sub_ne_zero.2 hfg) pdet.ne'
  have u1 : (f - g) * (r1 * f * g + (f * (1 - g) + g * (1 - f)) + r2 * (1 - f) * (1 - g)) * (q1 - r1) = 0 := by
    rw [← det]; linear_combination (1 - g) * (r1 * g + (1 - g)) * e1 - (1 - f) * (r1 * f + (1 - f)) * e2
  have u2 : (f - g) * (r1 * f * g + (f * (1 - g) + g * (1 - f)) + r2 * (1 - f) * (1 - g)) * (q2 - r2) = 0 := by
    rw [← det]; linear_combination g * (g + r2 * (1 - g)) * e1 - f * (f + r2 * (1 - f)) * e2
  have v1 := (mul_eq_zero.1 u1).resolve_left hdet
  have v2 := (mul_eq_zero.1 u2).resolve_left hdet
  refine Prod.ext ?_ ?_
  · show q1 = r1; linarith
  · show q2 = r2; linarith

/-- The data sets are exactly what the model predicts for the ratios `r`. -/
structure ExactData (ivp : Ivp 1) (dFf : List DataFf) (dfx dFx : List DataX) (r : ℝ × ℝ) : Prop where
  Ff : ∀ d ∈ dFf, ∀ p ∈ d.pts, p.sy ≠ 0 ∧ instBinary p.x r.1 r.2 = some p.y
  fx : ∀ d ∈ dfx, (∀ p ∈ d.pts, p.sy ≠ 0) ∧ driftVals ivp d.f10 (d.pts.map (·.x)) r = .ok (d.pts.map (·.y))
  Fx : ∀ d ∈ dFx, (∀ p ∈ d.pts, p.sy ≠ 0) ∧ ∃ v, driftVals ivp d.f10 (d.pts.map (·.x)) r = .ok v ∧ v.length = d.pts.length ∧
    ∀ q ∈ d.pts.zip v, meanF d.f10 q.1.x q.2 = some q.1.y

theorem sse_exact {ivp : Ivp 1} {dFf : List DataFf} {dfx dFx : List DataX} {r : ℝ × ℝ} (h : ExactData ivp dFf dfx dFx r) :
    sse ivp dFf dfx dFx r = .ok (some 0) := by
  unfold sse
  rw [addAll_ok]
  refine ⟨(dFf.map fun _ => 0) ++ (dfx.map fun _ => 0) ++ (dFx.map fun _ => 0), ?_, by simp⟩
  have hzero : ∀ {ι : Type} (l : List ι) (y s : ι → ℝ) (e : ι → Option ℝ), (∀ i ∈ l, s i ≠ 0 ∧ e i = some (y i)) →
      sumOpt (l.map fun i => sq (y i) (s i) (e i)) = some 0 := by
    intro ι l y s e hl
    have : (l.map fun i => sq (y i) (s i) (e i)) = l.map fun i => sq (y i) (s i) (some (y i)) :=
      List.map_congr_left fun i hi => by rw [(hl i hi).2]
    rw [this, sumOpt_sq_ok l y s y fun i hi => (hl i hi).1]
    simp
  simp only [List.map_append, List.map_map]
  congr 1
  · congr 1
    · refine List.map_congr_left fun d hd => ?_
      simp only [Function.comp_apply, ffTerm]
      rw [hzero d.pts (fun p => p.y) (fun p => p.sy) (fun p => instBinary p.x r.1 r.2) (h.Ff d hd)]
      simp
    · refine List.map_congr_left fun d hd => ?_
      obtain ⟨hs, hv⟩ := h.fx d hd
      simp only [Function.comp_apply, fxTerm, hv]
      have : List.zipWith (fun p f => sq p.y p.sy (some f)) d.pts (d.pts.map (·.y)) = d.pts.map fun p => sq p.y p.sy (some p.y) := by
        rw [List.zipWith_map_right, List.zipWith_self]
      rw [this, hzero d.pts (fun p => p.y) (fun p => p.sy) (fun p => some p.y) fun p hp => ⟨hs p hp, rfl⟩]
      simp
  · refine List.map_congr_left fun d hd => ?_
    obtain ⟨hs, v, hv, hl, hq⟩ := h.Fx d hd
    simp only [Function.comp_apply, FxTerm, hv]
    rw [zipWith_eq_map, hzero (d.pts.zip v) (fun p => p.1.y) (fun p => p.1.sy) (fun p => meanF d.f10 p.1.x p.2)
      fun p hp => ⟨hs _ (List.of_mem_zip hp).1, hq p hp⟩]
    simp

/-- **C109.** Nonlinear least squares on exact data: with ratios inside the search box, non-negative weights, and two different feed compositions among the `F(f)`
observations of positive weight, a global optimiser returns exactly the ratios that generated the data, whatever the guess; the covariance is then zero. -/
theorem C109_recover (opt : Minimize) (ho : OptOk opt) (hg : Global opt) (odr : Odr) (tq : ℝ → ℕ → ℝ) (ivp : Ivp 1) (dFf : List DataFf) (dfx dFx : List DataX)
    (guess r : ℝ × ℝ) (alpha : ℝ) (hr : Box r) (hw : WeightsNonneg dFf dfx dFx) (hd : ExactData ivp dFf dfx dFx r)
    (h2 : ∃ d ∈ dFf, ∃ p ∈ d.pts, ∃ d' ∈ dFf, ∃ p' ∈ d'.pts, 0 < d.weight ∧ 0 < d'.weight ∧ (0 < p.x ∧ p.x < 1) ∧ (0 < p'.x ∧ p'.x < 1) ∧ p.x ≠ p'.x)
    (res : Result) (h : fit opt odr tq ivp dFf dfx dFx guess "NLLS" alpha = .ok res) :
    (res.r1, res.r2) = r ∧ ∀ C, res.cov = some (some C) → C = 0 := by
  unfold fit at h
  dsimp only at h
  by_cases hn : numData dFf dfx dFx < 2
  · rw [if_pos hn] at h; cases h
  rw [if_neg hn, if_neg (by simp), if_pos rfl] at h
  have key : ∀ w, nlls opt (sse ivp dFf dfx dFx) guess (numData dFf dfx dFx) = .ok w → w.r = r ∧ ∀ C, w.cov = some (some C) → C = 0 := by
    intro w hw'
    unfold nlls at hw'
    split at hw'
    · cases hw'
    · cases hw'
    · rename_i q v hq
      obtain ⟨hb, hs⟩ := ho.done _ _ _ _ hq
      obtain ⟨m, rfl, hmin⟩ := hg _ _ _ _ hq
      obtain ⟨hm0, hz⟩ := C109_nonneg ivp dFf dfx dFx hw q m hs
      have hm : m = 0 := le_antisymm (hmin r hr 0 (sse_exact hd)) hm0
      have hz := hz hm
      obtain ⟨d, hdm, p, hp, d', hdm', p', hp', w1, w2, x1, x2, hne⟩ := h2
      have hqr : q = r := C109_identifiable r (by linarith [hr.1.1]) (by linarith [hr.2.1]) q p.x p'.x p.y p'.y x1 x2 hne
        (hd.Ff d hdm p hp).2 (hd.Ff d' hdm' p' hp').2 (hz d hdm w1 p hp) (hz d' hdm' w2 p' hp')
      split_ifs at hw' with hN
      · split at hw'
        · cases hw'
        · cases hw'; exact ⟨hqr, fun C hC => by simp at hC⟩
        · split_ifs at hw'
          cases hw'
          refine ⟨hqr, fun C hC => ?_⟩
          simp only [Option.map_some, Option.some.injEq] at hC
          rw [← hC, hm]; simp
      · cases hw'; exact ⟨hqr, fun C hC => by simp at hC⟩
  split at h
  · cases h
  · rename_i w hw'
    cases h
    exact key w hw'

/-! ### Covariance -/

/-- **C109.** More than two observations: the covariance times half the finite-difference Hessian of the objective is the residual variance `sse/(n - 2)` times the
identity, and the covariance is symmetric. The ratios lie in the search box. -/
theorem C109_covariance (opt : Minimize) (ho : OptOk opt) (odr : Odr) (tq : ℝ → ℕ → ℝ) (ivp : Ivp 1) (dFf : List DataFf) (dfx dFx : List DataX)
    (guess : ℝ × ℝ) (alpha : ℝ) (res : Result) (h : fit opt odr tq ivp dFf dfx dFx guess "NLLS" alpha = .ok res) :
    Box (res.r1, res.r2) ∧ ∀ C, res.cov = some (some C) → ∃ v H, sse ivp dFf dfx dFx (res.r1, res.r2) = .ok (some v) ∧
      hess (sse ivp dFf dfx dFx) (res.r1, res.r2) = .ok (some H) ∧ C * ((1 / 2 : ℝ) • H) = (v / ((numData dFf dfx dFx : ℝ) - 2)) • (1 : Matrix (Fin 2) (Fin 2) ℝ) ∧
      C.IsSymm := by
  unfold fit at h
  dsimp only at h
  by_cases hn : numData dFf dfx dFx < 2
  · rw [if_pos hn] at h; cases h
  rw [if_neg hn, if_neg (by simp), if_pos rfl] at h
  split at h
  · cases h
  · rename_i w hw
    cases h
    dsimp only
    unfold nlls at hw
    split at hw
    · cases hw
    · cases hw
    · rename_i q v hq
      obtain ⟨hb, hs⟩ := ho.done _ _ _ _ hq
      split_ifs at hw with hN
      · split at hw
        · cases hw
        · cases hw; exact ⟨hb, fun C hC => by simp at hC⟩
        · rename_i H hH
          split_ifs at hw with hdet
          cases hw
          refine ⟨hb, fun C hC => ?_⟩
          simp only [Option.some.injEq, Option.map_eq_some_iff] at hC
          obtain ⟨t, rfl, rfl⟩ := hC
          refine ⟨t, H, hs, hH, ?_, ?_⟩
          · rw [Matrix.smul_mul, Matrix.mul_smul, Matrix.nonsing_inv_mul _ (isUnit_iff_ne_zero.2 hdet), smul_smul]
            congr 1; ring
          · have hsym : H.IsSymm := by
              unfold hess at hH
              split at hH
              · cases hH
              · cases hH
              · cases hH
                ext i j
                fin_cases i <;> fin_cases j <;> simp [NDiff.hessian2Centered]
            unfold Matrix.IsSymm
            rw [Matrix.transpose_smul, Matrix.transpose_nonsing_inv, hsym]
      · cases hw; exact ⟨hb, fun C hC => by simp at hC⟩

theorem evalAll_scale (s : ℝ × ℝ → Except Fail (Option ℝ)) (c : ℝ) (l : List (ℝ × ℝ)) :
    evalAll (fun q => (s q).map (Option.map (c * ·))) l = evalAll s l := by
  induction l with
  | nil => rfl
  | cons q l ih =>
    simp only [evalAll]
    rw [ih]
    rcases s q with e | (_ | v) <;> rfl

theorem evalAll_error (s : ℝ × ℝ → Except Fail (Option ℝ)) (l : List (ℝ × ℝ)) : (∃ e, evalAll s l = .error e) ↔ ∃ q ∈ l, ∃ e, s q = .error e := by
  induction l with
  | nil => simp [evalAll]
  | cons q l ih =>
    simp only [evalAll, List.mem_cons, exists_eq_or_imp, ← ih]
    cases h : s q with
    | error e => simp
    | ok o =>
      cases o with
      | none => cases evalAll s l <;> simp [Except.map]
      | some v => simp

/-- **C109.** The covariance is computed from the objective at the fitted ratios and at eight points around them (±2 steps along each axis, ±1 step along both); an
exception at any of the nine is not swallowed, and there is no other source of exceptions. -/
theorem C109_stencil (s : ℝ × ℝ → Except Fail (Option ℝ)) (r : ℝ × ℝ) :
    (∃ e, hess s r = .error e) ↔ ∃ ij ∈ ([(0, 0), (2, 0), (-2, 0), (0, 2), (0, -2), (1, 1), (1, -1), (-1, 1), (-1, -1)] : List (ℤ × ℤ)),
      ∃ e, s (r.1 + ij.1 * (1e-4 * (1 + |r.1|)), r.2 + ij.2 * (1e-4 * (1 + |r.2|))) = .error e := by
  have h1 : (∃ e, hess s r = .error e) ↔ ∃ e, evalAll s (stencil r (1 / 10 ^ 4)) = .error e := by
    unfold hess
    cases evalAll s (stencil r (1 / 10 ^ 4)) with
    | error e => simp
    | ok b => cases b <;> simp
  rw [h1, evalAll_error]
  have h2 : stencil r (1 / 10 ^ 4) = ([(0, 0), (2, 0), (-2, 0), (0, 2), (0, -2), (1, 1), (1, -1), (-1, 1), (-1, -1)] : List (ℤ × ℤ)).map
      fun ij => (r.1 + ij.1 * (1e-4 * (1 + |r.1|)), r.2 + ij.2 * (1e-4 * (1 + |r.2|))) := by
    have h3 : (1 / 10 ^ 4 : ℝ) = 1e-4 := by norm_num
    simp only [stencil, h3, List.map_cons, List.map_nil, Int.cast_zero, Int.cast_one, Int.cast_ofNat, Int.cast_neg, zero_mul, add_zero, one_mul, neg_mul, sub_eq_add_neg]
  rw [h2]
  simp only [List.mem_map, exists_exists_and_eq_and]

/-- **C109.** The Hessian behind the covariance is the central difference of the objective with steps of `1e-4 (1 + |r|)`, two steps along each axis for the diagonal. -/
theorem C109_hessian (s : ℝ × ℝ → Except Fail (Option ℝ)) (φ : ℝ → ℝ → ℝ) (r1 r2 : ℝ) (hs : ∀ a b, |a - r1| ≤ 2e-4 * (1 + |r1|) → |b - r2| ≤ 2e-4 * (1 + |r2|) → s (a, b) = .ok (some (φ a b))) :
    ∃ H, hess s (r1, r2) = .ok (some H) ∧ H 0 1 = H 1 0 ∧ ∀ d1 d2, d1 = 1e-4 * (1 + |r1|) → d2 = 1e-4 * (1 + |r2|) →
      4 * d1 ^ 2 * H 0 0 = φ (r1 + 2 * d1) r2 - 2 * φ r1 r2 + φ (r1 - 2 * d1) r2 ∧
      4 * d2 ^ 2 * H 1 1 = φ r1 (r2 + 2 * d2) - 2 * φ r1 r2 + φ r1 (r2 - 2 * d2) ∧
      4 * d1 * d2 * H 0 1 = φ (r1 + d1) (r2 + d2) - φ (r1 + d1) (r2 - d2) - φ (r1 - d1) (r2 + d2) + φ (r1 - d1) (r2 - d2) := by
  have e1 : (1 / 10 ^ 4 : ℝ) = 1e-4 := by norm_num
  have p1 : 0 < 1e-4 * (1 + |r1|) := by positivity
  have p2 : 0 < 1e-4 * (1 + |r2|) := by positivity
  have k1 : 2e-4 * (1 + |r1|) = 2 * (1e-4 * (1 + |r1|)) := by ring
  have k2 : 2e-4 * (1 + |r2|) = 2 * (1e-4 * (1 + |r2|)) := by ring
  rw [k1, k2] at hs
  unfold hess stencil NDiff.hessian2Centered
  simp only [e1, if_neg (show (1e-4 : ℝ) ≠ 0 by norm_num)]
  generalize 1e-4 * (1 + |r1|) = d1 at *
  generalize 1e-4 * (1 + |r2|) = d2 at *
  have q0 := hs r1 r2 (by rw [sub_self, abs_zero]; linarith) (by rw [sub_self, abs_zero]; linarith)
  have q1 := hs (r1 + 2 * d1) r2 (by rw [abs_le]; constructor <;> linarith) (by rw [abs_le]; constructor <;> linarith)
  have q2 := hs (r1 - 2 * d1) r2 (by rw [abs_le]; constructor <;> linarith) (by rw [abs_le]; constructor <;> linarith)
  have q3 := hs r1 (r2 + 2 * d2) (by rw [abs_le]; constructor <;> linarith) (by rw [abs_le]; constructor <;> linarith)
  have q4 := hs r1 (r2 - 2 * d2) (by rw [abs_le]; constructor <;> linarith) (by rw [abs_le]; constructor <;> linarith)
  have q5 := hs (r1 + d1) (r2 + d2) (by rw [abs_le]; constructor <;> linarith) (by rw [abs_le]; constructor <;> linarith)
  have q6 := hs (r1 + d1) (r2 - d2) (by rw [abs_le]; constructor <;> linarith) (by rw [abs_le]; constructor <;> linarith)
  have q7 := hs (r1 - d1) (r2 + d2) (by rw [abs_le]; constructor <;> linarith) (by rw [abs_le]; constructor <;> linarith)
  have q8 := hs (r1 - d1) (r2 - d2) (by rw [abs_le]; constructor <;> linarith) (by rw [abs_le]; constructor <;> linarith)
  simp only [evalAll, q0, q1, q2, q3, q4, q5, q6, q7, q8, val]
  refine ⟨_, rfl, rfl, ?_⟩
  rintro _ _ rfl rfl
  simp only [Matrix.of_apply, Matrix.cons_val', Matrix.cons_val_zero, Matrix.cons_val_one, Matrix.empty_val', Matrix.cons_val_fin_one]
  refine ⟨?_, ?_, ?_⟩ <;> field_simp

/-- The objective `a² b²` at `(1, 1)`: the mixed entry is 4, the diagonal 2. -/
example : ∃ H, hess (fun q => .ok (some (q.1 ^ 2 * q.2 ^ 2))) (1, 1) = .ok (some H) ∧ H 0 0 = 2 ∧ H 0 1 = 4 := by
  obtain ⟨H, h1, -, h2⟩ := C109_hessian (fun q => .ok (some (q.1 ^ 2 * q.2 ^ 2))) (fun a b => a ^ 2 * b ^ 2) 1 1 (fun a b _ _ => rfl)
  obtain ⟨h3, -, h4⟩ := h2 _ _ rfl rfl
  norm_num at h3 h4
  exact ⟨H, h1, by linarith, by linarith⟩

/-- An objective that fails below a ratio of 1e-5, next to a fitted ratio of 1e-4: the error comes up. -/
example : ∃ e, hess (fun q => if q.1 < 1e-5 then .error (.py .ValueError) else .ok (some 0)) (1e-4, 1) = .error e := by
  rw [C109_stencil]
  refine ⟨(-2, 0), by simp, .py .ValueError, ?_⟩
  rw [if_pos]
  norm_num [abs_of_pos]

theorem hess_scale (s : ℝ × ℝ → Except Fail (Option ℝ)) (c : ℝ) (r : ℝ × ℝ) :
    hess (fun q => (s q).map (Option.map (c * ·))) r = (hess s r).map (Option.map (c • ·)) := by
  unfold hess
  rw [evalAll_scale]
  have hv : ∀ q, val ((s q).map (Option.map (c * ·))) = c * val (s q) := by
    intro q
    rcases s q with e | (_ | v) <;> simp [Except.map, val]
  cases evalAll s (stencil r (1 / 10 ^ 4)) with
  | error e => rfl
  | ok b =>
    cases b with
    | false => rfl
    | true =>
      show Except.ok (some _) = Except.ok (some _)
      congr 2
      simp only [hv]
      ext i j
      fin_cases i <;> fin_cases j <;> simp [NDiff.hessian2Centered] <;> ring

/-- **C109.** Multiplying the objective by a positive constant (all weights, or all scales by one factor) changes neither the ratios nor the covariance, if the
optimiser stops at the same point. -/
theorem C109_scale_free (opt : Minimize) (s : ℝ × ℝ → Except Fail (Option ℝ)) (c : ℝ) (hc : 0 < c) (guess : ℝ × ℝ) (n : ℕ) (r : ℝ × ℝ) (v : Option ℝ)
    (h : opt s guess = .done r v) (h' : opt (fun q => (s q).map (Option.map (c * ·))) guess = .done r (v.map (c * ·))) :
    nlls opt (fun q => (s q).map (Option.map (c * ·))) guess n = nlls opt s guess n := by
  unfold nlls
  rw [h, h']
  dsimp only
  split_ifs with hN
  · rw [hess_scale]
    cases hess s r with
    | error e => rfl
    | ok H =>
      cases H with
      | none => rfl
      | some H =>
        simp only [Except.map, Option.map_some]
        have hdet : (c • H).det = 0 ↔ H.det = 0 := by
          rw [Matrix.det_smul]; simp [hc.ne']
        by_cases hd : H.det = 0
        · rw [if_pos hd, if_pos (hdet.2 hd)]
        · rw [if_neg hd, if_neg (hdet.not.2 hd), Option.map_map]
          congr 3
          cases v with
          | none => rfl
          | some t =>
            simp only [Option.map_some, Option.some.injEq, Function.comp_apply]
            have : (c • H)⁻¹ = c⁻¹ • H⁻¹ := by
              exact Matrix.inv_smul' (A := H) (Units.mk0 c hc.ne') (isUnit_iff_ne_zero.2 hd)
            rw [this, smul_smul]
            congr 1
            field_simp
  · rfl

theorem addAll_scale (c : ℝ) (l : List (Except Fail (Option ℝ))) (acc : Option ℝ) :
    addAll (acc.map (c * ·)) (l.map (Except.map (Option.map (c * ·)))) = (addAll acc l).map (Option.map (c * ·)) := by
  induction l generalizing acc with
  | nil => rfl
  | cons t l ih =>
    cases t with
    | error e => rfl
    | ok t =>
      show addAll ((acc.map (c * ·)).bind fun a => (t.map (c * ·)).map (a + ·)) _ = _
      refine Eq.trans ?_ (ih (acc.bind fun a => t.map (a + ·)))
      congr 1
      cases acc <;> cases t <;> simp [mul_add]

/-- **C109.** Multiplying all weights by one factor multiplies the objective by that factor. -/
theorem C109_weights_scale (ivp : Ivp 1) (dFf : List DataFf) (dfx dFx : List DataX) (c : ℝ) (r : ℝ × ℝ) :
    sse ivp (dFf.map fun d => ⟨d.pts, c * d.weight⟩) (dfx.map fun d => ⟨d.f10, d.pts, c * d.weight⟩) (dFx.map fun d => ⟨d.f10, d.pts, c * d.weight⟩) r =
      (sse ivp dFf dfx dFx r).map (Option.map (c * ·)) := by
  unfold sse
  rw [← addAll_scale]
  simp only [Option.map_some, mul_zero, List.map_append, List.map_map]
  congr 2
  · congr 1
    · refine List.map_congr_left fun d _ => ?_
      simp only [Function.comp_apply, ffTerm, Except.map, Option.map_map]
      congr 2
      ext x
      simp [mul_assoc]
    · refine List.map_congr_left fun d _ => ?_
      simp only [Function.comp_apply, fxTerm]
      cases driftVals ivp d.f10 (d.pts.map (·.x)) r with
      | error e => rfl
      | ok v =>
        simp only [Except.map, Option.map_map]
        congr 2
        ext x
        simp [mul_assoc]
  · refine List.map_congr_left fun d _ => ?_
    simp only [Function.comp_apply, FxTerm]
    cases driftVals ivp d.f10 (d.pts.map (·.x)) r with
    | error e => rfl
    | ok v =>
      simp only [Except.map, Option.map_map]
      congr 2
      ext x
      simp [mul_assoc]

/-! ### Orthogonal distance regression -/

/-- The weight of an observation in the orthogonal distance regression: `((weight + 1e-10)/scale)²`. -/
theorem odrWeight_eq {scale weight : ℝ} (hs : scale ≠ 0) (hw : weight + 1 / 10 ^ 10 ≠ 0) :
    odrWeight scale weight = some (((weight + 1 / 10 ^ 10) / scale) ^ 2) := by
  unfold odrWeight
  rw [fdiv_ne hw, Option.bind_some, fdiv_ne (by positivity)]
  congr 1
  field_simp

theorem odr_zero (pts : List OdrPt) (b : ℝ × ℝ) (xp : List ℝ) (hl : xp.length = pts.length)
    (hp : ∀ p ∈ pts, ∃ wx wy, p.wx = some wx ∧ p.wy = some wy ∧ 0 < wx ∧ 0 < wy) {m : ℝ} (h : odrObjective pts b xp = some m) :
    0 ≤ m ∧ (m = 0 → ∀ p ∈ pts, instBinary p.x b.1 b.2 = some p.y) := by
  unfold odrObjective at h
  induction pts generalizing xp m with
  | nil => simp only [List.zipWith_nil_left, sumOpt, Option.some.injEq] at h; exact ⟨h.le, fun _ p hp => by cases hp⟩
  | cons p pts ih =>
    cases xp with
    | nil => simp at hl
    | cons x xp =>
      obtain ⟨wx, wy, e1, e2, p1, p2⟩ := hp p (by simp)
      rw [List.zipWith_cons_cons, e1, e2] at h
      cases hF : instBinary x b.1 b.2 with
      | none => rw [hF] at h; cases h
      | some F =>
        rw [hF] at h
        simp only [sumOpt, Option.map_eq_some_iff] at h
        obtain ⟨v, hv, rfl⟩ := h
        obtain ⟨h0, hz⟩ := ih xp (by simpa using hl) (fun q hq => hp q (by simp [hq])) hv
        have t1 : 0 ≤ wy * (p.y - F) ^ 2 := by positivity
        have t2 : 0 ≤ wx * (p.x - x) ^ 2 := by positivity
        refine ⟨by linarith, fun hm q hq => ?_⟩
        have u1 : wy * (p.y - F) ^ 2 = 0 := by linarith
        have u2 : wx * (p.x - x) ^ 2 = 0 := by linarith
        have u3 : v = 0 := by linarith
        rcases List.mem_cons.1 hq with rfl | hq
        · have v1 : q.y - F = 0 := by simpa [p2.ne'] using u1
          have v2 : q.x - x = 0 := by simpa [p1.ne'] using u2
          rw [sub_eq_zero] at v1 v2
          rw [v2, v1, hF]
        · exact hz u3 q hq

/-- **C109.** Orthogonal distance regression on exact data with two different feed compositions: a global minimum gives back the ratios that generated the data. -/
theorem C109_recover_odr (odr : Odr) (hg : GlobalOdr odr) (opt : Minimize) (tq : ℝ → ℕ → ℝ) (ivp : Ivp 1) (dFf : List DataFf)
    (guess r : ℝ × ℝ) (alpha : ℝ) (hr1 : 0 ≤ r.1) (hr2 : 0 ≤ r.2) (hw : ∀ d ∈ dFf, 0 ≤ d.weight)
    (hd : ∀ d ∈ dFf, ∀ p ∈ d.pts, p.sx ≠ 0 ∧ p.sy ≠ 0 ∧ instBinary p.x r.1 r.2 = some p.y)
    (h2 : ∃ d ∈ dFf, ∃ p ∈ d.pts, ∃ d' ∈ dFf, ∃ p' ∈ d'.pts, (0 < p.x ∧ p.x < 1) ∧ (0 < p'.x ∧ p'.x < 1) ∧ p.x ≠ p'.x)
    (res : Result) (h : fit opt odr tq ivp dFf [] [] guess "ODR" alpha = .ok res) : (res.r1, res.r2) = r := by
  unfold fit at h
  dsimp only at h
  by_cases hn : numData dFf [] [] < 2
  · rw [if_pos hn] at h; cases h
  rw [if_neg hn, if_neg (by simp), if_neg (by decide), if_pos rfl] at h
  unfold odrFit at h
  cases hs : odr (odrData dFf) guess with
  | none => rw [hs] at h; cases h
  | some s =>
    rw [hs] at h
    cases h
    show s.beta = r
    obtain ⟨hl, m, hm, hmin⟩ := hg _ _ _ hs
    have hmem : ∀ q ∈ odrData dFf, ∃ d ∈ dFf, ∃ p ∈ d.pts, q = ⟨p.x, p.y, odrWeight p.sx d.weight, odrWeight p.sy d.weight⟩ := by
      intro q hq
      simp only [odrData, List.mem_flatMap, List.mem_map] at hq
      obtain ⟨d, hd, p, hp, rfl⟩ := hq
      exact ⟨d, hd, p, hp, rfl⟩
    have hpos : ∀ q ∈ odrData dFf, ∃ wx wy, q.wx = some wx ∧ q.wy = some wy ∧ 0 < wx ∧ 0 < wy := by
      intro q hq
      obtain ⟨d, hdm, p, hp, rfl⟩ := hmem q hq
      obtain ⟨a, b, -⟩ := hd d hdm p hp
      have hww : 0 < d.weight + 1 / 10 ^ 10 := by have := hw d hdm; positivity
      exact ⟨_, _, odrWeight_eq a hww.ne', odrWeight_eq b hww.ne', by positivity, by positivity⟩
    have h0 : odrObjective (odrData dFf) r ((odrData dFf).map (·.x)) = some 0 := by
      unfold odrObjective
      rw [List.zipWith_map_right, List.zipWith_self]
      have : ∀ l : List OdrPt, (∀ q ∈ l, q ∈ odrData dFf) → sumOpt (l.map fun p => match p.wx, p.wy, instBinary p.x r.1 r.2 with
          | some wx, some wy, some F => some (wy * (p.y - F) ^ 2 + wx * (p.x - p.x) ^ 2)
          | _, _, _ => none) = some 0 := by
        intro l hl
        induction l with
        | nil => rfl
        | cons q l ih =>
          have hq := hl q (by simp)
          obtain ⟨wx, wy, e1, e2, -, -⟩ := hpos q hq
          obtain ⟨d, hdm, p, hp, hqe⟩ := hmem q hq
          have e3 : instBinary q.x r.1 r.2 = some q.y := by rw [hqe]; exact (hd d hdm p hp).2.2
          rw [List.map_cons, e1, e2, e3]
          simp only [sumOpt, ih fun q hq => hl q (by simp [hq])]
          simp
      exact this _ fun _ h => h
    obtain ⟨hm0, hz⟩ := odr_zero _ _ _ hl hpos hm
    have hz := hz (le_antisymm (hmin r _ 0 (by simp) h0) hm0)
    have hin : ∀ d ∈ dFf, ∀ p ∈ d.pts, instBinary p.x s.beta.1 s.beta.2 = some p.y := by
      intro d hdm p hp
      refine hz ⟨p.x, p.y, odrWeight p.sx d.weight, odrWeight p.sy d.weight⟩ ?_
      simp only [odrData, List.mem_flatMap, List.mem_map]
      exact ⟨d, hdm, p, hp, rfl⟩
    obtain ⟨d, hdm, p, hp, d', hdm', p', hp', x1, x2, hne⟩ := h2
    exact C109_identifiable r hr1 hr2 s.beta p.x p'.x p.y p'.y x1 x2 hne (hd d hdm p hp).2.2 (hd d' hdm' p' hp').2.2 (hin d hdm p hp) (hin d' hdm' p' hp')

/-! ### What the code does not do -/

/-- **C109**, false of the code: the search box excludes ratios below `1e-3`. Exact data of an alternating system (`r1 = r2 = 0`) are never fitted exactly. -/
theorem C109_bounds_false (opt : Minimize) (ho : OptOk opt) (odr : Odr) (tq : ℝ → ℕ → ℝ) (ivp : Ivp 1) (guess : ℝ × ℝ) (alpha : ℝ) (res : Result)
    (h : fit opt odr tq ivp [⟨[⟨1 / 4, 1 / 2, 1, 1⟩, ⟨3 / 4, 1 / 2, 1, 1⟩], 1⟩] [] [] guess "NLLS" alpha = .ok res) :
    ((∀ f : ℝ, 0 < f → f < 1 → instBinary f 0 0 = some (1 / 2)) ∧ (1 / 1000 ≤ res.r1 ∧ 1 / 1000 ≤ res.r2)) := by
  refine ⟨fun f h0 h1 => ?_, ?_⟩
  · have h2 : 0 < 1 - f := sub_pos.2 h1
    unfold instBinary
    have : (0 : ℝ) * f ^ 2 + 2 * f * (1 - f) + 0 * (1 - f) ^ 2 ≠ 0 := by
      have : 0 < 2 * f * (1 - f) := by positivity
      linarith
    rw [fdiv_ne this]
    congr 1
    rw [div_eq_iff this]; ring
  · have := (C109_covariance opt ho odr tq ivp _ _ _ guess alpha res h).1
    exact ⟨this.1.1, this.2.1⟩

/-- **C109**, false of the code: an observation of the copolymer formed at zero conversion is compared with the feed composition instead of the instantaneous
composition; exact data then have a positive sum of squares. -/
theorem C109_zero_conversion_false : ∃ (r : ℝ × ℝ) (d : DataX), Box r ∧ d.pts.map (·.x) = [0] ∧
    (∀ p ∈ d.pts, instBinary d.f10 r.1 r.2 = some p.y) ∧
    (∃ v, driftVals (bestIvp 1) d.f10 [0] r = .ok v ∧ v = [d.f10]) ∧ ∃ t, sse (bestIvp 1) [] [] [d] r = .ok (some t) ∧ 0 < t := by
  have hd : driftVals (bestIvp 1) (1 / 2) [0] (2, 1 / 2) = .ok [1 / 2] := by
    have hinst : instBinary (1 / 2 : ℝ) 2 (1 / 2) = some (2 / 3) := by
      norm_num [instBinary, fdiv]
    have hsol : IsSolution (rhsBinary 2 (1 / 2)) 0 (fun _ : Fin 1 => (1 / 2 : ℝ)) (fun _ _ => 1 / 2) (fun _ _ => (1 / 2 - 2 / 3) / (1 + eps)) := by
      have he := eps_pos'
      refine ⟨rfl, fun i => continuousOn_const, fun i => continuousOn_const, fun t ht i => ?_, fun t ht i => by simp at ht⟩
      have : t = 0 := by simpa using ht
      subst this
      simp only [rhsBinary, df1dx, hinst]
      rw [sub_zero, fdiv_ne (by linarith : (1 : ℝ) + eps ≠ 0)]
    obtain ⟨z, hz⟩ := bestIvp_some hsol
    obtain ⟨d, hzs⟩ := bestIvp_exact 1 _ _ _ _ hz
    unfold driftVals driftBinary solveIvp
    have hok : EvalOk 0 [0] := ⟨by simp, by simp, by simp⟩
    simp only [List.max?_singleton]
    rw [if_pos hok, hz]
    simp [squeeze, hzs.init]
  refine ⟨(2, 1 / 2), ⟨1 / 2, [⟨0, 2 / 3, 1, 1⟩], 1⟩, by norm_num [Box], rfl, ?_, ⟨_, hd, rfl⟩, ?_⟩
  · intro p hp
    simp only [List.mem_singleton] at hp
    subst hp
    norm_num [instBinary, fdiv]
  · refine ⟨(1 / 6) ^ 2, ?_, by norm_num⟩
    have := C109_sse (bestIvp 1) [] [] [⟨1 / 2, [⟨0, 2 / 3, 1, 1⟩], 1⟩] (2, 1 / 2) (fun _ => [1 / 2]) (by simp)
      (by intro d hdm; simp only [List.nil_append, List.mem_singleton] at hdm; subst hdm; exact ⟨by simp, hd⟩) (by simp)
    rw [this]
    norm_num [weightedSS, observations]

/-- **C109**, false of the code: the weight of a data set does not mean the same in the two methods. Doubling it doubles its share of the least-squares
objective, but multiplies its weights in the orthogonal distance regression by almost four. -/
theorem C109_weight_false (pts : List Pt) (r : ℝ × ℝ) : ffTerm ⟨pts, 2⟩ r = (ffTerm ⟨pts, 1⟩ r).map (2 * ·) ∧
    ∃ w1 w2, odrWeight 1 1 = some w1 ∧ odrWeight 1 2 = some w2 ∧ 39 / 10 * w1 < w2 := by
  refine ⟨?_, _, _, odrWeight_eq one_ne_zero (by norm_num), odrWeight_eq one_ne_zero (by norm_num), by norm_num⟩
  simp only [ffTerm, Option.map_map]
  congr 1
  ext x
  simp

/-- **C109**, false of the code: conversions are not documented to be sorted, but a drift data set with unsorted conversions makes every fit fail. -/
theorem C109_unsorted_false (opt : Minimize) (ho : OptOk opt) (odr : Odr) (tq : ℝ → ℕ → ℝ) (ivp : Ivp 1) (guess : ℝ × ℝ) (alpha : ℝ) (f10 a b : ℝ) :
    fit opt odr tq ivp [] [⟨f10, [⟨1 / 2, a, 1, 1⟩, ⟨1 / 4, b, 1, 1⟩], 1⟩] [] guess "NLLS" alpha = .error (.py .ValueError) := by
  rw [C109_errors]
  right
  refine ⟨by simp [numData], .inr (.inr ⟨rfl, ?_⟩)⟩
  unfold nlls
  rw [ho.always _ _ (.py .ValueError)]
  intro r
  have hd : driftVals ivp f10 [1 / 2, 1 / 4] r = .error (.py .ValueError) := by
    unfold driftVals driftBinary solveIvp
    have hm : ([1 / 2, 1 / 4] : List ℝ).max? = some (1 / 2) := by
      rw [List.max?_eq_some_iff]; constructor
      · simp
      · intro b hb; fin_cases hb <;> norm_num
    rw [hm]
    have : ¬ EvalOk (1 / 2) [1 / 2, 1 / 4] := fun h => by
      have := h.2.1 (by norm_num)
      norm_num at this
    simp only [if_neg this]
  simp only [sse, List.map_nil, List.map_cons, List.nil_append, List.append_nil, fxTerm, hd, addAll]

/-! ### Examples -/

open Classical in
/-- The best optimiser: a global minimum if there is one. -/
noncomputable def bestOpt : Minimize := fun s _ =>
  if h : ∃ e, ∀ r, s r = .error e then .raised h.choose
  else if h : ∃ r m, Box r ∧ s r = .ok (some m) ∧ ∀ q, Box q → ∀ m', s q = .ok (some m') → m ≤ m' then .done h.choose (some h.choose_spec.choose)
  else .failed

theorem bestOpt_ok : OptOk bestOpt := by
  refine ⟨fun s g e h => ?_, fun s g r v h => ?_, fun s g e h => ?_⟩
  · unfold bestOpt at h
    split_ifs at h with h1 h2
    cases h
    exact ⟨(0, 0), h1.choose_spec _⟩
  · unfold bestOpt at h
    split_ifs at h with h1 h2
    cases h
    exact ⟨h2.choose_spec.choose_spec.1, h2.choose_spec.choose_spec.2.1⟩
  · unfold bestOpt
    have h1 : ∃ e, ∀ r, s r = .error e := ⟨e, h⟩
    rw [dif_pos h1]
    have := h1.choose_spec (0, 0)
    rw [h (0, 0)] at this
    rw [Except.error.inj this]

theorem bestOpt_global : Global bestOpt := by
  intro s g r v h
  unfold bestOpt at h
  split_ifs at h with h1 h2
  cases h
  exact ⟨_, rfl, h2.choose_spec.choose_spec.2.2⟩

/-- Two exact observations of a system with `r1 = 2`, `r2 = 1/2`. -/
noncomputable def exData : DataFf := ⟨[⟨1 / 2, 2 / 3, 1, 1⟩, ⟨1 / 3, 1 / 2, 1, 1⟩], 1⟩

theorem exData_inst : ∀ p ∈ exData.pts, instBinary p.x 2 (1 / 2) = some p.y := by
  intro p hp
  simp only [exData, List.mem_cons, List.not_mem_nil, or_false] at hp
  rcases hp with rfl | rfl <;> norm_num [instBinary, fdiv]

theorem exData_exact (ivp : Ivp 1) : ExactData ivp [exData] [] [] (2, 1 / 2) := by
  refine ⟨fun d hd p hp => ?_, by simp, by simp⟩
  simp only [List.mem_singleton] at hd
  subst hd
  refine ⟨?_, exData_inst p hp⟩
  simp only [exData, List.mem_cons, List.not_mem_nil, or_false] at hp
  rcases hp with rfl | rfl <;> norm_num

/-- The hypotheses of `C109_recover` are met: the best optimiser succeeds on these data. -/
example (odr : Odr) (tq : ℝ → ℕ → ℝ) (ivp : Ivp 1) (guess : ℝ × ℝ) :
    ∃ res, fit bestOpt odr tq ivp [exData] [] [] guess "NLLS" (1 / 20) = .ok res ∧ (res.r1, res.r2) = (2, 1 / 2) := by
  have hw : WeightsNonneg [exData] [] [] := by
    refine ⟨fun d hd => ?_, by simp, by simp⟩
    simp only [List.mem_singleton] at hd
    subst hd
    norm_num [exData]
  have hb : Box ((2, 1 / 2) : ℝ × ℝ) := by norm_num [Box]
  have he := sse_exact (exData_exact ivp)
  have hopt : ∃ r v, bestOpt (sse ivp [exData] [] []) guess = .done r v := by
    unfold bestOpt
    rw [dif_neg (fun ⟨e, h⟩ => by rw [h] at he; cases he)]
    have hx : ∃ r m, Box r ∧ sse ivp [exData] [] [] r = .ok (some m) ∧ ∀ q, Box q → ∀ m', sse ivp [exData] [] [] q = .ok (some m') → m ≤ m' :=
      ⟨(2, 1 / 2), 0, hb, he, fun q _ m' hm => (C109_nonneg ivp _ _ _ hw q m' hm).1⟩
    rw [dif_pos hx]
    exact ⟨_, _, rfl⟩
  obtain ⟨r, v, hopt⟩ := hopt
  have hfit : ∃ res, fit bestOpt odr tq ivp [exData] [] [] guess "NLLS" (1 / 20) = .ok res := by
    refine ⟨⟨"NLLS", r.1, r.2, 1 / 20, none, none, none, none, none⟩, ?_⟩
    simp [fit, numData, nlls, exData, stdErr] at hopt ⊢
    simp [hopt]
  obtain ⟨res, hres⟩ := hfit
  refine ⟨res, hres, (C109_recover bestOpt bestOpt_ok bestOpt_global odr tq ivp [exData] [] [] guess (2, 1 / 2) _ hb hw (exData_exact ivp) ?_ res hres).1⟩
  refine ⟨exData, by simp, ⟨1 / 2, 2 / 3, 1, 1⟩, by simp [exData], exData, by simp, ⟨1 / 3, 1 / 2, 1, 1⟩, by simp [exData], ?_⟩
  norm_num [exData]

open Classical in
/-- The best orthogonal distance regression: a global minimum if there is one. -/
noncomputable def bestOdr : Odr := fun pts _ =>
  if h : ∃ b xp m, xp.length = pts.length ∧ odrObjective pts b xp = some m ∧ ∀ b' xp' m', xp'.length = pts.length → odrObjective pts b' xp' = some m' → m ≤ m'
  then some ⟨h.choose, h.choose_spec.choose, 1, 1⟩ else none

theorem bestOdr_global : GlobalOdr bestOdr := by
  intro pts g s h
  unfold bestOdr at h
  split_ifs at h with h1
  cases h
  obtain ⟨m, a, b, c⟩ := h1.choose_spec.choose_spec
  exact ⟨a, m, b, c⟩

/-- The hypotheses of `C109_recover_odr` are met. -/
example (opt : Minimize) (tq : ℝ → ℕ → ℝ) (ivp : Ivp 1) (guess : ℝ × ℝ) :
    ∃ res, fit opt bestOdr tq ivp [exData] [] [] guess "ODR" (1 / 20) = .ok res ∧ (res.r1, res.r2) = (2, 1 / 2) := by
  have w1 : odrWeight 1 1 = some ((1 + 1 / 10 ^ 10) ^ 2) := by rw [odrWeight_eq one_ne_zero (by norm_num)]; simp
  have hdata : odrData [exData] = [⟨1 / 2, 2 / 3, some ((1 + 1 / 10 ^ 10) ^ 2), some ((1 + 1 / 10 ^ 10) ^ 2)⟩,
      ⟨1 / 3, 1 / 2, some ((1 + 1 / 10 ^ 10) ^ 2), some ((1 + 1 / 10 ^ 10) ^ 2)⟩] := by
    simp only [odrData, exData, List.flatMap_cons, List.flatMap_nil, List.map_cons, List.map_nil, w1, List.append_nil]
  have hobj : odrObjective (odrData [exData]) (2, 1 / 2) [1 / 2, 1 / 3] = some 0 := by
    rw [hdata]
    norm_num [odrObjective, sumOpt, instBinary, fdiv]
  have hs : ∃ s, bestOdr (odrData [exData]) guess = some s := by
    unfold bestOdr
    have hx : ∃ b xp m, xp.length = (odrData [exData]).length ∧ odrObjective (odrData [exData]) b xp = some m ∧
        ∀ b' xp' m', xp'.length = (odrData [exData]).length → odrObjective (odrData [exData]) b' xp' = some m' → m ≤ m' := by
      refine ⟨(2, 1 / 2), [1 / 2, 1 / 3], 0, by rw [hdata]; rfl, hobj, fun b xp m' hl hm => (odr_zero _ b xp hl (fun p hp => ?_) hm).1⟩
      rw [hdata] at hp
      simp only [List.mem_cons, List.not_mem_nil, or_false] at hp
      rcases hp with rfl | rfl <;> exact ⟨_, _, rfl, rfl, by positivity, by positivity⟩
    rw [dif_pos hx]
    exact ⟨_, rfl⟩
  obtain ⟨s, hs⟩ := hs
  have hfit : ∃ res, fit opt bestOdr tq ivp [exData] [] [] guess "ODR" (1 / 20) = .ok res := by
    have hn : numData [exData] [] [] = 2 := by simp [numData, exData]
    unfold fit odrFit
    dsimp only
    rw [hs, hn, if_neg (by norm_num), if_neg (by simp), if_neg (by decide), if_pos rfl]
    exact ⟨_, rfl⟩
  obtain ⟨res, hres⟩ := hfit
  refine ⟨res, hres, C109_recover_odr bestOdr bestOdr_global opt tq ivp [exData] guess (2, 1 / 2) _ (by norm_num) (by norm_num) ?_ ?_ ?_ res hres⟩
  · intro d hd; simp only [List.mem_singleton] at hd; subst hd; norm_num [exData]
  · intro d hd p hp
    simp only [List.mem_singleton] at hd
    subst hd
    have := exData_inst p hp
    simp only [exData, List.mem_cons, List.not_mem_nil, or_false] at hp
    refine ⟨?_, ?_, this⟩ <;> rcases hp with rfl | rfl <;> norm_num
  · refine ⟨exData, by simp, ⟨1 / 2, 2 / 3, 1, 1⟩, by simp [exData], exData, by simp, ⟨1 / 3, 1 / 2, 1, 1⟩, by simp [exData], ?_⟩
    norm_num

/-- `C109_sse` applies: residual `1/3` at the azeotropic ratios. -/
example (ivp : Ivp 1) : sse ivp [⟨[⟨1 / 3, 2 / 3, 1, 1⟩], 3⟩] [] [] (1, 1) = .ok (some (3 * (1 / 3) ^ 2)) := by
  rw [C109_sse ivp _ _ _ _ (fun _ => []) (by simp; norm_num [instBinary, fdiv]; exact Option.some_ne_none _) (by simp) (by simp)]
  norm_num [weightedSS, observations, mayoLewis]

/-- One observation is not enough. -/
example (opt : Minimize) (odr : Odr) (tq : ℝ → ℕ → ℝ) (ivp : Ivp 1) (g : ℝ × ℝ) :
    fit opt odr tq ivp [⟨[⟨1 / 3, 2 / 3, 1, 1⟩], 1⟩] [] [] g "NLLS" (1 / 20) = .error .fitError :=
  (C109_errors ..).2 (.inl ⟨by simp [numData], rfl⟩)

end Verif.CopoFit
