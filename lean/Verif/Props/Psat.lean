import Verif.Lemmas.Psat
import Verif.Props.Eos
import Verif.Props.FixPoint

/-!
# C106: saturation pressure from a cubic equation of state

The specification of a saturation pressure is Maxwell's equal-area rule on the isotherm (`Spec/Psat.lean`). `np.roots` is an oracle assumed exact where
stated (`ExactRoots`).
-/

namespace Verif.Psat

open Verif.Eos Verif.FixPoint Spec MeasureTheory

/-- The isotherm of a pure fluid. -/
noncomputable def isotherm (R : ℝ) (e : Cubic 1) (T : ℝ) : ℝ → ℝ := fun v => cubicP R e T v (fun _ => 1)

theorem isotherm_eq (R : ℝ) (e : Cubic 1) (T : ℝ) : isotherm R e T = iso e.kind (R * T) (am R e T fun _ => 1) (bm R e fun _ => 1) := rfl

theorem cubicK_eq (npRoots : ℝ → ℝ → ℝ → List (ℝ × ℝ)) (R : ℝ) (e : Cubic 1) (T P : ℝ) (Z : List ℝ) (hZ : cubicZ npRoots R e T P (fun _ => 1) = .ok Z) :
    cubicK npRoots R e T P (fun _ => 1) (fun _ => 1) =
      .ok fun i => Real.exp (lnPhi R e T P (fun _ => 1) (Z.headD 0) i) / Real.exp (lnPhi R e T P (fun _ => 1) (Z.getLastD 0) i) := by
  simp only [cubicK, cubicPhi, hZ, bind, Except.bind, pure, Except.pure]

theorem scalex_one {x : ℝ} (hx : x ≠ 0) : (NDiff.scalex [x]).headD 1 = 1 / |x| := by
  have h0 : |x| ≠ 0 := abs_ne_zero.2 hx
  simp [NDiff.scalex, hx, h0, List.filter_cons]

/-- A guess with a K-value of one is returned at once. -/
theorem psat_fixed (npRoots : ℝ → ℝ → ℝ → List (ℝ × ℝ)) (R : ℝ) (e : Cubic 1) (T P0 : ℝ) (hT : T < e.Tc 0)
    (hK : cubicK npRoots R e T P0 (fun _ => 1) (fun _ => 1) = .ok fun _ => 1) : psat npRoots R e T (some P0) = .found P0 [P0] := by
  have hg : g npRoots R e T (fun _ => P0) = fun _ => P0 := by
    ext i
    simp only [g, hK, mul_one]
  have hgs : guess e T (some P0) = P0 := rfl
  have hw : fixpointWegstein (g npRoots R e T) (fun _ => P0) (fun _ => (NDiff.scalex [P0]).headD 1) (1 / 10 ^ 6) (-5) 0 1 50 =
      .ok (⟨true, .tolx, 1, 1, fun _ => P0, fun _ => 0⟩, [fun _ => P0]) := by
    rw [fixpointWegstein, wegsteinLoop, hg]
    rw [if_pos]
    · simp
    · intro i; simp
  simp only [psat, psat1, ge_iff_le, if_neg (not_le.2 hT), hgs, hw]
  rw [if_neg]
  · simp
  · rintro ⟨y, hy, er, her⟩
    rw [List.mem_singleton.1 hy, hK] at her
    cases her

/-- C106: several components, or a temperature at or above critical: `ValueError`. Otherwise, with exact roots, the call raises only if it tries a
nonpositive pressure. -/
theorem C106_errors (npRoots : ℝ → ℝ → ℝ → List (ℝ × ℝ)) (R T : ℝ) (P0 : Option ℝ) :
    (∀ (N : ℕ) (e : Cubic N), N ≠ 1 → psat npRoots R e T P0 = .raised .ValueError) ∧
      ∀ e : Cubic 1, (e.Tc 0 ≤ T → psat npRoots R e T P0 = .raised .ValueError) ∧
        (T < e.Tc 0 → ExactRoots npRoots → Pos R e T (fun _ => 1) → ∀ er, psat npRoots R e T P0 = .raised er →
          ∃ k < 50, wegsteinSeq (g npRoots R e T) (-5) 0 1 (fun _ => guess e T P0) k 0 ≤ 0) := by
  refine ⟨?_, fun e => ⟨?_, ?_⟩⟩
  · intro N e hN
    match N, e with
    | 0, e => rfl
    | 1, e => exact absurd rfl hN
    | n + 2, e => rfl
  · intro h
    simp only [psat, psat1, ge_iff_le, if_pos h]
  · intro hT hx hpos er h
    simp only [psat, psat1, ge_iff_le, if_neg (not_le.2 hT)] at h
    obtain ⟨⟨sol, calls⟩, hp⟩ := (C07_wegstein_error_iff (g npRoots R e T) (fun _ => guess e T P0)
      (fun _ => (NDiff.scalex [guess e T P0]).headD 1) (1 / 10 ^ 6) (-5) 0 1 50).2 (by norm_num)
    rw [hp] at h
    dsimp only at h
    obtain ⟨h1, h2, h3, h4, h5, -⟩ := C07_wegstein_certificate _ _ _ _ _ _ _ _ _ _ hp
    by_cases hr : ∃ x ∈ calls, raises npRoots R e T (x 0)
    · obtain ⟨x, hxc, er', her⟩ := hr
      rw [h5, List.mem_map] at hxc
      obtain ⟨k, hk, rfl⟩ := hxc
      rw [max_self] at her
      refine ⟨k, ?_, ?_⟩
      · rw [List.mem_range] at hk; omega
      · by_contra hc
        obtain ⟨lo, hi, Z, hZ, -⟩ := C47_roots npRoots hx e (fun _ => 1) hpos (not_le.1 hc)
        rw [cubicK_eq _ _ _ _ _ Z hZ] at her
        cases her
    · rw [if_neg hr] at h
      split_ifs at h

/-- C106: what a returned pressure satisfies. It is the last of at most 50 trial pressures, the first being the guess; the K-value there is within
`10⁻⁶ guess/P` of one, and at no earlier trial. -/
theorem C106_result (npRoots : ℝ → ℝ → ℝ → List (ℝ × ℝ)) (R : ℝ) (e : Cubic 1) (T : ℝ) (P0 : Option ℝ) (h0 : guess e T P0 ≠ 0) (P : ℝ) (trials : List ℝ)
    (h : psat npRoots R e T P0 = .found P trials) :
    T < e.Tc 0 ∧ 1 ≤ trials.length ∧ trials.length ≤ 50 ∧ trials.head? = some (guess e T P0) ∧ trials.getLast? = some P ∧
      (∀ p ∈ trials, ∃ K, cubicK npRoots R e T p (fun _ => 1) (fun _ => 1) = .ok K) ∧
      (∀ K, cubicK npRoots R e T P (fun _ => 1) (fun _ => 1) = .ok K → |P * (K 0 - 1)| ≤ 1 / 10 ^ 6 * |guess e T P0|) ∧
      ∀ p ∈ trials.dropLast, ∀ K, cubicK npRoots R e T p (fun _ => 1) (fun _ => 1) = .ok K → 1 / 10 ^ 6 * |guess e T P0| < |p * (K 0 - 1)| := by
  simp only [psat, psat1, ge_iff_le] at h
  by_cases hT : e.Tc 0 ≤ T
  · rw [if_pos hT] at h; cases h
  rw [if_neg hT] at h
  obtain ⟨⟨sol, calls⟩, hp⟩ := (C07_wegstein_error_iff (g npRoots R e T) (fun _ => guess e T P0)
    (fun _ => (NDiff.scalex [guess e T P0]).headD 1) (1 / 10 ^ 6) (-5) 0 1 50).2 (by norm_num)
  rw [hp] at h
  dsimp only at h
  obtain ⟨h1, h2, h3, h4, h5, h6, h7, h8, h9, h10⟩ := C07_wegstein_certificate _ _ _ _ _ _ _ _ _ _ hp
  by_cases hr : ∃ x ∈ calls, raises npRoots R e T (x 0)
  · rw [if_pos hr] at h; cases h
  rw [if_neg hr] at h
  by_cases hs : sol.success = true
  swap
  · rw [if_neg hs] at h; cases h
  rw [if_pos hs] at h
  injection h with e1 e2
  subst e1 e2
  rw [max_self] at h5 h8
  have hok : ∀ x ∈ calls, ∃ K, cubicK npRoots R e T (x 0) (fun _ => 1) (fun _ => 1) = .ok K := by
    intro x hx
    rcases hK : cubicK npRoots R e T (x 0) (fun _ => 1) (fun _ => 1) with er | K
    · exact absurd ⟨x, hx, er, hK⟩ hr
    · exact ⟨K, rfl⟩
  have hres : ∀ (x : Fin 1 → ℝ) K, cubicK npRoots R e T (x 0) (fun _ => 1) (fun _ => 1) = .ok K →
      |(NDiff.scalex [guess e T P0]).headD 1 * (g npRoots R e T x 0 - x 0)| = |x 0 * (K 0 - 1)| / |guess e T P0| := by
    intro x K hK
    rw [scalex_one h0, g, hK]
    have : x 0 * K 0 - x 0 = x 0 * (K 0 - 1) := by ring
    simp only
    rw [this, abs_mul (1 / |guess e T P0|), abs_div, abs_one, abs_abs]
    ring
  have hg : 0 < |guess e T P0| := abs_pos.2 h0
  have hlen : calls.length = sol.nfeval := h1.symm
  refine ⟨not_le.1 hT, by rw [List.length_map]; omega, by rw [List.length_map]; omega, ?_, ?_, ?_, ?_, ?_⟩
  · rw [h5]
    obtain ⟨m, hm⟩ : ∃ m, sol.nfeval = m + 1 := ⟨sol.nfeval - 1, by omega⟩
    rw [hm, List.range_succ_eq_map]
    simp [wegsteinSeq]
  · rw [List.getLast?_map, h6]; rfl
  · intro p hpm
    rw [List.mem_map] at hpm
    obtain ⟨x, hx, rfl⟩ := hpm
    exact hok x hx
  · intro K hK
    have := (h9 hs).2 0
    rw [hres _ K hK, div_le_iff₀ hg] at this
    exact this
  · intro p hpm K hK
    rw [h5, List.map_map, ← List.map_dropLast, List.mem_map] at hpm
    obtain ⟨k, hk, rfl⟩ := hpm
    have hk' : k + 1 < sol.niter := by
      obtain ⟨m, hm⟩ : ∃ m, sol.nfeval = m + 1 := ⟨sol.nfeval - 1, by omega⟩
      rw [hm, List.range_succ, List.dropLast_concat, List.mem_range] at hk
      omega
    obtain ⟨i, hi⟩ := h8 k hk'
    rw [Subsingleton.elim i 0, hres _ K hK, lt_div_iff₀ hg] at hi
    exact hi

/-- C106: without an interaction matrix, the K-value of a pure fluid is `exp (area / (R T))`, the area being that between the isotherm and the line at `P`
from the liquid to the vapour volume. -/
theorem C106_area (npRoots : ℝ → ℝ → ℝ → List (ℝ × ℝ)) (hx : ExactRoots npRoots) {R T P : ℝ} (e : Cubic 1) (hk : e.k = none) (h : Pos R e T fun _ => 1)
    (hP : 0 < P) (ham : 0 < am R e T fun _ => 1) (Z : List ℝ) (hZ : cubicZ npRoots R e T P (fun _ => 1) = .ok Z) :
    ∃ K, cubicK npRoots R e T P (fun _ => 1) (fun _ => 1) = .ok K ∧
      K 0 = Real.exp (area (isotherm R e T) P (vol R (Z.headD 0) T P) (vol R (Z.getLastD 0) T P) / (R * T)) := by
  have hb : 0 < bm R e (fun _ => 1) := bm_pos h.R e h.Tc h.Pc _ (by rw [h.sum]; exact one_pos) h.nonneg
  have hRT : 0 < R * T := mul_pos h.R h.T
  obtain ⟨lo, hi, Z', hZ', hcase, hle, hlo, -⟩ := C47_roots npRoots hx e (fun _ => 1) h hP
  rw [hZ] at hZ'
  cases hZ'
  have hhead : Z.headD 0 = lo := by rcases hcase with rfl | ⟨rfl, -⟩ <;> rfl
  have hlast : Z.getLastD 0 = hi := by rcases hcase with rfl | ⟨rfl, rfl⟩ <;> rfl
  refine ⟨_, cubicK_eq npRoots R e T P Z hZ, ?_⟩
  rw [hhead, hlast, ← Real.exp_sub]
  congr 1
  have hphi : ∀ Y, bm R e (fun _ => 1) * P / (R * T) < Y →
      lnPhi R e T P (fun _ => 1) Y 0 = cubicDA R e T (vol R Y T P) (fun _ => 1) (R * T / P) / (R * T) + (Y - 1) := by
    intro Y hY
    have := C49_gibbs_partial (R := R) (T := T) (P := P) (Z := Y) e hk (fun _ => 1) h hP ham hY
    simpa using this
  have hvol : ∀ Y, bm R e (fun _ => 1) * P / (R * T) < Y → bm R e (fun _ => 1) < vol R Y T P := by
    intro Y hY
    rw [div_lt_iff₀ hRT] at hY
    rw [vol, lt_div_iff₀ hP]
    linarith
  have hlo' := hvol lo hlo
  have hhi' := hvol hi (hlo.trans_le hle)
  have hd : ∀ v ∈ Set.uIcc (vol R lo T P) (vol R hi T P), HasDerivAt (fun V => -cubicDA R e T V (fun _ => 1) (R * T / P) - P * V) (isotherm R e T v - P) v := by
    intro v hv
    have hbv : bm R e (fun _ => 1) < v := (lt_min hlo' hhi').trans_le hv.1
    have h1 := C48_cubic (T := T) (V := v) (v0 := R * T / P) h.R e (fun _ => 1) h.Tc h.Pc h.nonneg (by simp) (div_pos hRT hP)
      (by simpa [bm] using hbv)
    have h2 := (h1.neg.sub ((hasDerivAt_id v).const_mul P))
    refine h2.congr_deriv ?_
    simp [isotherm]
  have hI : area (isotherm R e T) P (vol R lo T P) (vol R hi T P) =
      (-cubicDA R e T (vol R hi T P) (fun _ => 1) (R * T / P) - P * vol R hi T P) -
        (-cubicDA R e T (vol R lo T P) (fun _ => 1) (R * T / P) - P * vol R lo T P) := by
    rw [area]
    refine intervalIntegral.integral_eq_sub_of_hasDerivAt hd ?_
    refine ContinuousOn.intervalIntegrable ?_
    rw [isotherm_eq]
    refine ((iso_cont e.kind hb ham).mono fun v hv => ?_).sub continuousOn_const
    exact (lt_min hlo' hhi').trans_le hv.1
  rw [hI, hphi lo hlo, hphi hi (hlo.trans_le hle)]
  have e1 : ∀ Y, P * vol R Y T P = Y * (R * T) := by intro Y; rw [vol]; field_simp
  rw [e1, e1]
  generalize cubicDA R e T (vol R lo T P) (fun _ => 1) (R * T / P) = D1
  generalize cubicDA R e T (vol R hi T P) (fun _ => 1) (R * T / P) = D2
  generalize R * T = q at hRT
  field_simp
  ring

/-- C106: an isotherm has at most one saturation pressure, with one pair of volumes. -/
theorem C106_unique {R T : ℝ} (e : Cubic 1) (h : Pos R e T fun _ => 1) (ham : 0 < am R e T fun _ => 1) {P P' vL vV vL' vV' : ℝ}
    (h1 : Coexist (isotherm R e T) (bm R e fun _ => 1) P vL vV) (h2 : Coexist (isotherm R e T) (bm R e fun _ => 1) P' vL' vV') :
    P = P' ∧ vL = vL' ∧ vV = vV' := by
  have hb : 0 < bm R e (fun _ => 1) := bm_pos h.R e h.Tc h.Pc _ (by rw [h.sum]; exact one_pos) h.nonneg
  rw [isotherm_eq] at h1 h2
  have f1 := falls_of_coexist e.kind hb ham h1
  have f2 := falls_of_coexist e.kind hb ham h2
  have hPP : P = P' := by
    rcases lt_trichotomy P P' with hlt | heq | hgt
    · obtain ⟨-, hg, -, hA⟩ := area_mono e.kind hb ham hlt f1 f2
      rw [h1.equal, h2.equal] at hA
      have := mul_pos (sub_pos.2 hlt) (sub_pos.2 hg)
      linarith
    · exact heq
    · obtain ⟨-, hg, -, hA⟩ := area_mono e.kind hb ham hgt f2 f1
      rw [h1.equal, h2.equal] at hA
      have := mul_pos (sub_pos.2 hgt) (sub_pos.2 hg)
      linarith
  subst hPP
  refine ⟨rfl, ?_, ?_⟩
  · rcases lt_trichotomy vL vL' with hlt | heq | hgt
    · have := f2.left ⟨f1.gt, hlt.le⟩ ⟨f2.gt, le_rfl⟩ hlt
      rw [f1.atL, f2.atL] at this; exact absurd this (lt_irrefl _)
    · exact heq
    · have := f1.left ⟨f2.gt, hgt.le⟩ ⟨f1.gt, le_rfl⟩ hgt
      rw [f1.atL, f2.atL] at this; exact absurd this (lt_irrefl _)
  · rcases lt_trichotomy vV vV' with hlt | heq | hgt
    · have := f1.right (Set.mem_Ici.2 le_rfl) (Set.mem_Ici.2 hlt.le) hlt
      rw [f1.atV, f2.atV] at this; exact absurd this (lt_irrefl _)
    · exact heq
    · have := f2.right (Set.mem_Ici.2 le_rfl) (Set.mem_Ici.2 hgt.le) hgt
      rw [f1.atV, f2.atV] at this; exact absurd this (lt_irrefl _)

/-- C106: error of a returned pressure at which the equation of state has two different solutions: its distance from the true saturation pressure times
the difference of volumes is at most `R T |ln K|`, and `K` is within `10⁻⁶ guess/P` of one. If `K = 1` it is the saturation pressure. -/
theorem C106_accuracy (npRoots : ℝ → ℝ → ℝ → List (ℝ × ℝ)) (hx : ExactRoots npRoots) {R T : ℝ} (e : Cubic 1) (hk : e.k = none) (h : Pos R e T fun _ => 1)
    (ham : 0 < am R e T fun _ => 1) (P0 : Option ℝ) (h0 : guess e T P0 ≠ 0) (P : ℝ) (trials : List ℝ) (hres : psat npRoots R e T P0 = .found P trials)
    (hP : 0 < P) (ZL ZV : ℝ) (hZ : cubicZ npRoots R e T P (fun _ => 1) = .ok [ZL, ZV]) (hlt : ZL < ZV) (hL : isotherm R e T (vol R ZL T P) = P)
    (hV : isotherm R e T (vol R ZV T P) = P) :
    ∃ K : ℝ, |K - 1| ≤ 1 / 10 ^ 6 * |guess e T P0| / P ∧
      (∀ Ps vL vV, Coexist (isotherm R e T) (bm R e fun _ => 1) Ps vL vV →
        0 < min (vol R ZV T P) vV - max (vol R ZL T P) vL ∧
          |P - Ps| * (min (vol R ZV T P) vV - max (vol R ZL T P) vL) ≤ R * T * |Real.log K|) ∧
      (K = 1 → Coexist (isotherm R e T) (bm R e fun _ => 1) P (vol R ZL T P) (vol R ZV T P)) := by
  have hb : 0 < bm R e (fun _ => 1) := bm_pos h.R e h.Tc h.Pc _ (by rw [h.sum]; exact one_pos) h.nonneg
  have hRT : 0 < R * T := mul_pos h.R h.T
  obtain ⟨K, hK, hKe⟩ := C106_area npRoots hx e hk h hP ham _ hZ
  obtain ⟨-, -, -, -, -, -, hc, -⟩ := C106_result npRoots R e T P0 h0 P trials hres
  have hcK := hc K hK
  obtain ⟨lo, hi, Z', hZ', hcase, hle, hlo, hbet⟩ := C47_roots npRoots hx e (fun _ => 1) h hP
  rw [hZ] at hZ'
  cases hZ'
  have e1 : lo = ZL := by
    rcases hcase with h | ⟨h, -⟩
    · simp only [List.cons.injEq] at h; exact h.1.symm
    · simp at h
  have e2 : hi = ZV := by
    rcases hcase with h | ⟨h, -⟩
    · simp only [List.cons.injEq] at h; exact h.2.1.symm
    · simp at h
  subst e1 e2
  set v1 := vol R lo T P with hv1
  set v2 := vol R hi T P with hv2
  have hgt : bm R e (fun _ => 1) < v1 := by
    rw [div_lt_iff₀ hRT] at hlo
    rw [hv1, vol, lt_div_iff₀ hP]
    linarith
  have hv12 : v1 < v2 := by
    rw [hv1, hv2, vol, vol, div_lt_div_iff_of_pos_right hP, mul_assoc, mul_assoc]
    exact mul_lt_mul_of_pos_right hlt hRT
  have hext : Extreme (isotherm R e T) (bm R e fun _ => 1) P v1 v2 := by
    refine ⟨hgt, hv12, hL, hV, fun v hv hvP => ?_⟩
    obtain ⟨a1, a2⟩ := hbet v hv hvP
    rw [le_div_iff₀ hRT] at a1
    rw [div_le_iff₀ hRT] at a2
    constructor
    · rw [hv1, vol, div_le_iff₀ hP]; linarith
    · rw [hv2, vol, le_div_iff₀ hP]; linarith
  have hf := falls_of_extreme e.kind hb ham hRT hP (by rw [isotherm_eq] at hext; exact hext)
  have hheads : ([lo, hi] : List ℝ).headD 0 = lo ∧ ([lo, hi] : List ℝ).getLastD 0 = hi := ⟨rfl, rfl⟩
  rw [hheads.1, hheads.2, ← hv1, ← hv2] at hKe
  have hlog : R * T * Real.log (K 0) = area (isotherm R e T) P v1 v2 := by
    rw [hKe, Real.log_exp, mul_div_cancel₀ _ hRT.ne']
  refine ⟨K 0, ?_, ?_, ?_⟩
  · rw [abs_mul, abs_of_pos hP] at hcK
    rw [le_div_iff₀ hP]; linarith
  · intro Ps vL vV hco
    have hco' := hco
    rw [isotherm_eq] at hco'
    have hfs := falls_of_coexist e.kind hb ham hco'
    have habs : R * T * |Real.log (K 0)| = |area (isotherm R e T) P v1 v2| := by rw [← hlog, abs_mul, abs_of_pos hRT]
    rw [habs]
    rcases lt_trichotomy P Ps with hl | heq | hg
    · obtain ⟨b1, b2, b3, b4⟩ := area_mono e.kind hb ham hl hf hfs
      rw [← isotherm_eq, hco.equal] at b4
      rw [min_eq_right b3.le, max_eq_left b1.le, abs_of_neg (sub_neg.2 hl)]
      refine ⟨sub_pos.2 b2, le_trans ?_ (le_abs_self _)⟩
      linarith
    · subst heq
      refine ⟨?_, by rw [sub_self, abs_zero, zero_mul]; exact abs_nonneg _⟩
      have hLe : v1 = vL := by
        refine le_antisymm (hext.between vL hco.gt hco.atL).1 ?_
        by_contra hlt'
        have := hfs.left ⟨hgt, (not_le.1 hlt').le⟩ ⟨hco.gt, le_rfl⟩ (not_le.1 hlt')
        rw [← isotherm_eq, hL, hco.atL] at this; exact lt_irrefl _ this
      have hVe : v2 = vV := by
        refine le_antisymm ?_ (hext.between vV (hco.gt.trans hco.lt) hco.atV).2
        by_contra hlt'
        have := hfs.right (Set.mem_Ici.2 le_rfl) (Set.mem_Ici.2 (not_le.1 hlt').le) (not_le.1 hlt')
        rw [← isotherm_eq, hV, hco.atV] at this; exact lt_irrefl _ this
      rw [← hLe, ← hVe, min_self, max_self]
      exact sub_pos.2 hv12
    · obtain ⟨b1, b2, b3, b4⟩ := area_mono e.kind hb ham hg hfs hf
      rw [← isotherm_eq, hco.equal] at b4
      rw [min_eq_left b3.le, max_eq_right b1.le, abs_of_pos (sub_pos.2 hg)]
      refine ⟨sub_pos.2 b2, le_trans ?_ (neg_le_abs _)⟩
      linarith
  · intro hK1
    refine ⟨hgt, hv12, hL, hV, ?_⟩
    rw [← hlog, hK1, Real.log_one, mul_zero]

/-- C106: a guess at which the equation of state has a single solution is returned unchanged as "saturation pressure". Every guess of at least
`R T / ((2 + u) b)` is such. -/
theorem C106_single_phase (npRoots : ℝ → ℝ → ℝ → List (ℝ × ℝ)) (hx : ExactRoots npRoots) {R T : ℝ} (e : Cubic 1) (h : Pos R e T fun _ => 1) (hT : T < e.Tc 0)
    (P0 : ℝ) (hP0 : R * T / ((2 + e.kind.u) * bm R e fun _ => 1) ≤ P0) : psat npRoots R e T (some P0) = .found P0 [P0] := by
  have hb : 0 < bm R e (fun _ => 1) := bm_pos h.R e h.Tc h.Pc _ (by rw [h.sum]; exact one_pos) h.nonneg
  have hRT : 0 < R * T := mul_pos h.R h.T
  have hu := e.kind.u_pos
  have hP : 0 < P0 := lt_of_lt_of_le (by positivity) hP0
  set A := am R e T (fun _ => 1) * P0 / (R * T) ^ 2 with hA
  set B := bm R e (fun _ => 1) * P0 / (R * T) with hB
  have hB0 : 0 < B := by positivity
  have hBs : 1 ≤ (2 + e.kind.u) * B := by
    rw [div_le_iff₀ (by positivity)] at hP0
    rw [hB, ← mul_div_assoc, le_div_iff₀ hRT]
    linarith
  have hneg : cub (cubicCoefs e.kind.u e.kind.w A B).1 (cubicCoefs e.kind.u e.kind.w A B).2.1 (cubicCoefs e.kind.u e.kind.w A B).2.2 B < 0 := by
    rw [cub_at_B]
    have := mul_pos e.kind.sum_pos (pow_pos hB0 2)
    linarith
  have hsum : -(cubicCoefs e.kind.u e.kind.w A B).1 ≤ 3 * B := by
    simp only [cubicCoefs]; linarith
  obtain ⟨x, hxB, hx0⟩ := cub_root _ _ _ B hneg
  have hmem : (x, (0 : ℝ)) ∈ npRoots (cubicCoefs e.kind.u e.kind.w A B).1 (cubicCoefs e.kind.u e.kind.w A B).2.1 (cubicCoefs e.kind.u e.kind.w A B).2.2 := by
    rw [hx]
    simp only [Complex.ofReal_zero, zero_mul, add_zero]
    unfold cub at hx0
    exact_mod_cast hx0
  obtain ⟨lo, hi, Z, h1, h2, h3, ⟨y1, m1, -, g1⟩, ⟨y2, m2, -, g2⟩, -⟩ :=
    selectRoots_spec _ B ⟨(x, 0), hmem, by rw [abs_zero, Eos.eps]; positivity, hxB⟩
  have heq : lo = hi := single_root hneg hsum g1 g2 ((hx _ _ _ _ _).1 m1) ((hx _ _ _ _ _).1 m2)
  have hZ : cubicZ npRoots R e T P0 (fun _ => 1) = .ok Z := h1
  have hhead : Z.headD 0 = lo := by rcases h2 with rfl | ⟨rfl, -⟩ <;> rfl
  have hlast : Z.getLastD 0 = lo := by rcases h2 with rfl | ⟨rfl, -⟩ <;> simp [heq]
  have hK : cubicK npRoots R e T P0 (fun _ => 1) (fun _ => 1) = .ok fun _ => 1 := by
    rw [cubicK_eq _ _ _ _ _ Z hZ, hhead, hlast]
    congr 1
    ext i
    exact div_self (Real.exp_pos _).ne'
  exact psat_fixed npRoots R e T P0 hT hK

/-- C106: the saturation pressure is a fixed point: there the equation of state has the two coexisting volumes as its extreme solutions, the K-value is
one, and used as the guess it is returned at once. -/
theorem C106_saturation (npRoots : ℝ → ℝ → ℝ → List (ℝ × ℝ)) (hx : ExactRoots npRoots) {R T P vL vV : ℝ} (e : Cubic 1) (hk : e.k = none)
    (h : Pos R e T fun _ => 1) (ham : 0 < am R e T fun _ => 1) (hP : 0 < P) (hco : Coexist (isotherm R e T) (bm R e fun _ => 1) P vL vV) :
    cubicZ npRoots R e T P (fun _ => 1) = .ok [P * vL / (R * T), P * vV / (R * T)] ∧
      cubicK npRoots R e T P (fun _ => 1) (fun _ => 1) = .ok (fun _ => 1) ∧
      (T < e.Tc 0 → psat npRoots R e T (some P) = .found P [P]) := by
  have hb : 0 < bm R e (fun _ => 1) := bm_pos h.R e h.Tc h.Pc _ (by rw [h.sum]; exact one_pos) h.nonneg
  have hRT : 0 < R * T := mul_pos h.R h.T
  have hco' := hco
  rw [isotherm_eq] at hco'
  have hf := falls_of_coexist e.kind hb ham hco'
  obtain ⟨lo, hi, Z, hZ, hcase, hle, hlo, hbet⟩ := C47_roots npRoots hx e (fun _ => 1) h hP
  have hL := hbet vL hco.gt hco.atL
  have hV := hbet vV (hco.gt.trans hco.lt) hco.atV
  have hlt : P * vL / (R * T) < P * vV / (R * T) := (div_lt_div_iff_of_pos_right hRT).2 (mul_lt_mul_of_pos_left hco.lt hP)
  have hZ2 : Z = [lo, hi] := by
    rcases hcase with h | ⟨-, h⟩
    · exact h
    · exact absurd (h ▸ hL.1.trans_lt hlt) (not_lt.2 (h ▸ hV.2))
  subst hZ2
  have hreal : ∀ c2 c1 c0, ∀ x ∈ npRoots c2 c1 c0, (c2, c1, c0) = cubicCoefs e.kind.u e.kind.w (am R e T (fun _ => 1) * P / (R * T) ^ 2)
      (bm R e (fun _ => 1) * P / (R * T)) → |x.2| < Eos.eps → x.2 = 0 := by
    intro c2 c1 c0 x hxm hc _
    obtain ⟨x, y⟩ := x
    have hroot := (hx _ _ _ _ _).1 hxm
    have hr : ∀ v, bm R e (fun _ => 1) < v → isotherm R e T v = P → cub c2 c1 c0 (P * v / (R * T)) = 0 := by
      intro v hv hPv
      have hBv : bm R e (fun _ => 1) * P / (R * T) < P * v / (R * T) := by
        rw [mul_comm P v]
        exact (div_lt_div_iff_of_pos_right hRT).2 (mul_lt_mul_of_pos_right hv hP)
      have h1 := P_residual (R := R) (T := T) (P := P) h.R h.T hP e (fun _ => 1) hb hBv
      have hvol : vol R (P * v / (R * T)) T P = v := by
        have := h.R.ne'
        have := h.T.ne'
        rw [vol]; field_simp
      rw [hvol, ← isotherm, hPv, sub_self, zero_mul, ← hc] at h1
      exact ((mul_eq_zero.1 h1.symm).resolve_left hP.ne')
    exact real_of_two_roots (hr vL hco.gt hco.atL) (hr vV (hco.gt.trans hco.lt) hco.atV) hlt.ne hroot
  have p1 := (C47_pressure npRoots hx e (fun _ => 1) h hP _ hZ lo (by simp))
  have p2 := (C47_pressure npRoots hx e (fun _ => 1) h hP _ hZ hi (by simp))
  have q1 : isotherm R e T (vol R lo T P) = P := p1.2.2 hreal
  have q2 : isotherm R e T (vol R hi T P) = P := p2.2.2 hreal
  have e1 : vol R lo T P = vL := by
    have : vol R lo T P ≤ vL := by
      rw [vol, div_le_iff₀ hP]
      have := hL.1
      rw [le_div_iff₀ hRT] at this; linarith
    refine le_antisymm this ?_
    by_contra hc
    have := hf.left ⟨p1.1, this⟩ ⟨hco.gt, le_rfl⟩ (not_le.1 hc)
    rw [← isotherm_eq, q1, hco.atL] at this; exact lt_irrefl _ this
  have e2 : vol R hi T P = vV := by
    have : vV ≤ vol R hi T P := by
      rw [vol, le_div_iff₀ hP]
      have := hV.2
      rw [div_le_iff₀ hRT] at this; linarith
    refine le_antisymm ?_ this
    by_contra hc
    have := hf.right (Set.mem_Ici.2 le_rfl) (Set.mem_Ici.2 this) (not_le.1 hc)
    rw [← isotherm_eq, q2, hco.atV] at this; exact lt_irrefl _ this
  have hinv : ∀ Y, P * vol R Y T P / (R * T) = Y := by
    intro Y; rw [vol]
    have := h.R
    have := h.T
    field_simp
  have hK : cubicK npRoots R e T P (fun _ => 1) (fun _ => 1) = .ok (fun _ => 1) := by
    obtain ⟨K, hK, hKe⟩ := C106_area npRoots hx e hk h hP ham _ hZ
    have hh : ([lo, hi] : List ℝ).headD 0 = lo ∧ ([lo, hi] : List ℝ).getLastD 0 = hi := ⟨rfl, rfl⟩
    rw [hh.1, hh.2, e1, e2, hco.equal, zero_div, Real.exp_zero] at hKe
    rw [hK]
    congr 1
    ext i
    rw [Subsingleton.elim i 0, hKe]
  refine ⟨?_, hK, ?_⟩
  · rw [hZ, ← e1, ← e2, hinv, hinv]
  · intro hT
    exact psat_fixed npRoots R e T P hT hK

/-- A Redlich-Kwong fluid with a known saturation pressure. -/
theorem exists_fluid : ∃ (e : Cubic 1) (P vV : ℝ), Pos 1 e 1 (fun _ => 1) ∧ e.k = none ∧ 1 < e.Tc 0 ∧ 0 < P ∧ (0 < am 1 e 1 fun _ => 1) ∧
    bm 1 e (fun _ => 1) = 1 ∧ e.kind.u = 1 ∧ Coexist (isotherm 1 e 1) (bm 1 e fun _ => 1) P 2 vV := by
  obtain ⟨a, P, v, ha5, ha6, hP, hco⟩ := exists_coexist
  have hr : 1 < a * 0.08664 / 0.42748 := by rw [lt_div_iff₀ (by norm_num)]; linarith
  set t : ℝ := (a * 0.08664 / 0.42748) ^ ((2 : ℝ) / 3) with ht
  have ht1 : 1 < t := Real.one_lt_rpow hr (by norm_num)
  have ht0 : 0 < t := by linarith
  have hts : t * √t = a * 0.08664 / 0.42748 := by
    rw [Real.sqrt_eq_rpow, ← Real.rpow_one_add' ht0.le (by norm_num), ht, ← Real.rpow_mul (by linarith)]
    norm_num
  set e : Cubic 1 := ⟨.RK, fun _ => t, fun _ => 0.08664 * t, fun _ => 0, none⟩ with he
  have hpos : Pos 1 e 1 (fun _ => 1) := ⟨one_pos, fun _ => ht0, fun _ => by simp only [he]; positivity, one_pos, by simp, fun _ => zero_le_one⟩
  have hbm : bm 1 e (fun _ => 1) = 1 := by
    have h1 : ∀ i, b 1 e i = 1 := by
      intro i
      simp only [b, he, Kind.Ωb, mul_one]
      exact div_self (by positivity)
    simp [bm, h1]
  have ham : am 1 e 1 (fun _ => 1) = a := by
    have ha1 : ∀ i, Eos.a 1 e 1 i = a := by
      intro i
      simp only [Eos.a, he, Kind.Ωa, alpha, div_one, one_mul]
      have : 0.42748 * t ^ 2 / (0.08664 * t) * √t = 0.42748 / 0.08664 * (t * √t) := by field_simp
      rw [this, hts]; field_simp
    simp only [am, he, Mixing.geometric]
    rw [← he]
    simp only [ha1, one_mul]
    simp [Real.sq_sqrt (by linarith : 0 ≤ a)]
  have hu : e.kind.u = 1 := rfl
  have hco' : Coexist (isotherm 1 e 1) (bm 1 e fun _ => 1) P 2 v := by
    rw [isotherm_eq, hbm, ham, mul_one]; exact hco
  exact ⟨e, P, v, hpos, rfl, ht1, hP, by rw [ham]; linarith, hbm, hu, hco'⟩

/-- C106: the returned pressure is not determined by the fluid and the temperature, and need not be the saturation pressure. -/
theorem C106_guess_false (npRoots : ℝ → ℝ → ℝ → List (ℝ × ℝ)) (hx : ExactRoots npRoots) :
    ∃ (e : Cubic 1) (R T P vL vV : ℝ), Pos R e T (fun _ => 1) ∧ e.k = none ∧ T < e.Tc 0 ∧ 0 < P ∧
      Coexist (isotherm R e T) (bm R e fun _ => 1) P vL vV ∧
      ∃ P1 P2, P < P1 ∧ P1 < P2 ∧ psat npRoots R e T (some P1) = .found P1 [P1] ∧ psat npRoots R e T (some P2) = .found P2 [P2] := by
  obtain ⟨e, P, v, hpos, hk, ht1, hP, -, hbm, hu, hco⟩ := exists_fluid
  refine ⟨e, 1, 1, P, 2, v, hpos, hk, ht1, hP, hco, P + 1, P + 2, by linarith, by linarith, ?_, ?_⟩
  · refine C106_single_phase npRoots hx e hpos ht1 _ ?_
    rw [hbm, hu]; norm_num; linarith
  · refine C106_single_phase npRoots hx e hpos ht1 _ ?_
    rw [hbm, hu]; norm_num; linarith

-- non-vacuity: a fluid with a saturation pressure, found from the guess; the accuracy statement applies to it
example : ∃ npRoots, ExactRoots npRoots ∧ ∃ (e : Cubic 1) (P ZL ZV : ℝ), psat npRoots 1 e 1 (some P) = .found P [P] ∧ 0 < P ∧
    cubicZ npRoots 1 e 1 P (fun _ => 1) = .ok [ZL, ZV] ∧ ZL < ZV ∧ isotherm 1 e 1 (vol 1 ZL 1 P) = P ∧ isotherm 1 e 1 (vol 1 ZV 1 P) = P ∧
    ∃ K : ℝ, |K - 1| ≤ 1 / 10 ^ 6 * |P| / P := by
  obtain ⟨r, hr⟩ := exactRoots_exists
  obtain ⟨e, P, v, hpos, hk, ht1, hP, ham, hbm, hu, hco⟩ := exists_fluid
  obtain ⟨h1, h2, h3⟩ := C106_saturation r hr e hk hpos ham hP hco
  have hvol : ∀ y, vol 1 (P * y / (1 * 1)) 1 P = y := by intro y; rw [vol]; field_simp
  have hlt : P * 2 / (1 * 1) < P * v / (1 * 1) := by
    rw [mul_one, div_one, div_one]; exact mul_lt_mul_of_pos_left hco.lt hP
  refine ⟨r, hr, e, P, _, _, h3 ht1, hP, h1, hlt, by rw [hvol]; exact hco.atL, by rw [hvol]; exact hco.atV, ?_⟩
  obtain ⟨K, hK, -⟩ := C106_accuracy r hr e hk hpos ham (some P) hP.ne' P [P] (h3 ht1) hP _ _ h1 hlt (by rw [hvol]; exact hco.atL) (by rw [hvol]; exact hco.atV)
  exact ⟨K, hK⟩

example (npRoots : ℝ → ℝ → ℝ → List (ℝ × ℝ)) : psat npRoots 8 (⟨.PR, ![500, 600], ![10, 10], ![0, 0], none⟩ : Cubic 2) 300 none = .raised .ValueError :=
  (C106_errors npRoots 8 300 none).1 2 _ (by norm_num)

example : ∃ (e : Cubic 1) (P vL vV : ℝ), Pos 1 e 1 (fun _ => 1) ∧ (0 < am 1 e 1 fun _ => 1) ∧ Coexist (isotherm 1 e 1) (bm 1 e fun _ => 1) P vL vV := by
  obtain ⟨e, P, v, hpos, -, -, -, ham, -, -, hco⟩ := exists_fluid
  exact ⟨e, P, 2, v, hpos, ham, hco⟩

end Verif.Psat
