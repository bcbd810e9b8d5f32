import Verif.Lemmas.Mixture
import Verif.Props.Utils
import Mathlib.MeasureTheory.Integral.Bochner.Set

/-!
# C22: mixing rules of `MixtureDistribution`; C20 for mixtures; C23: combining distributions

`Pos cw`: the component has positive zeroth and first mass moments and the weight is positive.
-/

namespace Verif.Mixture

open Verif.Dist Verif.Utils

/-! ### C22 -/

/-- **C22.** The mole fractions of a non-empty mixture are positive and sum to one. -/
theorem C22_molefractions (l : List (Comp × ℝ)) (hne : l ≠ []) (hp : ∀ cw ∈ l, Pos cw) :
    ((molefrac l).map Prod.snd).sum = 1 ∧ (∀ cx ∈ molefrac l, 0 < cx.2) ∧ (molefrac l).map Prod.fst = l.map Prod.fst := by
  have hs := sum_pos_of l rawMole hne fun cw h => rawMole_pos cw (hp cw h)
  refine ⟨?_, ?_, ?_⟩
  · have := molefrac_sum l fun _ => 1
    simp only [mul_one] at this
    rw [div_self hs.ne'] at this
    exact this
  · intro cx hcx
    obtain ⟨cw, hcw, rfl⟩ := List.mem_map.mp hcx
    exact div_pos (rawMole_pos cw (hp cw hcw)) hs
  · simp [molefrac, List.map_map, Function.comp]

/-- **C22.** `Mn` of a mixture is the total weight over the sum of `w_i / Mn_i`, `Mw` is the weight average of the `Mw_i`, and `Mz`
the average of the `Mz_i` weighted by `w_i Mw_i`. Components are normalised (`mm 0 0 = 1`). -/
theorem C22_averages (l : List (Comp × ℝ)) (hne : l ≠ []) (hp : ∀ cw ∈ l, Pos cw) (h1 : ∀ cw ∈ l, cw.1.mm 0 0 = 1)
    (h2 : ∀ cw ∈ l, 0 < cw.1.mm 2 0) :
    avgMn (moment l) = (l.map Prod.snd).sum / (l.map fun cw => cw.2 / avgMn cw.1.mm).sum ∧
    avgMw (moment l) = (l.map fun cw => cw.2 * avgMw cw.1.mm).sum / (l.map Prod.snd).sum ∧
    avgMz (moment l) = (l.map fun cw => cw.2 * avgMw cw.1.mm * avgMz cw.1.mm).sum / (l.map fun cw => cw.2 * avgMw cw.1.mm).sum := by
  have hs := (sum_pos_of l rawMole hne fun cw h => rawMole_pos cw (hp cw h)).ne'
  have e0 : (l.map fun cw => rawMole cw * cw.1.mm 0 0) = l.map rawMole :=
    List.map_congr_left fun cw h => by rw [h1 cw h, mul_one]
  have e1 : (l.map fun cw => rawMole cw * cw.1.mm 1 0) = l.map Prod.snd :=
    List.map_congr_left fun cw h => by
      have := (hp cw h).2.1.ne'
      unfold rawMole avgMn
      rw [h1 cw h]
      field_simp
  have e2 : (l.map fun cw => rawMole cw * cw.1.mm 2 0) = l.map fun cw => cw.2 * avgMw cw.1.mm :=
    List.map_congr_left fun cw h => by
      have := (hp cw h).2.1.ne'
      unfold rawMole avgMn avgMw
      rw [h1 cw h]
      field_simp
  have e3 : (l.map fun cw => rawMole cw * cw.1.mm 3 0) = l.map fun cw => cw.2 * avgMw cw.1.mm * avgMz cw.1.mm :=
    List.map_congr_left fun cw h => by
      have := (hp cw h).2.1.ne'
      have := (h2 cw h).ne'
      unfold rawMole avgMn avgMw avgMz
      rw [h1 cw h]
      field_simp
  unfold avgMn avgMw avgMz
  simp only [moment_eq, e0, e1, e2, e3]
  have hw := (sum_pos_of l Prod.snd hne fun cw h => (hp cw h).2.2).ne'
  have e4 : (l.map fun cw => cw.2 / (cw.1.mm 1 0 / cw.1.mm 0 0)) = l.map rawMole := rfl
  rw [e4]
  refine ⟨?_, ?_, ?_⟩
  · rw [div_self hs, div_one]
  · rw [div_div_div_cancel_right₀ hs]
    rfl
  · rw [div_div_div_cancel_right₀ hs]
    rfl

/-- A component for the examples: all chains of molar mass `M`, chain length `k`. -/
noncomputable def mono (M k : ℝ) : Comp := ⟨fun o s => k ^ o * (M / k) ^ ((o : ℤ) - s), fun _ _ _ => 0, fun _ _ _ => 0⟩

example : (∀ cw ∈ [(mono 100 10, (1 : ℝ)), (mono 300 3, 2)], Pos cw) ∧ (∀ cw ∈ [(mono 100 10, (1 : ℝ)), (mono 300 3, 2)], cw.1.mm 0 0 = 1) ∧
    ∀ cw ∈ [(mono 100 10, (1 : ℝ)), (mono 300 3, 2)], 0 < cw.1.mm 2 0 := by
  norm_num [Pos, mono]

/-- **C22.** The number and mass pdfs and cdfs of a mixture are the convex combinations of those of its components, with mole and
weight fractions respectively. -/
theorem C22_pdf_cdf (l : List (Comp × ℝ)) (hne : l ≠ []) (hp : ∀ cw ∈ l, Pos cw) (h1 : ∀ cw ∈ l, cw.1.mm 0 0 = 1) (x : ℝ)
    (b : Bool) :
    mixPdf l x 0 b = ((molefrac l).map fun cx => cx.2 * cx.1.pdf x 0 b).sum ∧
    mixCdf l x 0 b = ((molefrac l).map fun cx => cx.2 * cx.1.cdf x 0 b).sum ∧
    mixPdf l x 1 b = (l.map fun cw => cw.2 * cw.1.pdf x 1 b).sum / (l.map Prod.snd).sum ∧
    mixCdf l x 1 b = (l.map fun cw => cw.2 * cw.1.cdf x 1 b).sum / (l.map Prod.snd).sum := by
  have hs := (sum_pos_of l rawMole hne fun cw h => rawMole_pos cw (hp cw h)).ne'
  have hw := (sum_pos_of l Prod.snd hne fun cw h => (hp cw h).2.2).ne'
  have key : ∀ (order : ℕ) (f : Comp → ℝ),
      ((molefrac l).map fun cx => cx.2 * cx.1.mm order 0 * f cx.1).sum / ((molefrac l).map fun cx => cx.2 * cx.1.mm order 0).sum =
      (l.map fun cw => rawMole cw * (cw.1.mm order 0 * f cw.1)).sum / (l.map fun cw => rawMole cw * cw.1.mm order 0).sum := by
    intro order f
    rw [molefrac_sum l fun c => c.mm order 0]
    have := molefrac_sum l fun c => c.mm order 0 * f c
    simp only [← mul_assoc] at this ⊢
    rw [this, div_div_div_cancel_right₀ hs]
  have e0 : ∀ f : Comp → ℝ, (l.map fun cw => rawMole cw * (cw.1.mm 0 0 * f cw.1)) = l.map fun cw => rawMole cw * f cw.1 :=
    fun f => List.map_congr_left fun cw h => by rw [h1 cw h, one_mul]
  have e1 : ∀ f : Comp → ℝ, (l.map fun cw => rawMole cw * (cw.1.mm 1 0 * f cw.1)) = l.map fun cw => cw.2 * f cw.1 :=
    fun f => List.map_congr_left fun cw h => by
      have := (hp cw h).2.1.ne'
      unfold rawMole avgMn
      rw [h1 cw h]
      field_simp
  have d0 : (l.map fun cw => rawMole cw * cw.1.mm 0 0) = l.map rawMole :=
    List.map_congr_left fun cw h => by rw [h1 cw h, mul_one]
  have d1 : (l.map fun cw => rawMole cw * cw.1.mm 1 0) = l.map Prod.snd :=
    List.map_congr_left fun cw h => by
      have := (hp cw h).2.1.ne'
      unfold rawMole avgMn
      rw [h1 cw h]
      field_simp
  simp only [mixPdf, mixCdf]
  refine ⟨?_, ?_, ?_, ?_⟩
  · rw [key 0 fun c => c.pdf x 0 b, molefrac_sum l fun c => c.pdf x 0 b, e0 fun c => c.pdf x 0 b, d0]
  · rw [key 0 fun c => c.cdf x 0 b, molefrac_sum l fun c => c.cdf x 0 b, e0 fun c => c.cdf x 0 b, d0]
  · rw [key 1 fun c => c.pdf x 1 b, e1 fun c => c.pdf x 1 b, d1]
  · rw [key 1 fun c => c.cdf x 1 b, e1 fun c => c.cdf x 1 b, d1]

example : (∀ cw ∈ [(mono 100 10, (1 : ℝ)), (mono 300 3, 2)], Pos cw) ∧
    (∀ cw ∈ [(mono 100 10, (1 : ℝ)), (mono 300 3, 2)], cw.1.mm 0 0 = 1) := by
  norm_num [Pos, mono]

/-- **C22.** Moments, pdf and cdf do not depend on the order in which the components were inserted. -/
theorem C22_insertion_order (l l' : List (Comp × ℝ)) (h : l.Perm l') (order shift : ℕ) (x : ℝ) (b : Bool) :
    moment l order shift = moment l' order shift ∧ mixPdf l x order b = mixPdf l' x order b ∧
    mixCdf l x order b = mixCdf l' x order b := by
  have hm : (molefrac l).Perm (molefrac l') := by
    unfold molefrac
    rw [(h.map rawMole).sum_eq]
    exact h.map _
  refine ⟨(hm.map _).sum_eq, ?_, ?_⟩
  · unfold mixPdf
    dsimp only
    rw [(hm.map fun cx => cx.2 * cx.1.mm order 0).sum_eq,
      (hm.map fun cx => cx.2 * cx.1.mm order 0 * cx.1.pdf x order b).sum_eq]
  · unfold mixCdf
    dsimp only
    rw [(hm.map fun cx => cx.2 * cx.1.mm order 0).sum_eq,
      (hm.map fun cx => cx.2 * cx.1.mm order 0 * cx.1.cdf x order b).sum_eq]

example : [(mono 100 10, (1 : ℝ)), (mono 300 3, 2)].Perm [(mono 300 3, 2), (mono 100 10, 1)] := List.Perm.swap _ _ _

/-- **C22.** Nor do they depend on a common scaling of the weights. -/
theorem C22_weight_scaling (l : List (Comp × ℝ)) (c : ℝ) (hc : c ≠ 0) (order shift : ℕ) (x : ℝ) (b : Bool) :
    moment (l.map fun cw => (cw.1, c * cw.2)) order shift = moment l order shift ∧
    mixPdf (l.map fun cw => (cw.1, c * cw.2)) x order b = mixPdf l x order b ∧
    mixCdf (l.map fun cw => (cw.1, c * cw.2)) x order b = mixCdf l x order b := by
  have hm : molefrac (l.map fun cw => (cw.1, c * cw.2)) = molefrac l := by
    unfold molefrac
    rw [List.map_map, List.map_map]
    have e : (l.map (rawMole ∘ fun cw => (cw.1, c * cw.2))).sum = c * (l.map rawMole).sum := by
      rw [← List.sum_map_mul_left]
      congr 1
      refine List.map_congr_left fun cw _ => ?_
      simp only [Function.comp, rawMole]
      ring
    rw [e]
    refine List.map_congr_left fun cw _ => ?_
    simp only [Function.comp, rawMole, Prod.mk.injEq, true_and]
    rw [mul_div_assoc, mul_div_mul_left _ _ hc]
  unfold moment mixPdf mixCdf
  rw [hm]
  exact ⟨rfl, rfl, rfl⟩

example : (3 : ℝ) ≠ 0 := by norm_num

/-! ### C20 for mixtures -/

/-- **C20.** If the mass moments of every component satisfy the moment inequalities of a distribution of positive masses (see
`C20_averages_ordered`), so do those of the mixture: `Mn ≤ Mw ≤ Mz` and `PDI ≥ 1`. -/
theorem C20_mixture_mass_averages (l : List (Comp × ℝ)) (hne : l ≠ []) (hp : ∀ cw ∈ l, Pos cw) (h2 : ∀ cw ∈ l, 0 < cw.1.mm 2 0)
    (q0 : ∀ cw ∈ l, ∀ t, 0 ≤ cw.1.mm 2 0 - 2 * t * cw.1.mm 1 0 + t ^ 2 * cw.1.mm 0 0)
    (q1 : ∀ cw ∈ l, ∀ t, 0 ≤ cw.1.mm 3 0 - 2 * t * cw.1.mm 2 0 + t ^ 2 * cw.1.mm 1 0) :
    avgMn (moment l) ≤ avgMw (moment l) ∧ avgMw (moment l) ≤ avgMz (moment l) ∧ 1 ≤ avgPDI (moment l) := by
  have hs := (sum_pos_of l rawMole hne fun cw h => rawMole_pos cw (hp cw h)).ne'
  have p0 : 0 < (l.map fun cw => rawMole cw * cw.1.mm 0 0).sum :=
    sum_pos_of l _ hne fun cw h => mul_pos (rawMole_pos cw (hp cw h)) (hp cw h).1
  have p1 : 0 < (l.map fun cw => rawMole cw * cw.1.mm 1 0).sum :=
    sum_pos_of l _ hne fun cw h => mul_pos (rawMole_pos cw (hp cw h)) (hp cw h).2.1
  have p2 : 0 < (l.map fun cw => rawMole cw * cw.1.mm 2 0).sum :=
    sum_pos_of l _ hne fun cw h => mul_pos (rawMole_pos cw (hp cw h)) (h2 cw h)
  have o1 := ordered_of_quad _ _ _ p0 p1 fun t => quad_sum l (fun c => c.mm 2 0) (fun c => c.mm 1 0) (fun c => c.mm 0 0) t
    fun cw h => ⟨rawMole_pos cw (hp cw h), q0 cw h t⟩
  have o2 := ordered_of_quad _ _ _ p1 p2 fun t => quad_sum l (fun c => c.mm 3 0) (fun c => c.mm 2 0) (fun c => c.mm 1 0) t
    fun cw h => ⟨rawMole_pos cw (hp cw h), q1 cw h t⟩
  unfold avgPDI avgMn avgMw avgMz
  simp only [moment_eq]
  rw [div_div_div_cancel_right₀ hs, div_div_div_cancel_right₀ hs, div_div_div_cancel_right₀ hs]
  refine ⟨o1, o2, ?_⟩
  rw [le_div_iff₀ (by positivity), one_mul]
  exact o1

example : ∀ cw ∈ [(mono 100 10, (1 : ℝ)), (mono 300 3, 2)], ∀ t, 0 ≤ cw.1.mm 2 0 - 2 * t * cw.1.mm 1 0 + t ^ 2 * cw.1.mm 0 0 := by
  intro cw h t
  simp only [List.mem_cons, List.not_mem_nil, or_false] at h
  rcases h with rfl | rfl
  · have : (mono 100 10).mm 2 0 - 2 * t * (mono 100 10).mm 1 0 + t ^ 2 * (mono 100 10).mm 0 0 = (t - 100) ^ 2 := by
      norm_num [mono]; ring
    rw [this]; positivity
  · have : (mono 300 3).mm 2 0 - 2 * t * (mono 300 3).mm 1 0 + t ^ 2 * (mono 300 3).mm 0 0 = (t - 300) ^ 2 := by
      norm_num [mono]; ring
    rw [this]; positivity

/-- **C20 (finding).** The degree-of-polymerisation averages of a mixture need not be ordered when the components have different
`M0`: equal masses of two monodisperse polymers, chain length 100 with `M0 = 1/100` and chain length 1 with `M0 = 100`, give `DPn > DPw`. -/
theorem C20_mixture_DP_order_false :
    avgDPw (moment [(mono 1 100, 1), (mono 100 1, 1)]) < avgDPn (moment [(mono 1 100, 1), (mono 100 1, 1)]) := by
  unfold avgDPn avgDPw
  simp only [moment_eq, List.map_cons, List.map_nil, List.sum_cons, List.sum_nil, rawMole, avgMn, mono]
  norm_num

/-! ### C23 -/

/-- **C23.** Evaluating `w₁*D₁ + w₂*D₂ + …` with positive weights leaves every existing mixture as it was, and the result holds, for
each distribution, the sum of its weights. -/
theorem C23_sum_expression (h : Heap) (w : ℚ) (d : ℕ) (l : List (ℚ × ℕ)) (hw : 0 < w) (hl : ∀ wd ∈ l, 0 < wd.1) :
    ∃ h' r, sumExpr h w d l = some (h', .mix r) ∧ h.length ≤ r ∧ (∀ s < h.length, deref h' s = deref h s) ∧
      ∀ k, dget (deref h' r) k = (((w, d) :: l).map fun wd => if wd.2 = k then wd.1 else 0).sum := by
  have hm : mul h w d = (h ++ [[(d, w)]], .mix h.length) := by unfold mul alloc; rw [if_pos hw]
  unfold sumExpr
  rw [hm]
  obtain ⟨h', e1, -, e3, e4⟩ := sumFrom_spec l hl h.length (h ++ [[(d, w)]]) h.length le_rfl (by simp)
  refine ⟨h', h.length, e1, le_rfl, fun s hs => ?_, fun k => ?_⟩
  · rw [e3 s hs, deref_append_left h _ s hs]
  · rw [e4 k, deref_append_self]
    simp [dget, total]

example : ∃ h' r, sumExpr [[(7, 1)]] 2 3 [(1, 4), (5, 3)] = some (h', .mix r) ∧ deref h' 0 = [(7, 1)] ∧
    deref h' r = [(3, 7), (4, 1)] := ⟨_, _, rfl, by decide +kernel, by decide +kernel⟩

/-- Weight of distribution `k` in an operand. -/
def weightIn (h : Heap) : Val → ℕ → ℚ
  | .num _, _ => 0
  | .dist d, k => if d = k then 1 else 0
  | .mix r, k => dget (deref h r) k

/-- The operand is a number, a distribution, or a mixture that exists. -/
def Valid (h : Heap) : Val → Prop
  | .mix r => r < h.length
  | _ => True

/-- **C23.** What `x + y` does, exactly. A resulting mixture holds the sum of the weights. Two distributions give a new mixture. If an operand is a mixture, the result
is that very object (the left one if both are), so it holds the sum afterwards; every other mixture is unchanged. -/
theorem C23_add (h h' : Heap) (x y v : Val) (hwf : ∀ r, ((deref h r).map Prod.fst).Nodup) (hx : Valid h x) (hy : Valid h y) (hadd : add h x y = some (h', v)) :
    (∀ r, v = .mix r → ∀ k, dget (deref h' r) k = weightIn h x k + weightIn h y k)
      ∧ (∀ r, x = .mix r → v = .mix r) ∧ ((∀ r, x ≠ .mix r) → ∀ r, y = .mix r → v = .mix r)
      ∧ (∀ d e, x = .dist d → y = .dist e → v = .mix h.length)
      ∧ (∀ s, s < h.length → v ≠ .mix s → deref h' s = deref h s)
      ∧ ∀ r, ((deref h' r).map Prod.fst).Nodup := by
  have other : ∀ r d s, r ≠ s → deref (addInto h r d).1 s = deref h s := by
    intro r d s hrs
    unfold addInto deref
    dsimp only
    rw [List.getD_eq_getElem?_getD, List.getElem?_set, if_neg hrs, ← List.getD_eq_getElem?_getD]
  have self : ∀ r d, r < h.length → deref (addInto h r d).1 r = (addDicts (deref h r) d false).1 := by
    intro r d hr
    unfold addInto deref
    dsimp only
    rw [List.getD_eq_getElem?_getD, List.getElem?_set, if_pos rfl, if_pos hr]
    rfl
  have into : ∀ r d, r < h.length → (d.map Prod.fst).Nodup → (∀ k, dget (deref (addInto h r d).1 r) k = dget (deref h r) k + dget d k)
      ∧ ∀ s, ((deref (addInto h r d).1 s).map Prod.fst).Nodup := by
    intro r d hr hd
    have := C16_add_dicts (deref h r) d false (hwf r) hd
    rw [self r d hr]
    refine ⟨this.1, fun s => ?_⟩
    by_cases hs : r = s
    · subst hs; rw [self r d hr]; exact this.2.2.1
    · rw [other r d s hs]; exact hwf s
  have single : ∀ (d k : ℕ), dget [(d, (1 : ℚ))] k = if d = k then 1 else 0 := fun d k => rfl
  cases x with
  | num a =>
    cases y with
    | num b =>
      simp only [add, Option.some.injEq, Prod.mk.injEq] at hadd
      obtain ⟨rfl, rfl⟩ := hadd
      simpa using hwf
    | dist d => simp [add] at hadd
    | mix r =>
      simp only [add, Option.some.injEq, Prod.mk.injEq] at hadd
      obtain ⟨rfl, rfl⟩ := hadd
      refine ⟨?_, by simp, by simp, by simp, fun _ _ _ => rfl, hwf⟩
      rintro _ ⟨⟩ k
      simp [weightIn]
  | dist d =>
    cases y with
    | num b => simp [add] at hadd
    | dist e =>
      simp only [add, Option.some.injEq, alloc, Prod.mk.injEq] at hadd
      obtain ⟨rfl, rfl⟩ := hadd
      have := C16_add_dicts [(d, (1 : ℚ))] [(e, 1)] false (by simp) (by simp)
      refine ⟨?_, by simp, by simp, fun _ _ _ _ => rfl, fun s hs _ => deref_append_left h _ s hs, fun r => ?_⟩
      · rintro _ ⟨⟩ k
        rw [deref_append_self]
        exact this.1 k
      · by_cases hr : r < h.length
        · rw [deref_append_left h _ r hr]; exact hwf r
        · by_cases hr' : r = h.length
          · subst hr'; rw [deref_append_self]; exact this.2.2.1
          · have : deref (h ++ [(addDicts [(d, (1 : ℚ))] [(e, 1)] false).1]) r = [] := by
              unfold deref
              rw [List.getD_eq_getElem?_getD, List.getElem?_eq_none (by simp; omega)]
              rfl
            rw [this]; simp
    | mix r =>
      simp only [add, Option.some.injEq] at hadd
      have hv : v = .mix r := by rw [Prod.ext_iff] at hadd; exact hadd.2.symm
      have hh : (addInto h r [(d, 1)]).1 = h' := by rw [hadd]
      subst hv
      rw [← hh]
      obtain ⟨a, b⟩ := into r [(d, 1)] hy (by simp)
      refine ⟨?_, by simp, fun _ _ h => h, by simp, fun s _ hs => other r _ s fun h => hs (by rw [h]), b⟩
      rintro _ ⟨⟩ k
      rw [a, single, add_comm]; rfl
  | mix r =>
    cases y with
    | num b =>
      simp only [add, Option.some.injEq, Prod.mk.injEq] at hadd
      obtain ⟨rfl, rfl⟩ := hadd
      refine ⟨?_, fun _ h => h, by simp, by simp, fun _ _ _ => rfl, hwf⟩
      rintro _ ⟨⟩ k
      simp [weightIn]
    | dist d =>
      simp only [add, Option.some.injEq] at hadd
      have hv : v = .mix r := by rw [Prod.ext_iff] at hadd; exact hadd.2.symm
      have hh : (addInto h r [(d, 1)]).1 = h' := by rw [hadd]
      subst hv
      rw [← hh]
      obtain ⟨a, b⟩ := into r [(d, 1)] hx (by simp)
      refine ⟨?_, fun _ h => h, by simp, by simp, fun s _ hs => other r _ s fun h => hs (by rw [h]), b⟩
      rintro _ ⟨⟩ k
      rw [a, single]; rfl
    | mix q =>
      simp only [add, Option.some.injEq] at hadd
      have hv : v = .mix r := by rw [Prod.ext_iff] at hadd; exact hadd.2.symm
      have hh : (addInto h r (deref h q)).1 = h' := by rw [hadd]
      subst hv
      rw [← hh]
      obtain ⟨a, b⟩ := into r (deref h q) hx (hwf q)
      refine ⟨?_, fun _ h => h, by simp, by simp, fun s _ hs => other r _ s fun h => hs (by rw [h]), b⟩
      rintro _ ⟨⟩ k
      rw [a]; rfl

example : (∀ r, ((deref [[(1, 1)], [(1, 2), (3, 1)]] r).map Prod.fst).Nodup) ∧ ∃ h', add [[(1, 1)], [(1, 2), (3, 1)]] (.mix 1) (.mix 0) = some (h', .mix 1) ∧ deref h' 1 = [(1, 3), (3, 1)] := by
  refine ⟨fun r => ?_, _, rfl, by decide +kernel⟩
  rcases r with _ | _ | r <;> simp [deref]

/-- **C23 (finding).** `m2 = m + d` changes the mixture `m` the user still holds, and so does `m2 = d + m`; moreover `m` and `m2` are then
one and the same dict. -/
theorem C23_operands_unchanged_false :
    (∃ h', add [[(1, 1)]] (.mix 0) (.dist 2) = some (h', .mix 0) ∧ deref h' 0 = [(1, 1), (2, 1)]) ∧
    (∃ h', add [[(1, 1)]] (.dist 2) (.mix 0) = some (h', .mix 0) ∧ deref h' 0 = [(1, 1), (2, 1)]) :=
  ⟨⟨_, rfl, by decide +kernel⟩, ⟨_, rfl, by decide +kernel⟩⟩

end Verif.Mixture
