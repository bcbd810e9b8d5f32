import Verif.Lemmas.Cache
import Mathlib.Tactic

/-!
# C116: memoised parameter functions
-/

namespace Verif.Cache

open Acm Eos Mixing

variable {ι V M : Type} (body : M → ℝ → (ι → V) → V) {N : ℕ}

/-- **C116.** A call with a temperature used before gives back the same array object, whatever happened in between; its contents are those at the first return
unless it was written into. A call with a temperature not used before computes the formula from the present contents of the parameter arrays into a new array and
changes no other array. -/
theorem C116_first_call (h : Heap ι V M) (o : ℕ) (hw : WF h o) (m : M) (T : ℝ) :
    (h.memo o m T = none → let c := h.call body o m T
      c.2.cells c.1 = body m T (h.params o) ∧ c.1 = h.next ∧ ∀ r < h.next, c.2.cells r = h.cells r) ∧
    ∀ l, let c := h.call body o m T
      (c.2.run body l).call body o m T = (c.1, c.2.run body l) ∧
        ((∀ v, Op.write c.1 v ∉ l) → (c.2.run body l).cells c.1 = c.2.cells c.1) := by
  refine ⟨fun e => ?_, fun l => ⟨?_, fun hv => ?_⟩⟩
  · obtain ⟨c1, -, -, c4, -, -⟩ := call_none body e
    refine ⟨?_, c1, fun r hr => ?_⟩
    · rw [c4, c1, Function.update_self]
    · rw [c4, Function.update_of_ne hr.ne]
  · exact call_some body (memo_run body _ l (call_memo body h o m T))
  · refine cells_run body _ l ?_ hv
    cases e : h.memo o m T with
    | some r => rw [call_some body e]; exact hw.1 m T r e
    | none => rw [(call_none body e).1, (call_none body e).2.1]; exact Nat.lt_succ_self _

/-- **C116.** As long as nobody writes into the parameter arrays of an object or into an array one of its methods returned, and its attributes are not assigned, the cache
cannot be noticed: whatever else happens, also to other objects, each call returns what the formula gives. -/
theorem C116_transparent (h : Heap ι V M) (o : ℕ) (hf : Fresh h o) (l : List (Op ι V M)) (hl : Untouched body h o l) (m : M) (T : ℝ) :
    let c := (h.run body l).call body o m T
    c.2.cells c.1 = body m T (h.params o) ∧ (h.run body l).params o = h.params o := by
  have H0 : Sound body h o (h.objs o) (h.params o) := ⟨⟨fun m T r e => (by rw [hf.1] at e; cases e), hf.2⟩, rfl, rfl, fun m T r e => (by rw [hf.1] at e; cases e)⟩
  have H := sound_run body H0 l hl.1 hl.2
  exact ⟨(sound_call body H m T).1, H.params⟩

private theorem sound_of (h : Heap ι V M) (o : ℕ) (hf : Fresh h o) (l : List (Op ι V M)) (hl : Untouched body h o l) :
    Sound body (h.run body l) o (h.objs o) (h.params o) := by
  have H0 : Sound body h o (h.objs o) (h.params o) := ⟨⟨fun m T r e => (by rw [hf.1] at e; cases e), hf.2⟩, rfl, rfl, fun m T r e => (by rw [hf.1] at e; cases e)⟩
  exact sound_run body H0 l hl.1 hl.2

private theorem two_calls {h : Heap ι V M} {o : ℕ} {refs : ι → ℕ} {p : ι → V} (H : Sound body h o refs p) (m m' : M) (T T' : ℝ) :
    let c := h.call body o m T
    let d := c.2.call body o m' T'
    d.2.cells c.1 = body m T p ∧ d.2.cells d.1 = body m' T' p := by
  have h1 := sound_call body H m T
  have h2 := sound_call body h1.2 m' T'
  refine ⟨?_, h2.1⟩
  have := memo_step body (h.call body o m T).2 (.call o m' T') (call_memo body h o m T)
  exact h2.2.memo m T _ this

/-- **C116.** Then the methods of the activity models and the pressure of the cubic equations of state, which go through the cache, give the values of the
models without cache. -/
theorem C116_models (R : ℝ) (o : ℕ) (T : ℝ) (x : Fin N → ℝ) :
    (∀ (h : Heap (Fin 6) (Mat N) NrtlM) l, Fresh h o → Untouched nrtlCalc h o l →
      nrtlGEc R (h.run nrtlCalc l) o T x = (Nrtl.mk (a := h.params o 0) (b := h.params o 1) (c := h.params o 2) (d := h.params o 3) (e := h.params o 4) (f := h.params o 5)).gE R T x ∧ nrtlGammac (h.run nrtlCalc l) o T x = (Nrtl.mk (a := h.params o 0) (b := h.params o 1) (c := h.params o 2) (d := h.params o 3) (e := h.params o 4) (f := h.params o 5)).gamma T x) ∧
    (∀ (h : Heap (Fin 4) (Mat N) Unit) l, Fresh h o → Untouched wilsonCalc h o l →
      wilsonGEc R (h.run wilsonCalc l) o T x = (Wilson.mk (a := h.params o 0) (b := h.params o 1) (c := h.params o 2) (d := h.params o 3)).gE R T x ∧ wilsonGammac (h.run wilsonCalc l) o T x = (Wilson.mk (a := h.params o 0) (b := h.params o 1) (c := h.params o 2) (d := h.params o 3)).gamma T x) ∧
    (∀ (h : Heap (Fin 4) (Mat N) Unit) l q r, Fresh h o → Untouched uniquacCalc h o l →
      uniquacGEc R (h.run uniquacCalc l) o q r T x = (Uniquac.mk (q := q) (r := r) (a := h.params o 0) (b := h.params o 1) (c := h.params o 2) (d := h.params o 3)).gE R T x ∧
      uniquacGammac (h.run uniquacCalc l) o q r T x = (Uniquac.mk (q := q) (r := r) (a := h.params o 0) (b := h.params o 1) (c := h.params o 2) (d := h.params o 3)).gamma T x) ∧
    (∀ (h : Heap (Fin 5) (Mat N) Unit) l m, Fresh h o → Untouched fhCalc h o l →
      fhDgmixc R (h.run fhCalc l) o T x m = fhDgmix R T x m ((FloryHuggins.mk (a := h.params o 0) (b := h.params o 1) (c := h.params o 2) (d := h.params o 3) (e := h.params o 4)).chi T)) ∧
    (∀ (h : Heap (Fin 3) (Fin N → ℝ) CubicM) kind l k v, Fresh h o → Untouched (cubicCalc R kind) h o l →
      cubicPc R kind (h.run (cubicCalc R kind) l) o k T v x = cubicP R (Cubic.mk (kind := kind) (Tc := h.params o 0) (Pc := h.params o 1) (w := h.params o 2) (k := k)) T v x) := by
  refine ⟨fun h l hf hl => ?_, fun h l hf hl => ?_, fun h l q r hf hl => ?_, fun h l m hf hl => ?_, fun h kind l k v hf hl => ?_⟩
  · obtain ⟨e1, e2⟩ := two_calls nrtlCalc (sound_of nrtlCalc h o hf l hl) .tau .alpha T T
    simp only [nrtlGEc, nrtlGammac]
    rw [e1, e2]
    exact ⟨rfl, rfl⟩
  · have e1 := (sound_call wilsonCalc (sound_of wilsonCalc h o hf l hl) () T).1
    simp only [wilsonGEc, wilsonGammac]
    rw [e1]
    exact ⟨rfl, rfl⟩
  · have e1 := (sound_call uniquacCalc (sound_of uniquacCalc h o hf l hl) () T).1
    simp only [uniquacGEc, uniquacGammac]
    rw [e1]
    exact ⟨rfl, rfl⟩
  · have e1 := (sound_call fhCalc (sound_of fhCalc h o hf l hl) () T).1
    simp only [fhDgmixc]
    rw [e1]
    rfl
  · have s1 := sound_call (cubicCalc R kind) (sound_of (cubicCalc R kind) h o hf l hl) .a T
    have s2 := sound_call (cubicCalc R kind) s1.2 .b 0
    simp only [cubicPc]
    rw [s1.1, s2.1]
    rfl

/-- A heap with four arrays of zeros and a Wilson object (number 0) built from them. -/
def demo : Heap (Fin 4) (Mat 2) Unit := ⟨fun _ _ _ => 0, 4, fun _ i => i, fun _ _ _ => none⟩

theorem demo_fresh : Fresh demo 0 := ⟨fun _ _ => rfl, fun i => i.2⟩

/-- Non-vacuity: a fresh object, and a history with another object, another array and several calls. -/
example : Fresh demo 0 ∧ Untouched wilsonCalc demo 0 [.call 0 () 300, .array (fun _ _ => 1), .attrs 1 (fun _ => 5), .call 1 () 300, .write 5 (fun _ _ => 5), .call 0 () 310] := by
  refine ⟨demo_fresh, fun p hp => ?_, fun l1 r v l2 e => ?_⟩
  · simp at hp
  · rcases l1 with _ | ⟨s1, _ | ⟨s2, _ | ⟨s3, _ | ⟨s4, _ | ⟨s5, _ | ⟨s6, l1⟩⟩⟩⟩⟩⟩ <;> simp at e
    obtain ⟨rfl, rfl, rfl, rfl, ⟨rfl, rfl⟩, rfl⟩ := e
    refine ⟨fun i => (by simp only [demo]; have := i.2; omega), fun m T hm => ?_⟩
    by_cases hT : T = 300 <;> simp [Heap.run, Heap.step, Heap.call, Heap.alloc, demo, hT] at hm

/-- **C116 (finding).** Changing the parameter matrix of a model afterwards (a `Wilson` object keeps the array it was given) takes effect at temperatures not used before, and
not at those used before: the same object then describes two different liquids. -/
theorem C116_parameters_false : ∃ (h : Heap (Fin 4) (Mat 2) Unit) (l : List (Op (Fin 4) (Mat 2) Unit)), Fresh h 0 ∧ (∀ o p, Op.attrs o p ∉ l) ∧
    (∀ x T, T ≠ 300 → wilsonGammac (h.run wilsonCalc l) 0 T x = (wilsonOf ((h.run wilsonCalc l).params 0)).gamma T x) ∧
    (∀ x, wilsonGammac (h.run wilsonCalc l) 0 300 x = (wilsonOf (h.params 0)).gamma 300 x) ∧
    ∃ x, (wilsonOf (h.params 0)).gamma 300 x ≠ (wilsonOf ((h.run wilsonCalc l).params 0)).gamma 300 x := by
  have p0 : demo.params 0 = fun _ _ _ => 0 := rfl
  let W : Mat 2 := fun i j => if i = j then 0 else 1
  have hm : (demo.call wilsonCalc 0 () 300).2.memo 0 () 300 = some 4 := call_memo wilsonCalc demo 0 () 300
  obtain ⟨c1, c2, c3, c4, c5, c6⟩ := call_none wilsonCalc (h := demo) (o := 0) (m := ()) (T := 300) rfl
  have pw : (demo.run wilsonCalc [.call 0 () 300, .write 0 W]).params 0 = fun i => if i = 0 then W else fun _ _ => 0 := by
    funext i
    simp only [Heap.run, List.foldl, Heap.step, Heap.params, c3, c4]
    fin_cases i <;> simp [demo, Function.update]
  refine ⟨demo, [.call 0 () 300, .write 0 W], demo_fresh, fun o p h => by simp at h, fun x T hT => ?_, fun x => ?_, fun _ => 1 / 2, ?_⟩
  · have e : (demo.run wilsonCalc [.call 0 () 300, .write 0 W]).memo 0 () T = none := by
      simp only [Heap.run, List.foldl, Heap.step]
      rw [c6 _ _ _ (by simp [hT])]; rfl
    obtain ⟨d1, -, -, d4, -, -⟩ := call_none wilsonCalc e
    simp only [wilsonGammac]
    rw [d4, d1, Function.update_self]
    rfl
  · have e : (demo.run wilsonCalc [.call 0 () 300, .write 0 W]).memo 0 () 300 = some 4 := hm
    simp only [wilsonGammac]
    rw [call_some wilsonCalc e]
    have : (demo.run wilsonCalc [.call 0 () 300, .write 0 W]).cells 4 = wilsonCalc () 300 (demo.params 0) := by
      simp only [Heap.run, List.foldl, Heap.step, c4]
      rw [Function.update_of_ne (by decide)]
      exact Function.update_self ..
    rw [this]
    rfl
  · rw [pw, p0]
    intro h
    have h0 := congrFun h 0
    simp [Wilson.gamma, wilsonGamma, Wilson.Lambda, wilsonOf, W, Fin.sum_univ_two] at h0
    have he := Real.exp_pos 1
    have e1 : (2⁻¹ : ℝ) / (2⁻¹ + Real.exp 1 * 2⁻¹) + 2⁻¹ / (Real.exp 1 * 2⁻¹ + 2⁻¹) * Real.exp 1 = 1 := by field_simp; ring
    rw [e1, sub_self, Real.exp_zero, eq_div_iff (by positivity)] at h0
    have : (1 : ℝ) < Real.exp 1 := Real.one_lt_exp_iff.2 one_pos
    linarith

/-- **C116 (finding).** The array returned by `Lambda(T)` is the one kept in the table: scaling it in place changes later activity coefficients at that temperature. -/
theorem C116_result_false : ∃ (h : Heap (Fin 4) (Mat 2) Unit) (l : List (Op (Fin 4) (Mat 2) Unit)) (x : Fin 2 → ℝ), Fresh h 0 ∧
    (h.run wilsonCalc l).params 0 = h.params 0 ∧
    l = [.call 0 () 300, .write (h.call wilsonCalc 0 () 300).1 (fun i j => 2 * (h.call wilsonCalc 0 () 300).2.cells (h.call wilsonCalc 0 () 300).1 i j)] ∧
    wilsonGammac (h.run wilsonCalc l) 0 300 x ≠ (wilsonOf (h.params 0)).gamma 300 x := by
  obtain ⟨c1, c2, c3, c4, c5, c6⟩ := call_none wilsonCalc (h := demo) (o := 0) (m := ()) (T := 300) rfl
  refine ⟨demo, _, fun _ => 1 / 2, demo_fresh, ?_, rfl, ?_⟩
  · funext i
    simp only [Heap.run, List.foldl, Heap.step, Heap.params, c1, c3, c4]
    have : (i : ℕ) ≠ 4 := by omega
    simp [demo, Function.update, this]
  · intro h
    have h0 := congrFun h 0
    have e : (demo.run wilsonCalc [.call 0 () 300, .write (demo.call wilsonCalc 0 () 300).1
        (fun i j => 2 * (demo.call wilsonCalc 0 () 300).2.cells (demo.call wilsonCalc 0 () 300).1 i j)]).memo 0 () 300 = some 4 := call_memo wilsonCalc demo 0 () 300
    simp only [wilsonGammac] at h0
    rw [call_some wilsonCalc e] at h0
    simp only [Heap.run, List.foldl, Heap.step, c1, c4] at h0
    simp [Function.update, demo, Heap.params, wilsonCalc, Wilson.gamma, wilsonGamma, Wilson.Lambda, wilsonOf, Fin.sum_univ_two] at h0

/-- **C116 (finding).** Assigning a public attribute (`Tc`, `Pc`, `w`) of a cubic equation of state after a pressure has been calculated: at the temperature of that calculation nothing
changes; at any other temperature the attraction is that of the new fluid and the covolume that of the old one, which is neither fluid. -/
theorem C116_eos_false (R : ℝ) (kind : Kind) : (∀ (h : Heap (Fin 3) (Fin N → ℝ) CubicM) (o : ℕ) (T0 : ℝ) (q : Fin 3 → ℕ), Fresh h o → (∀ i, q i < h.next) →
      let h1 := h.run (cubicCalc R kind) [.call o .a T0, .call o .b 0, .attrs o q]
      let old := cubicOf kind (h.params o) none
      let new := cubicOf kind (h1.params o) none
      (∀ i, h1.params o i = h.cells (q i)) ∧
      ∀ k T v x, (cubicPc R kind h1 o k T0 v x = cubicP R { old with k := k } T0 v x) ∧
        (T ≠ T0 → cubicPc R kind h1 o k T v x =
          R * T / (v - bm R old x) - am R { new with k := k } T x / (v ^ 2 + kind.u * v * bm R old x + kind.w * bm R old x ^ 2))) ∧
    (0 < R → ∃ (h : Heap (Fin 3) (Fin 1 → ℝ) CubicM) (q : Fin 3 → ℕ), Fresh h 0 ∧ (∀ i, q i < h.next) ∧
      bm R (cubicOf kind (h.params 0) none) (fun _ => 1) ≠ bm R (cubicOf kind (fun i => h.cells (q i)) none) (fun _ => 1)) := by
  refine ⟨fun h o T0 q hf hq => ?_, fun hR => ?_⟩
  · have H0 : Sound (cubicCalc R kind) h o (h.objs o) (h.params o) :=
      ⟨⟨fun m T r e => (by rw [hf.1] at e; cases e), hf.2⟩, rfl, rfl, fun m T r e => (by rw [hf.1] at e; cases e)⟩
    have s1 := sound_call (cubicCalc R kind) H0 .a T0
    have s2 := sound_call (cubicCalc R kind) s1.2 .b 0
    have m1 := memo_step (cubicCalc R kind) _ (.call o .b 0) (call_memo (cubicCalc R kind) h o .a T0)
    have m2 := call_memo (cubicCalc R kind) (h.call (cubicCalc R kind) o .a T0).2 o .b 0
    have n1 := next_step (cubicCalc R kind) h (.call o .a T0)
    have n2 := next_step (cubicCalc R kind) (h.call (cubicCalc R kind) o .a T0).2 (.call o .b 0)
    have g1 : ∀ i, (((h.call (cubicCalc R kind) o .a T0).2).call (cubicCalc R kind) o .b 0).2.cells (q i) = h.cells (q i) := fun i => by
      have a1 := cells_step (cubicCalc R kind) h (.call o .a T0) (hq i) (by simp)
      have a2 := cells_step (cubicCalc R kind) (h.call (cubicCalc R kind) o .a T0).2 (.call o .b 0) ((hq i).trans_le n1) (by simp)
      exact a2.trans a1
    have mT : ∀ T, T ≠ T0 → (((h.call (cubicCalc R kind) o .a T0).2).call (cubicCalc R kind) o .b 0).2.memo o .a T = none := fun T hT => by
      have e1 : (h.call (cubicCalc R kind) o .a T0).2.memo o .b 0 = none := by
        rw [(call_none (cubicCalc R kind) (hf.1 .a T0)).2.2.2.2.2 _ _ _ (by simp), hf.1]
      rw [(call_none (cubicCalc R kind) e1).2.2.2.2.2 _ _ _ (by simp), (call_none (cubicCalc R kind) (hf.1 .a T0)).2.2.2.2.2 _ _ _ (by simp [hT]), hf.1]
    simp only [Heap.step] at m1
    have hrun : h.run (cubicCalc R kind) [.call o .a T0, .call o .b 0, .attrs o q] =
      { (((h.call (cubicCalc R kind) o .a T0).2).call (cubicCalc R kind) o .b 0).2 with
        objs := Function.update (((h.call (cubicCalc R kind) o .a T0).2).call (cubicCalc R kind) o .b 0).2.objs o q } := rfl
    have S := s2.2
    have eb := S.memo .b 0 _ m2
    have ea := S.memo .a T0 _ m1
    have lb := S.wf.1 .b 0 _ m2
    generalize ((h.call (cubicCalc R kind) o .a T0).2).call (cubicCalc R kind) o .b 0 = c at *
    generalize (h.call (cubicCalc R kind) o .a T0).1 = ra at *
    obtain ⟨rb, h2⟩ := c
    simp only at m1 m2 eb ea lb g1 mT S
    intro h1 old new
    have hh : h1 = { h2 with objs := Function.update h2.objs o q } := hrun
    have hp : ∀ i, h1.params o i = h.cells (q i) := fun i => by
      rw [hh, ← g1 i]
      simp [Heap.params]
    refine ⟨hp, fun k T v x => ⟨?_, fun hT => ?_⟩⟩
    · have e1 : h1.memo o .a T0 = some ra := by rw [hh]; exact m1
      have e2 : h1.memo o .b 0 = some rb := by rw [hh]; exact m2
      simp only [cubicPc]
      rw [call_some _ e1]
      simp only
      rw [call_some _ e2]
      have f1 : h1.cells ra = cubicCalc R kind .a T0 (h.params o) := by rw [hh]; exact ea
      have f2 : h1.cells rb = cubicCalc R kind .b 0 (h.params o) := by rw [hh]; exact eb
      simp only [f1, f2]
      rfl
    · have e1 : h1.memo o .a T = none := by rw [hh]; exact mT T hT
      have e2 : h1.memo o .b 0 = some rb := by rw [hh]; exact m2
      have lb' : rb < h1.next := by rw [hh]; exact lb
      obtain ⟨d1, -, -, d4, -, d6⟩ := call_none (cubicCalc R kind) e1
      have e3 : (h1.call (cubicCalc R kind) o .a T).2.memo o .b 0 = some rb := by rw [d6 _ _ _ (by simp), e2]
      simp only [cubicPc]
      rw [call_some _ e3]
      have f2 : h1.cells rb = cubicCalc R kind .b 0 (h.params o) := by rw [hh]; exact eb
      simp only [d1, d4, Function.update_self, Function.update_of_ne lb'.ne, f2]
      rfl
  · refine ⟨⟨fun r _ => if r = 3 then 2 else 1, 4, fun _ i => i, fun _ _ _ => none⟩, fun i => if i = 0 then 3 else i, ⟨fun _ _ => rfl, fun i => ?_⟩, fun i => ?_, ?_⟩
    · exact i.2.trans (by decide)
    · fin_cases i <;> simp
    · have hk : 0 < kind.Ωb := by cases kind <;> norm_num [Kind.Ωb]
      simp [bm, b, cubicOf, Heap.params]
      intro h
      nlinarith [mul_pos hk hR]

end Verif.Cache
