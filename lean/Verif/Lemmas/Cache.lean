import Verif.Spec.Cache

/-!
# Lemmas on memoised methods
-/

namespace Verif.Cache

variable {ι V M : Type} (body : M → ℝ → (ι → V) → V)

theorem call_some {h : Heap ι V M} {o m T r} (e : h.memo o m T = some r) : h.call body o m T = (r, h) := by
  simp [Heap.call, e]

theorem call_none {h : Heap ι V M} {o m T} (e : h.memo o m T = none) : (h.call body o m T).1 = h.next ∧
    (h.call body o m T).2.next = h.next + 1 ∧ (h.call body o m T).2.objs = h.objs ∧
    (h.call body o m T).2.cells = Function.update h.cells h.next (body m T (h.params o)) ∧
    (h.call body o m T).2.memo o m T = some h.next ∧
    ∀ o' m' T', ¬ (o' = o ∧ m' = m ∧ T' = T) → (h.call body o m T).2.memo o' m' T' = h.memo o' m' T' := by
  refine ⟨?_, ?_, ?_, ?_, ?_, fun o' m' T' hn => ?_⟩ <;> simp [Heap.call, e, Heap.alloc]
  intro a b c; exact absurd ⟨a, b, c⟩ hn

/-- A call always leaves its entry in the table. -/
theorem call_memo (h : Heap ι V M) (o : ℕ) (m : M) (T : ℝ) : (h.call body o m T).2.memo o m T = some (h.call body o m T).1 := by
  cases e : h.memo o m T with
  | some r => rw [call_some body e]; exact e
  | none => rw [(call_none body e).2.2.2.2.1, (call_none body e).1]

theorem run_append (h : Heap ι V M) (l l' : List (Op ι V M)) : h.run body (l ++ l') = (h.run body l).run body l' := by
  simp [Heap.run]

theorem run_cons (h : Heap ι V M) (s : Op ι V M) (l : List (Op ι V M)) : h.run body (s :: l) = (h.step body s).run body l := rfl

theorem next_step (h : Heap ι V M) (s : Op ι V M) : h.next ≤ (h.step body s).next := by
  cases s with
  | array v => simp [Heap.step, Heap.alloc]
  | attrs o p => exact le_rfl
  | write r v => exact le_rfl
  | call o m T =>
    cases e : h.memo o m T with
    | some r => simp [Heap.step, call_some body e]
    | none => simp [Heap.step, (call_none body e).2.1]

theorem memo_step (h : Heap ι V M) (s : Op ι V M) {o m T r} (e : h.memo o m T = some r) : (h.step body s).memo o m T = some r := by
  cases s with
  | array v => exact e
  | attrs o p => exact e
  | write r v => exact e
  | call o' m' T' =>
    cases e' : h.memo o' m' T' with
    | some r => simpa [Heap.step, call_some body e'] using e
    | none =>
      have h1 := (call_none body e').2.2.2.2.2 o m T
      simp only [Heap.step]
      rw [h1, e]
      rintro ⟨rfl, rfl, rfl⟩
      rw [e'] at e; cases e

theorem memo_run (h : Heap ι V M) (l : List (Op ι V M)) {o m T r} (e : h.memo o m T = some r) : (h.run body l).memo o m T = some r := by
  induction l generalizing h with
  | nil => exact e
  | cons s l ih => rw [run_cons]; exact ih _ (memo_step body h s e)

/-- An existing array changes only by a write. -/
theorem cells_step (h : Heap ι V M) (s : Op ι V M) {r : ℕ} (hr : r < h.next) (hs : ∀ v, s ≠ .write r v) : (h.step body s).cells r = h.cells r := by
  cases s with
  | array v => simp [Heap.step, Heap.alloc, Function.update, hr.ne]
  | attrs o p => rfl
  | write r' v =>
    have : r ≠ r' := by rintro rfl; exact hs v rfl
    simp [Heap.step, Function.update, this]
  | call o m T =>
    cases e : h.memo o m T with
    | some r => simp [Heap.step, call_some body e]
    | none => simp [Heap.step, (call_none body e).2.2.2.1, Function.update, hr.ne]

theorem cells_run (h : Heap ι V M) (l : List (Op ι V M)) {r : ℕ} (hr : r < h.next) (hs : ∀ v, Op.write r v ∉ l) : (h.run body l).cells r = h.cells r := by
  induction l generalizing h with
  | nil => rfl
  | cons s l ih =>
    rw [run_cons, ih _ (hr.trans_le (next_step body h s)) (fun v hv => hs v (by simp [hv]))]
    exact cells_step body h s hr (fun v hv => hs v (by simp [hv]))

theorem objs_step (h : Heap ι V M) (s : Op ι V M) {o : ℕ} (hs : ∀ p, s ≠ .attrs o p) : (h.step body s).objs o = h.objs o := by
  cases s with
  | array v => rfl
  | attrs o' p =>
    have : o ≠ o' := by rintro rfl; exact hs p rfl
    simp [Heap.step, Function.update, this]
  | write r v => rfl
  | call o' m T =>
    cases e : h.memo o' m T with
    | some r => simp [Heap.step, call_some body e]
    | none => simp [Heap.step, (call_none body e).2.2.1]

/-- The invariant: everything in the table of `o` is what the body gives for its parameters. -/
structure Sound (h : Heap ι V M) (o : ℕ) (refs : ι → ℕ) (p : ι → V) : Prop where
  wf : WF h o
  refs : h.objs o = refs
  params : h.params o = p
  memo : ∀ m T r, h.memo o m T = some r → h.cells r = body m T p

theorem sound_step {h : Heap ι V M} {o : ℕ} {refs : ι → ℕ} {p : ι → V} (H : Sound body h o refs p) (s : Op ι V M) (ha : ∀ q, s ≠ .attrs o q)
    (hw : ∀ r v, s = .write r v → (∀ i, r ≠ refs i) ∧ ∀ m T, h.memo o m T ≠ some r) : Sound body (h.step body s) o refs p := by
  have hobj := objs_step body h s ha
  have hpar : (h.step body s).params o = p := by
    rw [← H.params]
    funext i
    unfold Heap.params
    rw [hobj]
    refine cells_step body h s (H.wf.2 i) (fun v hv => ?_)
    have := (hw _ v hv).1 i
    rw [← H.refs] at this
    exact this rfl
  refine ⟨⟨?_, fun i => by rw [hobj]; exact (H.wf.2 i).trans_le (next_step body h s)⟩, by rw [hobj, H.refs], hpar, ?_⟩
  · intro m T r e
    cases e0 : h.memo o m T with
    | some r0 =>
      rw [memo_step body h s e0] at e
      cases e
      exact (H.wf.1 m T _ e0).trans_le (next_step body h s)
    | none =>
      cases s with
      | array v => simp only [Heap.step, Heap.alloc] at e; rw [e0] at e; cases e
      | attrs o' q => simp only [Heap.step] at e; rw [e0] at e; cases e
      | write r v => simp only [Heap.step] at e; rw [e0] at e; cases e
      | call o' m' T' =>
        simp only [Heap.step] at e ⊢
        cases e' : h.memo o' m' T' with
        | some r1 => rw [call_some body e'] at e; rw [e0] at e; cases e
        | none =>
          obtain ⟨-, c2, -, -, c5, c6⟩ := call_none body e'
          by_cases hk : o = o' ∧ m = m' ∧ T = T'
          · obtain ⟨rfl, rfl, rfl⟩ := hk
            rw [c5] at e; cases e
            rw [c2]; exact Nat.lt_succ_self _
          · rw [c6 _ _ _ hk, e0] at e; cases e
  · intro m T r e
    cases e0 : h.memo o m T with
    | some r0 =>
      rw [memo_step body h s e0] at e
      cases e
      rw [cells_step body h s (H.wf.1 m T _ e0) (fun v hv => (hw _ v hv).2 m T e0)]
      exact H.memo m T _ e0
    | none =>
      cases s with
      | array v => simp only [Heap.step, Heap.alloc] at e; rw [e0] at e; cases e
      | attrs o' q => simp only [Heap.step] at e; rw [e0] at e; cases e
      | write r v => simp only [Heap.step] at e; rw [e0] at e; cases e
      | call o' m' T' =>
        simp only [Heap.step] at e ⊢
        cases e' : h.memo o' m' T' with
        | some r1 => rw [call_some body e'] at e; rw [e0] at e; cases e
        | none =>
          obtain ⟨-, c2, -, c4, c5, c6⟩ := call_none body e'
          by_cases hk : o = o' ∧ m = m' ∧ T = T'
          · obtain ⟨rfl, rfl, rfl⟩ := hk
            rw [c5] at e; cases e
            rw [c4, Function.update_self, H.params]
          · rw [c6 _ _ _ hk, e0] at e; cases e

theorem sound_run {h : Heap ι V M} {o : ℕ} {refs : ι → ℕ} {p : ι → V} (H : Sound body h o refs p) (l : List (Op ι V M)) (ha : ∀ q, Op.attrs o q ∉ l)
    (hw : ∀ l1 r v l2, l = l1 ++ .write r v :: l2 → (∀ i, r ≠ refs i) ∧ ∀ m T, (h.run body l1).memo o m T ≠ some r) : Sound body (h.run body l) o refs p := by
  induction l generalizing h with
  | nil => exact H
  | cons s l ih =>
    rw [run_cons]
    refine ih (sound_step body H s (fun q hq => ha q (by simp [hq])) (fun r v e => ?_)) (fun q hq => ha q (by simp [hq])) (fun l1 r v l2 e => ?_)
    · exact hw [] r v l (by simp [e])
    · exact hw (s :: l1) r v l2 (by simp [e])

/-- The result of a call in a sound state. -/
theorem sound_call {h : Heap ι V M} {o : ℕ} {refs : ι → ℕ} {p : ι → V} (H : Sound body h o refs p) (m : M) (T : ℝ) :
    (h.call body o m T).2.cells (h.call body o m T).1 = body m T p ∧ Sound body (h.call body o m T).2 o refs p := by
  have H' := sound_step body H (.call o m T) (by simp) (by simp)
  exact ⟨H'.memo m T _ (call_memo body h o m T), H'⟩

end Verif.Cache
