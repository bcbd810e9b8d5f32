import Verif.Lemmas.DistState

/-!
# C21: assignments are all-or-nothing and memoised values are never stale
-/

namespace Verif.DistState

variable {α : Type*} [Field α] [LinearOrder α] {P V R S : Type*}

/-- **C21.** Whatever the formulas are, and for every sequence of constructions, assignments and queries on any number of
distribution objects of any class, every result is the one obtained by recomputing from the values assigned last (the reference
semantics has neither memo tables nor derived fields): no memoised moment, internal parameter or default range is ever stale. -/
theorem C21_history_independent (L : Lib α P V R S) (ops : List (Op α S)) :
    (run L World.empty ops).2 = (refRun L [] ops).2 := (run_rel L ops _ _ (rel_empty L)).2

/-- **C21.** An operation that raises has no observable effect: whatever is done afterwards gives the results it would have given
without it. -/
theorem C21_failed_operation_no_effect (L : Lib α P V R S) (before after : List (Op α S)) (op : Op α S) (e : Err)
    (he : (step L (run L World.empty before).1 op).2 = .error e) :
    (run L (step L (run L World.empty before).1 op).1 after).2 = (run L (run L World.empty before).1 after).2 := by
  have h0 := (run_rel L before _ _ (rel_empty L)).1
  obtain ⟨h1, h2⟩ := step_rel L _ _ h0 op
  rw [(run_rel L after _ _ h1).2, (run_rel L after _ _ h0).2]
  congr 2
  rw [h2] at he
  generalize (refRun L [] before).1 = s at he
  cases op <;> simp only [refStep] at he ⊢ <;> (repeat' split) <;> simp_all

example (L : Lib ℚ Unit Unit Unit Unit) :
    (step L (run L World.empty [.new .Flory (.fin 100) none (.fin 1)]).1 (.setDPn 0 (.fin 0))).2 = .error .RangeError := rfl

/-- **C21.** An assignment to `DPn`, `PDI` or `M0` that does not raise was within the documented bounds, and the getter then returns
the assigned value. -/
theorem C21_valid_assignment (L : Lib α P V R S) (before : List (Op α S)) (i : ℕ) (v : Fl α) :
    (∀ r, (step L (run L World.empty before).1 (.setDPn i v)).2 = .ok r →
      Fl.Within (.fin 1) .pinf v ∧
      (step L (step L (run L World.empty before).1 (.setDPn i v)).1 (.getDPn i)).2 = .ok (.num v)) ∧
    (∀ r, (step L (run L World.empty before).1 (.setPDI i v)).2 = .ok r →
      Fl.Within (.fin (1000001 / 1000000)) .pinf v ∧
      (step L (step L (run L World.empty before).1 (.setPDI i v)).1 (.getPDI i)).2 = .ok (.num v)) ∧
    (∀ r, (step L (run L World.empty before).1 (.setM0 i v)).2 = .ok r →
      Fl.Within (.fin 0) .pinf v ∧
      (step L (step L (run L World.empty before).1 (.setM0 i v)).1 (.getM0 i)).2 = .ok (.num v)) := by
  have h0 := (run_rel L before _ _ (rel_empty L)).1
  refine ⟨fun r hr => ?_, fun r hr => ?_, fun r hr => ?_⟩
  · obtain ⟨h1, h2⟩ := step_rel L _ _ h0 (.setDPn i v)
    rw [h2] at hr
    rw [(step_rel L _ _ h1 (.getDPn i)).2]
    exact ref_setDPn L _ i v r hr
  · obtain ⟨h1, h2⟩ := step_rel L _ _ h0 (.setPDI i v)
    rw [h2] at hr
    rw [(step_rel L _ _ h1 (.getPDI i)).2]
    exact ref_setPDI L _ i v r hr
  · obtain ⟨h1, h2⟩ := step_rel L _ _ h0 (.setM0 i v)
    rw [h2] at hr
    rw [(step_rel L _ _ h1 (.getM0 i)).2]
    exact ref_setM0 L _ i v r hr

example (L : Lib ℚ Unit Unit Unit Unit) :
    (step L (run L World.empty [.new .LogNormal (.fin 100) (some (.fin 2)) (.fin 1)]).1 (.setPDI 0 (.fin 3))).2 = .ok .done := by
  have h2 : okPDI (.fin 2 : Fl ℚ) = .ok () := by
    rw [okPDI, okBounds_ok]; exact (Fl.within_iff _ _ _).mp (by simp [Utils.inRange, Fl.le]; norm_num)
  have h3 : okPDI (.fin 3 : Fl ℚ) = .ok () := by
    rw [okPDI, okBounds_ok]; exact (Fl.within_iff _ _ _).mp (by simp [Utils.inRange, Fl.le]; norm_num)
  have h4 : okDPn (.fin 100 : Fl ℚ) = .ok () := rfl
  have h5 : okM0 (.fin 1 : Fl ℚ) = .ok () := rfl
  simp [step, run, construct, World.empty, h2, h3, h4, h5, Cls.isP2, updated, clear]

/-- **C21 (finding).** The bounds are closed at infinity and `M0` may be zero: `DPn = inf` and `M0 = 0` are accepted. -/
theorem C21_infinite_DPn_accepted_false :
    ∀ L : Lib ℚ Unit Unit Unit Unit, (run L World.empty [.new .Flory .pinf none (.fin 0), .getDPn 0, .getM0 0]).2 =
      [.ok (.obj 0), .ok (.num .pinf), .ok (.num (.fin 0))] :=
  fun _ => rfl

end Verif.DistState
