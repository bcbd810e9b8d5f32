import Verif.Lemmas.Interval
import Verif.Spec.Recorded
import Verif.Model.PDiv

/-!
# Evaluation of calls with numerical arguments

`evald [defs]` unfolds the definitions, proves the side conditions of divisions and branches by interval arithmetic (`ivd`), and leaves the bound of the
result.
-/

namespace Verif.Recorded

theorem returns_ok {X : Type*} (x : X) (p : X → Prop) : Returns (.ok x) p = p x := rfl

theorem has_some {X : Type*} (x : X) (p : X → Prop) : Has (some x) p = p x := rfl

theorem pdiv_ok' {a b : ℝ} [DecidableEq ℝ] (h : b ≠ 0) : pdiv a b = .ok (a / b) := by
  unfold pdiv
  exact if_neg h

theorem bind_ok {X Y : Type} (x : X) (f : X → Except Err Y) : (Except.ok x >>= f) = f x := rfl

theorem pure_ok {X : Type} (x : X) : (pure x : Except Err X) = .ok x := rfl

theorem bind_some {X Y : Type} (x : X) (f : X → Option Y) : (some x >>= f) = f x := rfl

theorem pure_some {X : Type} (x : X) : (pure x : Option X) = some x := rfl

/-- A zero base (the interval power needs a positive one). -/
theorem rpow_zero_base {x y : ℝ} (h : 0 < y) : ((0 : ℝ) / x) ^ y = 0 := by
  rw [zero_div, Real.zero_rpow (ne_of_gt h)]

theorem ite_true' {X : Type*} {c : Prop} [Decidable c] {a b : X} (h : c) : (if c then a else b) = a := if_pos h

theorem ite_false' {X : Type*} {c : Prop} [Decidable c] {a b : X} (h : ¬ c) : (if c then a else b) = b := if_neg h

/-- Conditions on closed real expressions. -/
macro "ivd" : tactic => `(tactic| first
  | iv
  | exact ne_of_gt (by iv)
  | exact ne_of_lt (by iv)
  | exact not_lt.2 (by iv)
  | exact not_le.2 (by iv)
  | exact ⟨by iv, by iv⟩
  | decide)

/-- Evaluates a call: unfolds the definitions, and proves the conditions of divisions and branches. -/
macro "evald" "[" ls:Lean.Parser.Tactic.simpLemma,* "]" : tactic =>
  `(tactic| simp (disch := ivd) only [Gives, Gives2, returns_ok, has_some, pdiv_ok', bind_ok, pure_ok, bind_some, pure_some, ite_true', ite_false', rpow_zero_base, Shows, $ls,*])

end Verif.Recorded
