import Verif.Model.Reaction
import Mathlib.Tactic.Ring
import Mathlib.Algebra.BigOperators.Group.List.Basic

namespace Verif.Reaction

variable {α : Type} [Field α]

theorem addAt_some {rx rx' : List α} {i : ℕ} {v : α} (h : addAt rx i v = some rx') :
    i < rx.length ∧ rx'.length = rx.length ∧ ∀ j, rx'.getD j 0 = rx.getD j 0 + if j = i then v else 0 := by
  unfold addAt at h
  cases hi : rx[i]? with
  | none => rw [hi] at h; cases h
  | some y =>
    rw [hi] at h
    dsimp only at h
    injection h with h
    obtain ⟨hl, hy⟩ := List.getElem?_eq_some_iff.1 hi
    subst h
    refine ⟨hl, List.length_set, fun j => ?_⟩
    simp only [List.getD_eq_getElem?_getD, List.getElem?_set]
    by_cases hj : i = j
    · subst hj; simp [hl, hy]
    · simp [hj, Ne.symm hj]

theorem addAt_isSome (rx : List α) (i : ℕ) (v : α) (h : i < rx.length) : ∃ rx', addAt rx i v = some rx' :=
  ⟨_, by unfold addAt; rw [List.getElem?_eq_getElem h]⟩

/-- What `eval` adds to entry `j`. -/
def delta (p : Propagation α) (T : α) (x : List α) (j : ℕ) : α :=
  let M := x.getD p.M 0
  let r := p.k T * M * x.getD p.P 0
  (if j = p.M then -r else 0) + (if j = p.P + 1 then r else 0) + (if j = p.P + 2 then p.k T * M * (2 * x.getD (p.P + 1) 0 + x.getD p.P 0) else 0)
    + match p.A with
      | none => 0
      | some iA => if j = iA then r else 0

/-- All indices are within the vectors. -/
def Fits (p : Propagation α) (x : List α) (n : ℕ) : Prop :=
  p.M < x.length ∧ p.P + 1 < x.length ∧ p.M < n ∧ p.P + 2 < n ∧ ∀ iA, p.A = some iA → iA < n

theorem eval_some {p : Propagation α} {T : α} {x rx rx' : List α} (h : p.eval T x rx = some rx') :
    Fits p x rx.length ∧ rx'.length = rx.length ∧ ∀ j, rx'.getD j 0 = rx.getD j 0 + delta p T x j := by
  unfold Propagation.eval at h
  simp only [Option.bind_eq_bind] at h
  obtain ⟨M, hM, h⟩ := Option.bind_eq_some_iff.1 h
  obtain ⟨P0, hP0, h⟩ := Option.bind_eq_some_iff.1 h
  obtain ⟨P1, hP1, h⟩ := Option.bind_eq_some_iff.1 h
  obtain ⟨r1, h1, h⟩ := Option.bind_eq_some_iff.1 h
  obtain ⟨r2, h2, h⟩ := Option.bind_eq_some_iff.1 h
  obtain ⟨r3, h3, h⟩ := Option.bind_eq_some_iff.1 h
  obtain ⟨i1, l1, e1⟩ := addAt_some h1
  obtain ⟨i2, l2, e2⟩ := addAt_some h2
  obtain ⟨i3, l3, e3⟩ := addAt_some h3
  have m1 : x.getD p.M 0 = M := by rw [List.getD_eq_getElem?_getD, hM]; rfl
  have m2 : x.getD p.P 0 = P0 := by rw [List.getD_eq_getElem?_getD, hP0]; rfl
  have m3 : x.getD (p.P + 1) 0 = P1 := by rw [List.getD_eq_getElem?_getD, hP1]; rfl
  have n1 := (List.getElem?_eq_some_iff.1 hM).1
  have n3 := (List.getElem?_eq_some_iff.1 hP1).1
  unfold delta Fits
  simp only [m1, m2, m3]
  cases hA : p.A with
  | none =>
    rw [hA] at h
    dsimp only at h
    have : r3 = rx' := by injection h
    subst this
    refine ⟨⟨n1, n3, i1, by omega, by simp⟩, by omega, fun j => ?_⟩
    rw [e3, e2, e1]; ring
  | some iA =>
    rw [hA] at h
    dsimp only at h
    obtain ⟨i4, l4, e4⟩ := addAt_some h
    refine ⟨⟨n1, n3, i1, by omega, by rintro _ ⟨⟩; omega⟩, by omega, fun j => ?_⟩
    rw [e4, e3, e2, e1]; ring

theorem eval_isSome {p : Propagation α} (T : α) {x rx : List α} (h : Fits p x rx.length) : ∃ rx', p.eval T x rx = some rx' := by
  obtain ⟨a1, a2, a3, a4, a5⟩ := h
  unfold Propagation.eval
  simp only [Option.bind_eq_bind]
  rw [List.getElem?_eq_getElem a1, List.getElem?_eq_getElem (show p.P < x.length by omega), List.getElem?_eq_getElem a2]
  simp only [Option.bind_some]
  obtain ⟨r1, h1⟩ := addAt_isSome rx p.M (-(p.k T * x[p.M] * x[p.P])) a3
  have l1 := (addAt_some h1).2.1
  rw [h1, Option.bind_some]
  obtain ⟨r2, h2⟩ := addAt_isSome r1 (p.P + 1) (p.k T * x[p.M] * x[p.P]) (by omega)
  have l2 := (addAt_some h2).2.1
  rw [h2, Option.bind_some]
  obtain ⟨r3, h3⟩ := addAt_isSome r2 (p.P + 2) (p.k T * x[p.M] * (2 * x[p.P + 1] + x[p.P])) (by omega)
  have l3 := (addAt_some h3).2.1
  rw [h3, Option.bind_some]
  cases hA : p.A with
  | none => exact ⟨_, rfl⟩
  | some iA =>
    dsimp only
    exact addAt_isSome r3 iA _ (by have := a5 iA hA; omega)

theorem foldl_eval (T : α) (x : List α) (l : List (Propagation α)) : ∀ rx : List α,
    (∀ rx', l.foldlM (fun rx p => p.eval T x rx) rx = some rx' → (∀ p ∈ l, Fits p x rx.length) ∧ rx'.length = rx.length ∧ ∀ j, rx'.getD j 0 = rx.getD j 0 + (l.map fun p => delta p T x j).sum)
      ∧ ((∀ p ∈ l, Fits p x rx.length) → ∃ rx', l.foldlM (fun rx p => p.eval T x rx) rx = some rx') := by
  induction l with
  | nil =>
    intro rx
    refine ⟨fun rx' h => ?_, fun _ => ⟨rx, rfl⟩⟩
    have : rx = rx' := by injection h
    subst this
    simp
  | cons p l ih =>
    intro rx
    constructor
    · intro rx' h
      rw [List.foldlM_cons] at h
      obtain ⟨r1, h1, h2⟩ := Option.bind_eq_some_iff.1 h
      obtain ⟨f1, l1, e1⟩ := eval_some h1
      obtain ⟨f2, l2, e2⟩ := (ih r1).1 rx' h2
      refine ⟨?_, by omega, fun j => ?_⟩
      · intro q hq
        rcases List.mem_cons.1 hq with rfl | hq
        · exact f1
        · rw [← l1]; exact f2 q hq
      · rw [e2, e1, List.map_cons, List.sum_cons, add_assoc]
    · intro h
      obtain ⟨r1, h1⟩ := eval_isSome T (h p List.mem_cons_self)
      obtain ⟨r2, h2⟩ := (ih r1).2 (fun q hq => by rw [(eval_some h1).2.1]; exact h q (List.mem_cons_of_mem _ hq))
      exact ⟨r2, by rw [List.foldlM_cons, h1]; exact h2⟩

end Verif.Reaction
