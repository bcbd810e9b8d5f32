import Verif.Model.CopoFit
import Verif.Spec.CopoFit
import Verif.Lemmas.Copo
import Mathlib.Tactic.LinearCombination
import Mathlib.Tactic.FieldSimp
import Mathlib.Tactic.Positivity

/-! # Lemmas for the copolymerisation fit -/

namespace Verif.CopoFit

open Verif.Copo Verif.CopoDrift Verif.CopoFit.Spec

theorem sumOpt_map_some (l : List ℝ) : sumOpt (l.map some) = some l.sum := by
  induction l with
  | nil => rfl
  | cons a l ih => simp [sumOpt, ih]

theorem sumOpt_eq_some {l : List (Option ℝ)} {v : ℝ} (h : sumOpt l = some v) : ∃ ts : List ℝ, l = ts.map some ∧ v = ts.sum := by
  induction l generalizing v with
  | nil => simp only [sumOpt, Option.some.injEq] at h; exact ⟨[], rfl, h.symm⟩
  | cons a l ih =>
    cases a with
    | none => cases h
    | some a =>
      simp only [sumOpt, Option.map_eq_some_iff] at h
      obtain ⟨w, hw, rfl⟩ := h
      obtain ⟨ts, rfl, rfl⟩ := ih hw
      exact ⟨a :: ts, rfl, rfl⟩

theorem addAll_ok (l : List (Except Fail (Option ℝ))) (a v : ℝ) :
    addAll (some a) l = .ok (some v) ↔ ∃ ts : List ℝ, l = ts.map (fun t => .ok (some t)) ∧ v = a + ts.sum := by
  have hnone : ∀ l : List (Except Fail (Option ℝ)), ∀ v, addAll none l ≠ .ok (some v) := by
    intro l v
    induction l with
    | nil => simp [addAll]
    | cons t l ih =>
      cases t with
      | error e => simp [addAll]
      | ok t => simpa [addAll] using ih
  induction l generalizing a with
  | nil =>
    simp only [addAll, Except.ok.injEq, Option.some.injEq]
    constructor
    · rintro rfl; exact ⟨[], rfl, by simp⟩
    · rintro ⟨ts, h, rfl⟩
      have : ts = [] := by simpa using h.symm
      simp [this]
  | cons t l ih =>
    cases t with
    | error e =>
      simp only [addAll, reduceCtorEq, false_iff]
      rintro ⟨ts, h, -⟩
      cases ts <;> simp at h
    | ok t =>
      cases t with
      | none =>
        simp only [addAll, Option.bind_some, Option.map_none]
        constructor
        · intro h; exact absurd h (hnone _ _)
        · rintro ⟨ts, h, -⟩
          cases ts <;> simp at h
      | some t =>
        simp only [addAll, Option.bind_some, Option.map_some]
        refine (ih (a + t)).trans ?_
        constructor
        · rintro ⟨ts, rfl, rfl⟩; exact ⟨t :: ts, rfl, by simp; ring⟩
        · rintro ⟨ts, h, rfl⟩
          cases ts with
          | nil => simp at h
          | cons u ts =>
            simp only [List.map_cons, List.cons.injEq, Except.ok.injEq, Option.some.injEq] at h
            obtain ⟨rfl, rfl⟩ := h
            exact ⟨ts, rfl, by simp; ring⟩

/-- A term of the sum of squares. -/
theorem sq_some {y s e : ℝ} (hs : s ≠ 0) : sq y s (some e) = some (((y - e) / s) ^ 2) := by
  simp [sq, fdiv, hs, pow_two]

theorem sq_eq_some {y s v : ℝ} {e : Option ℝ} (h : sq y s e = some v) : ∃ e0, e = some e0 ∧ s ≠ 0 ∧ v = ((y - e0) / s) ^ 2 := by
  cases e with
  | none => cases h
  | some e =>
    by_cases hs : s = 0
    · simp [sq, fdiv, hs] at h
    · rw [sq_some hs] at h
      exact ⟨e, rfl, hs, (Option.some.inj h).symm⟩

/-- Terms of a data set: non-negative, and zero only for a perfect fit. -/
theorem sumOpt_sq {ι : Type*} (l : List ι) (y s : ι → ℝ) (e : ι → Option ℝ) {v : ℝ} (h : sumOpt (l.map fun i => sq (y i) (s i) (e i)) = some v) :
    0 ≤ v ∧ (v = 0 → ∀ i ∈ l, e i = some (y i)) := by
  induction l generalizing v with
  | nil => simp only [List.map_nil, sumOpt, Option.some.injEq] at h; exact ⟨h.le, fun _ i hi => by cases hi⟩
  | cons i l ih =>
    rw [List.map_cons] at h
    cases hq : sq (y i) (s i) (e i) with
    | none => rw [hq] at h; cases h
    | some a =>
      rw [hq] at h
      simp only [sumOpt, Option.map_eq_some_iff] at h
      obtain ⟨w, hw, rfl⟩ := h
      obtain ⟨h0, hz⟩ := ih hw
      obtain ⟨e0, he, hs, rfl⟩ := sq_eq_some hq
      have hp : 0 ≤ ((y i - e0) / s i) ^ 2 := sq_nonneg _
      refine ⟨add_nonneg hp h0, fun hv j hj => ?_⟩
      have h1 : ((y i - e0) / s i) ^ 2 = 0 := by linarith
      have h2 : w = 0 := by linarith
      rcases List.mem_cons.1 hj with rfl | hj
      · have : (y j - e0) / s j = 0 := by simpa using h1
        rw [div_eq_zero_iff] at this
        rcases this with h | h
        · rw [he]; congr 1; linarith
        · exact absurd h hs
      · exact hz h2 j hj

theorem sumOpt_sq_ok {ι : Type*} (l : List ι) (y s : ι → ℝ) (e : ι → ℝ) (hs : ∀ i ∈ l, s i ≠ 0) :
    sumOpt (l.map fun i => sq (y i) (s i) (some (e i))) = some ((l.map fun i => ((y i - e i) / s i) ^ 2).sum) := by
  rw [← sumOpt_map_some, List.map_map]
  congr 1
  exact List.map_congr_left fun i hi => sq_some (hs i hi)

theorem zipWith_eq_map {β γ : Type*} (l : List β) (v : List γ) (F : β → γ → Option ℝ) :
    List.zipWith F l v = (l.zip v).map fun p => F p.1 p.2 := by
  rw [List.zip, List.map_zipWith]

end Verif.CopoFit
