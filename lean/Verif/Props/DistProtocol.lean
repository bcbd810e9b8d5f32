import Verif.Lemmas.DistProtocol

/-!
# C120: comparing, iterating and testing distributions
-/

namespace Verif.Mixture

open Verif.Dist Verif.Utils

/-- **C120.** `<` and `>` compare the mass-average molar masses of distributions (individual or mixture), and are each other's
converse. -/
theorem C120_compare (comp : ℕ → Comp) (x y : PyObj) (a b : ℝ) (hx : objMw comp x = .ok a) (hy : objMw comp y = .ok b) :
    pyLt comp x y = .ok (decide (a < b)) ∧ pyGt comp x y = .ok (decide (b < a)) := by
  cases x with
  | other => simp [objMw] at hx
  | dist d => cases y with
    | other => simp [objMw] at hy
    | dist e => simp only [pyLt, pyGt, dunderLt, hx, hy]; exact ⟨rfl, rfl⟩
    | mix m => simp only [pyLt, pyGt, dunderLt, hx, hy]; exact ⟨rfl, rfl⟩
  | mix l => cases y with
    | other => simp [objMw] at hy
    | dist e => simp only [pyLt, pyGt, dunderLt, hx, hy]; exact ⟨rfl, rfl⟩
    | mix m => simp only [pyLt, pyGt, dunderLt, hx, hy]; exact ⟨rfl, rfl⟩

/-- **C120.** On distributions that have an `Mw`, `<` is a strict weak order: irreflexive, asymmetric, transitive, and "neither is
smaller" is transitive. This is what `sorted`, `min` and `max` need. -/
theorem C120_strict_weak_order (comp : ℕ → Comp) (x y z : PyObj) (hx : ∃ a, objMw comp x = .ok a) (hy : ∃ a, objMw comp y = .ok a)
    (hz : ∃ a, objMw comp z = .ok a) :
    pyLt comp x x = .ok false ∧
    (pyLt comp x y = .ok true → pyLt comp y x = .ok false) ∧
    (pyLt comp x y = .ok true → pyLt comp y z = .ok true → pyLt comp x z = .ok true) ∧
    (pyLt comp x y = .ok false → pyLt comp y z = .ok false → pyLt comp x z = .ok false) := by
  obtain ⟨a, ha⟩ := hx
  obtain ⟨b, hb⟩ := hy
  obtain ⟨c, hc⟩ := hz
  rw [(C120_compare comp x x a a ha ha).1, (C120_compare comp x y a b ha hb).1, (C120_compare comp y x b a hb ha).1,
    (C120_compare comp y z b c hb hc).1, (C120_compare comp x z a c ha hc).1]
  simp only [Except.ok.injEq, decide_eq_true_eq, decide_eq_false_iff_not, not_lt]
  exact ⟨le_rfl, le_of_lt, lt_trans, fun h1 h2 => h2.trans h1⟩

/-- Monodisperse polymers of 1 and 3 kg/mol: the first is smaller, not the second. -/
example : pyLt (fun d => mono (d + 1) 1) (.dist 0) (.dist 2) = .ok true ∧
    pyGt (fun d => mono (d + 1) 1) (.dist 0) (.dist 2) = .ok false := by
  have h := C120_compare (fun d => mono (d + 1) 1) (.dist 0) (.dist 2) 1 3
    (by simp [objMw, avgMw, mono]) (by simp only [objMw, avgMw, mono]; norm_num)
  rw [h.1, h.2]
  norm_num

/-- **C120.** A mixture with positive weights never compares below all of its components nor above all of them. -/
theorem C120_mixture_between (comp : ℕ → Comp) (l : Dict ℕ ℝ) (hne : l ≠ []) (hp : ∀ cw ∈ items comp l, Pos cw)
    (h1 : ∀ cw ∈ items comp l, cw.1.mm 0 0 = 1) (h2 : ∀ cw ∈ items comp l, 0 < cw.1.mm 2 0) :
    (∃ dw ∈ l, pyLt comp (.mix l) (.dist dw.1) = .ok false) ∧ ∃ dw ∈ l, pyGt comp (.mix l) (.dist dw.1) = .ok false := by
  have hi : items comp l ≠ [] := by simpa [items] using hne
  have hM : objMw comp (.mix l) = .ok (avgMw (moment (items comp l))) := by
    cases l with
    | nil => exact absurd rfl hne
    | cons a t => rfl
  have hA := (C22_averages (items comp l) hi hp h1 h2).2.1
  obtain ⟨⟨cw, hc, h3⟩, ⟨cw', hc', h4⟩⟩ := exists_le_avg (items comp l) hi (fun cw h => (hp cw h).2.2) fun cw => avgMw cw.1.mm
  rw [← hA] at h3 h4
  obtain ⟨dw, hd, rfl⟩ := List.mem_map.mp hc
  obtain ⟨dw', hd', rfl⟩ := List.mem_map.mp hc'
  refine ⟨⟨dw, hd, ?_⟩, dw', hd', ?_⟩
  · rw [(C120_compare comp _ (.dist dw.1) _ _ hM rfl).1]
    simpa using h3
  · rw [(C120_compare comp _ (.dist dw'.1) _ _ hM rfl).2]
    simpa using h4

/-- Two monodisperse polymers of 1 and 3 kg/mol, 1:1. -/
example : ∀ cw ∈ items (fun d => mono (d + 1) 1) [(0, (1 : ℝ)), (2, 1)],
    Pos cw ∧ cw.1.mm 0 0 = 1 ∧ 0 < cw.1.mm 2 0 := by
  intro cw h
  simp only [items, List.map_cons, List.map_nil, List.mem_cons, List.not_mem_nil, or_false] at h
  rcases h with rfl | rfl <;> norm_num [Pos, mono]

/-- **C120.** After `m = w1*D1 + w2*D2 + …` with positive weights, `D in m` holds exactly for the distributions that appear in the
expression, and `m` is true. -/
theorem C120_membership (h : Heap) (w : ℚ) (d : ℕ) (l : List (ℚ × ℕ)) (hw : 0 < w) (hl : ∀ wd ∈ l, 0 < wd.1) :
    ∃ h' r, sumExpr h w d l = some (h', .mix r) ∧
      ∀ m, m = (deref h' r).map (fun kw => (kw.1, (kw.2 : ℝ))) →
        (∀ k, pyIn k (.mix m) = .ok (decide (k = d ∨ ∃ wd ∈ l, wd.2 = k))) ∧ pyBool (.mix m) = true := by
  have hm : mul h w d = (h ++ [[(d, w)]], .mix h.length) := by unfold mul alloc; rw [if_pos hw]
  obtain ⟨h', e, hk⟩ := sumFrom_keys l hl (h ++ [[(d, w)]]) h.length (by simp)
  rw [deref_append_self] at hk
  refine ⟨h', h.length, by unfold sumExpr; rw [hm]; exact e, ?_⟩
  rintro m rfl
  have hmap : (((deref h' h.length).map fun kw => (kw.1, (kw.2 : ℝ))).map Prod.fst) = (deref h' h.length).map Prod.fst := by
    rw [List.map_map]; rfl
  refine ⟨fun k => ?_, ?_⟩
  · simp only [pyIn, hmap, hk k, List.map_cons, List.map_nil, List.mem_singleton]
  · have := (hk d).mpr (Or.inl (by simp))
    cases hD : deref h' h.length with
    | nil => rw [hD] at this; simp at this
    | cons a t => rfl

/-- `2*D3 + 1*D4 + 5*D3`: contains 3 and 4 but not 5. -/
example : (3 = 3 ∨ ∃ wd ∈ [((1 : ℚ), 4), (5, 3)], wd.2 = 3) ∧ ¬(5 = 3 ∨ ∃ wd ∈ [((1 : ℚ), 4), (5, 3)], wd.2 = 5) := by
  simp

/-- **C120 (finding).** No mixture can be iterated over, although it defines `__iter__` and `in` works: `iter(m)`, and with it
`for d in m` and `list(m)`, raises `TypeError`. -/
theorem C120_iteration_false (l : Dict ℕ ℝ) : pyIter (.mix l) = .error .TypeError ∧ ∃ b, pyIn 0 (.mix l) = .ok b := ⟨rfl, _, rfl⟩

/-- **C120 (finding).** A weight of zero gives the empty mixture, which is false, and every comparison with it raises
`ZeroDivisionError`. `<=` is not supported for any two distributions. -/
theorem C120_empty_comparison_false (comp : ℕ → Comp) (d : ℕ) :
    mul [] 0 d = ([[]], .mix 0) ∧ pyBool (.mix []) = false ∧
    pyLt comp (.mix []) (.dist d) = .error .ZeroDivisionError ∧ pyLt comp (.dist d) (.mix []) = .error .ZeroDivisionError ∧
    ∀ x y, pyLe x y = .error .TypeError :=
  ⟨by simp [mul, alloc], rfl, rfl, rfl, fun _ _ => rfl⟩

end Verif.Mixture
