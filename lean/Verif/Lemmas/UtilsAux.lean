import Verif.Lemmas.Utils

/-! # Helper lemmas: (range checks), C15 (temperature and pressure conversion), C16 (dictionary sum, symmetry), C72 (shape check) -/

namespace Verif.Utils

variable {α : Type*} [Field α] [LinearOrder α] [IsStrictOrderedRing α]

theorem dedup_length_one {β : Type*} [DecidableEq β] (l : List β) (a : β) (h : a ∈ l) :
    l.dedup.length = 1 ↔ ∀ b ∈ l, b = a := by
  constructor
  · intro h1
    obtain ⟨c, hc⟩ := List.length_eq_one_iff.mp h1
    have mem : ∀ b, b ∈ l ↔ b = c := by intro b; rw [← List.mem_dedup, hc]; simp
    intro b hb
    rw [(mem b).mp hb, (mem a).mp h]
  · intro h1
    have hd : ∀ b ∈ l.dedup, b = a := fun b hb => h1 b (List.mem_dedup.mp hb)
    have hn := List.nodup_dedup l
    have ha : a ∈ l.dedup := List.mem_dedup.mpr h
    generalize l.dedup = m at hd hn ha
    match m, ha with
    | [x], _ => rfl
    | x :: y :: m, _ =>
      exfalso
      have := hd x (by simp)
      have := hd y (by simp)
      simp_all

omit [Field α] [IsStrictOrderedRing α] in
theorem allRows_true (lo hi : Fl α) (rows : List (List (Fl α))) (h : allRows lo hi rows = .ok true) :
    rows.all (fun r => r.all (inRange lo hi)) = true := by
  induction rows with
  | nil => rfl
  | cons r rows ih =>
    unfold allRows at h
    match r, h with
    | [x], h =>
      simp only [truthOfRow] at h
      cases h1 : Fl.le lo x <;> cases h2 : Fl.le x hi <;> simp [h1, h2] at h
      simp only [List.all_cons, List.all_nil, Bool.and_true, inRange, h1, h2, Bool.true_and]
      exact ih h
    | [], h => simp [truthOfRow] at h
    | _ :: _ :: _, h => simp [truthOfRow] at h

omit [Field α] [IsStrictOrderedRing α] in
theorem allRows_refused (lo hi : Fl α) (rows : List (List (Fl α)))
    (h : ¬ rows.all (fun r => r.all (inRange lo hi)) = true) :
    ((∃ pre v post, rows = pre ++ [v] :: post ∧ (∀ r ∈ pre, ∃ w, r = [w] ∧ Fl.Within lo hi w) ∧ ¬ Fl.Within lo hi v) →
      allRows lo hi rows = .ok false) ∧
    ((¬ ∃ pre v post, rows = pre ++ [v] :: post ∧ (∀ r ∈ pre, ∃ w, r = [w] ∧ Fl.Within lo hi w) ∧ ¬ Fl.Within lo hi v) →
      allRows lo hi rows = .error .ValueError) := by
  induction rows with
  | nil => simp at h
  | cons r rows ih =>
    match r, h with
    | [x], h =>
      by_cases hx : Fl.Within lo hi x
      · have hx' := (Fl.within_iff lo hi x).2 hx
        have hxx := hx'
        unfold inRange at hxx
        rw [Bool.and_eq_true] at hxx
        simp only [List.all_cons, List.all_nil, Bool.and_true, hx', Bool.true_and] at h
        have e : allRows lo hi ([x] :: rows) = allRows lo hi rows := by
          simp [allRows, truthOfRow, hxx.1, hxx.2]
        rw [e]
        have hi' := ih h
        refine ⟨fun ⟨pre, v, post, h1, h2, h3⟩ => hi'.1 ?_, fun hn => hi'.2 ?_⟩
        · cases pre with
          | nil =>
            simp only [List.nil_append, List.cons.injEq, and_true] at h1
            exact (h3 (h1.1 ▸ hx)).elim
          | cons p pre =>
            simp only [List.cons_append, List.cons.injEq] at h1
            exact ⟨pre, v, post, h1.2, fun r hr => h2 r (List.mem_cons_of_mem _ hr), h3⟩
        · rintro ⟨pre, v, post, h1, h2, h3⟩
          refine hn ⟨[x] :: pre, v, post, by rw [h1]; rfl, ?_, h3⟩
          intro r hr
          rcases List.mem_cons.1 hr with rfl | hr
          · exact ⟨x, rfl, hx⟩
          · exact h2 r hr
      · refine ⟨fun _ => ?_, fun hn => (hn ⟨[], x, rows, rfl, by simp, hx⟩).elim⟩
        rw [← Fl.within_iff] at hx
        unfold inRange at hx
        rw [Bool.and_eq_true, not_and_or] at hx
        clear ih h
        cases h1 : Fl.le lo x
        · simp [allRows, truthOfRow, h1]
        · have h2 : Fl.le x hi = false := by simpa [h1] using hx
          simp [allRows, truthOfRow, h1, h2]
    | [], h =>
      refine ⟨fun ⟨pre, v, post, h1, h2, h3⟩ => ?_, fun _ => by simp [allRows, truthOfRow]⟩
      cases pre with
      | nil => simp at h1
      | cons p pre =>
        obtain ⟨w, hw, _⟩ := h2 p (by simp)
        simp [hw] at h1
    | a :: b :: t, h =>
      refine ⟨fun ⟨pre, v, post, h1, h2, h3⟩ => ?_, fun _ => by simp [allRows, truthOfRow]⟩
      cases pre with
      | nil => simp at h1
      | cons p pre =>
        obtain ⟨w, hw, _⟩ := h2 p (by simp)
        simp [hw] at h1

end Verif.Utils
