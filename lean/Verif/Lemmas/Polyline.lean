import Verif.Model.Polyline
import Verif.Lemmas.Tactics
import Mathlib.Data.List.Chain
import Mathlib.Algebra.BigOperators.Field

namespace Verif.Polyline

theorem norm2_nonneg {d : ℕ} (v : Fin d → ℝ) : 0 ≤ norm2 v := Real.sqrt_nonneg _

theorem norm2_sq {d : ℕ} (v : Fin d → ℝ) : norm2 v ^ 2 = ∑ i, v i ^ 2 :=
  Real.sq_sqrt (Finset.sum_nonneg fun i _ => sq_nonneg (v i))

theorem norm2_eq_zero {d : ℕ} (v : Fin d → ℝ) : norm2 v = 0 ↔ ∀ i, v i = 0 := by
  unfold norm2
  rw [Real.sqrt_eq_zero (Finset.sum_nonneg fun i _ => sq_nonneg (v i)),
    Finset.sum_eq_zero_iff_of_nonneg (fun i _ => sq_nonneg (v i))]
  simp

theorem norm2_le_iff {d e : ℕ} (v : Fin d → ℝ) (w : Fin e → ℝ) :
    norm2 v ≤ norm2 w ↔ ∑ i, v i ^ 2 ≤ ∑ i, w i ^ 2 :=
  Real.sqrt_le_sqrt_iff (Finset.sum_nonneg fun i _ => sq_nonneg (w i))

/-- The perpendicular distance is attained on the line and is the minimal distance. -/
theorem perpDist_spec {d : ℕ} (p a b : Fin d → ℝ) (δ : ℝ) (h : perpDist p a b = some δ) :
    (∃ t : ℝ, norm2 (fun i => p i - (a i + t * (b i - a i))) = δ) ∧
    (∀ t : ℝ, δ ≤ norm2 (fun i => p i - (a i + t * (b i - a i)))) := by
  unfold perpDist at h
  dsimp only at h
  split_ifs at h with hn
  simp only [Option.some.injEq] at h
  set n := norm2 (fun i => b i - a i) with hnd
  have hn2 : n ^ 2 = ∑ i, (b i - a i) ^ 2 := norm2_sq _
  set s := ∑ i, (b i - a i) * (p i - a i) with hs
  have hdot : ∑ i, (b i - a i) / n * (p i - a i) = s / n := by
    rw [hs, Finset.sum_div]
    exact Finset.sum_congr rfl fun i _ => by ring
  rw [hdot] at h
  have heq : (fun i => p i - a i - s / n * ((b i - a i) / n)) =
      (fun i => p i - (a i + s / n ^ 2 * (b i - a i))) := by
    funext i; field_simp; ring
  rw [heq] at h
  refine ⟨⟨s / n ^ 2, h⟩, fun t => ?_⟩
  rw [← h, norm2_le_iff]
  have expand : ∀ t : ℝ, ∑ i, (p i - (a i + t * (b i - a i))) ^ 2 =
      ∑ i, (p i - a i) ^ 2 - 2 * t * s + t ^ 2 * n ^ 2 := by
    intro t
    rw [hn2, hs, Finset.mul_sum, Finset.mul_sum, ← Finset.sum_sub_distrib, ← Finset.sum_add_distrib]
    exact Finset.sum_congr rfl fun i _ => by ring
  rw [expand, expand]
  have : ∑ i, (p i - a i) ^ 2 - 2 * t * s + t ^ 2 * n ^ 2 -
      (∑ i, (p i - a i) ^ 2 - 2 * (s / n ^ 2) * s + (s / n ^ 2) ^ 2 * n ^ 2) = (t * n - s / n) ^ 2 := by
    field_simp; ring
  linarith [sq_nonneg (t * n - s / n)]

theorem perpDist_none {d : ℕ} (p a b : Fin d → ℝ) : perpDist p a b = none ↔ a = b := by
  unfold perpDist
  dsimp only
  split_ifs with hn
  · rw [norm2_eq_zero] at hn
    simp only [true_iff]
    funext i
    linarith [hn i]
  · simp only [false_iff]
    rintro rfl
    apply hn
    rw [norm2_eq_zero]
    simp

/-- The `farthest` fold. -/
theorem farthest_fold {d : ℕ} (points : ℕ → Fin d → ℝ) (a b : ℕ) :
    ∀ (l : List ℕ) (acc : ℕ × ℝ), 0 ≤ acc.2 →
      let r := l.foldl (farStep points a b) acc
      acc.2 ≤ r.2 ∧
      (∀ i ∈ l, ∀ δ, perpDist (points i) (points a) (points b) = some δ → δ ≤ r.2) ∧
      (r = acc ∨ (r.1 ∈ l ∧ perpDist (points r.1) (points a) (points b) = some r.2 ∧ acc.2 < r.2)) := by
  intro l
  induction l with
  | nil => intro acc _; simp
  | cons x l ih =>
    intro acc h0
    rw [List.foldl_cons]
    rw [show farStep points a b acc x = match perpDist (points x) (points a) (points b) with
      | none => acc
      | some δ => if δ > acc.2 then (x, δ) else acc from rfl]
    cases hx : perpDist (points x) (points a) (points b) with
    | none =>
      dsimp only
      obtain ⟨h1, h2, h3⟩ := ih acc h0
      refine ⟨h1, ?_, ?_⟩
      · intro i hi δ hδ
        rcases List.mem_cons.mp hi with rfl | hi
        · rw [hx] at hδ; simp at hδ
        · exact h2 i hi δ hδ
      · rcases h3 with h3 | ⟨h3, h4⟩
        · exact Or.inl h3
        · exact Or.inr ⟨List.mem_cons_of_mem _ h3, h4⟩
    | some δx =>
      dsimp only
      split_ifs with hgt
      · obtain ⟨h1, h2, h3⟩ := ih (x, δx) (by dsimp only; linarith)
        dsimp only at h1 h3
        refine ⟨by linarith, ?_, ?_⟩
        · intro i hi δ hδ
          rcases List.mem_cons.mp hi with rfl | hi
          · rw [hx] at hδ; simp at hδ; linarith
          · exact h2 i hi δ hδ
        · right
          rcases h3 with h3 | ⟨h3, h4, h5⟩
          · rw [h3]; exact ⟨by simp, hx, hgt⟩
          · exact ⟨List.mem_cons_of_mem _ h3, h4, by linarith⟩
      · obtain ⟨h1, h2, h3⟩ := ih acc h0
        refine ⟨h1, ?_, ?_⟩
        · intro i hi δ hδ
          rcases List.mem_cons.mp hi with rfl | hi
          · rw [hx] at hδ; simp at hδ; linarith
          · exact h2 i hi δ hδ
        · rcases h3 with h3 | ⟨h3, h4⟩
          · exact Or.inl h3
          · exact Or.inr ⟨List.mem_cons_of_mem _ h3, h4⟩

theorem farthest_spec {d : ℕ} (points : ℕ → Fin d → ℝ) (a b : ℕ) :
    0 ≤ (farthest points a b).2 ∧
    (∀ i, a < i → i < b → ∀ δ, perpDist (points i) (points a) (points b) = some δ → δ ≤ (farthest points a b).2) ∧
    (0 < (farthest points a b).2 → a < (farthest points a b).1 ∧ (farthest points a b).1 < b ∧
      perpDist (points (farthest points a b).1) (points a) (points b) = some (farthest points a b).2) := by
  obtain ⟨h1, h2, h3⟩ := farthest_fold points a b (List.range' (a + 1) (b - (a + 1))) (0, 0) le_rfl
  unfold farthest
  refine ⟨h1, ?_, ?_⟩
  · intro i hi1 hi2 δ hδ
    exact h2 i (by rw [List.mem_range'_1]; omega) δ hδ
  · intro hpos
    rcases h3 with h3 | ⟨h3, h4, _⟩
    · rw [h3] at hpos; simp at hpos
    · rw [List.mem_range'_1] at h3
      exact ⟨by omega, by omega, h4⟩

/-- What the recursion guarantees for a segment. -/
structure Good {d : ℕ} (points : ℕ → Fin d → ℝ) (tol : ℝ) (a b : ℕ) (L : List ℕ) : Prop where
  head : ∃ T, L = a :: T
  last : ∃ M, L = M ++ [b]
  chain : L.IsChain fun x y => x < y ∧ ∀ i, x < i → i < y → ∀ δ,
    perpDist (points i) (points x) (points y) = some δ → δ ≤ tol
  need : ∀ k ∈ L, k = a ∨ k = b ∨ ∃ x ∈ L, ∃ y ∈ L, x < k ∧ k < y ∧ ∃ δ,
    perpDist (points k) (points x) (points y) = some δ ∧ tol < δ

theorem rdp_good {d : ℕ} (points : ℕ → Fin d → ℝ) (tol : ℝ) (ht : 0 ≤ tol) :
    ∀ (fuel a b : ℕ), a < b → b - a ≤ fuel → ∃ L, rdp points tol fuel a b = some L ∧ Good points tol a b L := by
  intro fuel
  induction fuel with
  | zero => intro a b h1 h2; omega
  | succ fuel ih =>
    intro a b hab hfuel
    obtain ⟨h0, h1, h2⟩ := farthest_spec points a b
    unfold rdp
    dsimp only
    split_ifs with hgt
    · obtain ⟨h3, h4, h5⟩ := h2 (by linarith)
      generalize farthest points a b = q at *
      obtain ⟨L1, e1, ⟨T1, g1⟩, ⟨M1, g1'⟩, c1, n1⟩ := ih a q.1 h3 (by omega)
      obtain ⟨L2, e2, ⟨T2, g2⟩, ⟨M2, g2'⟩, c2, n2⟩ := ih q.1 b h4 (by omega)
      rw [e1, e2]
      have hL : L1 ++ L2.tail = M1 ++ q.1 :: T2 := by rw [g1', g2]; simp
      refine ⟨_, rfl, ⟨T1 ++ L2.tail, by rw [g1]; simp⟩, ?_, ?_, ?_⟩
      · refine ⟨M1 ++ M2, ?_⟩
        rw [hL, ← g2, g2']; simp
      · rw [hL, List.isChain_split, ← g1', ← g2]
        exact ⟨c1, c2⟩
      · have m1 : ∀ k ∈ L1, k ∈ L1 ++ L2.tail := fun k hk => List.mem_append_left _ hk
        have m2 : ∀ k ∈ L2, k ∈ L1 ++ L2.tail := by
          intro k hk
          rw [hL]; rw [g2] at hk
          exact List.mem_append_right _ hk
        have ma : a ∈ L1 ++ L2.tail := m1 a (by rw [g1]; simp)
        have mb : b ∈ L1 ++ L2.tail := m2 b (by rw [g2']; simp)
        have hq : ∃ x ∈ L1 ++ L2.tail, ∃ y ∈ L1 ++ L2.tail, x < q.1 ∧ q.1 < y ∧ ∃ δ,
            perpDist (points q.1) (points x) (points y) = some δ ∧ tol < δ :=
          ⟨a, ma, b, mb, h3, h4, q.2, h5, hgt⟩
        intro k hk
        have : k ∈ L1 ∨ k ∈ L2 := by
          rcases List.mem_append.mp hk with hk | hk
          · exact Or.inl hk
          · exact Or.inr (List.mem_of_mem_tail hk)
        rcases this with hk | hk
        · rcases n1 k hk with h | h | ⟨x, hx, y, hy, hh⟩
          · exact Or.inl h
          · rw [h]; exact Or.inr (Or.inr hq)
          · exact Or.inr (Or.inr ⟨x, m1 x hx, y, m1 y hy, hh⟩)
        · rcases n2 k hk with h | h | ⟨x, hx, y, hy, hh⟩
          · rw [h]; exact Or.inr (Or.inr hq)
          · exact Or.inr (Or.inl h)
          · exact Or.inr (Or.inr ⟨x, m2 x hx, y, m2 y hy, hh⟩)
    · refine ⟨_, rfl, ⟨[b], rfl⟩, ⟨[a], rfl⟩, ?_, ?_⟩
      · rw [List.isChain_pair]
        exact ⟨hab, fun i hi1 hi2 δ hδ => le_trans (h1 i hi1 hi2 δ hδ) (not_lt.mp hgt)⟩
      · intro k hk
        simp at hk
        rcases hk with h | h
        · exact Or.inl h
        · exact Or.inr (Or.inl h)

/-- A longer recursion budget does not change the answer. -/
theorem rdp_mono {d : ℕ} (points : ℕ → Fin d → ℝ) (tol : ℝ) :
    ∀ (fuel a b : ℕ) (L : List ℕ), rdp points tol fuel a b = some L → rdp points tol (fuel + 1) a b = some L := by
  intro fuel
  induction fuel with
  | zero => intro a b L h; simp [rdp] at h
  | succ fuel ih =>
    intro a b L h
    unfold rdp at h ⊢
    dsimp only at h ⊢
    split_ifs at h ⊢ with hgt
    · cases h1 : rdp points tol fuel a (farthest points a b).1 with
      | none => rw [h1] at h; simp at h
      | some l1 =>
        cases h2 : rdp points tol fuel (farthest points a b).1 b with
        | none => rw [h1, h2] at h; simp at h
        | some l2 =>
          rw [h1, h2] at h
          rw [ih _ _ _ h1, ih _ _ _ h2]
          exact h
    · exact h

theorem rdp_mono' {d : ℕ} (points : ℕ → Fin d → ℝ) (tol : ℝ) (fuel a b : ℕ) (L : List ℕ)
    (h : rdp points tol fuel a b = some L) (fuel' : ℕ) (hf : fuel ≤ fuel') : rdp points tol fuel' a b = some L := by
  induction hf with
  | refl => exact h
  | step _ ih => exact rdp_mono points tol _ a b L ih

end Verif.Polyline
