import Verif.Lemmas.Polyline

/-!
# Properties C12, C13: `simplify_polyline`
-/

namespace Verif.Polyline

/-- **C12.** For `tol ≥ 0` the simplification terminates (recursion depth at most the number of points) and returns a
strictly increasing list of row indices that starts with the first and ends with the last row. -/
theorem C12_subsequence {d : ℕ} (hd : 2 ≤ d) (nvert : ℕ) (hn : 2 ≤ nvert) (points : ℕ → Fin d → ℝ) (tol : ℝ)
    (ht : 0 ≤ tol) :
    ∃ L : List ℕ, (∀ fuel, nvert ≤ fuel → simplifyPolyline nvert points tol fuel = .ok (some L)) ∧
      L.Pairwise (· < ·) ∧ L.head? = some 0 ∧ L.getLast? = some (nvert - 1) ∧ ∀ k ∈ L, k < nvert := by
  by_cases h2 : nvert = 2
  · subst h2
    refine ⟨[0, 1], fun fuel _ => ?_, by simp, rfl, rfl, by simp⟩
    unfold simplifyPolyline
    rw [if_neg (by omega), if_neg (by omega), if_pos rfl]
  · obtain ⟨L, hL, ⟨T, hT⟩, ⟨M, hM⟩, hc, _⟩ := rdp_good points tol ht (nvert - 1) 0 (nvert - 1) (by omega) (by omega)
    have hp : L.Pairwise (· < ·) :=
      List.isChain_iff_pairwise.mp (hc.imp fun _ _ h => h.1)
    refine ⟨L, fun fuel hf => ?_, hp, by rw [hT]; rfl, by rw [hM]; simp, ?_⟩
    · unfold simplifyPolyline
      rw [if_neg (by omega), if_neg (by omega), if_neg h2, rdp_mono' _ _ _ _ _ _ hL fuel (by omega)]
    · intro k hk
      rw [hM] at hp hk
      rw [List.pairwise_append] at hp
      rcases List.mem_append.mp hk with hk | hk
      · have := hp.2.2 k hk (nvert - 1) (by simp)
        omega
      · simp at hk; omega

/-- **C12.** Inputs that are refused: fewer than two dimensions or fewer than two points. -/
theorem C12_refusal {d : ℕ} (nvert : ℕ) (points : ℕ → Fin d → ℝ) (tol : ℝ) (fuel : ℕ) :
    simplifyPolyline nvert points tol fuel = .error .ValueError ↔ (d < 2 ∨ nvert < 2) := by
  unfold simplifyPolyline
  split_ifs with h1 h2 h3
  · simp [h1]
  · simp [h2]
  · simp; omega
  · simp; omega

/-- **C12 (negative tolerance).** `tol ≥ 0` is needed: for `tol < 0` the recursion never ends, whatever the points. -/
theorem C12_negative_tol_diverges {d : ℕ} (points : ℕ → Fin d → ℝ) (tol : ℝ) (ht : tol < 0) :
    ∀ fuel a b : ℕ, rdp points tol fuel a b = none := by
  intro fuel
  induction fuel with
  | zero => intro a b; rfl
  | succ fuel ih =>
    intro a b
    unfold rdp
    dsimp only
    have h0 := (farthest_spec points a b).1
    rw [if_pos (by linarith), ih]

/-- **C13.** Error bound: for two consecutive kept rows `x < y` that are distinct points, every dropped row in between
is within `tol` of the line through them. -/
theorem C13_error_bound_partial {d : ℕ} (nvert : ℕ) (points : ℕ → Fin d → ℝ) (tol : ℝ) (ht : 0 ≤ tol) (fuel : ℕ)
    (hf : nvert ≤ fuel) (L : List ℕ) (h : simplifyPolyline nvert points tol fuel = .ok (some L))
    (pre post : List ℕ) (x y : ℕ) (hL : L = pre ++ x :: y :: post) (hxy : points x ≠ points y)
    (i : ℕ) (hi1 : x < i) (hi2 : i < y) :
    ∃ t : ℝ, norm2 (fun j => points i j - (points x j + t * (points y j - points x j))) ≤ tol := by
  unfold simplifyPolyline at h
  split_ifs at h with h1 h2 h3
  · simp only [Except.ok.injEq, Option.some.injEq] at h
    rw [hL] at h
    cases pre with
    | nil => simp at h; omega
    | cons a pre => cases pre <;> simp at h
  · simp only [Except.ok.injEq] at h
    obtain ⟨L', e, g⟩ := rdp_good points tol ht fuel 0 (nvert - 1) (by omega) (by omega)
    rw [e] at h
    simp only [Option.some.injEq] at h
    subst h
    have hc := g.chain
    rw [hL] at hc
    rw [List.isChain_append_cons_cons] at hc
    have hxy' := hc.2.1.2 i hi1 hi2
    cases hp : perpDist (points i) (points x) (points y) with
    | none => rw [perpDist_none] at hp; exact absurd hp hxy
    | some δ =>
      obtain ⟨⟨t, htt⟩, _⟩ := perpDist_spec _ _ _ _ hp
      exact ⟨t, by rw [htt]; exact hxy' δ hp⟩

/-- **C13.** No needless points: every kept interior row is farther than `tol` from the line through two kept rows that
enclose it. -/
theorem C13_kept_points_needed {d : ℕ} (nvert : ℕ) (hn : 3 ≤ nvert) (points : ℕ → Fin d → ℝ) (tol : ℝ) (ht : 0 ≤ tol)
    (fuel : ℕ) (hf : nvert ≤ fuel) (L : List ℕ) (h : simplifyPolyline nvert points tol fuel = .ok (some L))
    (k : ℕ) (hk : k ∈ L) (h0 : k ≠ 0) (h1 : k ≠ nvert - 1) :
    ∃ x ∈ L, ∃ y ∈ L, x < k ∧ k < y ∧
      ∀ t : ℝ, tol < norm2 (fun j => points k j - (points x j + t * (points y j - points x j))) := by
  unfold simplifyPolyline at h
  split_ifs at h with g1 g2 g3
  · omega
  · simp only [Except.ok.injEq] at h
    obtain ⟨L', e, g⟩ := rdp_good points tol ht fuel 0 (nvert - 1) (by omega) (by omega)
    rw [e] at h
    simp only [Option.some.injEq] at h
    subst h
    rcases g.need k hk with h | h | ⟨x, hx, y, hy, a, b, δ, hδ, hlt⟩
    · exact absurd h h0
    · exact absurd h h1
    · exact ⟨x, hx, y, hy, a, b, fun t => lt_of_lt_of_le hlt ((perpDist_spec _ _ _ _ hδ).2 t)⟩

/-- **C13 (defect).** A closed polyline (first point = last point) collapses to its two coincident end points,
whatever its shape and however small the tolerance: the error bound fails without the distinctness hypothesis. -/
theorem C13_closed_polyline_collapses {d : ℕ} (hd : 2 ≤ d) (nvert : ℕ) (hn : 3 ≤ nvert) (points : ℕ → Fin d → ℝ)
    (tol : ℝ) (ht : 0 ≤ tol) (hclosed : points 0 = points (nvert - 1)) (fuel : ℕ) :
    simplifyPolyline nvert points tol (fuel + 1) = .ok (some [0, nvert - 1]) := by
  unfold simplifyPolyline
  rw [if_neg (by omega), if_neg (by omega), if_neg (by omega)]
  unfold rdp
  dsimp only
  rw [if_neg]
  obtain ⟨a, b, c⟩ := farthest_spec points 0 (nvert - 1)
  intro hgt
  obtain ⟨_, _, hp⟩ := c (by linarith)
  have := (perpDist_none (points (farthest points 0 (nvert - 1)).1) (points 0) (points (nvert - 1))).mpr hclosed
  rw [this] at hp
  simp at hp

/-- Rows of the closed triangle (0,0) (3,0) (0,3) (0,0). -/
def triangle : ℕ → Fin 2 → ℝ
  | 1 => ![3, 0]
  | 2 => ![0, 3]
  | _ => ![0, 0]

/-- **C13 (defect witness).** For the closed triangle and `tol = 1` both corners are dropped although each is at
distance 3 from the only remaining points. -/
theorem C13_error_bound_false :
    simplifyPolyline 4 triangle 1 5 = .ok (some [0, 3]) ∧
      ∀ t : ℝ, 1 < norm2 (fun j => triangle 1 j - (triangle 0 j + t * (triangle 3 j - triangle 0 j))) := by
  refine ⟨C13_closed_polyline_collapses le_rfl 4 (by norm_num) triangle 1 (by norm_num) rfl 4, fun t => ?_⟩
  unfold norm2
  rw [Real.lt_sqrt (by norm_num)]
  simp [triangle, Fin.sum_univ_two]

/-- Rows (0,0) (9,0) (1,0): the middle point overshoots. -/
def overshoot : ℕ → Fin 2 → ℝ
  | 1 => ![9, 0]
  | 2 => ![1, 0]
  | _ => ![0, 0]

/-- **C13 (defect witness).** The tolerance is documented as point-to-edge distance, but the code measures the distance
to the infinite line: here the dropped point is at distance 8 from the remaining edge although `tol = 1`. -/
theorem C13_edge_distance_false :
    simplifyPolyline 3 overshoot 1 5 = .ok (some [0, 2]) ∧
      ∀ t : ℝ, 0 ≤ t → t ≤ 1 →
        8 ≤ norm2 (fun j => overshoot 1 j - (overshoot 0 j + t * (overshoot 2 j - overshoot 0 j))) := by
  constructor
  · unfold simplifyPolyline
    rw [if_neg (by omega), if_neg (by omega), if_neg (by omega)]
    unfold rdp
    dsimp only
    rw [if_neg]
    obtain ⟨_, _, c⟩ := farthest_spec overshoot 0 2
    intro hgt
    obtain ⟨h1, h2, hp⟩ := c (by linarith)
    have hi : (farthest overshoot 0 2).1 = 1 := by omega
    rw [hi] at hp
    have := (perpDist_spec _ _ _ _ hp).2 9
    have h0 : norm2 (fun j => overshoot 1 j - (overshoot 0 j + 9 * (overshoot 2 j - overshoot 0 j))) = 0 := by
      rw [norm2_eq_zero]
      intro i
      fin_cases i <;> simp [overshoot]
    rw [h0] at this
    have hgt' : (1 : ℝ) < (farthest overshoot 0 2).2 := hgt
    linarith
  · intro t h0 h1
    unfold norm2
    rw [Real.le_sqrt' (by norm_num)]
    simp [overshoot, Fin.sum_univ_two]
    nlinarith

/-- Rows (0,0) (1,2) (2,0). -/
def tent : ℕ → Fin 2 → ℝ
  | 1 => ![1, 2]
  | 2 => ![2, 0]
  | _ => ![0, 0]

-- non-vacuity: the hypotheses of C12 and C13 hold for an open polyline whose end points differ
example : ∃ L : List ℕ, (∀ fuel, 3 ≤ fuel → simplifyPolyline 3 tent (1 / 2) fuel = .ok (some L)) ∧
      L.Pairwise (· < ·) ∧ L.head? = some 0 ∧ L.getLast? = some 2 ∧ ∀ k ∈ L, k < 3 :=
  C12_subsequence le_rfl 3 (by norm_num) tent (1 / 2) (by norm_num)

example : tent 0 ≠ tent 2 := by
  intro h
  have := congrFun h 0
  simp [tent] at this

-- the overshoot polyline satisfies every hypothesis of `C13_error_bound_partial`
example : ∃ t : ℝ, norm2 (fun j => overshoot 1 j - (overshoot 0 j + t * (overshoot 2 j - overshoot 0 j))) ≤ 1 :=
  C13_error_bound_partial 3 overshoot 1 (by norm_num) 5 (by norm_num) [0, 2] C13_edge_distance_false.1 [] [] 0 2 rfl
    (by intro h; have := congrFun h 0; simp [overshoot] at this) 1 (by norm_num) (by norm_num)

end Verif.Polyline
