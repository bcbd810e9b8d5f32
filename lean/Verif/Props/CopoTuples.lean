import Verif.Lemmas.CopoTuplesAux

/-!
# C37-C40: tuples, Q-e scheme, Fineman-Ross, data bookkeeping
-/

namespace Verif.CopoMulti

open Verif.Copo Verif.Utils

/-! ### C37 -/

section Tuples

variable {α : Type*} [Field α] [LinearOrder α] [IsStrictOrderedRing α]

/-- Probability of finding the units of `t` in this order: the first unit has probability `F`, each step probability `P`. -/
def chainProb (F : ℕ → α) (P : ℕ → ℕ → α) (t : List ℕ) : α :=
  F (t.headD 0) * ((t.zip t.tail).map fun p => P p.1 p.2).prod

/-- A tuple of `n` monomer indices below `N`. -/
def IsTuple (N n : ℕ) (t : List ℕ) : Prop := t.length = n ∧ ∀ x ∈ t, x < N

theorem tupleProb_eq (F : ℕ → α) (P : ℕ → ℕ → α) : tupleProb F P = chainProb F P := by
  funext t; rw [tupleProb, chainProb, pathProd_eq]

/-- **C37.** The keys are distinct tuples; of a tuple and its mirror image exactly one is reported (the lexicographically
smaller one), with the sum of the probabilities of both directions (once, if they coincide). -/
theorem C37_representatives (F : ℕ → α) (P : ℕ → ℕ → α) (N n : ℕ) :
    ((tuplesMulti F P N n).map Prod.fst).Nodup ∧
    (∀ t, t ∈ (tuplesMulti F P N n).map Prod.fst ↔ IsTuple N n t ∧ t ≤ t.reverse) ∧
    ∀ t ∈ (tuplesMulti F P N n).map Prod.fst,
      dget (tuplesMulti F P N n) t = if t.reverse = t then chainProb F P t else chainProb F P t + chainProb F P t.reverse := by
  have h := tuples_inv (tupleProb F P) N n
  rw [tupleProb_eq] at h
  have e : tuplesMulti F P N n = (product N n).foldl (tupleStep (chainProb F P)) [] := by rw [tuplesMulti, tupleProb_eq]
  rw [e]
  refine ⟨h.nodup, fun t => by rw [h.keys, mem_product]; rfl, fun t ht => ?_⟩
  rw [h.keys] at ht
  rw [h.val t ht.1 ht.2]
  have hm : t.reverse ∈ product N n := by
    have := ht.1; rw [mem_product] at this ⊢; simpa using this
  by_cases e : t.reverse = t
  · simp [e]
  · simp [e, hm]

/-- **C37.** For a stochastic matrix and a composition summing to one, the reported values are non-negative and sum to one. -/
theorem C37_distribution (F : ℕ → α) (P : ℕ → ℕ → α) (N n : ℕ) (hF : ∀ i < N, 0 ≤ F i) (hP : ∀ i < N, ∀ j < N, 0 ≤ P i j)
    (hF1 : ((List.range N).map F).sum = 1) (hP1 : ∀ i < N, ((List.range N).map (P i)).sum = 1) :
    (∀ t ∈ (tuplesMulti F P N (n + 1)).map Prod.fst, 0 ≤ dget (tuplesMulti F P N (n + 1)) t) ∧
    ((tuplesMulti F P N (n + 1)).map Prod.snd).sum = 1 := by
  constructor
  · intro t ht
    obtain ⟨-, hk, hv⟩ := C37_representatives F P N (n + 1)
    have hT := ((hk t).mp ht).1
    have hnn : ∀ u, IsTuple N (n + 1) u → 0 ≤ chainProb F P u := by
      intro u hu
      apply mul_nonneg
      · cases u with
        | nil => simp [IsTuple] at hu
        | cons a u => exact hF a (hu.2 a (by simp))
      · apply List.prod_nonneg
        intro x hx
        obtain ⟨⟨i, j⟩, hp, rfl⟩ := List.mem_map.mp hx
        exact hP i (hu.2 i (List.of_mem_zip hp).1) j (hu.2 j (List.mem_of_mem_tail (List.of_mem_zip hp).2))
    have hR : IsTuple N (n + 1) t.reverse := ⟨by simpa using hT.1, by simpa using hT.2⟩
    rw [hv t ht]
    split_ifs
    · exact hnn t hT
    · exact add_nonneg (hnn t hT) (hnn _ hR)
  · rw [← hF1, ← sum_tupleProb F P N n hP1]
    exact (tuples_inv (tupleProb F P) N (n + 1)).sum

/-- What the returned dict says about the pair `t`, mirror image of `t`: probability of the first plus probability of the
second. -/
def undirected (d : Dict (List ℕ) α) (t : List ℕ) : α :=
  (if t.reverse = t then 2 else 1) * (if t ∈ d.map Prod.fst then dget d t else dget d t.reverse)

theorem undirected_eq (F : ℕ → α) (P : ℕ → ℕ → α) (N n : ℕ) (t : List ℕ) (ht : IsTuple N n t) :
    undirected (tuplesMulti F P N n) t = chainProb F P t + chainProb F P t.reverse := by
  obtain ⟨-, hk, hv⟩ := C37_representatives F P N n
  unfold undirected
  by_cases hm : t ∈ (tuplesMulti F P N n).map Prod.fst
  · rw [if_pos hm, hv t hm]
    split_ifs with h
    · rw [h]; ring
    · ring
  · have hlt : t.reverse < t := by
      by_contra hc
      exact hm ((hk t).mpr ⟨ht, not_lt.mp hc⟩)
    have hm' : t.reverse ∈ (tuplesMulti F P N n).map Prod.fst :=
      (hk _).mpr ⟨⟨by simpa using ht.1, by simpa using ht.2⟩, by rw [List.reverse_reverse]; exact hlt.le⟩
    rw [if_neg hm, if_neg hlt.ne, hv _ hm', List.reverse_reverse, if_neg hlt.ne']
    ring

/-- **C37.** If moreover `F` is stationary (`F P = F`), summing the probabilities of `(n+2)`-tuples over their last unit gives
those of the `(n+1)`-tuples. -/
theorem C37_sum_out (F : ℕ → α) (P : ℕ → ℕ → α) (N n : ℕ) (hP1 : ∀ i < N, ((List.range N).map (P i)).sum = 1)
    (hS : ∀ j < N, ((List.range N).map fun i => F i * P i j).sum = F j) (t : List ℕ) (ht : IsTuple N (n + 1) t) :
    ((List.range N).map fun j => undirected (tuplesMulti F P N (n + 2)) (t ++ [j])).sum =
      undirected (tuplesMulti F P N (n + 1)) t := by
  rw [undirected_eq F P N (n + 1) t ht]
  have e1 : ((List.range N).map fun j => undirected (tuplesMulti F P N (n + 2)) (t ++ [j])) =
      (List.range N).map fun j => chainProb F P (t ++ [j]) + chainProb F P (j :: t.reverse) := by
    apply List.map_congr_left
    intro j hj
    rw [undirected_eq F P N (n + 2) (t ++ [j])]
    · simp
    · refine ⟨by simp [ht.1], fun x hx => ?_⟩
      rw [List.mem_append, List.mem_singleton] at hx
      rcases hx with hx | rfl
      · exact ht.2 x hx
      · exact List.mem_range.mp hj
  rw [e1, List.sum_map_add]
  have fwd : ∀ u : List ℕ, IsTuple N (n + 1) u → ((List.range N).map fun j => chainProb F P (u ++ [j])).sum = chainProb F P u := by
    intro u hu
    rcases List.eq_nil_or_concat u with rfl | ⟨v, i, rfl⟩
    · simp [IsTuple] at hu
    · rw [List.concat_eq_append] at hu ⊢
      have hd : ∀ j, (v ++ [i] ++ [j]).headD 0 = (v ++ [i]).headD 0 := by intro j; cases v <;> rfl
      simp only [← tupleProb_eq, tupleProb, pathProd_snoc, hd, ← mul_assoc]
      rw [List.sum_map_mul_left, hP1 i (hu.2 i (by simp)), mul_one]
  have bwd : ∀ u : List ℕ, IsTuple N (n + 1) u → ((List.range N).map fun j => chainProb F P (j :: u)).sum = chainProb F P u := by
    intro u hu
    cases u with
    | nil => simp [IsTuple] at hu
    | cons a u =>
      simp only [← tupleProb_eq, tupleProb, pathProd_cons, List.headD_cons, ← mul_assoc]
      rw [List.sum_map_mul_right, hS a (hu.2 a (by simp))]
  rw [fwd t ht, bwd _ ⟨by simpa using ht.1, by simpa using ht.2⟩]

example : tuplesMulti (fun i => if i = 0 then (1/3 : ℚ) else 2/3) (fun i j => if i = 0 then (if j = 0 then 1/2 else 1/2) else
    (if j = 0 then 1/4 else 3/4)) 2 2 = [([0, 0], 1/6), ([0, 1], 1/3), ([1, 1], 1/2)] := by decide +kernel

end Tuples

/-! ### C38 -/

/-- **C38.** Positive ratios, unit diagonal, `r_ij r_ji = exp(-(e_i-e_j)²) ≤ 1`, with equality exactly when `e_i = e_j`. -/
theorem C38_Qe {n : ℕ} (Q e : Fin n → ℝ) (hQ : ∀ i, 0 < Q i) (i j : Fin n) :
    convertQe Q e i i = 1 ∧ 0 < convertQe Q e i j ∧
    convertQe Q e i j * convertQe Q e j i = Real.exp (-(e i - e j) ^ 2) ∧ convertQe Q e i j * convertQe Q e j i ≤ 1 ∧
    (convertQe Q e i j * convertQe Q e j i = 1 ↔ e i = e j) := by
  have hi := (hQ i).ne'
  have hj := (hQ j).ne'
  have key : convertQe Q e i j * convertQe Q e j i = Real.exp (-(e i - e j) ^ 2) := by
    unfold convertQe
    rw [show -(e i - e j) ^ 2 = -e i * (e i - e j) + -e j * (e j - e i) by ring, Real.exp_add]
    field_simp
  refine ⟨?_, ?_, key, ?_, ?_⟩
  · simp [convertQe, hi]
  · unfold convertQe
    exact mul_pos (div_pos (hQ i) (hQ j)) (Real.exp_pos _)
  · rw [key, Real.exp_le_one_iff]; nlinarith [sq_nonneg (e i - e j)]
  · rw [key, Real.exp_eq_one_iff, neg_eq_zero, sq_eq_zero_iff, sub_eq_zero]

/-- **C38.** Multiplying all `Q` by the same non-zero factor changes nothing; changing the sign of all `e` changes nothing;
shifting all `e` by `c` multiplies `r_ij` by `exp(-c (e_i - e_j))`, so the products `r_ij r_ji` do not change. -/
theorem C38_invariance {n : ℕ} (Q e : Fin n → ℝ) (hQ : ∀ i, 0 < Q i) (c : ℝ) (i j : Fin n) :
    (c ≠ 0 → convertQe (fun k => c * Q k) e i j = convertQe Q e i j) ∧
    convertQe Q (fun k => -e k) i j = convertQe Q e i j ∧
    convertQe Q (fun k => e k + c) i j = convertQe Q e i j * Real.exp (-c * (e i - e j)) ∧
    convertQe Q (fun k => e k + c) i j * convertQe Q (fun k => e k + c) j i = convertQe Q e i j * convertQe Q e j i := by
  have hj := (hQ j).ne'
  refine ⟨fun hc => ?_, ?_, ?_, ?_⟩
  · unfold convertQe; rw [mul_div_mul_left _ _ hc]
  · unfold convertQe; congr 2; ring
  · unfold convertQe
    rw [mul_assoc, ← Real.exp_add]; congr 2; ring
  · rw [(C38_Qe Q (fun k => e k + c) hQ i j).2.2.1, (C38_Qe Q e hQ i j).2.2.1]
    congr 2; ring

example : ∀ i : Fin 3, 0 < (![1, 0.78, 0.026] : Fin 3 → ℝ) i := by
  intro i; fin_cases i <;> norm_num

/-! ### C39 -/

section FR

variable {α : Type*} [Field α] [LinearOrder α] [IsStrictOrderedRing α]

/-- Mayo-Lewis equation in the mole fractions. -/
def MayoLewis (r1 r2 f F : α) : Prop :=
  F * (r1 * f ^ 2 + 2 * f * (1 - f) + r2 * (1 - f) ^ 2) = r1 * f ^ 2 + f * (1 - f)

/-- **C39.** For data on the Mayo-Lewis curve of `(r1, r2)`, `0 < f1 < 1`, with at least two different `f1`,
`fit_Finemann_Ross` returns exactly `(r1, r2)`. -/
theorem C39_exact (r1 r2 : α) (h1 : 0 ≤ r1) (h2 : 0 ≤ r2) (data : List (α × α))
    (hd : ∀ p ∈ data, 0 < p.1 ∧ p.1 < 1 ∧ MayoLewis r1 r2 p.1 p.2) (hne : ∃ p ∈ data, ∃ q ∈ data, p.1 ≠ q.1) :
    finemannRoss data = .ok (r1, r2) := by
  -- the transformed abscissa as a function of x = f1/f2
  let H : α → α := fun x => x * (x + r2) / (r1 * x + 1)
  have hmono : ∀ x y : α, 0 < x → x < y → H x < H y := by
    intro x y hx hxy
    have hy := hx.trans hxy
    have d1 : 0 < r1 * x + 1 := by positivity
    have d2 : 0 < r1 * y + 1 := by positivity
    show x * (x + r2) / (r1 * x + 1) < y * (y + r2) / (r1 * y + 1)
    rw [div_lt_div_iff₀ d1 d2]
    have : 0 < (y - x) * (r1 * x * y + (x + y) + r2) := mul_pos (sub_pos.mpr hxy) (by positivity)
    nlinarith
  have hpt : ∀ p ∈ data, (((p.1 / (1 - p.1)) ^ 2 / (p.2 / (1 - p.2)),
      p.1 / (1 - p.1) * (p.2 / (1 - p.2) - 1) / (p.2 / (1 - p.2))) : α × α) =
      (H (p.1 / (1 - p.1)), r1 * H (p.1 / (1 - p.1)) + -r2) := by
    intro p hp
    obtain ⟨a, b, c⟩ := hd p hp
    obtain ⟨f, F⟩ := p
    simp only at a b c ⊢
    have g : 0 < 1 - f := sub_pos.mpr b
    unfold MayoLewis at c
    obtain ⟨x, hx⟩ : ∃ x, x = f / (1 - f) := ⟨_, rfl⟩
    have xp : 0 < x := hx ▸ div_pos a g
    have ff : f = x / (1 + x) := by rw [hx]; field_simp; ring
    have gg : 1 - f = 1 / (1 + x) := by rw [ff]; field_simp; ring
    have x1 : (0:α) < 1 + x := by positivity
    have D : 0 < r1 * x ^ 2 + 2 * x + r2 := by positivity
    have FF : F = (r1 * x ^ 2 + x) / (r1 * x ^ 2 + 2 * x + r2) := by
      rw [eq_div_iff D.ne']
      rw [gg, ff] at c
      field_simp at c
      linear_combination c
    have G : 1 - F = (x + r2) / (r1 * x ^ 2 + 2 * x + r2) := by
      rw [FF, eq_div_iff D.ne', sub_mul, div_mul_cancel₀ _ D.ne']; ring
    have xr : 0 < x + r2 := by positivity
    have y : F / (1 - F) = x * (r1 * x + 1) / (x + r2) := by
      rw [G, FF, div_div_div_cancel_right₀ D.ne']; congr 1; ring
    have d1 : 0 < r1 * x + 1 := by positivity
    rw [y, ← hx]
    refine Prod.ext ?_ ?_
    · show x ^ 2 / (x * (r1 * x + 1) / (x + r2)) = x * (x + r2) / (r1 * x + 1)
      field_simp
    · show x * (x * (r1 * x + 1) / (x + r2) - 1) / (x * (r1 * x + 1) / (x + r2)) = r1 * (x * (x + r2) / (r1 * x + 1)) + -r2
      field_simp
      ring
  have hmap : data.map (fun p => (((p.1 / (1 - p.1)) ^ 2 / (p.2 / (1 - p.2)),
      p.1 / (1 - p.1) * (p.2 / (1 - p.2) - 1) / (p.2 / (1 - p.2))) : α × α)) =
      (data.map fun p => H (p.1 / (1 - p.1))).map fun x => (x, r1 * x + -r2) := by
    rw [List.map_map]; exact List.map_congr_left hpt
  unfold finemannRoss
  dsimp only
  rw [hmap, linregress_line]
  · simp
  · obtain ⟨p, hp, q, hq, hpq⟩ := hne
    refine ⟨_, List.mem_map_of_mem hp, _, List.mem_map_of_mem hq, ?_⟩
    have xmono : ∀ u v : α, u < v → v < 1 → u / (1 - u) < v / (1 - v) := by
      intro u v huv hv
      rw [div_lt_div_iff₀ (by linarith) (by linarith)]; nlinarith
    have xpos : ∀ p ∈ data, 0 < p.1 / (1 - p.1) := fun p hp => div_pos (hd p hp).1 (sub_pos.mpr (hd p hp).2.1)
    rcases lt_or_gt_of_ne hpq with h | h
    · exact (hmono _ _ (xpos p hp) (xmono _ _ h (hd q hq).2.1)).ne
    · exact (hmono _ _ (xpos q hq) (xmono _ _ h (hd p hp).2.1)).ne'

/-- **C39.** The data computed by `inst_copolymer_binary` are on the Mayo-Lewis curve. -/
theorem C39_inst_copolymer (r1 r2 f F : α) (h : instBinary f r1 r2 = some F) : MayoLewis r1 r2 f F := by
  unfold instBinary at h
  rw [fdiv_eq_some] at h
  exact h.2.symm

/-- **C39.** With a single feed composition there is no fit: the regression raises. -/
theorem C39_one_point (data : List (α × α)) (p : α × α) (h : ∀ q ∈ data, q = p) : finemannRoss data = .error .ValueError := by
  unfold finemannRoss linregress
  dsimp only
  rw [if_pos]
  rw [List.all_eq_true]
  intro x hx
  obtain ⟨q, hq, rfl⟩ := List.mem_map.mp hx
  cases data with
  | nil => simp at hq
  | cons a t =>
    rw [h q hq, h a (by simp)]
    simp

example : ∀ p ∈ ([(1/2, 3/5), (1/4, 5/17), (4/5, 36/41)] : List (ℚ × ℚ)), 0 < p.1 ∧ p.1 < 1 ∧ MayoLewis 2 1 p.1 p.2 := by
  intro p hp
  simp only [List.mem_cons, List.not_mem_nil, or_false] at hp
  rcases hp with rfl | rfl | rfl <;> norm_num [MayoLewis]

end FR

/-! ### C40 -/

/-- The data set belongs to the monomer pair of the model. -/
def Valid (M1 M2 : String) (d : DataSet) : Prop := ({d.M1, d.M2} : Set String) = {M1, M2}

theorem sameMonomers_iff (M1 M2 : String) (d : DataSet) : sameMonomers d.M1 d.M2 M1 M2 = true ↔ Valid M1 M2 d := by
  simp only [sameMonomers, decide_eq_true_eq, Valid]
  rw [Set.pair_eq_pair_iff]

theorem addData_spec (M1 M2 : String) (new stored : List DataSet) :
    ∃ added, (addData M1 M2 stored new).1 = stored ++ added ∧
      added.Sublist new ∧ (∀ d ∈ added, Valid M1 M2 d) ∧
      ((stored.map DataSet.id).Nodup → ((stored ++ added).map DataSet.id).Nodup) ∧
      ((addData M1 M2 stored new).2 = none → ∀ d ∈ new, Valid M1 M2 d ∧ d.id ∈ (stored ++ added).map DataSet.id) := by
  induction new generalizing stored with
  | nil => exact ⟨[], by simp [addData], by simp, by simp, by simp, by simp⟩
  | cons d rest ih =>
    unfold addData
    by_cases hv : sameMonomers d.M1 d.M2 M1 M2 = true
    · rw [if_pos hv]
      have hV := (sameMonomers_iff M1 M2 d).mp hv
      by_cases hm : d.id ∈ stored.map DataSet.id
      · rw [if_pos hm]
        obtain ⟨added, a1, a2, a3, a4, a5⟩ := ih stored
        refine ⟨added, a1, a2.trans (List.sublist_cons_self _ _), a3, a4, fun h x hx => ?_⟩
        rcases List.mem_cons.mp hx with rfl | hx
        · exact ⟨hV, by rw [List.map_append]; exact List.mem_append_left _ hm⟩
        · exact a5 h x hx
      · rw [if_neg hm]
        obtain ⟨added, a1, a2, a3, a4, a5⟩ := ih (stored ++ [d])
        refine ⟨d :: added, by simpa using a1, a2.cons_cons d, ?_, ?_, fun h x hx => ?_⟩
        · intro x hx
          rcases List.mem_cons.mp hx with rfl | hx
          · exact hV
          · exact a3 x hx
        · intro hnd
          have := a4 (by
            rw [List.map_append]
            exact List.Nodup.append hnd (by simp) (by simpa using hm))
          simpa using this
        · rcases List.mem_cons.mp hx with rfl | hx
          · exact ⟨hV, by simp⟩
          · simpa using a5 h x hx
    · rw [if_neg hv]
      exact ⟨[], by simp, by simp, by simp, by simp, by simp⟩

/-- A history of `add_data` calls, each with a list; a call that raises keeps what it did before the exception. -/
def history (M1 M2 : String) (calls : List (List DataSet)) : List DataSet :=
  calls.foldl (fun s c => (addData M1 M2 s c).1) []

/-- **C40.** After any history of calls, whatever was stored stays stored in the same position, no data set is stored twice,
and all stored data sets belong to the monomer pair of the model and were passed to some call. -/
theorem C40_invariants (M1 M2 : String) (calls : List (List DataSet)) (c : List DataSet) :
    ((history M1 M2 calls).map DataSet.id).Nodup ∧ (∀ d ∈ history M1 M2 calls, Valid M1 M2 d ∧ ∃ c ∈ calls, d ∈ c) ∧
    history M1 M2 calls <+: history M1 M2 (calls ++ [c]) := by
  have hstep : ∀ calls c, history M1 M2 (calls ++ [c]) = (addData M1 M2 (history M1 M2 calls) c).1 := by
    intro calls c; simp [history]
  refine ⟨?_, ?_, ?_⟩
  · induction calls using List.reverseRecOn with
    | nil => simp [history]
    | append_singleton l c ih =>
      rw [hstep]
      obtain ⟨added, a1, -, -, a4, -⟩ := addData_spec M1 M2 c (history M1 M2 l)
      rw [a1]; exact a4 ih
  · induction calls using List.reverseRecOn with
    | nil => simp [history]
    | append_singleton l c ih =>
      rw [hstep]
      obtain ⟨added, a1, a2, a3, -, -⟩ := addData_spec M1 M2 c (history M1 M2 l)
      rw [a1]
      intro d hd
      rcases List.mem_append.mp hd with h | h
      · obtain ⟨v, c', hc', hd'⟩ := ih d h
        exact ⟨v, c', by simp [hc'], hd'⟩
      · exact ⟨a3 d h, c, by simp, a2.subset h⟩
  · rw [hstep]
    obtain ⟨added, a1, -⟩ := addData_spec M1 M2 c (history M1 M2 calls)
    rw [a1]; exact List.prefix_append _ _

/-- **C40.** A call succeeds exactly when all its data sets belong to the monomer pair; then all of them are stored, and the new
ones are appended in the order of the argument. -/
theorem C40_success (M1 M2 : String) (stored new : List DataSet) :
    ((addData M1 M2 stored new).2 = none ↔ ∀ d ∈ new, Valid M1 M2 d) ∧
    ((∀ d ∈ new, Valid M1 M2 d) → ∃ added, (addData M1 M2 stored new).1 = stored ++ added ∧ added.Sublist new ∧
      ∀ d ∈ new, d.id ∈ (stored ++ added).map DataSet.id) := by
  have hiff : (addData M1 M2 stored new).2 = none ↔ ∀ d ∈ new, Valid M1 M2 d := by
    constructor
    · intro h d hd
      obtain ⟨_, -, -, -, -, a5⟩ := addData_spec M1 M2 new stored
      exact (a5 h d hd).1
    · intro h
      induction new generalizing stored with
      | nil => rfl
      | cons d rest ih =>
        unfold addData
        rw [if_pos ((sameMonomers_iff M1 M2 d).mpr (h d (by simp)))]
        exact ih _ fun x hx => h x (by simp [hx])
  refine ⟨hiff, fun h => ?_⟩
  obtain ⟨added, a1, a2, -, -, a5⟩ := addData_spec M1 M2 new stored
  exact ⟨added, a1, a2, fun d hd => (a5 (hiff.mpr h) d hd).2⟩

/-- **C40.** A single data set of other monomers is rejected and the stored data are untouched; a duplicate is skipped. -/
theorem C40_single (M1 M2 : String) (stored : List DataSet) (d : DataSet) :
    (¬ Valid M1 M2 d → addData M1 M2 stored [d] = (stored, some .ValueError)) ∧
    (Valid M1 M2 d → d.id ∈ stored.map DataSet.id → addData M1 M2 stored [d] = (stored, none)) ∧
    (Valid M1 M2 d → d.id ∉ stored.map DataSet.id → addData M1 M2 stored [d] = (stored ++ [d], none)) := by
  refine ⟨fun h => ?_, fun h hm => ?_, fun h hm => ?_⟩
  · unfold addData; rw [if_neg (fun hc => h ((sameMonomers_iff M1 M2 d).mp hc))]
  · unfold addData; rw [if_pos ((sameMonomers_iff M1 M2 d).mpr h), if_pos hm]; rfl
  · unfold addData; rw [if_pos ((sameMonomers_iff M1 M2 d).mpr h), if_neg hm]; rfl

/-- **C40 (counterexample).** A rejected list call does not leave the stored data untouched: data sets preceding the offending
one are stored although the call raises. -/
theorem C40_atomic_false : ∃ M1 M2 stored new,
    (addData M1 M2 stored new).2 = some .ValueError ∧ (addData M1 M2 stored new).1 ≠ stored :=
  ⟨"A", "B", [], [⟨0, "A", "B"⟩, ⟨1, "A", "C"⟩], by decide +kernel, by decide +kernel⟩

example : Valid "A" "B" ⟨0, "B", "A"⟩ := Set.pair_comm _ _

end Verif.CopoMulti
