import Verif.Lemmas.Reaction
import Mathlib.Algebra.BigOperators.Ring.Finset
import Mathlib.Algebra.BigOperators.Intervals
import Mathlib.Tactic.FieldSimp
import Mathlib.Algebra.Order.Ring.Rat

/-! # C102: reactions -/

namespace Verif.Reaction

open Finset

variable {α : Type} [Field α]

/-- C102. Moment closure: when the entries of the distribution are the moments of chain-length concentrations `c n` (zero from `N` on), `eval` adds to each of them the matching moment of `dc n/dt = k M (c (n-1) - c n)`. -/
theorem C102_moments (p : Propagation α) (T M : α) (x rx rx' : List α) (c : ℕ → α) (N : ℕ) (hc : ∀ n, N ≤ n → c n = 0)
    (hd : ∀ j < 3, p.M ≠ p.P + j ∧ p.A ≠ some (p.P + j)) (hM : x[p.M]? = some M) (h0 : x[p.P]? = some (∑ n ∈ range (N + 1), c n))
    (h1 : x[p.P + 1]? = some (∑ n ∈ range (N + 1), (n : α) * c n)) (h : p.eval T x rx = some rx') (j : ℕ) (hj : j < 3) :
    rx'.getD (p.P + j) 0 - rx.getD (p.P + j) 0 = ∑ n ∈ range (N + 1), (n : α) ^ j * (p.k T * M * ((if n = 0 then 0 else c (n - 1)) - c n)) := by
  obtain ⟨-, -, e⟩ := eval_some h
  rw [e, add_sub_cancel_left]
  have m1 : x.getD p.M 0 = M := by rw [List.getD_eq_getElem?_getD, hM]; rfl
  have m2 : x.getD p.P 0 = ∑ n ∈ range N, c n := by rw [List.getD_eq_getElem?_getD, h0, sum_range_succ, hc N le_rfl, add_zero]; rfl
  have m3 : x.getD (p.P + 1) 0 = ∑ n ∈ range N, (n : α) * c n := by rw [List.getD_eq_getElem?_getD, h1, sum_range_succ, hc N le_rfl, mul_zero, add_zero]; rfl
  have rhs : ∑ n ∈ range (N + 1), (n : α) ^ j * (p.k T * M * ((if n = 0 then 0 else c (n - 1)) - c n))
      = p.k T * M * ∑ n ∈ range N, (((n : α) + 1) ^ j - (n : α) ^ j) * c n := by
    have s1 : ∑ n ∈ range (N + 1), (n : α) ^ j * (if n = 0 then 0 else c (n - 1)) = ∑ n ∈ range N, ((n : α) + 1) ^ j * c n := by
      rw [sum_range_succ']
      simp
    have s2 : ∑ n ∈ range (N + 1), (n : α) ^ j * c n = ∑ n ∈ range N, (n : α) ^ j * c n := by
      rw [sum_range_succ, hc N le_rfl, mul_zero, add_zero]
    calc _ = p.k T * M * (∑ n ∈ range (N + 1), (n : α) ^ j * (if n = 0 then 0 else c (n - 1)) - ∑ n ∈ range (N + 1), (n : α) ^ j * c n) := by
          rw [← sum_sub_distrib, mul_sum]
          exact sum_congr rfl fun n _ => by ring
      _ = _ := by
          rw [s1, s2, ← sum_sub_distrib]
          congr 1
          exact sum_congr rfl fun n _ => by ring
  rw [rhs]
  have hMj := (hd j hj).1
  have hAj := (hd j hj).2
  have key : delta p T x (p.P + j) = (if p.P + j = p.P + 1 then p.k T * M * ∑ n ∈ range N, c n else 0)
      + (if p.P + j = p.P + 2 then p.k T * M * (2 * ∑ n ∈ range N, (n : α) * c n + ∑ n ∈ range N, c n) else 0) := by
    unfold delta
    simp only [m1, m2, m3]
    rw [if_neg (Ne.symm hMj)]
    cases hA : p.A with
    | none => simp
    | some iA =>
      have : p.P + j ≠ iA := fun h => hAj (by rw [hA, h])
      simp [this]
  rw [key]
  have : j = 0 ∨ j = 1 ∨ j = 2 := by omega
  rcases this with rfl | rfl | rfl
  · simp
  · simp
  · rw [if_neg (by omega), if_pos rfl, mul_sum, ← sum_add_distrib, zero_add]
    congr 1
    exact sum_congr rfl fun n _ => by ring

/-- C102. Monomer is consumed at the rate `rate(...)`, the polymer gains as many units, and the by-product forms at the same rate; entries that take no part keep their value. -/
theorem C102_balance (p : Propagation α) (T r : α) (x rx rx' : List α) (h : p.eval T x rx = some rx') (hr : p.rate x T = some r)
    (hM : p.M ≠ p.P + 1 ∧ p.M ≠ p.P + 2) (hA : p.A ≠ some p.M ∧ p.A ≠ some (p.P + 1) ∧ p.A ≠ some (p.P + 2)) :
    rx'.getD p.M 0 = rx.getD p.M 0 - r ∧ rx'.getD (p.P + 1) 0 = rx.getD (p.P + 1) 0 + r
      ∧ (∀ iA, p.A = some iA → rx'.getD iA 0 = rx.getD iA 0 + r)
      ∧ rx'.length = rx.length ∧ ∀ i, i ≠ p.M → i ≠ p.P + 1 → i ≠ p.P + 2 → p.A ≠ some i → rx'.getD i 0 = rx.getD i 0 := by
  obtain ⟨-, l, e⟩ := eval_some h
  have hr' : p.k T * x.getD p.M 0 * x.getD p.P 0 = r := by
    unfold Propagation.rate at hr
    simp only [List.foldlM_cons, List.foldlM_nil, Option.bind_eq_bind] at hr
    obtain ⟨a, ha, hr⟩ := Option.bind_eq_some_iff.1 hr
    obtain ⟨b, hb, hr⟩ := Option.bind_eq_some_iff.1 hr
    obtain ⟨M, hM, ha⟩ := Option.map_eq_some_iff.1 ha
    obtain ⟨P, hP, hb⟩ := Option.map_eq_some_iff.1 hb
    rw [List.getD_eq_getElem?_getD, List.getD_eq_getElem?_getD, hM, hP]
    have : b = r := by injection hr
    rw [← this, ← hb, ← ha]; rfl
  have key : ∀ i, (∀ iA, p.A = some iA → i ≠ iA) → delta p T x i = (if i = p.M then -r else 0) + (if i = p.P + 1 then r else 0)
      + (if i = p.P + 2 then p.k T * x.getD p.M 0 * (2 * x.getD (p.P + 1) 0 + x.getD p.P 0) else 0) := by
    intro i hi
    unfold delta
    dsimp only
    rw [hr']
    cases hA' : p.A with
    | none => simp
    | some iA => simp [hi iA hA']
  refine ⟨?_, ?_, ?_, l, ?_⟩
  · rw [e, key p.M (fun iA hi h => hA.1 (by rw [hi, h])), if_pos rfl, if_neg hM.1, if_neg hM.2]; ring
  · rw [e, key (p.P + 1) (fun iA hi h => hA.2.1 (by rw [hi, h])), if_neg hM.1.symm, if_pos rfl, if_neg (by omega)]; ring
  · intro iA hi
    have n1 : iA ≠ p.M := fun h => hA.1 (by rw [hi, h])
    have n2 : iA ≠ p.P + 1 := fun h => hA.2.1 (by rw [hi, h])
    have n3 : iA ≠ p.P + 2 := fun h => hA.2.2 (by rw [hi, h])
    rw [e]
    unfold delta
    simp only [hi]
    rw [if_neg n1, if_neg n2, if_neg n3, hr']
    simp
  · intro i n1 n2 n3 n4
    rw [e, key i (fun iA hi h => n4 (by rw [hi, h])), if_neg n1, if_neg n2, if_neg n3]; ring

/-- C102. The rates do not depend on the order of the reactions. -/
theorem C102_order (l l' : List (Propagation α)) (hl : l.Perm l') (dim : ℕ) (x : List α) (T : α) : rates l dim x T = rates l' dim x T := by
  have key : ∀ l l' : List (Propagation α), l.Perm l' → ∀ r, rates l dim x T = some r → rates l' dim x T = some r := by
    intro l l' hl r h
    obtain ⟨f, n, e⟩ := (foldl_eval T x l _).1 r h
    obtain ⟨r', h'⟩ := (foldl_eval T x l' (List.replicate dim 0)).2 (fun p hp => f p (hl.mem_iff.2 hp))
    obtain ⟨f', n', e'⟩ := (foldl_eval T x l' _).1 r' h'
    have : r = r' := by
      refine List.ext_getElem (by omega) fun i h1 h2 => ?_
      have a := e i
      have b := e' i
      rw [List.getD_eq_getElem?_getD, List.getElem?_eq_getElem h1, Option.getD_some] at a
      rw [List.getD_eq_getElem?_getD, List.getElem?_eq_getElem h2, Option.getD_some] at b
      rw [a, b, (hl.map fun p => delta p T x i).sum_eq]
    rw [this]; exact h'
  cases h : rates l dim x T with
  | some r => exact (key l l' hl r h).symm
  | none =>
    cases h' : rates l' dim x T with
    | none => rfl
    | some r => rw [key l' l hl.symm r h'] at h; cases h

/-- C102. Rates are returned exactly when every index is inside the vectors. -/
theorem C102_rates_defined (l : List (Propagation α)) (dim : ℕ) (x : List α) (T : α) :
    (∃ r, rates l dim x T = some r) ↔ ∀ p ∈ l, p.M < x.length ∧ p.P + 1 < x.length ∧ p.M < dim ∧ p.P + 2 < dim ∧ ∀ iA, p.A = some iA → iA < dim := by
  have f := foldl_eval T x l (List.replicate dim 0)
  rw [List.length_replicate] at f
  exact ⟨fun ⟨r, h⟩ => (f.1 r h).1, f.2⟩

/-- A `ReactionSystem` can be created from distinct reactions: false, the constructor raises for every non-empty list; so does adding two reactions. -/
theorem C102_system_false (l : List ℕ) (hl : l ≠ []) : (∃ e, System.mk' l = .error e) ∧ (l.Nodup → System.mk' l = .error .AttributeError)
    ∧ ∀ a b, ∃ e, addReactions a b = .error e := by
  have key : ∀ l : List ℕ, l ≠ [] → ∃ e, System.mk' l = .error e := by
    intro l hl
    unfold System.mk'
    split_ifs
    · exact ⟨_, rfl⟩
    · cases l with
      | nil => exact absurd rfl hl
      | cons a l => exact ⟨_, rfl⟩
  refine ⟨key l hl, fun hn => ?_, fun a b => key _ (by simp)⟩
  unfold System.mk'
  rw [hn.dedup, if_neg (by simp)]
  cases l with
  | nil => exact absurd rfl hl
  | cons a l => rfl

/-- A repeated reaction is refused: false for `system + reaction`, which also leaves the dimension at 0, so that `rates` raises IndexError. -/
theorem C102_append_false (r : ℕ) : ∃ s, System.mk' [] = .ok s ∧ ((s.addReaction r).addReaction r).reactions = [r, r] ∧ (s.addReaction r).dim = 0
    ∧ ∀ (p : Propagation α) (x : List α) (T : α), rates [p] (s.addReaction r).dim x T = none := by
  refine ⟨⟨[], 0⟩, rfl, rfl, rfl, fun p x T => ?_⟩
  cases h : rates [p] (System.addReaction ⟨[], 0⟩ r).dim x T with
  | none => rfl
  | some v =>
    have := (C102_rates_defined [p] _ x T).1 ⟨v, h⟩ p (by simp)
    exact absurd this.2.2.1 (by simp [System.addReaction])

/-- Two systems can be added: false unless both are empty. -/
theorem C102_add_false (s t : System) : (∃ u, s.addSystem t = .ok u) ↔ s.reactions = [] ∧ t.reactions = [] := by
  constructor
  · rintro ⟨u, h⟩
    by_contra hc
    have hne : s.reactions ++ t.reactions ≠ [] := fun h0 => hc (List.append_eq_nil_iff.1 h0)
    obtain ⟨e, he⟩ := (C102_system_false _ hne).1
    unfold System.addSystem at h
    rw [he] at h
    cases h
  · rintro ⟨h1, h2⟩
    exact ⟨⟨[], 0⟩, by unfold System.addSystem; rw [h1, h2]; rfl⟩

example : (⟨[7], 0⟩ : System).addSystem ⟨[], 0⟩ = .error .AttributeError := by decide

example : (⟨0, 1, some 4, fun _ => 10⟩ : Propagation ℚ).eval 300 [2, 1, 5, 30, 0] [0, 0, 0, 0, 0] = some [-20, 0, 20, 220, 20] := by decide +kernel

example : ([7, 9] : List ℕ) ≠ [] ∧ ([7, 9] : List ℕ).Nodup := by decide

/-- A population of two chains of length 1 and one of length 3 meets the hypotheses of `C102_moments`. -/
example : let c : ℕ → ℚ := fun n => if n = 1 then 2 else if n = 3 then 1 else 0
    (∀ n, 4 ≤ n → c n = 0) ∧ ([5, 3, 5, 11] : List ℚ)[1]? = some (∑ n ∈ range 5, c n) ∧ ([5, 3, 5, 11] : List ℚ)[2]? = some (∑ n ∈ range 5, (n : ℚ) * c n) := by
  refine ⟨fun n hn => ?_, by decide +kernel, by decide +kernel⟩
  dsimp only
  rw [if_neg (by omega), if_neg (by omega)]

end Verif.Reaction
