import Verif.Model.CopoMulti
import Verif.Lemmas.Utils
import Verif.Lemmas.Tactics
import Mathlib.Data.List.Lex
import Mathlib.Algebra.BigOperators.Group.List.Basic
import Mathlib.Algebra.BigOperators.Ring.List

/-! # Helper lemmas for `tuples_multi` -/

namespace Verif.CopoMulti

open Verif.Utils

variable {α : Type*} [Field α] [LinearOrder α]

theorem mem_product (N n : ℕ) (t : List ℕ) : t ∈ product N n ↔ t.length = n ∧ ∀ x ∈ t, x < N := by
  induction n generalizing t with
  | zero => simp [product, List.length_eq_zero_iff]; rintro rfl; simp
  | succ n ih =>
    simp only [product, List.mem_flatMap, List.mem_range, List.mem_map]
    constructor
    · rintro ⟨a, ha, u, hu, rfl⟩
      obtain ⟨h1, h2⟩ := (ih u).mp hu
      exact ⟨by simp [h1], by simpa [ha] using h2⟩
    · rintro ⟨h1, h2⟩
      cases t with
      | nil => simp at h1
      | cons a u =>
        exact ⟨a, h2 a (by simp), u, (ih u).mpr ⟨by simpa using h1, fun x hx => h2 x (by simp [hx])⟩, rfl⟩

theorem product_sorted (N n : ℕ) : (product N n).Pairwise (· < ·) := by
  induction n with
  | zero => simp [product]
  | succ n ih =>
    unfold product
    rw [List.pairwise_flatMap]
    refine ⟨fun a _ => ?_, ?_⟩
    · rw [List.pairwise_map]
      exact ih.imp fun h => List.cons_lt_cons_iff.mpr (Or.inr ⟨rfl, h⟩)
    · refine List.pairwise_lt_range.imp fun {a b} hab x hx y hy => ?_
      obtain ⟨u, _, rfl⟩ := List.mem_map.mp hx
      obtain ⟨v, _, rfl⟩ := List.mem_map.mp hy
      exact List.cons_lt_cons_iff.mpr (Or.inl hab)

theorem sum_dset_new {κ : Type*} [DecidableEq κ] (d : Dict κ α) (k : κ) (v : α) (h : k ∉ d.map Prod.fst) :
    ((dset d k v).map Prod.snd).sum = (d.map Prod.snd).sum + v := by
  induction d with
  | nil => simp [dset]
  | cons x d ih =>
    obtain ⟨k', v'⟩ := x
    simp only [List.map_cons, List.mem_cons, not_or] at h
    rw [dset, if_neg (Ne.symm h.1)]
    simp only [List.map_cons, List.sum_cons, ih h.2, add_assoc]

theorem sum_dset_add {κ : Type*} [DecidableEq κ] (d : Dict κ α) (k : κ) (v : α) (h : k ∈ d.map Prod.fst) :
    ((dset d k (dget d k + v)).map Prod.snd).sum = (d.map Prod.snd).sum + v := by
  induction d with
  | nil => simp at h
  | cons x d ih =>
    obtain ⟨k', v'⟩ := x
    by_cases hk : k' = k
    · subst hk
      simp only [dset, dget, if_true, List.map_cons, List.sum_cons]; ring
    · simp only [List.map_cons, List.mem_cons] at h
      have := ih (h.resolve_left (Ne.symm hk))
      simp only [dset, dget, if_neg hk, List.map_cons, List.sum_cons, this, add_assoc]

/-- State of the dict after the tuples `pre` have been processed. -/
structure TupleInv (A : List ℕ → α) (pre : List (List ℕ)) (r : Dict (List ℕ) α) : Prop where
  nodup : (r.map Prod.fst).Nodup
  keys : ∀ t, t ∈ r.map Prod.fst ↔ t ∈ pre ∧ t ≤ t.reverse
  val : ∀ t, t ∈ pre → t ≤ t.reverse → dget r t = A t + if t.reverse ≠ t ∧ t.reverse ∈ pre then A t.reverse else 0
  sum : (r.map Prod.snd).sum = (pre.map A).sum

theorem tupleStep_inv (A : List ℕ → α) (pre : List (List ℕ)) (r : Dict (List ℕ) α) (t : List ℕ) (h : TupleInv A pre r)
    (hlt : ∀ u ∈ pre, u < t) (hrev : t.reverse < t → t.reverse ∈ pre) : TupleInv A (pre ++ [t]) (tupleStep A r t) := by
  have ht : t ∉ pre := fun hc => lt_irrefl _ (hlt t hc)
  unfold tupleStep
  rcases lt_or_ge t.reverse t with hr | hr
  · -- the mirror image was processed before
    have hm := hrev hr
    have hk : t.reverse ∈ r.map Prod.fst := (h.keys _).mpr ⟨hm, by rw [List.reverse_reverse]; exact hr.le⟩
    rw [if_pos hk]
    refine ⟨?_, ?_, ?_, ?_⟩
    · rw [keys_dset, if_pos hk]; exact h.nodup
    · intro u
      rw [keys_dset, if_pos hk, h.keys, List.mem_append, List.mem_singleton]
      constructor
      · rintro ⟨a, b⟩; exact ⟨Or.inl a, b⟩
      · rintro ⟨a | rfl, b⟩
        · exact ⟨a, b⟩
        · exact absurd b (not_le.mpr hr)
    · intro u hu hle
      rw [List.mem_append, List.mem_singleton] at hu
      have hut : u ≠ t := by rintro rfl; exact absurd hle (not_le.mpr hr)
      have hu' : u ∈ pre := hu.resolve_right hut
      rw [dget_dset]
      by_cases e : t.reverse = u
      · subst e
        rw [if_pos rfl, h.val _ hu' hle, List.reverse_reverse, if_neg (fun hc => ht hc.2), if_pos ⟨hr.ne', by simp⟩]
        ring
      · rw [if_neg e, h.val _ hu' hle]
        have : u.reverse ≠ t := by rintro rfl; exact e (List.reverse_reverse u)
        simp only [List.mem_append, List.mem_singleton, this, or_false]
    · rw [sum_dset_add _ _ _ hk, h.sum]; simp
  · -- new key
    have hk : t.reverse ∉ r.map Prod.fst := by
      rw [h.keys]
      rintro ⟨a, _⟩
      exact absurd (hlt _ a) (not_lt.mpr hr)
    have hk' : t ∉ r.map Prod.fst := fun hc => ht ((h.keys t).mp hc).1
    rw [if_neg hk]
    refine ⟨?_, ?_, ?_, ?_⟩
    · rw [keys_dset, if_neg hk']
      exact List.Nodup.append h.nodup (List.nodup_singleton _) (by simpa using hk')
    · intro u
      rw [keys_dset, if_neg hk', List.mem_append, List.mem_append, h.keys, List.mem_singleton]
      constructor
      · rintro (⟨a, b⟩ | rfl)
        · exact ⟨Or.inl a, b⟩
        · exact ⟨Or.inr rfl, hr⟩
      · rintro ⟨a | a, b⟩
        · exact Or.inl ⟨a, b⟩
        · exact Or.inr a
    · intro u hu hle
      rw [List.mem_append, List.mem_singleton] at hu
      rw [dget_dset]
      by_cases e : t = u
      · subst e
        rw [if_pos rfl, if_neg, add_zero]
        rintro ⟨h1, h2⟩
        rw [List.mem_append, List.mem_singleton] at h2
        rcases h2 with h2 | h2
        · exact absurd (hlt _ h2) (not_lt.mpr hr)
        · exact h1 h2
      · have hu' : u ∈ pre := hu.resolve_right (Ne.symm e)
        rw [if_neg e, h.val _ hu' hle]
        have : u.reverse ≠ t := by
          rintro rfl
          rw [List.reverse_reverse] at hr
          exact absurd (hlt _ hu') (not_lt.mpr hr)
        simp only [List.mem_append, List.mem_singleton, this, or_false]
    · rw [sum_dset_new _ _ _ hk', h.sum]; simp

theorem tuples_inv (A : List ℕ → α) (N n : ℕ) : TupleInv A (product N n) ((product N n).foldl (tupleStep A) []) := by
  have gen : ∀ rest pre : List (List ℕ), ∀ r, pre ++ rest = product N n → TupleInv A pre r →
      TupleInv A (pre ++ rest) (rest.foldl (tupleStep A) r) := by
    intro rest
    induction rest with
    | nil => intro pre r _ h; simpa using h
    | cons t rest ih =>
      intro pre r hL h
      have hs := product_sorted N n
      rw [← hL, List.pairwise_append, List.pairwise_cons] at hs
      have hlt : ∀ u ∈ pre, u < t := fun u hu => hs.2.2 u hu t (by simp)
      have := ih (pre ++ [t]) (tupleStep A r t) (by simpa using hL) (tupleStep_inv A pre r t h hlt fun hr => ?_)
      · simpa using this
      · have hm : t.reverse ∈ pre ++ t :: rest := by
          have : t ∈ product N n := by rw [← hL]; simp
          rw [hL, mem_product]
          rw [mem_product] at this
          simpa using this
        rw [List.mem_append, List.mem_cons] at hm
        rcases hm with hm | hm | hm
        · exact hm
        · exact absurd hm hr.ne
        · exact absurd (hs.2.1.1 _ hm) (not_lt.mpr hr.le)
  have := gen (product N n) [] [] rfl ⟨by simp, by simp, by simp, by simp⟩
  simpa using this

/-! ### Probabilities -/

theorem pathProd_acc (P : ℕ → ℕ → α) (t : List ℕ) (c : α) : pathProd P c t = c * pathProd P 1 t := by
  induction t generalizing c with
  | nil => simp [pathProd]
  | cons i t ih =>
    cases t with
    | nil => simp [pathProd]
    | cons j t => rw [pathProd, ih (c * P i j), pathProd, ih (1 * P i j)]; ring

theorem pathProd_cons (P : ℕ → ℕ → α) (i j : ℕ) (t : List ℕ) : pathProd P 1 (i :: j :: t) = P i j * pathProd P 1 (j :: t) := by
  rw [pathProd, pathProd_acc, one_mul]

theorem sum_flatMap_map (N : ℕ) (L : List (List ℕ)) (g : List ℕ → α) :
    (((List.range N).flatMap fun a => L.map (a :: ·)).map g).sum = ((List.range N).map fun a => (L.map fun t => g (a :: t)).sum).sum := by
  induction N with
  | zero => simp
  | succ N ih => rw [List.range_succ, List.flatMap_append, List.map_append, List.sum_append, ih]; simp [Function.comp_def]

theorem sum_path (P : ℕ → ℕ → α) (N : ℕ) (hP : ∀ i < N, ((List.range N).map (P i)).sum = 1) (n i : ℕ) (hi : i < N) :
    ((product N n).map fun t => pathProd P 1 (i :: t)).sum = 1 := by
  induction n generalizing i with
  | zero => simp [product, pathProd]
  | succ n ih =>
    unfold product
    rw [sum_flatMap_map]
    refine Eq.trans ?_ (hP i hi)
    congr 1
    apply List.map_congr_left
    intro j hj
    simp only [pathProd_cons]
    rw [List.sum_map_mul_left, ih j (List.mem_range.mp hj), mul_one]

theorem sum_tupleProb (F : ℕ → α) (P : ℕ → ℕ → α) (N n : ℕ) (hP : ∀ i < N, ((List.range N).map (P i)).sum = 1) :
    ((product N (n + 1)).map (tupleProb F P)).sum = ((List.range N).map F).sum := by
  unfold product
  rw [sum_flatMap_map]
  congr 1
  apply List.map_congr_left
  intro i hi
  simp only [tupleProb, List.headD_cons]
  rw [List.sum_map_mul_left, sum_path P N hP n i (List.mem_range.mp hi), mul_one]

theorem pathProd_snoc (P : ℕ → ℕ → α) (t : List ℕ) (i j : ℕ) :
    pathProd P 1 (t ++ [i] ++ [j]) = pathProd P 1 (t ++ [i]) * P i j := by
  induction t with
  | nil => simp [pathProd]
  | cons a t ih =>
    cases t with
    | nil => simp [pathProd]
    | cons b t =>
      simp only [List.cons_append] at ih ⊢
      rw [pathProd_cons, ih, pathProd_cons, mul_assoc]

end Verif.CopoMulti
