import Verif.Spec.Relabel
import Verif.Model.Acm
import Verif.Model.Flash
import Verif.Model.Transport
import Verif.Lemmas.Eos
import Mathlib.Algebra.BigOperators.Group.Finset.Basic
import Mathlib.Data.List.FinRange
import Mathlib.Data.Fintype.BigOperators
import Mathlib.Tactic.Ring

/-!
# Lemmas on relabelling
-/

namespace Verif.Relabel

open Finset Spec

variable {N : ℕ} (σ : Equiv.Perm (Fin N))

theorem sum_vec (f : Fin N → ℝ) : ∑ i, f (σ i) = ∑ i, f i := Equiv.sum_comp σ f

theorem sum_filter_vec (f x : Fin N → ℝ) : ∑ i ∈ univ.filter (fun i => x (σ i) > 0), f (σ i) = ∑ i ∈ univ.filter (fun i => x i > 0), f i := by
  rw [sum_filter, sum_filter]
  exact sum_vec σ fun i => if x i > 0 then f i else 0

/-- The double sum of `geometric` written over all pairs. -/
theorem geometric_eq (y Q : Fin N → ℝ) (k : Fin N → Fin N → ℝ) (hk : Symm k) :
    Mixing.geometric y Q (some k) = ∑ i, (y i ^ 2 * Q i + ∑ j, if i = j then 0 else y i * y j * √(Q i * Q j) * (1 - k i j)) := by
  unfold Mixing.geometric
  simp only [sum_add_distrib]
  congr 1
  have hs : ∀ i, ∑ j, (if i = j then (0 : ℝ) else y i * y j * √(Q i * Q j) * (1 - k i j)) =
      (∑ j, if i < j then y i * y j * √(Q i * Q j) * (1 - k i j) else 0) + ∑ j, if j < i then y i * y j * √(Q i * Q j) * (1 - k i j) else 0 := by
    intro i
    rw [← sum_add_distrib]
    refine sum_congr rfl fun j _ => ?_
    rcases lt_trichotomy i j with h | h | h
    · simp [h, h.ne, h.not_gt]
    · simp [h]
    · simp [h, h.ne', h.not_gt]
  simp only [hs, sum_add_distrib]
  have hc : (∑ i, ∑ j, if j < i then y i * y j * √(Q i * Q j) * (1 - k i j) else 0) =
      ∑ i, ∑ j, if i < j then y i * y j * √(Q i * Q j) * (1 - k i j) else 0 := by
    rw [sum_comm]
    refine sum_congr rfl fun i _ => sum_congr rfl fun j _ => ?_
    rw [mul_comm (Q j), hk j i, mul_comm (y j)]
  rw [hc, ← two_mul, mul_sum]
  refine sum_congr rfl fun i _ => ?_
  rw [sum_filter, mul_sum]
  refine sum_congr rfl fun j _ => ?_
  split_ifs
  · ring
  · ring

theorem geometric_vec (y Q : Fin N → ℝ) (k : Option (Fin N → Fin N → ℝ)) (hk : ∀ k' ∈ k, Symm k') :
    Mixing.geometric (vec σ y) (vec σ Q) (k.map (mat σ)) = Mixing.geometric y Q k := by
  cases k with
  | none => simp only [Mixing.geometric, Option.map_none, vec]; rw [sum_vec σ fun i => y i * √(Q i)]
  | some k =>
    have h := hk k rfl
    rw [Option.map_some, geometric_eq y Q k h, geometric_eq _ _ (mat σ k) (fun i j => h _ _)]
    simp only [vec, mat]
    rw [← sum_vec σ fun i => y i ^ 2 * Q i + ∑ j, if i = j then 0 else y i * y j * √(Q i * Q j) * (1 - k i j)]
    refine sum_congr rfl fun i _ => ?_
    rw [← sum_vec σ fun j => if σ i = j then 0 else y (σ i) * y j * √(Q (σ i) * Q j) * (1 - k (σ i) j)]
    simp [σ.injective.eq_iff]

theorem bCross_comm (R T : ℝ) (Tc Pc Zc w : Fin N → ℝ) (i j : Fin N) : Mixing.bCross R T Tc Pc Zc w i j = Mixing.bCross R T Tc Pc Zc w j i := by
  unfold Mixing.bCross
  simp only [mul_comm (Tc i) (Tc j), add_comm (Zc i) (Zc j), add_comm (w i) (w j), mul_comm (Zc i * R * Tc i / Pc i),
    add_comm ((Zc i * R * Tc i / Pc i) ^ (1 / 3 : ℝ))]

theorem bMixture_vec (R T : ℝ) (Tc Pc Zc w : Fin N → ℝ) :
    Mixing.bMixture R T (vec σ Tc) (vec σ Pc) (vec σ Zc) (vec σ w) = mat σ (Mixing.bMixture R T Tc Pc Zc w) := by
  funext i j
  have h : ∀ i j, Mixing.bCross R T (vec σ Tc) (vec σ Pc) (vec σ Zc) (vec σ w) i j = Mixing.bCross R T Tc Pc Zc w (σ i) (σ j) := fun i j => rfl
  unfold mat Mixing.bMixture
  by_cases e : i = j
  · subst e; simp [vec]
  · have e' : σ i ≠ σ j := fun h => e (σ.injective h)
    rw [if_neg e, if_neg e', h, h]
    split_ifs
    · rfl
    · exact bCross_comm ..
    · exact bCross_comm ..
    · rfl

theorem quadratic_vec (y : Fin N → ℝ) (Q : Fin N → Fin N → ℝ) : Mixing.quadratic (vec σ y) (mat σ Q) = Mixing.quadratic y Q := by
  unfold Mixing.quadratic
  simp only [vec, mat]
  rw [← sum_vec σ fun j => y j * ∑ i, y i * Q i j]
  refine sum_congr rfl fun j _ => ?_
  rw [← sum_vec σ fun i => y i * Q i (σ j)]

/-! ### Activity coefficient models -/

section Acm

open Acm

theorem nrtlA_vec (x : Fin N → ℝ) (M : Mat N) (j : Fin N) : ∑ i, vec σ x i * mat σ M i j = ∑ i, x i * M i (σ j) := sum_vec σ fun i => x i * M i (σ j)

theorem nrtlGE_vec (R T : ℝ) (x : Fin N → ℝ) (tau alpha : Mat N) : nrtlGE R T (vec σ x) (mat σ tau) (mat σ alpha) = nrtlGE R T x tau alpha := by
  unfold nrtlGE
  simp only
  congr 1
  rw [← sum_vec σ fun j => x j * ((∑ i, x i * (tau i j * Real.exp (-alpha i j * tau i j))) / ∑ i, x i * Real.exp (-alpha i j * tau i j))]
  refine sum_congr rfl fun j _ => ?_
  rw [← sum_vec σ fun i => x i * (tau i (σ j) * Real.exp (-alpha i (σ j) * tau i (σ j))), ← sum_vec σ fun i => x i * Real.exp (-alpha i (σ j) * tau i (σ j))]
  rfl

theorem nrtlGamma_vec (x : Fin N → ℝ) (tau alpha : Mat N) : nrtlGamma (vec σ x) (mat σ tau) (mat σ alpha) = vec σ (nrtlGamma x tau alpha) := by
  funext i
  have hA : ∀ j, ∑ i, vec σ x i * (mat σ tau i j * Real.exp (-mat σ alpha i j * mat σ tau i j)) =
      ∑ i, x i * (tau i (σ j) * Real.exp (-alpha i (σ j) * tau i (σ j))) := fun j =>
    sum_vec σ fun i => x i * (tau i (σ j) * Real.exp (-alpha i (σ j) * tau i (σ j)))
  have hB : ∀ j, ∑ i, vec σ x i * Real.exp (-mat σ alpha i j * mat σ tau i j) = ∑ i, x i * Real.exp (-alpha i (σ j) * tau i (σ j)) := fun j =>
    sum_vec σ fun i => x i * Real.exp (-alpha i (σ j) * tau i (σ j))
  unfold nrtlGamma
  simp only [hA, hB]
  unfold vec mat
  simp only
  rw [← sum_vec σ fun j => tau (σ i) j * Real.exp (-alpha (σ i) j * tau (σ i) j) * (x j / ∑ i, x i * Real.exp (-alpha i j * tau i j)),
    ← sum_vec σ fun j => Real.exp (-alpha (σ i) j * tau (σ i) j) * (x j * (∑ i, x i * (tau i j * Real.exp (-alpha i j * tau i j))) /
      (∑ i, x i * Real.exp (-alpha i j * tau i j)) ^ 2)]

theorem wilsonS_vec (x : Fin N → ℝ) (L : Mat N) (i : Fin N) : ∑ j, mat σ L i j * vec σ x j = ∑ j, L (σ i) j * x j := sum_vec σ fun j => L (σ i) j * x j

theorem wilsonGE_vec (R T : ℝ) (x : Fin N → ℝ) (L : Mat N) : wilsonGE R T (vec σ x) (mat σ L) = wilsonGE R T x L := by
  unfold wilsonGE
  simp only [wilsonS_vec]
  congr 1
  exact sum_vec σ fun i => x i * Real.log (∑ j, L i j * x j)

theorem wilsonGamma_vec (x : Fin N → ℝ) (L : Mat N) : wilsonGamma (vec σ x) (mat σ L) = vec σ (wilsonGamma x L) := by
  funext i
  unfold wilsonGamma
  simp only [wilsonS_vec]
  have : ∑ l, vec σ x l / (∑ j, L (σ l) j * x j) * mat σ L l i = ∑ l, x l / (∑ j, L l j * x j) * L l (σ i) :=
    sum_vec σ fun l => x l / (∑ j, L l j * x j) * L l (σ i)
  rw [this]; rfl

theorem dot_vec (x y : Fin N → ℝ) : ∑ i, vec σ x i * vec σ y i = ∑ i, x i * y i := sum_vec σ fun i => x i * y i

theorem uniquacGE_vec (R T : ℝ) (x q r : Fin N → ℝ) (tau : Mat N) : uniquacGE R T (vec σ x) (vec σ q) (vec σ r) (mat σ tau) = uniquacGE R T x q r tau := by
  unfold uniquacGE
  simp only [dot_vec]
  have ht : ∀ i, ∑ j, vec σ x j * vec σ q j / (∑ j, x j * q j) * mat σ tau j i = ∑ j, x j * q j / (∑ j, x j * q j) * tau j (σ i) := fun i =>
    sum_vec σ fun j => x j * q j / (∑ j, x j * q j) * tau j (σ i)
  simp only [ht]
  congr 1
  congr 1
  · exact sum_filter_vec σ (fun i => x i * (Real.log (x i * r i / (∑ j, x j * r j) / x i) +
      5 * q i * Real.log (x i * q i / (∑ j, x j * q j) / (x i * r i / ∑ j, x j * r j)))) x
  · congr 1
    exact sum_filter_vec σ (fun i => q i * x i * Real.log (∑ j, x j * q j / (∑ j, x j * q j) * tau j i)) x

theorem uniquacGamma_vec (x q r : Fin N → ℝ) (tau : Mat N) :
    uniquacGamma (vec σ x) (vec σ q) (vec σ r) (mat σ tau) = vec σ (uniquacGamma x q r tau) := by
  funext i
  unfold uniquacGamma
  simp only [dot_vec]
  have ht : ∀ i, ∑ j, vec σ x j * (vec σ q j / ∑ j, x j * q j) * mat σ tau j i = ∑ j, x j * (q j / ∑ j, x j * q j) * tau j (σ i) := fun i =>
    sum_vec σ fun j => x j * (q j / ∑ j, x j * q j) * tau j (σ i)
  simp only [ht]
  have hu : ∑ j, mat σ tau i j * (vec σ x j * (vec σ q j / ∑ j, x j * q j) / ∑ k, x k * (q k / ∑ j, x j * q j) * tau k (σ j)) =
      ∑ j, tau (σ i) j * (x j * (q j / ∑ j, x j * q j) / ∑ k, x k * (q k / ∑ j, x j * q j) * tau k j) :=
    sum_vec σ fun j => tau (σ i) j * (x j * (q j / ∑ j, x j * q j) / ∑ k, x k * (q k / ∑ j, x j * q j) * tau k j)
  rw [hu]; rfl

theorem fhC_vec (phi : Fin N → ℝ) (chi : Mat N) : ∑ j, vec σ phi j * ∑ i, vec σ phi i * mat σ chi i j = ∑ j, phi j * ∑ i, phi i * chi i j := by
  simp only [nrtlA_vec]; exact sum_vec σ fun j => phi j * ∑ i, phi i * chi i j

theorem fhDgmix_vec (R T : ℝ) (phi m : Fin N → ℝ) (chi : Mat N) : fhDgmix R T (vec σ phi) (vec σ m) (mat σ chi) = fhDgmix R T phi m chi := by
  unfold fhDgmix
  simp only [fhC_vec]
  congr 2
  exact sum_filter_vec σ (fun i => phi i / m i * Real.log (phi i)) phi

theorem fhActivity_vec (phi m : Fin N → ℝ) (chi : Mat N) : fhActivity (vec σ phi) (vec σ m) (mat σ chi) = vec σ (fhActivity phi m chi) := by
  funext i
  unfold fhActivity
  simp only [fhC_vec, wilsonS_vec]
  have : ∑ j, vec σ phi j * (1 / vec σ m j) = ∑ j, phi j * (1 / m j) := sum_vec σ fun j => phi j * (1 / m j)
  rw [this]; rfl

end Acm

/-! ### The double loop of `KVMXPC_Stiel_Thodos` -/

theorem foldl_pair {ι : Type*} (g h : ι → ℝ) (l : List ι) : ∀ s : ℝ × ℝ,
    l.foldl (fun s i => (s.1 + g i, s.2 + h i)) s = (s.1 + (l.map g).sum, s.2 + (l.map h).sum) := by
  induction l with
  | nil => intro s; simp
  | cons a l ih => intro s; simp only [List.foldl_cons, ih, List.map_cons, List.sum_cons, add_assoc]

theorem sum_finRange (g : Fin N → ℝ) : ((List.finRange N).map g).sum = ∑ i, g i := by
  rw [← List.ofFn_eq_map, List.sum_ofFn]

theorem kvmx_eq (y vc Tc : Fin N → ℝ) :
    (List.finRange N).foldl (fun s i => (List.finRange N).foldl (fun s j => Transport.kvmxStep y vc Tc s (i, j)) s) (0, 0) =
      (∑ i, ∑ j, y i * y j * (if i = j then vc i else (1 / 8) * (vc i ^ (1 / 3 : ℝ) + vc j ^ (1 / 3 : ℝ)) ^ 3),
       ∑ i, ∑ j, y i * y j * (if i = j then vc i else (1 / 8) * (vc i ^ (1 / 3 : ℝ) + vc j ^ (1 / 3 : ℝ)) ^ 3) * (if i = j then Tc i else √(Tc i * Tc j))) := by
  have hin : ∀ i (s : ℝ × ℝ), (List.finRange N).foldl (fun s j => Transport.kvmxStep y vc Tc s (i, j)) s =
      (s.1 + ∑ j, y i * y j * (if i = j then vc i else (1 / 8) * (vc i ^ (1 / 3 : ℝ) + vc j ^ (1 / 3 : ℝ)) ^ 3),
       s.2 + ∑ j, y i * y j * (if i = j then vc i else (1 / 8) * (vc i ^ (1 / 3 : ℝ) + vc j ^ (1 / 3 : ℝ)) ^ 3) * (if i = j then Tc i else √(Tc i * Tc j))) := by
    intro i s
    rw [← sum_finRange, ← sum_finRange]
    exact foldl_pair _ _ _ s
  simp only [hin]
  rw [foldl_pair, sum_finRange, sum_finRange, zero_add, zero_add]

theorem kvmx_vec (y vc Tc : Fin N → ℝ) :
    (List.finRange N).foldl (fun s i => (List.finRange N).foldl (fun s j => Transport.kvmxStep (vec σ y) (vec σ vc) (vec σ Tc) s (i, j)) s) (0, 0) =
    (List.finRange N).foldl (fun s i => (List.finRange N).foldl (fun s j => Transport.kvmxStep y vc Tc s (i, j)) s) (0, 0) := by
  have h2 : ∀ g : Fin N → Fin N → ℝ, ∑ i, ∑ j, g (σ i) (σ j) = ∑ i, ∑ j, g i j := by
    intro g
    rw [← sum_vec σ fun i => ∑ j, g i j]
    exact sum_congr rfl fun i _ => sum_vec σ (g (σ i))
  rw [kvmx_eq, kvmx_eq]
  rw [← h2 fun i j => y i * y j * (if i = j then vc i else (1 / 8) * (vc i ^ (1 / 3 : ℝ) + vc j ^ (1 / 3 : ℝ)) ^ 3),
    ← h2 fun i j => y i * y j * (if i = j then vc i else (1 / 8) * (vc i ^ (1 / 3 : ℝ) + vc j ^ (1 / 3 : ℝ)) ^ 3) * (if i = j then Tc i else √(Tc i * Tc j))]
  simp only [σ.injective.eq_iff, vec]

/-! ### Lists -/

theorem foldl_min_perm {v w : ℝ} {vs ws : List ℝ} (h : (v :: vs).Perm (w :: ws)) : vs.foldl min v = ws.foldl min w := by
  have key : ∀ {v w : ℝ} {vs ws : List ℝ}, (v :: vs).Perm (w :: ws) → vs.foldl min v ≤ ws.foldl min w := by
    intro v w vs ws h
    have hm := h.mem_iff.2 (Eos.foldl_min_mem ws w)
    rcases List.mem_cons.1 hm with e | e
    · exact e ▸ (Eos.foldl_min_le vs v).1
    · exact (Eos.foldl_min_le vs v).2 _ e
  exact le_antisymm (key h) (key h.symm)

theorem foldl_max_perm {v w : ℝ} {vs ws : List ℝ} (h : (v :: vs).Perm (w :: ws)) : vs.foldl max v = ws.foldl max w := by
  have key : ∀ {v w : ℝ} {vs ws : List ℝ}, (v :: vs).Perm (w :: ws) → ws.foldl max w ≤ vs.foldl max v := by
    intro v w vs ws h
    have hm := h.mem_iff.2 (Eos.foldl_max_mem ws w)
    rcases List.mem_cons.1 hm with e | e
    · exact e ▸ (Eos.le_foldl_max vs v).1
    · exact (Eos.le_foldl_max vs v).2 _ e
  exact le_antisymm (key h.symm) (key h)

theorem ofFn_vec {β : Type*} (v : Fin N → β) : (List.ofFn (vec σ v)).Perm (List.ofFn v) := by
  rw [List.ofFn_eq_map, List.ofFn_eq_map]
  have : (List.finRange N).map (vec σ v) = ((List.finRange N).map σ).map v := by rw [List.map_map]; rfl
  rw [this]
  exact (Equiv.Perm.map_finRange_perm σ).map v

theorem minPos_perm {l l' : List ℝ} (h : l.Perm l') : Flash.minPos l = Flash.minPos l' := by
  unfold Flash.minPos
  have hf := h.filter fun v => decide (v > 0)
  generalize l.filter (fun v => decide (v > 0)) = a at hf ⊢
  generalize l'.filter (fun v => decide (v > 0)) = b at hf ⊢
  cases a with
  | nil => rw [hf.nil_eq]
  | cons v vs =>
    cases b with
    | nil => exact absurd hf.symm.nil_eq (by simp)
    | cons w ws => simp only; rw [foldl_min_perm hf]

theorem betaMin_vec (K z : Fin N → ℝ) : Flash.betaMin (vec σ K) (vec σ z) = Flash.betaMin K z := by
  unfold Flash.betaMin
  have hf := (ofFn_vec σ fun i => if K i > 1 then (K i * z i - 1) / (K i - 1) else 0).filter fun v => decide (v > 0 ∧ v < 1)
  have e : (fun i => if vec σ K i > 1 then (vec σ K i * vec σ z i - 1) / (vec σ K i - 1) else 0) =
    vec σ (fun i => if K i > 1 then (K i * z i - 1) / (K i - 1) else 0) := rfl
  rw [e]
  generalize List.filter _ (List.ofFn (vec σ _)) = a at hf ⊢
  generalize List.filter _ (List.ofFn _) = b at hf ⊢
  cases a with
  | nil => rw [hf.nil_eq]
  | cons v vs =>
    cases b with
    | nil => exact absurd hf.symm.nil_eq (by simp)
    | cons w ws => exact foldl_max_perm hf

theorem betaMax_vec (K z : Fin N → ℝ) : Flash.betaMax (vec σ K) (vec σ z) = Flash.betaMax K z := by
  unfold Flash.betaMax
  have hf := (ofFn_vec σ fun i => if K i < 1 then (1 - z i) / (1 - K i) else 1).filter fun v => decide (v > 0 ∧ v < 1)
  have e : (fun i => if vec σ K i < 1 then (1 - vec σ z i) / (1 - vec σ K i) else 1) =
    vec σ (fun i => if K i < 1 then (1 - z i) / (1 - K i) else 1) := rfl
  rw [e]
  generalize List.filter _ (List.ofFn (vec σ _)) = a at hf ⊢
  generalize List.filter _ (List.ofFn _) = b at hf ⊢
  cases a with
  | nil => rw [hf.nil_eq]
  | cons v vs =>
    cases b with
    | nil => exact absurd hf.symm.nil_eq (by simp)
    | cons w ws => exact foldl_min_perm hf

/-! ### Flash -/

open Flash

theorem rr_vec (b : ℝ) (K z : Fin N → ℝ) : rr b (vec σ K) (vec σ z) = rr b K z := by
  unfold rr vec; exact sum_vec σ fun i => z i * (K i - 1) / (1 + b * (K i - 1))

theorem drr_vec (b : ℝ) (K z : Fin N → ℝ) : drr b (vec σ K) (vec σ z) = drr b K z := by
  unfold drr vec; rw [sum_vec σ fun i => z i * (K i - 1) ^ 2 / (1 + b * (K i - 1)) ^ 2]

theorem rrLoop_vec (K z : Fin N → ℝ) (atol : ℝ) (n : ℕ) : ∀ (it : ℕ) (bmin bmax beta : ℝ) (F : Option ℝ),
    rrLoop (vec σ K) (vec σ z) atol n it bmin bmax beta F = rrLoop K z atol n it bmin bmax beta F := by
  induction n with
  | zero => intros; rfl
  | succ n ih => intro it bmin bmax beta F; simp only [rrLoop, rr_vec, drr_vec, ih]

theorem solveRR_vec (K z : Fin N → ℝ) (b0 : Option ℝ) (m : ℕ) (atol : ℝ) : solveRR (vec σ K) (vec σ z) b0 m atol = solveRR K z b0 m atol := by
  unfold solveRR; simp only [rr_vec, betaMin_vec, betaMax_vec, rrLoop_vec]

theorem normalize_vec (v : Vec N) : normalize (vec σ v) = vec σ (normalize v) := by
  funext i; unfold Flash.normalize vec; rw [sum_vec σ v]

theorem phaseX_vec (z K : Vec N) (b : ℝ) : phaseX (vec σ z) (vec σ K) b = vec σ (phaseX z K b) := normalize_vec σ fun i => z i / (1 + b * (K i - 1))

theorem phaseY_vec (z K : Vec N) (b : ℝ) : phaseY (vec σ z) (vec σ K) b = vec σ (phaseY z K b) :=
  normalize_vec σ fun i => K i * (z i / (1 + b * (K i - 1)))

theorem minPos_vec (v : Vec N) : minPos (List.ofFn (vec σ v)) = minPos (List.ofFn v) := minPos_perm (ofFn_vec σ v)

theorem minPos_vec_append (v : Vec N) (l : List ℝ) : minPos (List.ofFn (vec σ v) ++ l) = minPos (List.ofFn v ++ l) :=
  minPos_perm ((ofFn_vec σ v).append_right l)

theorem allClose_vec (a b : Vec N) (t : ℝ) : AllClose (vec σ a) (vec σ b) t ↔ AllClose a b t :=
  ⟨fun h i => by have := h (σ.symm i); simpa [vec] using this, fun h i => h (σ i)⟩

theorem allClose_concat_vec (a b : Vec N) (A B t : ℝ) : AllClose (concat (vec σ a) A) (concat (vec σ b) B) t ↔ AllClose (concat a A) (concat b B) t := by
  constructor
  · rintro h (_ | i)
    · exact h none
    · have := h (some (σ.symm i)); simpa [vec, concat] using this
  · rintro h (_ | i)
    · exact h none
    · exact h (some (σ i))

/-- State of `flash2_PT` in the new order. -/
def ptVec (s : PTState N) : PTState N := ⟨s.success, s.message, s.beta, vec σ s.x, vec σ s.y, vec σ s.K⟩

/-- State of the inside-out flashes in the new order. -/
def ioVec (s : IOState N) : IOState N := ⟨s.success, s.message, s.Q, vec σ s.x, vec σ s.y, vec σ s.K, vec σ s.u, s.A⟩

/-- The K-value function in the new order. -/
def KRel (Kc Kc' : KFun N) : Prop := ∀ T P x y, Kc' T P (vec σ x) (vec σ y) = vec σ (Kc T P x y)

variable {σ} {Kc Kc' : KFun N}

theorem ptLoop_vec (hK : KRel σ Kc Kc') (z : Vec N) (P T : ℝ) (m : ℕ) (atol rtol alpha : ℝ) (n : ℕ) : ∀ s,
    ptLoop Kc' (vec σ z) P T m atol rtol alpha n (ptVec σ s) = (ptLoop Kc z P T m atol rtol alpha n s).map (ptVec σ) := by
  induction n with
  | zero => intro s; rfl
  | succ n ih =>
    intro s
    simp only [ptLoop]
    have e1 : solveRR (ptVec σ s).K (vec σ z) (ptVec σ s).beta m atol = solveRR s.K z s.beta m atol := solveRR_vec σ ..
    rw [e1]
    cases solveRR s.K z s.beta m atol with
    | error e => rfl
    | ok sol =>
      simp only [bind, Except.bind]
      by_cases hs : sol.success = true
      swap
      · simp only [hs, Bool.not_false, if_true]; rfl
      simp only [hs, Bool.not_true, Bool.false_eq_true, if_false]
      have e2 : phaseX (vec σ z) (ptVec σ s).K sol.beta = vec σ (phaseX z s.K sol.beta) := phaseX_vec σ ..
      have e3 : phaseY (vec σ z) (ptVec σ s).K sol.beta = vec σ (phaseY z s.K sol.beta) := phaseY_vec σ ..
      rw [e2, e3, hK, minPos_vec]
      cases minPos (List.ofFn (Kc T P (phaseX z s.K sol.beta) (phaseY z s.K sol.beta))) with
      | error e => rfl
      | ok k0 =>
        simp only
        have e4 := allClose_vec σ (Kc T P (phaseX z s.K sol.beta) (phaseY z s.K sol.beta)) s.K (k0 * rtol)
        by_cases hc : AllClose (Kc T P (phaseX z s.K sol.beta) (phaseY z s.K sol.beta)) s.K (k0 * rtol)
        · rw [if_pos hc, if_pos (show AllClose (vec σ _) (ptVec σ s).K (k0 * rtol) from e4.2 hc)]; rfl
        · rw [if_neg hc, if_neg (show ¬AllClose (vec σ _) (ptVec σ s).K (k0 * rtol) from fun h => hc (e4.1 h))]
          rw [← ih]; rfl

variable (σ) in
theorem weights_vec (b : ℝ) (y K : Vec N) : weights b (vec σ y) (vec σ K) = vec σ (weights b y K) := normalize_vec σ fun i => y i / (1 + b * (K i - 1))

variable (σ) in
theorem lnKb_vec (w K : Vec N) : lnKb (vec σ w) (vec σ K) = lnKb w K := by
  unfold lnKb vec; exact sum_vec σ fun i => w i * Real.log (K i)

theorem paramsPVall_vec (hK : KRel σ Kc Kc') (T P : ℝ) (x y : Vec N) (b Tref : ℝ) :
    paramsPVall T P (vec σ x) (vec σ y) b Kc' Tref =
      (vec σ (paramsPVall T P x y b Kc Tref).1, (paramsPVall T P x y b Kc Tref).2) := by
  unfold paramsPVall; simp only [hK _ _ x y, weights_vec, lnKb_vec]; rfl

theorem paramsTVall_vec (hK : KRel σ Kc Kc') (T P : ℝ) (x y : Vec N) (b Pref : ℝ) :
    paramsTVall T P (vec σ x) (vec σ y) b Kc' Pref =
      (vec σ (paramsTVall T P x y b Kc Pref).1, (paramsTVall T P x y b Kc Pref).2) := by
  unfold paramsTVall; simp only [hK _ _ x y, weights_vec, lnKb_vec]; rfl

theorem paramsPV_vec (hK : KRel σ Kc Kc') (T P : ℝ) (x y : Vec N) (b Tref B : ℝ) :
    paramsPV T P (vec σ x) (vec σ y) b Kc' Tref B =
      (vec σ (paramsPV T P x y b Kc Tref B).1, (paramsPV T P x y b Kc Tref B).2.1, vec σ (paramsPV T P x y b Kc Tref B).2.2) := by
  unfold paramsPV; simp only [hK _ _ x y, weights_vec, lnKb_vec]; rfl

theorem paramsTV_vec (hK : KRel σ Kc Kc') (T P : ℝ) (x y : Vec N) (b Pref B : ℝ) :
    paramsTV T P (vec σ x) (vec σ y) b Kc' Pref B =
      (vec σ (paramsTV T P x y b Kc Pref B).1, (paramsTV T P x y b Kc Pref B).2.1, vec σ (paramsTV T P x y b Kc Pref B).2.2) := by
  unfold paramsTV; simp only [hK _ _ x y, weights_vec, lnKb_vec]; rfl

variable (σ) in
theorem rloop_vec (u : Vec N) (Kb0 b : ℝ) (z : Vec N) : rloop (vec σ u) Kb0 b (vec σ z) = rloop u Kb0 b z := by
  funext R; unfold rloop vec; rw [sum_vec σ fun i => z i / (1 - R + Kb0 * R * Real.exp (u i))]

variable (σ) in
theorem ioKb_vec (u : Vec N) (Kb0 R : ℝ) (z : Vec N) : ioKb (vec σ u) Kb0 R (vec σ z) = ioKb u Kb0 R z := by
  unfold ioKb
  rw [← sum_vec σ (ioP u Kb0 R z), ← sum_vec σ (ioEup u Kb0 R z)]; rfl

variable (σ) in
theorem ioX_vec (u : Vec N) (Kb0 R : ℝ) (z : Vec N) : normalize (ioP (vec σ u) Kb0 R (vec σ z)) = vec σ (normalize (ioP u Kb0 R z)) :=
  normalize_vec σ (ioP u Kb0 R z)

variable (σ) in
theorem ioY_vec (u : Vec N) (Kb0 R : ℝ) (z : Vec N) : normalize (ioEup (vec σ u) Kb0 R (vec σ z)) = vec σ (normalize (ioEup u Kb0 R z)) :=
  normalize_vec σ (ioEup u Kb0 R z)

theorem pvLoop_vec (hK : KRel σ Kc Kc') (z : Vec N) (P b Tref B Kb0 : ℝ) (m : ℕ) (atol rtol : ℝ) (n : ℕ) : ∀ s,
    pvLoop Kc' (vec σ z) P b Tref B Kb0 m atol rtol n (ioVec σ s) = (pvLoop Kc z P b Tref B Kb0 m atol rtol n s).map (ioVec σ) := by
  induction n with
  | zero => intro s; rfl
  | succ n ih =>
    intro s
    have e1 : innerR (ioVec σ s).u Kb0 b (vec σ z) m atol = innerR s.u Kb0 b z m atol := by
      unfold innerR; rw [show rloop (ioVec σ s).u Kb0 b (vec σ z) = _ from rloop_vec σ ..]
    simp only [pvLoop, e1]
    cases innerR s.u Kb0 b z m atol with
    | error e => rfl
    | ok o =>
      cases o with
      | none => rfl
      | some R =>
        simp only [bind, Except.bind]
        have e2 : normalize (ioP (ioVec σ s).u Kb0 R (vec σ z)) = vec σ (normalize (ioP s.u Kb0 R z)) := ioX_vec σ ..
        have e3 : normalize (ioEup (ioVec σ s).u Kb0 R (vec σ z)) = vec σ (normalize (ioEup s.u Kb0 R z)) := ioY_vec σ ..
        have e4 : ioKb (ioVec σ s).u Kb0 R (vec σ z) = ioKb s.u Kb0 R z := ioKb_vec σ ..
        have e5 : (ioVec σ s).A = s.A := rfl
        rw [e2, e3, e4, e5, paramsPV_vec hK]
        generalize paramsPV _ P _ _ b Kc Tref B = r
        simp only [minPos_vec_append]
        cases minPos (List.ofFn r.1 ++ [r.2.1]) with
        | error e => rfl
        | ok v0 =>
          simp only
          have e6 := allClose_concat_vec σ r.1 s.u r.2.1 s.A (v0 * rtol)
          by_cases hc : AllClose (concat r.1 r.2.1) (concat s.u s.A) (v0 * rtol)
          · rw [if_pos hc, if_pos (show AllClose _ (concat (ioVec σ s).u s.A) (v0 * rtol) from e6.2 hc)]; rfl
          · rw [if_neg hc, if_neg (show ¬AllClose _ (concat (ioVec σ s).u s.A) (v0 * rtol) from fun h => hc (e6.1 h))]
            rw [← ih]; rfl

theorem tvLoop_vec (hK : KRel σ Kc Kc') (z : Vec N) (T b Pref B Kb0 : ℝ) (m : ℕ) (atol rtol : ℝ) (n : ℕ) : ∀ s,
    tvLoop Kc' (vec σ z) T b Pref B Kb0 m atol rtol n (ioVec σ s) = (tvLoop Kc z T b Pref B Kb0 m atol rtol n s).map (ioVec σ) := by
  induction n with
  | zero => intro s; rfl
  | succ n ih =>
    intro s
    have e1 : innerR (ioVec σ s).u Kb0 b (vec σ z) m atol = innerR s.u Kb0 b z m atol := by
      unfold innerR; rw [show rloop (ioVec σ s).u Kb0 b (vec σ z) = _ from rloop_vec σ ..]
    simp only [tvLoop, e1]
    cases innerR s.u Kb0 b z m atol with
    | error e => rfl
    | ok o =>
      cases o with
      | none => rfl
      | some R =>
        simp only [bind, Except.bind]
        have e2 : normalize (ioP (ioVec σ s).u Kb0 R (vec σ z)) = vec σ (normalize (ioP s.u Kb0 R z)) := ioX_vec σ ..
        have e3 : normalize (ioEup (ioVec σ s).u Kb0 R (vec σ z)) = vec σ (normalize (ioEup s.u Kb0 R z)) := ioY_vec σ ..
        have e4 : ioKb (ioVec σ s).u Kb0 R (vec σ z) = ioKb s.u Kb0 R z := ioKb_vec σ ..
        have e5 : (ioVec σ s).A = s.A := rfl
        rw [e2, e3, e4, e5]
        cases rootNewton (pressureEq (ioKb s.u Kb0 R z) s.A B Pref) (Real.exp s.A / ioKb s.u Kb0 R z) 0 1e-10 50 with
        | error e => rfl
        | ok sol =>
          simp only
          by_cases hs : sol.1.success = true
          swap
          · simp only [hs, Bool.not_false, if_true]; rfl
          simp only [hs, Bool.not_true, Bool.false_eq_true, if_false]
          rw [paramsTV_vec hK]
          generalize paramsTV T sol.1.x _ _ b Kc Pref B = r
          simp only [minPos_vec_append]
          cases minPos (List.ofFn r.1 ++ [r.2.1]) with
          | error e => rfl
          | ok v0 =>
            simp only
            have e6 := allClose_concat_vec σ r.1 s.u r.2.1 s.A (v0 * rtol)
            by_cases hc : AllClose (concat r.1 r.2.1) (concat s.u s.A) (v0 * rtol)
            · rw [if_pos hc, if_pos (show AllClose _ (concat (ioVec σ s).u s.A) (v0 * rtol) from e6.2 hc)]; rfl
            · rw [if_neg hc, if_neg (show ¬AllClose _ (concat (ioVec σ s).u s.A) (v0 * rtol) from fun h => hc (e6.1 h))]
              rw [← ih]; rfl

end Verif.Relabel
