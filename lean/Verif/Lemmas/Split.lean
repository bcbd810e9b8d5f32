import Verif.Spec.Split
import Verif.Lemmas.Relabel

/-! # Lemmas on listing a substance more than once -/

namespace Verif.Split

open Finset Spec

variable {M N : ℕ} {σ : Fin M → Fin N}

theorem sum_share' {α : Type*} [Field α] [LinearOrder α] {w : Fin M → α} (h : Portions σ w) (g : Fin N → α) : ∑ j, w j * g (σ j) = ∑ i, g i := by
  rw [← sum_fiberwise univ σ]
  refine sum_congr rfl fun i _ => ?_
  rw [sum_congr rfl (g := fun j => w j * g i) fun j hj => by rw [(mem_filter.1 hj).2], ← sum_mul, h.whole, one_mul]

variable {w : Fin M → ℝ}

theorem sum_share (h : Portions σ w) (x f : Fin N → ℝ) : ∑ j, share σ w x j * f (σ j) = ∑ i, x i * f i := by
  rw [← sum_share' h]
  exact sum_congr rfl fun j _ => by unfold share; ring

theorem sum_share_total (h : Portions σ w) (x : Fin N → ℝ) : ∑ j, share σ w x j = ∑ i, x i := sum_share' h x

theorem quadratic_share (h : Portions σ w) (y : Fin N → ℝ) (Q : Fin N → Fin N → ℝ) : Mixing.quadratic (share σ w y) (copyM σ Q) = Mixing.quadratic y Q := by
  unfold Mixing.quadratic
  have h1 : ∀ j, ∑ i, share σ w y i * copyM σ Q i j = ∑ i, y i * Q i (σ j) := fun j => sum_share h y fun i => Q i (σ j)
  simp only [h1]
  exact sum_share h y fun j => ∑ i, y i * Q i j

/-- With a zero diagonal, `geometric` is a full double sum. -/
theorem geometric_full (y Q : Fin N → ℝ) (hQ : ∀ i, 0 ≤ Q i) (k : Fin N → Fin N → ℝ) (hk : Relabel.Spec.Symm k) (hd : ∀ i, k i i = 0) :
    Mixing.geometric y Q (some k) = Mixing.quadratic y fun i j => √(Q i * Q j) * (1 - k i j) := by
  rw [Relabel.geometric_eq y Q k hk]
  unfold Mixing.quadratic
  refine sum_congr rfl fun i _ => ?_
  rw [mul_sum]
  have : ∀ j, (y i * (y j * (√(Q j * Q i) * (1 - k j i)))) = (if i = j then y i ^ 2 * Q i else 0) + (if i = j then 0 else y i * y j * √(Q i * Q j) * (1 - k i j)) := by
    intro j
    split_ifs with e
    · subst e
      rw [hd, Real.sqrt_mul_self (hQ i)]; ring
    · rw [mul_comm (Q j), hk j i]; ring
  simp only [this, sum_add_distrib]
  simp

theorem geometric_share (h : Portions σ w) (y Q : Fin N → ℝ) (hQ : ∀ i, 0 ≤ Q i) (k : Option (Fin N → Fin N → ℝ))
    (hk : ∀ k' ∈ k, Relabel.Spec.Symm k' ∧ ∀ i, k' i i = 0) :
    Mixing.geometric (share σ w y) (copy σ Q) (k.map (copyM σ)) = Mixing.geometric y Q k := by
  cases k with
  | none =>
    simp only [Option.map_none, Mixing.geometric]
    congr 1
    exact sum_share h y fun i => √(Q i)
  | some k =>
    obtain ⟨h1, h2⟩ := hk k rfl
    rw [Option.map_some, geometric_full y Q hQ k h1 h2, geometric_full (share σ w y) (copy σ Q) (fun i => hQ _) (copyM σ k) (fun i j => h1 _ _) (fun i => h2 _)]
    exact quadratic_share h y fun i j => √(Q i * Q j) * (1 - k i j)

theorem bCross_self {R T : ℝ} (hR : 0 < R) (Tc Pc Zc ω : Fin N → ℝ) (i j : Fin N) (hTc : 0 < Tc i) (hPc : 0 < Pc i) (hZc : 0 < Zc i)
    (e1 : Tc j = Tc i) (e2 : Pc j = Pc i) (e3 : Zc j = Zc i) (e4 : ω j = ω i) :
    Mixing.bCross R T Tc Pc Zc ω i j = Mixing.bPure R T (Tc i) (Pc i) (ω i) := by
  have hv : 0 < Zc i * R * Tc i / Pc i := by positivity
  simp only [Mixing.bCross, e1, e2, e3, e4]
  have h1 : ((Zc i * R * Tc i / Pc i) ^ (1 / 3 : ℝ) + (Zc i * R * Tc i / Pc i) ^ (1 / 3 : ℝ)) ^ 3 / 8 = Zc i * R * Tc i / Pc i := by
    have : ((Zc i * R * Tc i / Pc i) ^ (1 / 3 : ℝ)) ^ 3 = Zc i * R * Tc i / Pc i := by
      rw [← Real.rpow_natCast, ← Real.rpow_mul hv.le]; norm_num
    rw [← two_mul, mul_pow, this]; ring
  rw [h1, Real.sqrt_mul_self hv.le, Real.sqrt_mul_self hTc.le, div_self hv.ne']
  congr 1
  · ring
  · field_simp; ring
  · ring

theorem bMixture_copy {R T : ℝ} (hR : 0 < R) (Tc Pc Zc ω : Fin N → ℝ) (hTc : ∀ i, 0 < Tc i) (hPc : ∀ i, 0 < Pc i) (hZc : ∀ i, 0 < Zc i) :
    Mixing.bMixture R T (copy σ Tc) (copy σ Pc) (copy σ Zc) (copy σ ω) = copyM σ (Mixing.bMixture R T Tc Pc Zc ω) := by
  funext i j
  have hc : ∀ i j, Mixing.bCross R T (copy σ Tc) (copy σ Pc) (copy σ Zc) (copy σ ω) i j = Mixing.bCross R T Tc Pc Zc ω (σ i) (σ j) := fun _ _ => rfl
  have hs : ∀ i j : Fin M, σ i = σ j → Mixing.bCross R T Tc Pc Zc ω (σ i) (σ j) = Mixing.bPure R T (Tc (σ i)) (Pc (σ i)) (ω (σ i)) := fun i j e =>
    bCross_self hR Tc Pc Zc ω _ _ (hTc _) (hPc _) (hZc _) (by rw [e]) (by rw [e]) (by rw [e]) (by rw [e])
  unfold copyM Mixing.bMixture
  by_cases e : i = j
  · subst e; simp [copy]
  · rw [if_neg e, hc, hc]
    by_cases e' : σ i = σ j
    · rw [if_pos e', hs i j e', hs j i e'.symm, e', ite_self]
    · rw [if_neg e']
      split_ifs
      · rfl
      · exact Relabel.bCross_comm ..
      · exact Relabel.bCross_comm ..
      · rfl

section Acm

open Acm

theorem nrtlGE_share (h : Portions σ w) (R T : ℝ) (x : Fin N → ℝ) (tau alpha : Mat N) : nrtlGE R T (share σ w x) (copyM σ tau) (copyM σ alpha) = nrtlGE R T x tau alpha := by
  unfold nrtlGE
  have hA : ∀ j, ∑ i, share σ w x i * (copyM σ tau i j * Real.exp (-copyM σ alpha i j * copyM σ tau i j)) =
      ∑ i, x i * (tau i (σ j) * Real.exp (-alpha i (σ j) * tau i (σ j))) := fun j => sum_share h x fun i => tau i (σ j) * Real.exp (-alpha i (σ j) * tau i (σ j))
  have hB : ∀ j, ∑ i, share σ w x i * Real.exp (-copyM σ alpha i j * copyM σ tau i j) = ∑ i, x i * Real.exp (-alpha i (σ j) * tau i (σ j)) := fun j =>
    sum_share h x fun i => Real.exp (-alpha i (σ j) * tau i (σ j))
  simp only [hA, hB]
  congr 1
  exact sum_share h x fun j => (∑ i, x i * (tau i j * Real.exp (-alpha i j * tau i j))) / ∑ i, x i * Real.exp (-alpha i j * tau i j)

theorem nrtlGamma_share (h : Portions σ w) (x : Fin N → ℝ) (tau alpha : Mat N) : nrtlGamma (share σ w x) (copyM σ tau) (copyM σ alpha) = copy σ (nrtlGamma x tau alpha) := by
  funext i
  have hA : ∀ j, ∑ i, share σ w x i * (copyM σ tau i j * Real.exp (-copyM σ alpha i j * copyM σ tau i j)) =
      ∑ i, x i * (tau i (σ j) * Real.exp (-alpha i (σ j) * tau i (σ j))) := fun j => sum_share h x fun i => tau i (σ j) * Real.exp (-alpha i (σ j) * tau i (σ j))
  have hB : ∀ j, ∑ i, share σ w x i * Real.exp (-copyM σ alpha i j * copyM σ tau i j) = ∑ i, x i * Real.exp (-alpha i (σ j) * tau i (σ j)) := fun j =>
    sum_share h x fun i => Real.exp (-alpha i (σ j) * tau i (σ j))
  unfold nrtlGamma
  simp only [hA, hB]
  generalize hAA : (fun k => ∑ i, x i * (tau i k * Real.exp (-alpha i k * tau i k))) = A
  generalize hBB : (fun k => ∑ i, x i * Real.exp (-alpha i k * tau i k)) = B
  have hA' : ∀ k, ∑ i, x i * (tau i k * Real.exp (-alpha i k * tau i k)) = A k := fun k => congrFun hAA k
  have hB' : ∀ k, ∑ i, x i * Real.exp (-alpha i k * tau i k) = B k := fun k => congrFun hBB k
  simp only [copy, hA', hB']
  have e1 : ∑ j, copyM σ tau i j * Real.exp (-copyM σ alpha i j * copyM σ tau i j) * (share σ w x j / B (σ j)) =
      ∑ j, tau (σ i) j * Real.exp (-alpha (σ i) j * tau (σ i) j) * (x j / B j) := by
    rw [← sum_share' h]
    exact sum_congr rfl fun j _ => by simp only [copyM, share]; ring
  have e2 : ∑ j, Real.exp (-copyM σ alpha i j * copyM σ tau i j) * (share σ w x j * A (σ j) / B (σ j) ^ 2) =
      ∑ j, Real.exp (-alpha (σ i) j * tau (σ i) j) * (x j * A j / B j ^ 2) := by
    rw [← sum_share' h]
    exact sum_congr rfl fun j _ => by simp only [copyM, share]; ring
  rw [e1, e2]

theorem row_share (h : Portions σ w) (x : Fin N → ℝ) (L : Mat N) (i : Fin M) : ∑ j, copyM σ L i j * share σ w x j = ∑ j, L (σ i) j * x j := by
  rw [← sum_share' h]
  exact sum_congr rfl fun j _ => by simp only [copyM, share]; ring

theorem wilsonGE_share (h : Portions σ w) (R T : ℝ) (x : Fin N → ℝ) (L : Mat N) : wilsonGE R T (share σ w x) (copyM σ L) = wilsonGE R T x L := by
  unfold wilsonGE
  simp only [row_share h]
  congr 1
  exact sum_share h x fun i => Real.log (∑ j, L i j * x j)

theorem wilsonGamma_share (h : Portions σ w) (x : Fin N → ℝ) (L : Mat N) : wilsonGamma (share σ w x) (copyM σ L) = copy σ (wilsonGamma x L) := by
  funext i
  unfold wilsonGamma
  simp only [row_share h]
  have : ∑ l, share σ w x l / (∑ j, L (σ l) j * x j) * copyM σ L l i = ∑ l, x l / (∑ j, L l j * x j) * L l (σ i) := by
    rw [← sum_share' h]
    exact sum_congr rfl fun j _ => by simp only [copyM, share]; ring
  rw [this]; rfl

theorem dot_share (h : Portions σ w) (x q : Fin N → ℝ) : ∑ j, share σ w x j * copy σ q j = ∑ i, x i * q i := sum_share h x q

theorem sum_pos_share (h : Portions σ w) (x : Fin N → ℝ) (hx : ∀ i, 0 ≤ x i) (f : Fin N → ℝ) :
    ∑ j ∈ univ.filter (fun j => share σ w x j > 0), share σ w x j * f (σ j) = ∑ i ∈ univ.filter (fun i => x i > 0), x i * f i := by
  have e1 : ∑ j ∈ univ.filter (fun j => share σ w x j > 0), share σ w x j * f (σ j) = ∑ j, share σ w x j * f (σ j) := by
    refine sum_filter_of_ne fun j _ hj => ?_
    exact lt_of_le_of_ne (mul_nonneg (h.nonneg j) (hx _)) (fun h0 => hj (by rw [← h0, zero_mul]))
  have e2 : ∑ i ∈ univ.filter (fun i => x i > 0), x i * f i = ∑ i, x i * f i := by
    refine sum_filter_of_ne fun i _ hi => ?_
    exact lt_of_le_of_ne (hx i) (fun h0 => hi (by rw [← h0, zero_mul]))
  rw [e1, e2, sum_share h]

theorem uniquacGE_share (h : Portions σ w) (R T : ℝ) (x q r : Fin N → ℝ) (hx : ∀ i, 0 ≤ x i) (tau : Mat N) :
    uniquacGE R T (share σ w x) (copy σ q) (copy σ r) (copyM σ tau) = uniquacGE R T x q r tau := by
  unfold uniquacGE
  simp only [dot_share h]
  generalize (∑ j, x j * r j) = sr
  generalize (∑ j, x j * q j) = sq
  have ht : ∀ i, ∑ j, share σ w x j * copy σ q j / sq * copyM σ tau j i = ∑ j, x j * q j / sq * tau j (σ i) := fun i => by
    rw [← sum_share' h]
    exact sum_congr rfl fun j _ => by simp only [copyM, share, copy]; ring
  simp only [ht]
  have e1 : ∑ i ∈ univ.filter (fun i => share σ w x i > 0), share σ w x i * (Real.log (share σ w x i * copy σ r i / sr / share σ w x i) +
        5 * copy σ q i * Real.log (share σ w x i * copy σ q i / sq / (share σ w x i * copy σ r i / sr))) =
      ∑ i ∈ univ.filter (fun i => x i > 0), x i * (Real.log (x i * r i / sr / x i) + 5 * q i * Real.log (x i * q i / sq / (x i * r i / sr))) := by
    have a1 : ∀ {y r q : ℝ}, 0 < y → y * r / sr / y = r / sr ∧ y * q / sq / (y * r / sr) = q / sq / (r / sr) := fun {y r q} hy => by
      constructor
      · rw [div_right_comm, mul_div_cancel_left₀ _ hy.ne']
      · rw [mul_div_assoc y q sq, mul_div_assoc y r sr, mul_div_mul_left _ _ hy.ne']
    rw [sum_congr rfl (g := fun i => x i * (Real.log (r i / sr) + 5 * q i * Real.log (q i / sq / (r i / sr)))) fun i hi => by
        rw [(a1 (q := q i) (mem_filter.1 hi).2).1, (a1 (mem_filter.1 hi).2).2],
      ← sum_pos_share h x hx]
    refine sum_congr rfl fun i hi => ?_
    rw [(a1 (q := copy σ q i) (mem_filter.1 hi).2).1, (a1 (mem_filter.1 hi).2).2]
    rfl
  have e2 : ∑ i ∈ univ.filter (fun i => share σ w x i > 0), copy σ q i * share σ w x i * Real.log (∑ j, x j * q j / sq * tau j (σ i)) =
      ∑ i ∈ univ.filter (fun i => x i > 0), q i * x i * Real.log (∑ j, x j * q j / sq * tau j i) := by
    have := sum_pos_share h x hx fun i => q i * Real.log (∑ j, x j * q j / sq * tau j i)
    rw [sum_congr rfl (g := fun i => x i * (q i * Real.log (∑ j, x j * q j / sq * tau j i))) fun i _ => by ring, ← this]
    exact sum_congr rfl fun i _ => by simp only [copy]; ring
  rw [e1, e2]

theorem uniquacGamma_share (h : Portions σ w) (x q r : Fin N → ℝ) (tau : Mat N) :
    uniquacGamma (share σ w x) (copy σ q) (copy σ r) (copyM σ tau) = copy σ (uniquacGamma x q r tau) := by
  funext i
  unfold uniquacGamma
  simp only [dot_share h]
  generalize (∑ j, x j * r j) = sr
  generalize (∑ j, x j * q j) = sq
  have ht : ∀ i, ∑ j, share σ w x j * (copy σ q j / sq) * copyM σ tau j i = ∑ j, x j * (q j / sq) * tau j (σ i) := fun i => by
    rw [← sum_share' h]
    exact sum_congr rfl fun j _ => by simp only [copyM, share, copy]; ring
  simp only [ht]
  have e : ∑ j, copyM σ tau i j * (share σ w x j * (copy σ q j / sq) / ∑ k, x k * (q k / sq) * tau k (σ j)) =
      ∑ j, tau (σ i) j * (x j * (q j / sq) / ∑ k, x k * (q k / sq) * tau k j) := by
    rw [← sum_share' h]
    exact sum_congr rfl fun j _ => by simp only [copyM, share, copy]; ring
  rw [e]
  rfl

theorem fhActivity_share (h : Portions σ w) (phi m : Fin N → ℝ) (chi : Mat N) :
    fhActivity (share σ w phi) (copy σ m) (copyM σ chi) = share σ w (fhActivity phi m chi) := by
  funext i
  unfold fhActivity
  have e1 : ∑ j, share σ w phi j * (1 / copy σ m j) = ∑ j, phi j * (1 / m j) := sum_share h phi fun j => 1 / m j
  have e2 : ∑ j, share σ w phi j * ∑ i, share σ w phi i * copyM σ chi i j = ∑ j, phi j * ∑ i, phi i * chi i j := quadratic_share h phi chi
  simp only [e1, e2, row_share h]
  simp only [share, copy]
  ring

end Acm

theorem surj (h : Portions σ w) (i : Fin N) : ∃ j, σ j = i := by
  by_contra hn
  push Not at hn
  have := h.whole i
  rw [filter_false_of_mem fun j _ => hn j, sum_empty] at this
  exact zero_ne_one this

theorem kvmx_share (h : Portions σ w) (y vc Tc : Fin N → ℝ) (hvc : ∀ i, 0 ≤ vc i) (hTc : ∀ i, 0 ≤ Tc i) :
    (List.finRange M).foldl (fun s i => (List.finRange M).foldl (fun s j => Transport.kvmxStep (share σ w y) (copy σ vc) (copy σ Tc) s (i, j)) s) (0, 0) =
    (List.finRange N).foldl (fun s i => (List.finRange N).foldl (fun s j => Transport.kvmxStep y vc Tc s (i, j)) s) (0, 0) := by
  have hv : ∀ a : ℝ, 0 ≤ a → (1 / 8) * (a ^ (1 / 3 : ℝ) + a ^ (1 / 3 : ℝ)) ^ 3 = a := fun a ha => by
    have : (a ^ (1 / 3 : ℝ)) ^ 3 = a := by rw [← Real.rpow_natCast, ← Real.rpow_mul ha]; norm_num
    rw [← two_mul, mul_pow, this]; ring
  have k1 : ∀ {K : ℕ} (vc : Fin K → ℝ), (∀ i, 0 ≤ vc i) → ∀ i j, (if i = j then vc i else (1 / 8) * (vc i ^ (1 / 3 : ℝ) + vc j ^ (1 / 3 : ℝ)) ^ 3) =
      (1 / 8) * (vc i ^ (1 / 3 : ℝ) + vc j ^ (1 / 3 : ℝ)) ^ 3 := fun vc hvc i j => by
    split_ifs with e
    · subst e; exact (hv _ (hvc i)).symm
    · rfl
  have k2 : ∀ {K : ℕ} (Tc : Fin K → ℝ), (∀ i, 0 ≤ Tc i) → ∀ i j, (if i = j then Tc i else √(Tc i * Tc j)) = √(Tc i * Tc j) := fun Tc hTc i j => by
    split_ifs with e
    · subst e; exact (Real.sqrt_mul_self (hTc i)).symm
    · rfl
  have k3 : ∀ g : Fin N → Fin N → ℝ, ∑ i, ∑ j, share σ w y i * share σ w y j * g (σ i) (σ j) = ∑ i, ∑ j, y i * y j * g i j := fun g => by
    rw [← sum_share' h]
    refine sum_congr rfl fun i _ => ?_
    rw [← sum_share' h, mul_sum]
    exact sum_congr rfl fun j _ => by simp only [share]; ring
  rw [Relabel.kvmx_eq, Relabel.kvmx_eq]
  simp only [k1 _ hvc, k2 _ hTc, k1 (copy σ vc) (fun i => hvc _), k2 (copy σ Tc) fun i => hTc _, mul_assoc (_ * _) (1 / 8 * _) (√_)]
  exact Prod.ext (k3 fun i j => (1 / 8) * (vc i ^ (1 / 3 : ℝ) + vc j ^ (1 / 3 : ℝ)) ^ 3)
    (k3 fun i j => (1 / 8) * (vc i ^ (1 / 3 : ℝ) + vc j ^ (1 / 3 : ℝ)) ^ 3 * √(Tc i * Tc j))

/-! ### Flash -/

section Flash

open Flash

theorem normalize_share (h : Portions σ w) (v : Vec N) : normalize (share σ w v) = share σ w (normalize v) := by
  funext i; unfold Flash.normalize; rw [sum_share_total h]; simp only [share]; ring

theorem phaseX_share (h : Portions σ w) (z K : Vec N) (b : ℝ) : phaseX (share σ w z) (copy σ K) b = share σ w (phaseX z K b) := by
  unfold phaseX
  rw [← normalize_share h]
  congr 1
  funext i; simp only [share, copy]; ring

theorem phaseY_share (h : Portions σ w) (z K : Vec N) (b : ℝ) : phaseY (share σ w z) (copy σ K) b = share σ w (phaseY z K b) := by
  unfold phaseY
  rw [← normalize_share h]
  congr 1
  funext i; simp only [share, copy]; ring

theorem foldl_min_mem {v w : ℝ} {vs ws : List ℝ} (h : ∀ x, x ∈ v :: vs ↔ x ∈ w :: ws) : vs.foldl min v = ws.foldl min w := by
  have key : ∀ {v w : ℝ} {vs ws : List ℝ}, (∀ x, x ∈ v :: vs ↔ x ∈ w :: ws) → vs.foldl min v ≤ ws.foldl min w := by
    intro v w vs ws h
    have hm := (h _).2 (Eos.foldl_min_mem ws w)
    rcases List.mem_cons.1 hm with e | e
    · exact e ▸ (Eos.foldl_min_le vs v).1
    · exact (Eos.foldl_min_le vs v).2 _ e
  exact le_antisymm (key h) (key fun x => (h x).symm)

theorem minPos_mem {l l' : List ℝ} (h : ∀ x, x ∈ l ↔ x ∈ l') : minPos l = minPos l' := by
  unfold minPos
  have hf : ∀ x, x ∈ l.filter (fun v => decide (v > 0)) ↔ x ∈ l'.filter (fun v => decide (v > 0)) := fun x => by simp only [List.mem_filter, h x]
  generalize l.filter (fun v => decide (v > 0)) = a at hf ⊢
  generalize l'.filter (fun v => decide (v > 0)) = b at hf ⊢
  cases a with
  | nil =>
    cases b with
    | nil => rfl
    | cons w ws => exact absurd ((hf w).2 List.mem_cons_self) (by simp)
  | cons v vs =>
    cases b with
    | nil => exact absurd ((hf v).1 List.mem_cons_self) (by simp)
    | cons w ws => simp only; rw [foldl_min_mem hf]

theorem mem_ofFn_copy (h : Portions σ w) (v : Vec N) (x : ℝ) : x ∈ List.ofFn (copy σ v) ↔ x ∈ List.ofFn v := by
  simp only [List.mem_ofFn, copy]
  exact ⟨fun ⟨i, hi⟩ => ⟨_, hi⟩, fun ⟨i, hi⟩ => by obtain ⟨j, rfl⟩ := surj h i; exact ⟨j, hi⟩⟩

theorem minPos_copy_append (h : Portions σ w) (v : Vec N) (l : List ℝ) : minPos (List.ofFn (copy σ v) ++ l) = minPos (List.ofFn v ++ l) :=
  minPos_mem fun x => by simp only [List.mem_append, mem_ofFn_copy h]

theorem allClose_concat_copy (h : Portions σ w) (a b : Vec N) (A B t : ℝ) :
    AllClose (concat (copy σ a) A) (concat (copy σ b) B) t ↔ AllClose (concat a A) (concat b B) t := by
  constructor
  · rintro h' (_ | i)
    · exact h' none
    · obtain ⟨j, rfl⟩ := surj h i; exact h' (some j)
  · rintro h' (_ | i)
    · exact h' none
    · exact h' (some (σ i))

/-- State of the inside-out flashes for the longer list. -/
def ioShare (σ : Fin M → Fin N) (w : Fin M → ℝ) (s : IOState N) : IOState M := ⟨s.success, s.message, s.Q, share σ w s.x, share σ w s.y, copy σ s.K, copy σ s.u, s.A⟩

/-- K-values do not depend on the division. -/
def KRel (σ : Fin M → Fin N) (w : Fin M → ℝ) (Kc : KFun N) (Kc' : KFun M) : Prop := ∀ T P x y, Kc' T P (share σ w x) (share σ w y) = copy σ (Kc T P x y)

variable {Kc : KFun N} {Kc' : KFun M}

theorem weights_share (h : Portions σ w) (b : ℝ) (y K : Vec N) : weights b (share σ w y) (copy σ K) = share σ w (weights b y K) := by
  unfold weights
  rw [← normalize_share h]
  congr 1
  funext i; simp only [share, copy]; ring

theorem lnKb_share (h : Portions σ w) (v K : Vec N) : lnKb (share σ w v) (copy σ K) = lnKb v K := sum_share h v fun i => Real.log (K i)

theorem paramsPVall_share (h : Portions σ w) (hK : KRel σ w Kc Kc') (T P : ℝ) (x y : Vec N) (b Tref : ℝ) :
    paramsPVall T P (share σ w x) (share σ w y) b Kc' Tref = (copy σ (paramsPVall T P x y b Kc Tref).1, (paramsPVall T P x y b Kc Tref).2) := by
  unfold paramsPVall; simp only [hK _ _ x y, weights_share h, lnKb_share h]; rfl

theorem paramsTVall_share (h : Portions σ w) (hK : KRel σ w Kc Kc') (T P : ℝ) (x y : Vec N) (b Pref : ℝ) :
    paramsTVall T P (share σ w x) (share σ w y) b Kc' Pref = (copy σ (paramsTVall T P x y b Kc Pref).1, (paramsTVall T P x y b Kc Pref).2) := by
  unfold paramsTVall; simp only [hK _ _ x y, weights_share h, lnKb_share h]; rfl

theorem paramsPV_share (h : Portions σ w) (hK : KRel σ w Kc Kc') (T P : ℝ) (x y : Vec N) (b Tref B : ℝ) :
    paramsPV T P (share σ w x) (share σ w y) b Kc' Tref B =
      (copy σ (paramsPV T P x y b Kc Tref B).1, (paramsPV T P x y b Kc Tref B).2.1, copy σ (paramsPV T P x y b Kc Tref B).2.2) := by
  unfold paramsPV; simp only [hK _ _ x y, weights_share h, lnKb_share h]; rfl

theorem paramsTV_share (h : Portions σ w) (hK : KRel σ w Kc Kc') (T P : ℝ) (x y : Vec N) (b Pref B : ℝ) :
    paramsTV T P (share σ w x) (share σ w y) b Kc' Pref B =
      (copy σ (paramsTV T P x y b Kc Pref B).1, (paramsTV T P x y b Kc Pref B).2.1, copy σ (paramsTV T P x y b Kc Pref B).2.2) := by
  unfold paramsTV; simp only [hK _ _ x y, weights_share h, lnKb_share h]; rfl

theorem rloop_share (h : Portions σ w) (u : Vec N) (Kb0 b : ℝ) (z : Vec N) : rloop (copy σ u) Kb0 b (share σ w z) = rloop u Kb0 b z := by
  funext R; unfold rloop
  have : ∑ i, share σ w z i / (1 - R + Kb0 * R * Real.exp (copy σ u i)) = ∑ i, z i / (1 - R + Kb0 * R * Real.exp (u i)) := by
    rw [← sum_share' h]
    exact sum_congr rfl fun j _ => by simp only [share, copy]; ring
  rw [this]

theorem ioP_share (u : Vec N) (Kb0 R : ℝ) (z : Vec N) : ioP (copy σ u) Kb0 R (share σ w z) = share σ w (ioP u Kb0 R z) := by
  funext i; simp only [ioP, share, copy]; ring

theorem ioEup_share (u : Vec N) (Kb0 R : ℝ) (z : Vec N) : ioEup (copy σ u) Kb0 R (share σ w z) = share σ w (ioEup u Kb0 R z) := by
  funext i; simp only [ioEup, ioP, share, copy]; ring

theorem ioKb_share (h : Portions σ w) (u : Vec N) (Kb0 R : ℝ) (z : Vec N) : ioKb (copy σ u) Kb0 R (share σ w z) = ioKb u Kb0 R z := by
  unfold ioKb
  rw [ioP_share, ioEup_share, sum_share_total h, sum_share_total h]

theorem pvLoop_share (h : Portions σ w) (hK : KRel σ w Kc Kc') (z : Vec N) (P b Tref B Kb0 : ℝ) (m : ℕ) (atol rtol : ℝ) (n : ℕ) : ∀ s,
    pvLoop Kc' (share σ w z) P b Tref B Kb0 m atol rtol n (ioShare σ w s) = (pvLoop Kc z P b Tref B Kb0 m atol rtol n s).map (ioShare σ w) := by
  induction n with
  | zero => intro s; rfl
  | succ n ih =>
    intro s
    have e1 : innerR (ioShare σ w s).u Kb0 b (share σ w z) m atol = innerR s.u Kb0 b z m atol := by
      unfold innerR; rw [show rloop (ioShare σ w s).u Kb0 b (share σ w z) = _ from rloop_share h ..]
    simp only [pvLoop, e1]
    cases innerR s.u Kb0 b z m atol with
    | error e => rfl
    | ok o =>
      cases o with
      | none => rfl
      | some R =>
        simp only [bind, Except.bind]
        have e2 : normalize (ioP (ioShare σ w s).u Kb0 R (share σ w z)) = share σ w (normalize (ioP s.u Kb0 R z)) := by
          rw [show (ioShare σ w s).u = copy σ s.u from rfl, ioP_share, normalize_share h]
        have e3 : normalize (ioEup (ioShare σ w s).u Kb0 R (share σ w z)) = share σ w (normalize (ioEup s.u Kb0 R z)) := by
          rw [show (ioShare σ w s).u = copy σ s.u from rfl, ioEup_share, normalize_share h]
        have e4 : ioKb (ioShare σ w s).u Kb0 R (share σ w z) = ioKb s.u Kb0 R z := ioKb_share h ..
        have e5 : (ioShare σ w s).A = s.A := rfl
        rw [e2, e3, e4, e5, paramsPV_share h hK]
        generalize paramsPV _ P _ _ b Kc Tref B = r
        simp only [minPos_copy_append h]
        cases minPos (List.ofFn r.1 ++ [r.2.1]) with
        | error e => rfl
        | ok v0 =>
          simp only
          have e6 := allClose_concat_copy h r.1 s.u r.2.1 s.A (v0 * rtol)
          by_cases hc : AllClose (concat r.1 r.2.1) (concat s.u s.A) (v0 * rtol)
          · rw [if_pos hc, if_pos (show AllClose _ (concat (ioShare σ w s).u s.A) (v0 * rtol) from e6.2 hc)]; rfl
          · rw [if_neg hc, if_neg (show ¬AllClose _ (concat (ioShare σ w s).u s.A) (v0 * rtol) from fun h => hc (e6.1 h))]
            rw [← ih]; rfl

theorem tvLoop_share (h : Portions σ w) (hK : KRel σ w Kc Kc') (z : Vec N) (T b Pref B Kb0 : ℝ) (m : ℕ) (atol rtol : ℝ) (n : ℕ) : ∀ s,
    tvLoop Kc' (share σ w z) T b Pref B Kb0 m atol rtol n (ioShare σ w s) = (tvLoop Kc z T b Pref B Kb0 m atol rtol n s).map (ioShare σ w) := by
  induction n with
  | zero => intro s; rfl
  | succ n ih =>
    intro s
    have e1 : innerR (ioShare σ w s).u Kb0 b (share σ w z) m atol = innerR s.u Kb0 b z m atol := by
      unfold innerR; rw [show rloop (ioShare σ w s).u Kb0 b (share σ w z) = _ from rloop_share h ..]
    simp only [tvLoop, e1]
    cases innerR s.u Kb0 b z m atol with
    | error e => rfl
    | ok o =>
      cases o with
      | none => rfl
      | some R =>
        simp only [bind, Except.bind]
        have e2 : normalize (ioP (ioShare σ w s).u Kb0 R (share σ w z)) = share σ w (normalize (ioP s.u Kb0 R z)) := by
          rw [show (ioShare σ w s).u = copy σ s.u from rfl, ioP_share, normalize_share h]
        have e3 : normalize (ioEup (ioShare σ w s).u Kb0 R (share σ w z)) = share σ w (normalize (ioEup s.u Kb0 R z)) := by
          rw [show (ioShare σ w s).u = copy σ s.u from rfl, ioEup_share, normalize_share h]
        have e4 : ioKb (ioShare σ w s).u Kb0 R (share σ w z) = ioKb s.u Kb0 R z := ioKb_share h ..
        have e5 : (ioShare σ w s).A = s.A := rfl
        rw [e2, e3, e4, e5]
        cases rootNewton (pressureEq (ioKb s.u Kb0 R z) s.A B Pref) (Real.exp s.A / ioKb s.u Kb0 R z) 0 1e-10 50 with
        | error e => rfl
        | ok sol =>
          simp only
          by_cases hs : sol.1.success = true
          swap
          · simp only [hs, Bool.not_false, if_true]; rfl
          simp only [hs, Bool.not_true, Bool.false_eq_true, if_false]
          rw [paramsTV_share h hK]
          generalize paramsTV T sol.1.x _ _ b Kc Pref B = r
          simp only [minPos_copy_append h]
          cases minPos (List.ofFn r.1 ++ [r.2.1]) with
          | error e => rfl
          | ok v0 =>
            simp only
            have e6 := allClose_concat_copy h r.1 s.u r.2.1 s.A (v0 * rtol)
            by_cases hc : AllClose (concat r.1 r.2.1) (concat s.u s.A) (v0 * rtol)
            · rw [if_pos hc, if_pos (show AllClose _ (concat (ioShare σ w s).u s.A) (v0 * rtol) from e6.2 hc)]; rfl
            · rw [if_neg hc, if_neg (show ¬AllClose _ (concat (ioShare σ w s).u s.A) (v0 * rtol) from fun h => hc (e6.1 h))]
              rw [← ih]; rfl

end Flash

end Verif.Split
