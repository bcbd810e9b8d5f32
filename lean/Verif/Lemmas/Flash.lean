import Verif.Model.Flash
import Mathlib.Algebra.Order.BigOperators.Group.Finset
import Mathlib.Algebra.BigOperators.Field
import Mathlib.Tactic.FieldSimp
import Mathlib.Tactic.Linarith
import Mathlib.Tactic.Positivity
import Mathlib.Tactic.Ring

/-! Helper lemmas for the flash model: convergence of the safeguarded Newton iteration of `solve_Rachford_Rice`. -/

namespace Verif.Flash

open Finset

variable {α : Type*} [Field α] [LinearOrder α] [IsStrictOrderedRing α] {N : ℕ}

/-! ### Abstract iteration -/

/-- What the convergence proof uses about the function. -/
structure Good (F g : α → α) (G : α) : Prop where
  diff : ∀ a b, 0 ≤ a → a ≤ 1 → 0 ≤ b → b ≤ 1 → ∃ h, F a - F b = (b - a) * h ∧ 0 ≤ h ∧ h ≤ (g a + g b) / 2
  le : ∀ a, 0 ≤ a → a ≤ 1 → g a ≤ G
  pos : ∀ a, 0 ≤ a → a ≤ 1 → F a ≠ 0 → 0 < g a
  nonneg : ∀ a, 0 ≤ a → a ≤ 1 → 0 ≤ g a

/-- One pass of the loop. -/
def nxt (F g : α → α) (s : α × α × α) : α × α × α :=
  let bmin' := if F s.2.2 > 0 then s.2.2 else s.1
  let bmax' := if F s.2.2 > 0 then s.2.1 else s.2.2
  let bnew := s.2.2 + F s.2.2 / g s.2.2
  (bmin', bmax', if bnew > bmin' ∧ bnew < bmax' then bnew else (bmin' + bmax') / 2)

/-- The invariant of the loop. -/
def Inv (F : α → α) (s : α × α × α) : Prop := 0 ≤ s.1 ∧ s.1 ≤ s.2.2 ∧ s.2.2 ≤ s.2.1 ∧ s.2.1 ≤ 1 ∧ 0 ≤ F s.1 ∧ F s.2.1 ≤ 0

/-- Reflection `β ↦ 1 - β`. -/
def refl (s : α × α × α) : α × α × α := (1 - s.2.1, 1 - s.1, 1 - s.2.2)

theorem Good.refl {F g : α → α} {G : α} (h : Good F g G) : Good (fun t => -F (1 - t)) (fun t => g (1 - t)) G where
  diff a b ha ha1 hb hb1 := by
    obtain ⟨k, h1, h2, h3⟩ := h.diff (1 - a) (1 - b) (by linarith) (by linarith) (by linarith) (by linarith)
    exact ⟨k, by linear_combination -h1, h2, h3⟩
  le a ha ha1 := h.le _ (by linarith) (by linarith)
  pos a ha ha1 h0 := h.pos _ (by linarith) (by linarith) (by simpa using h0)
  nonneg a ha ha1 := h.nonneg _ (by linarith) (by linarith)

theorem nxt_refl (F g : α → α) (s : α × α × α) (h : F s.2.2 ≠ 0) :
    nxt (fun t => -F (1 - t)) (fun t => g (1 - t)) (Flash.refl s) = Flash.refl (nxt F g s) := by
  obtain ⟨lo, hi, b⟩ := s
  simp only [nxt, Flash.refl, sub_sub_cancel] at *
  have hdiv : 1 - b + -F b / g b = 1 - (b + F b / g b) := by rw [neg_div]; ring
  rw [hdiv]
  rcases lt_or_gt_of_ne h with h | h
  · rw [if_pos (by linarith : -F b > 0), if_pos (by linarith : -F b > 0), if_neg (not_lt.2 h.le), if_neg (not_lt.2 h.le)]
    by_cases hc : b + F b / g b > lo ∧ b + F b / g b < b
    · rw [if_pos hc, if_pos ⟨by linarith [hc.2], by linarith [hc.1]⟩]
    · rw [if_neg hc, if_neg fun h => hc ⟨by linarith [h.2], by linarith [h.1]⟩]
      congr 2; ring
  · rw [if_neg (by linarith : ¬ -F b > 0), if_neg (by linarith : ¬ -F b > 0), if_pos h, if_pos h]
    by_cases hc : b + F b / g b > b ∧ b + F b / g b < hi
    · rw [if_pos hc, if_pos ⟨by linarith [hc.2], by linarith [hc.1]⟩]
    · rw [if_neg hc, if_neg fun h => hc ⟨by linarith [h.2], by linarith [h.1]⟩]
      congr 2; ring

theorem Inv.refl {F : α → α} {s : α × α × α} (h : Inv F s) : Inv (fun t => -F (1 - t)) (Flash.refl s) := by
  obtain ⟨h1, h2, h3, h4, h5, h6⟩ := h
  refine ⟨?_, ?_, ?_, ?_, ?_, ?_⟩ <;> simp only [Flash.refl, sub_sub_cancel] <;> linarith

theorem Inv.nxt {F g : α → α} {s : α × α × α} (h : Inv F s) : Inv F (nxt F g s) := by
  obtain ⟨lo, hi, b⟩ := s
  obtain ⟨h1, h2, h3, h4, h5, h6⟩ := h
  simp only at h1 h2 h3 h4 h5 h6
  simp only [Flash.nxt, Inv]
  by_cases hF : F b > 0
  · simp only [if_pos hF]
    split_ifs with hc
    · exact ⟨h1.trans h2, hc.1.le, hc.2.le, h4, hF.le, h6⟩
    · exact ⟨h1.trans h2, by linarith, by linarith, h4, hF.le, h6⟩
  · simp only [if_neg hF]
    split_ifs with hc
    · exact ⟨h1, hc.1.le, hc.2.le, h3.trans h4, h5, not_lt.1 hF⟩
    · exact ⟨h1, by linarith, by linarith, h3.trans h4, h5, not_lt.1 hF⟩

theorem Inv.len {F g : α → α} {G : α} (hg : Good F g G) {s : α × α × α} (h : Inv F s) : |F s.2.2| ≤ G * (s.2.1 - s.1) := by
  obtain ⟨lo, hi, b⟩ := s
  obtain ⟨h1, h2, h3, h4, h5, h6⟩ := h
  simp only at *
  have hb0 := h1.trans h2
  have hb1 := h3.trans h4
  have hlo1 := h2.trans hb1
  have hhi0 := hb0.trans h3
  have hG : 0 ≤ G := (hg.nonneg lo h1 hlo1).trans (hg.le lo h1 hlo1)
  have key : ∀ a c, 0 ≤ a → a ≤ 1 → 0 ≤ c → c ≤ 1 → a ≤ c → F a - F c ≤ G * (c - a) := by
    intro a c ha ha1 hc hc1 hac
    obtain ⟨k, e1, e2, e3⟩ := hg.diff a c ha ha1 hc hc1
    have := hg.le a ha ha1
    have := hg.le c hc hc1
    rw [e1, mul_comm]
    exact mul_le_mul_of_nonneg_right (by linarith) (by linarith)
  rw [abs_le]
  constructor
  · have e := key lo b h1 hlo1 hb0 hb1 h2
    have := mul_nonneg hG (sub_nonneg.2 h3)
    have e2 : G * (hi - lo) = G * (b - lo) + G * (hi - b) := by ring
    linarith
  · have e := key b hi hb0 hb1 hhi0 h4 h3
    have := mul_nonneg hG (sub_nonneg.2 h2)
    have e2 : G * (hi - lo) = G * (b - lo) + G * (hi - b) := by ring
    linarith

/-- Length of the bracket. -/
def len (s : α × α × α) : α := s.2.1 - s.1

theorem len_refl (s : α × α × α) : len (Flash.refl s) = len s := by simp [len, Flash.refl]

theorem len_nxt_le {F g : α → α} {s : α × α × α} (h : Inv F s) : len (nxt F g s) ≤ len s := by
  obtain ⟨lo, hi, b⟩ := s
  obtain ⟨h1, h2, h3, h4, h5, h6⟩ := h
  simp only at *
  simp only [nxt, len]
  split_ifs <;> linarith

/-- Step length. -/
theorem step_ge {F g : α → α} {G d : α} (hg : Good F g G) {b : α} (hb : 0 ≤ b) (hb1 : b ≤ 1) (hd : 0 < d) (hG : 0 < G) (hF : d * G < |F b|) : d ≤ |F b| / g b := by
  have h0 : F b ≠ 0 := by
    intro h; rw [h, abs_zero] at hF
    exact absurd hF (not_lt.2 (mul_pos hd hG).le)
  have hp := hg.pos b hb hb1 h0
  rw [le_div_iff₀ hp]
  exact (mul_le_mul_of_nonneg_left (hg.le b hb hb1) hd.le).trans hF.le

theorem three_step_pos {F g : α → α} {G d : α} (hg : Good F g G) (hd : 0 < d) (hG : 0 < G) {s : α × α × α} (h : Inv F s) (hF : 0 < F s.2.2)
    (h0 : d * G < |F s.2.2|) (h1 : d * G < |F (nxt F g s).2.2|) (h2 : d * G < |F (nxt F g (nxt F g s)).2.2|) :
    len (nxt F g (nxt F g (nxt F g s))) ≤ len s - d / 2 := by
  have i1 : Inv F (nxt F g s) := h.nxt
  have i2 : Inv F (nxt F g (nxt F g s)) := i1.nxt
  have l1 : len (nxt F g s) ≤ len s := len_nxt_le h
  have l2 := len_nxt_le (g := g) i1
  have l3 := len_nxt_le (g := g) i2
  have hlen1 : d < len (nxt F g s) := by
    have := h1.trans_le (i1.len hg)
    rw [mul_comm] at this
    exact lt_of_mul_lt_mul_left this hG.le
  have hlen2 : d < len (nxt F g (nxt F g s)) := by
    have := h2.trans_le (i2.len hg)
    rw [mul_comm] at this
    exact lt_of_mul_lt_mul_left this hG.le
  set s1 := nxt F g s with hs1
  set s2 := nxt F g s1 with hs2
  obtain ⟨a1, a2, a3, a4, a5, a6⟩ := h
  obtain ⟨b1, b2, b3, b4, b5, b6⟩ := i1
  obtain ⟨c1, c2, c3, c4, c5, c6⟩ := i2
  have hb0 : 0 ≤ s.2.2 := a1.trans a2
  have hb1 : s.2.2 ≤ 1 := a3.trans a4
  have hst := step_ge hg hb0 hb1 hd hG h0
  rw [abs_of_pos hF] at hst
  have e1 : s1.1 = s.2.2 := by rw [hs1]; simp [nxt, hF]
  have e2 : s1.2.1 = s.2.1 := by rw [hs1]; simp [nxt, hF]
  have e3 : s1.2.2 = if s.2.2 + F s.2.2 / g s.2.2 > s.2.2 ∧ s.2.2 + F s.2.2 / g s.2.2 < s.2.1 then s.2.2 + F s.2.2 / g s.2.2 else (s.2.2 + s.2.1) / 2 := by
    rw [hs1]; simp [nxt, hF]
  simp only [len] at *
  rcases lt_or_ge 0 (F s1.2.2) with hF1 | hF1
  · -- same sign: the lower end moves to the new point
    have e4 : s2.1 = s1.2.2 := by rw [hs2]; simp [nxt, hF1]
    have e5 : s2.2.1 = s1.2.1 := by rw [hs2]; simp [nxt, hF1]
    have : d / 2 ≤ s1.2.2 - s.2.2 := by
      rw [e3]
      split_ifs with hc
      · linarith
      · rw [e1, e2] at hlen1; linarith
    rw [e4, e5, e2] at l3
    linarith
  · have e4 : s2.1 = s1.1 := by rw [hs2]; simp [nxt, not_lt.2 hF1]
    have e5 : s2.2.1 = s1.2.2 := by rw [hs2]; simp [nxt, not_lt.2 hF1]
    have hF1' : F s1.2.2 < 0 := by
      refine lt_of_le_of_ne hF1 fun h => ?_
      rw [h, abs_zero] at h1
      exact absurd h1 (not_lt.2 (mul_pos hd hG).le)
    by_cases hc : s.2.2 + F s.2.2 / g s.2.2 > s.2.2 ∧ s.2.2 + F s.2.2 / g s.2.2 < s.2.1
    · rw [if_pos hc] at e3
      have hq0 : 0 ≤ s1.2.2 := b1.trans b2
      have hq1 : s1.2.2 ≤ 1 := b3.trans b4
      have hgb := hg.pos _ hb0 hb1 hF.ne'
      have hgq := hg.pos _ hq0 hq1 hF1'.ne
      obtain ⟨k, k1, k2, k3⟩ := hg.diff s.2.2 s1.2.2 hb0 hb1 hq0 hq1
      have hdist : s1.2.2 - s.2.2 = F s.2.2 / g s.2.2 := by rw [e3]; ring
      have hFb : F s.2.2 = (s1.2.2 - s.2.2) * g s.2.2 := by rw [hdist, div_mul_cancel₀ _ hgb.ne']
      have hdp : 0 < s1.2.2 - s.2.2 := by rw [hdist]; exact div_pos hF hgb
      have hback : -F s1.2.2 / g s1.2.2 < (s1.2.2 - s.2.2) / 2 := by
        rw [div_lt_iff₀ hgq]
        have : -F s1.2.2 = (s1.2.2 - s.2.2) * (k - g s.2.2) := by linear_combination k1 + hFb * (-1)
        rw [this]
        have h3 : k - g s.2.2 < g s1.2.2 / 2 := by linarith
        calc (s1.2.2 - s.2.2) * (k - g s.2.2) < (s1.2.2 - s.2.2) * (g s1.2.2 / 2) := mul_lt_mul_of_pos_left h3 hdp
          _ = _ := by ring
      have hst1 := step_ge hg hq0 hq1 hd hG h1
      rw [abs_of_neg hF1'] at hst1
      have e6 : s2.2.2 = s1.2.2 + F s1.2.2 / g s1.2.2 := by
        rw [hs2]
        simp only [nxt, if_neg (not_lt.2 hF1)]
        rw [if_pos]
        rw [e1]
        rw [neg_div] at hback hst1
        constructor <;> linarith
      rw [neg_div] at hback hst1
      rcases lt_or_ge 0 (F s2.2.2) with hF2 | hF2
      · have e7 : (nxt F g s2).1 = s2.2.2 := by simp [nxt, hF2]
        have e8 : (nxt F g s2).2.1 = s2.2.1 := by simp [nxt, hF2]
        rw [e7, e8, e5, e6]
        rw [e4, e5, e1] at hlen2
        rw [e4, e5, e1] at l2
        linarith
      · have e7 : (nxt F g s2).1 = s2.1 := by simp [nxt, not_lt.2 hF2]
        have e8 : (nxt F g s2).2.1 = s2.2.2 := by simp [nxt, not_lt.2 hF2]
        rw [e7, e8, e4, e1, e6]
        rw [e4, e5, e1] at l2
        linarith
    · rw [if_neg hc] at e3
      rw [e4, e5, e1, e3] at l3
      rw [e1, e2] at hlen1 l1
      linarith

theorem three_step {F g : α → α} {G d : α} (hg : Good F g G) (hd : 0 < d) (hG : 0 < G) {s : α × α × α} (h : Inv F s)
    (h0 : d * G < |F s.2.2|) (h1 : d * G < |F (nxt F g s).2.2|) (h2 : d * G < |F (nxt F g (nxt F g s)).2.2|) :
    len (nxt F g (nxt F g (nxt F g s))) ≤ len s - d / 2 := by
  have hne : ∀ {x}, d * G < |F x| → F x ≠ 0 := by
    intro x hx h; rw [h, abs_zero] at hx
    exact absurd hx (not_lt.2 (mul_pos hd hG).le)
  rcases lt_or_gt_of_ne (hne h0) with hF | hF
  · have r0 := nxt_refl F g s (hne h0)
    have r1 := nxt_refl F g (nxt F g s) (hne h1)
    have r2 := nxt_refl F g (nxt F g (nxt F g s)) (hne h2)
    have key := three_step_pos hg.refl hd hG h.refl (by simpa [Flash.refl] using hF) (by simpa [Flash.refl] using h0)
      (by rw [r0]; simpa [Flash.refl] using h1) (by rw [r0, r1]; simpa [Flash.refl] using h2)
    rw [r0, r1, r2, len_refl, len_refl] at key
    exact key
  · exact three_step_pos hg hd hG h hF h0 h1 h2

/-! ### The loop -/

variable {K z : Fin N → α}

theorem rrLoop_succ (K z : Fin N → α) (atol : α) (n iter : ℕ) (s : α × α × α) (F? : Option α) :
    rrLoop K z atol (n + 1) iter s.1 s.2.1 s.2.2 F? = if |rr s.2.2 K z| ≤ atol then .ok ⟨true, iter + 1, s.2.2, rr s.2.2 K z⟩ else
      rrLoop K z atol n (iter + 1) (nxt (fun b => rr b K z) (fun b => -drr b K z) s).1 (nxt (fun b => rr b K z) (fun b => -drr b K z) s).2.1
        (nxt (fun b => rr b K z) (fun b => -drr b K z) s).2.2 (some (rr s.2.2 K z)) := by
  have : s.2.2 - rr s.2.2 K z / drr s.2.2 K z = s.2.2 + rr s.2.2 K z / -drr s.2.2 K z := by rw [div_neg]; ring
  simp only [rrLoop, nxt, this]

theorem rrLoop_converges {G atol d : α} (hg : Good (fun b => rr b K z) (fun b => -drr b K z) G) (hd : 0 < d) (hG : 0 < G) (hat : d * G ≤ atol) :
    ∀ (n : ℕ) (s : α × α × α) (iter m : ℕ) (F? : Option α), Inv (fun b => rr b K z) s → len s ≤ n * (d / 2) → 3 * n + 1 ≤ m →
      ∃ r, rrLoop K z atol m iter s.1 s.2.1 s.2.2 F? = .ok r ∧ r.success = true ∧ r.niter ≤ iter + (3 * n + 1) := by
  intro n
  induction n with
  | zero =>
    intro s iter m F? hi hl hm
    obtain ⟨m, rfl⟩ : ∃ k, m = k + 1 := ⟨m - 1, by omega⟩
    rw [rrLoop_succ, if_pos]
    · exact ⟨_, rfl, rfl, le_rfl⟩
    · have h1 := hi.len hg
      have h2 : G * (s.2.1 - s.1) ≤ 0 := mul_nonpos_of_nonneg_of_nonpos hG.le (by simpa [len] using hl)
      have h3 := mul_pos hd hG
      exact (h1.trans h2).trans (h3.le.trans hat)
  | succ n ih =>
    intro s iter m F? hi hl hm
    obtain ⟨m, rfl⟩ : ∃ k, m = k + 3 := ⟨m - 3, by omega⟩
    rw [rrLoop_succ]
    split_ifs with h0
    · exact ⟨_, rfl, rfl, by simp⟩
    rw [rrLoop_succ]
    split_ifs with h1
    · exact ⟨_, rfl, rfl, by simp⟩
    rw [rrLoop_succ]
    split_ifs with h2
    · exact ⟨_, rfl, rfl, by simp; omega⟩
    have key := three_step hg hd hG hi (hat.trans_lt (not_le.1 h0)) (hat.trans_lt (not_le.1 h1)) (hat.trans_lt (not_le.1 h2))
    obtain ⟨r, e1, e2, e3⟩ := ih _ (iter + 1 + 1 + 1) m (some (rr (nxt (fun b => rr b K z) (fun b => -drr b K z) (nxt (fun b => rr b K z) (fun b => -drr b K z) s)).2.2 K z))
      hi.nxt.nxt.nxt (key.trans (by push_cast at hl ⊢; linarith)) (by omega)
    exact ⟨r, e1, e2, by omega⟩

/-! ### Properties of the residual -/

theorem den_pos {k b : α} (hk : 0 < k) (hb : 0 ≤ b) (hb1 : b ≤ 1) : 0 < 1 + b * (k - 1) := by
  have h : 1 + b * (k - 1) = (1 - b) + b * k := by ring
  rw [h]
  rcases hb.eq_or_lt with rfl | h0
  · simp
  · have := mul_pos h0 hk
    linarith

/-- The divided difference of the residual. -/
def dd (K z : Fin N → α) (a b : α) : α := ∑ i, z i * (K i - 1) ^ 2 / ((1 + a * (K i - 1)) * (1 + b * (K i - 1)))

theorem rr_diff' {a b : α} (ha : ∀ i, 1 + a * (K i - 1) ≠ 0) (hb : ∀ i, 1 + b * (K i - 1) ≠ 0) :
    rr a K z - rr b K z = (b - a) * dd K z a b := by
  rw [rr, rr, dd, ← sum_sub_distrib, mul_sum]
  refine sum_congr rfl fun i _ => ?_
  rw [div_sub_div _ _ (ha i) (hb i), ← mul_div_assoc]
  congr 1
  ring

theorem rr_diff (hK : ∀ i, 0 < K i) {a b : α} (ha : 0 ≤ a) (ha1 : a ≤ 1) (hb : 0 ≤ b) (hb1 : b ≤ 1) :
    rr a K z - rr b K z = (b - a) * dd K z a b :=
  rr_diff' (fun i => (den_pos (hK i) ha ha1).ne') fun i => (den_pos (hK i) hb hb1).ne'

theorem dd_nonneg (hK : ∀ i, 0 < K i) (hz : ∀ i, 0 ≤ z i) {a b : α} (ha : 0 ≤ a) (ha1 : a ≤ 1) (hb : 0 ≤ b) (hb1 : b ≤ 1) : 0 ≤ dd K z a b :=
  sum_nonneg fun i _ => div_nonneg (mul_nonneg (hz i) (sq_nonneg _)) (mul_pos (den_pos (hK i) ha ha1) (den_pos (hK i) hb hb1)).le

theorem dd_pos (hK : ∀ i, 0 < K i) (hz : ∀ i, 0 ≤ z i) (hne : ∃ i, 0 < z i ∧ K i ≠ 1) {a b : α} (ha : 0 ≤ a) (ha1 : a ≤ 1) (hb : 0 ≤ b) (hb1 : b ≤ 1) :
    0 < dd K z a b := by
  obtain ⟨i, hi, hki⟩ := hne
  refine sum_pos' (fun i _ => div_nonneg (mul_nonneg (hz i) (sq_nonneg _)) (mul_pos (den_pos (hK i) ha ha1) (den_pos (hK i) hb hb1)).le) ⟨i, mem_univ _, ?_⟩
  exact div_pos (mul_pos hi (pow_pos_of_ne_sq hki)) (mul_pos (den_pos (hK i) ha ha1) (den_pos (hK i) hb hb1))
where
  pow_pos_of_ne_sq {k : α} (h : k ≠ 1) : 0 < (k - 1) ^ 2 := by
    have : k - 1 ≠ 0 := sub_ne_zero.2 h
    positivity

theorem dd_self (K z : Fin N → α) (a : α) : dd K z a a = -drr a K z := by
  rw [dd, drr, neg_neg]
  exact sum_congr rfl fun i _ => by rw [sq (1 + a * (K i - 1))]

theorem dd_le (hK : ∀ i, 0 < K i) (hz : ∀ i, 0 ≤ z i) {a b : α} (ha : 0 ≤ a) (ha1 : a ≤ 1) (hb : 0 ≤ b) (hb1 : b ≤ 1) :
    dd K z a b ≤ (dd K z a a + dd K z b b) / 2 := by
  rw [dd, dd, dd, ← sum_add_distrib, sum_div]
  refine sum_le_sum fun i _ => ?_
  have h1 := den_pos (hK i) ha ha1
  have h2 := den_pos (hK i) hb hb1
  have h3 : 0 ≤ z i * (K i - 1) ^ 2 := mul_nonneg (hz i) (sq_nonneg _)
  generalize 1 + a * (K i - 1) = p at *
  generalize 1 + b * (K i - 1) = q at *
  generalize z i * (K i - 1) ^ 2 = c at *
  have e : (c / (p * p) + c / (q * q)) / 2 - c / (p * q) = c * (p - q) ^ 2 / (2 * p ^ 2 * q ^ 2) := by
    field_simp
    ring
  have : 0 ≤ c * (p - q) ^ 2 / (2 * p ^ 2 * q ^ 2) := by positivity
  linarith

/-- Upper and lower bounds of the slope on [0, 1]. -/
def slopeMax (K z : Fin N → α) : α := ∑ i, z i * (K i - 1) ^ 2 / min 1 (K i) ^ 2
def slopeMin (K z : Fin N → α) : α := ∑ i, z i * (K i - 1) ^ 2 / max 1 (K i) ^ 2

theorem den_bounds {k b : α} (hb : 0 ≤ b) (hb1 : b ≤ 1) : min 1 k ≤ 1 + b * (k - 1) ∧ 1 + b * (k - 1) ≤ max 1 k := by
  have h : 1 + b * (k - 1) = (1 - b) * 1 + b * k := by ring
  rw [h]
  constructor
  · have h1 := mul_le_mul_of_nonneg_left (min_le_left 1 k) (sub_nonneg.2 hb1)
    have h2 := mul_le_mul_of_nonneg_left (min_le_right 1 k) hb
    have e : (1 - b) * min 1 k + b * min 1 k = min 1 k := by ring
    linarith
  · have h1 := mul_le_mul_of_nonneg_left (le_max_left 1 k) (sub_nonneg.2 hb1)
    have h2 := mul_le_mul_of_nonneg_left (le_max_right 1 k) hb
    have e : (1 - b) * max 1 k + b * max 1 k = max 1 k := by ring
    linarith

theorem dd_le_max (hK : ∀ i, 0 < K i) (hz : ∀ i, 0 ≤ z i) {a b : α} (ha : 0 ≤ a) (ha1 : a ≤ 1) (hb : 0 ≤ b) (hb1 : b ≤ 1) : dd K z a b ≤ slopeMax K z := by
  refine sum_le_sum fun i _ => ?_
  have hm : 0 < min 1 (K i) := lt_min one_pos (hK i)
  refine div_le_div_of_nonneg_left (mul_nonneg (hz i) (sq_nonneg _)) (pow_pos hm 2) ?_
  rw [sq]
  exact mul_le_mul (den_bounds ha ha1).1 (den_bounds hb hb1).1 hm.le (den_pos (hK i) ha ha1).le

theorem dd_ge_min (hK : ∀ i, 0 < K i) (hz : ∀ i, 0 ≤ z i) {a b : α} (ha : 0 ≤ a) (ha1 : a ≤ 1) (hb : 0 ≤ b) (hb1 : b ≤ 1) : slopeMin K z ≤ dd K z a b := by
  refine sum_le_sum fun i _ => ?_
  refine div_le_div_of_nonneg_left (mul_nonneg (hz i) (sq_nonneg _)) (mul_pos (den_pos (hK i) ha ha1) (den_pos (hK i) hb hb1)) ?_
  rw [sq]
  exact mul_le_mul (den_bounds ha ha1).2 (den_bounds hb hb1).2 (den_pos (hK i) hb hb1).le (le_max_of_le_left zero_le_one)

theorem rr_ne_zero {b : α} (hz : ∀ i, 0 ≤ z i) (h : rr b K z ≠ 0) : ∃ i, 0 < z i ∧ K i ≠ 1 := by
  by_contra hc
  push Not at hc
  apply h
  refine sum_eq_zero fun i _ => ?_
  rcases (hz i).eq_or_lt with h0 | h0
  · simp [← h0]
  · simp [hc i h0]

theorem good_rr (hK : ∀ i, 0 < K i) (hz : ∀ i, 0 ≤ z i) : Good (fun b => rr b K z) (fun b => -drr b K z) (slopeMax K z) where
  diff a b ha ha1 hb hb1 := ⟨dd K z a b, rr_diff hK ha ha1 hb hb1, dd_nonneg hK hz ha ha1 hb hb1, by
    have := dd_le hK hz ha ha1 hb hb1
    rwa [dd_self, dd_self] at this⟩
  le a ha ha1 := by rw [← dd_self]; exact dd_le_max hK hz ha ha1 ha ha1
  pos a ha ha1 h := by rw [← dd_self]; exact dd_pos hK hz (rr_ne_zero hz h) ha ha1 ha ha1
  nonneg a ha ha1 := by rw [← dd_self]; exact dd_nonneg hK hz ha ha1 ha ha1

/-! ### The initial bracket -/

theorem foldl_max_mem (vs : List α) : ∀ v, vs.foldl max v = v ∨ vs.foldl max v ∈ vs := by
  induction vs with
  | nil => intro v; simp
  | cons w ws ih =>
    intro v
    simp only [List.foldl_cons]
    rcases ih (max v w) with h | h
    · rw [h]
      rcases max_choice v w with h | h <;> simp [h]
    · right; exact List.mem_cons_of_mem _ h

theorem foldl_min_mem (vs : List α) : ∀ v, vs.foldl min v = v ∨ vs.foldl min v ∈ vs := by
  induction vs with
  | nil => intro v; simp
  | cons w ws ih =>
    intro v
    simp only [List.foldl_cons]
    rcases ih (min v w) with h | h
    · rw [h]
      rcases min_choice v w with h | h <;> simp [h]
    · right; exact List.mem_cons_of_mem _ h

theorem betaMin_cases (K z : Fin N → α) :
    betaMin K z = 0 ∨ ∃ i, 1 < K i ∧ betaMin K z = (K i * z i - 1) / (K i - 1) ∧ 0 < betaMin K z ∧ betaMin K z < 1 := by
  rcases hl : (List.ofFn fun i => if K i > 1 then (K i * z i - 1) / (K i - 1) else 0).filter fun v => v > 0 ∧ v < 1 with _ | ⟨v, vs⟩
  · left; unfold betaMin; rw [hl]
  · right
    have hb : betaMin K z = vs.foldl max v := by unfold betaMin; rw [hl]
    have hm : betaMin K z ∈ (List.ofFn fun i => if K i > 1 then (K i * z i - 1) / (K i - 1) else 0).filter fun v => v > 0 ∧ v < 1 := by
      rw [hl, hb]
      rcases foldl_max_mem vs v with h | h
      · rw [h]; simp
      · exact List.mem_cons_of_mem _ h
    rw [List.mem_filter, List.mem_ofFn] at hm
    obtain ⟨⟨i, hi⟩, hc⟩ := hm
    simp only [gt_iff_lt, Bool.decide_and, Bool.and_eq_true, decide_eq_true_eq] at hc
    by_cases hk : K i > 1
    · simp only [if_pos hk] at hi
      exact ⟨i, hk, hi.symm, hc⟩
    · simp only [if_neg hk] at hi
      rw [← hi] at hc
      exact absurd hc.1 (lt_irrefl _)

theorem betaMax_cases (K z : Fin N → α) :
    betaMax K z = 1 ∨ ∃ i, K i < 1 ∧ betaMax K z = (1 - z i) / (1 - K i) ∧ 0 < betaMax K z ∧ betaMax K z < 1 := by
  rcases hl : (List.ofFn fun i => if K i < 1 then (1 - z i) / (1 - K i) else 1).filter fun v => v > 0 ∧ v < 1 with _ | ⟨v, vs⟩
  · left; unfold betaMax; rw [hl]
  · right
    have hb : betaMax K z = vs.foldl min v := by unfold betaMax; rw [hl]
    have hm : betaMax K z ∈ (List.ofFn fun i => if K i < 1 then (1 - z i) / (1 - K i) else 1).filter fun v => v > 0 ∧ v < 1 := by
      rw [hl, hb]
      rcases foldl_min_mem vs v with h | h
      · rw [h]; simp
      · exact List.mem_cons_of_mem _ h
    rw [List.mem_filter, List.mem_ofFn] at hm
    obtain ⟨⟨i, hi⟩, hc⟩ := hm
    simp only [gt_iff_lt, Bool.decide_and, Bool.and_eq_true, decide_eq_true_eq] at hc
    by_cases hk : K i < 1
    · simp only [if_pos hk] at hi
      exact ⟨i, hk, hi.symm, hc⟩
    · simp only [if_neg hk] at hi
      rw [← hi] at hc
      exact absurd hc.2 (lt_irrefl _)

theorem betaMin_range (K z : Fin N → α) : 0 ≤ betaMin K z ∧ betaMin K z ≤ 1 := by
  rcases betaMin_cases K z with h | ⟨i, _, _, h1, h2⟩
  · rw [h]; exact ⟨le_rfl, zero_le_one⟩
  · exact ⟨h1.le, h2.le⟩

theorem betaMax_range (K z : Fin N → α) : 0 ≤ betaMax K z ∧ betaMax K z ≤ 1 := by
  rcases betaMax_cases K z with h | ⟨i, _, _, h1, h2⟩
  · rw [h]; exact ⟨zero_le_one, le_rfl⟩
  · exact ⟨h1.le, h2.le⟩

theorem rr_betaMin (hK : ∀ i, 0 < K i) (hz : ∀ i, 0 ≤ z i) (hz1 : ∑ i, z i = 1) (h0 : 0 ≤ rr 0 K z) : 0 ≤ rr (betaMin K z) K z := by
  rcases betaMin_cases K z with h | ⟨i, hk, hb, h1, h2⟩
  · rwa [h]
  · generalize betaMin K z = b at *
    have hk1 : 0 < K i - 1 := sub_pos.2 hk
    have hki := hK i
    have hden : 1 + b * (K i - 1) = K i * z i := by rw [hb, div_mul_cancel₀ _ hk1.ne']; ring
    have hzi : z i ≠ 0 := by
      intro h
      have := den_pos hki h1.le h2.le
      rw [hden, h, mul_zero] at this
      exact lt_irrefl _ this
    have hb1 : 0 < 1 - b := sub_pos.2 h2
    have hoth : ∀ j, j ≠ i → -(z j / (1 - b)) ≤ z j * (K j - 1) / (1 + b * (K j - 1)) := by
      intro j _
      have hd := den_pos (hK j) h1.le h2.le
      rw [neg_le_iff_add_nonneg, div_add_div _ _ hd.ne' hb1.ne']
      refine div_nonneg ?_ (mul_pos hd hb1).le
      have : z j * (K j - 1) * (1 - b) + (1 + b * (K j - 1)) * z j = z j * K j := by ring
      rw [this]
      exact mul_nonneg (hz j) (hK j).le
    have hsplit : rr b K z = z i * (K i - 1) / (1 + b * (K i - 1)) + ∑ j ∈ univ.erase i, z j * (K j - 1) / (1 + b * (K j - 1)) := by
      exact (add_sum_erase univ (fun j => z j * (K j - 1) / (1 + b * (K j - 1))) (mem_univ i)).symm
    have hsum : ∑ j ∈ univ.erase i, z j = 1 - z i := by
      have := add_sum_erase univ z (mem_univ i)
      rw [hz1] at this; linarith
    have hlow : -((1 - z i) / (1 - b)) ≤ ∑ j ∈ univ.erase i, z j * (K j - 1) / (1 + b * (K j - 1)) := by
      rw [← hsum, sum_div, ← sum_neg_distrib]
      exact sum_le_sum fun j hj => hoth j (ne_of_mem_erase hj)
    have e1 : (1 - z i) / (1 - b) = (K i - 1) / K i := by
      have : (1 - b) * (K i - 1) = K i * (1 - z i) := by linear_combination -hden
      rw [div_eq_div_iff hb1.ne' hki.ne']
      linarith
    have e2 : z i * (K i - 1) / (1 + b * (K i - 1)) = (K i - 1) / K i := by
      rw [hden]
      have := hki.ne'
      field_simp
    rw [hsplit, e2]
    rw [e1] at hlow
    linarith

theorem rr_betaMax (hK : ∀ i, 0 < K i) (hz : ∀ i, 0 ≤ z i) (hz1 : ∑ i, z i = 1) (h0 : rr 1 K z ≤ 0) : rr (betaMax K z) K z ≤ 0 := by
  rcases betaMax_cases K z with h | ⟨i, hk, hb, h1, h2⟩
  · rwa [h]
  · generalize betaMax K z = b at *
    have hk1 : 0 < 1 - K i := sub_pos.2 hk
    have hki := hK i
    have hden : 1 + b * (K i - 1) = z i := by
      have : b * (1 - K i) = 1 - z i := by rw [hb, div_mul_cancel₀ _ hk1.ne']
      linear_combination -this
    have hzi : z i ≠ 0 := by
      intro h
      have := den_pos hki h1.le h2.le
      rw [hden, h] at this
      exact lt_irrefl _ this
    have hoth : ∀ j, j ≠ i → z j * (K j - 1) / (1 + b * (K j - 1)) ≤ z j / b := by
      intro j _
      have hd := den_pos (hK j) h1.le h2.le
      rw [div_le_div_iff₀ hd h1]
      have : z j * (1 + b * (K j - 1)) - z j * (K j - 1) * b = z j := by ring
      have := hz j
      linarith
    have hsplit : rr b K z = z i * (K i - 1) / (1 + b * (K i - 1)) + ∑ j ∈ univ.erase i, z j * (K j - 1) / (1 + b * (K j - 1)) := by
      exact (add_sum_erase univ (fun j => z j * (K j - 1) / (1 + b * (K j - 1))) (mem_univ i)).symm
    have hsum : ∑ j ∈ univ.erase i, z j = 1 - z i := by
      have := add_sum_erase univ z (mem_univ i)
      rw [hz1] at this; linarith
    have hup : ∑ j ∈ univ.erase i, z j * (K j - 1) / (1 + b * (K j - 1)) ≤ (1 - z i) / b := by
      rw [← hsum, sum_div]
      exact sum_le_sum fun j hj => hoth j (ne_of_mem_erase hj)
    have e1 : (1 - z i) / b = 1 - K i := by
      rw [div_eq_iff h1.ne']
      linear_combination hden
    have e2 : z i * (K i - 1) / (1 + b * (K i - 1)) = K i - 1 := by
      rw [hden, mul_div_cancel_left₀ _ hzi]
    rw [hsplit, e2]
    rw [e1] at hup
    linarith

theorem rr_zero (hz1 : ∑ i, z i = 1) : rr 0 K z = (∑ i, z i * K i) - 1 := by
  rw [← hz1, ← sum_sub_distrib]
  exact sum_congr rfl fun i _ => by ring

theorem rr_one (hK : ∀ i, 0 < K i) (hz1 : ∑ i, z i = 1) : rr 1 K z = 1 - ∑ i, z i / K i := by
  have h : (1 : α) - ∑ i, z i / K i = ∑ i, (z i - z i / K i) := by rw [sum_sub_distrib, hz1]
  rw [h]
  refine sum_congr rfl fun i _ => ?_
  have := (hK i).ne'
  rw [one_mul, add_sub_cancel]
  field_simp

theorem rrLoop_spec (atol : α) : ∀ (n iter : ℕ) (lo hi b : α) (F? : Option α) (r : RRResult α), 0 ≤ lo → lo ≤ 1 → 0 ≤ hi → hi ≤ 1 → 0 ≤ b → b ≤ 1 →
    rrLoop K z atol n iter lo hi b F? = .ok r →
    0 ≤ r.beta ∧ r.beta ≤ 1 ∧ (r.success = true → |rr r.beta K z| ≤ atol ∧ r.F = rr r.beta K z ∧ r.niter ≤ iter + n) ∧
      (r.success = false → r.niter = iter + n ∧ (1 ≤ n → atol < |r.F|)) := by
  intro n
  induction n with
  | zero =>
    intro iter lo hi b F? r _ _ _ _ hb hb1 h
    cases F? with
    | none => simp [rrLoop] at h
    | some F =>
      simp only [rrLoop, Except.ok.injEq] at h
      subst h
      exact ⟨hb, hb1, by simp, by simp⟩
  | succ n ih =>
    intro iter lo hi b F? r h1 h2 h3 h4 hb hb1 h
    simp only [rrLoop] at h
    by_cases hc : |rr b K z| ≤ atol
    · rw [if_pos hc] at h
      simp only [Except.ok.injEq] at h
      subst h
      exact ⟨hb, hb1, fun _ => ⟨hc, rfl, by simp⟩, by simp⟩
    · rw [if_neg hc] at h
      have a1 : 0 ≤ (if rr b K z > 0 then b else lo) ∧ (if rr b K z > 0 then b else lo) ≤ 1 := by split_ifs <;> exact ⟨by assumption, by assumption⟩
      have a2 : 0 ≤ (if rr b K z > 0 then hi else b) ∧ (if rr b K z > 0 then hi else b) ≤ 1 := by split_ifs <;> exact ⟨by assumption, by assumption⟩
      generalize (if rr b K z > 0 then b else lo) = lo' at *
      generalize (if rr b K z > 0 then hi else b) = hi' at *
      have a3 : 0 ≤ (if b - rr b K z / drr b K z > lo' ∧ b - rr b K z / drr b K z < hi' then b - rr b K z / drr b K z else (lo' + hi') / 2) ∧
          (if b - rr b K z / drr b K z > lo' ∧ b - rr b K z / drr b K z < hi' then b - rr b K z / drr b K z else (lo' + hi') / 2) ≤ 1 := by
        split_ifs with hx
        · exact ⟨a1.1.trans hx.1.le, hx.2.le.trans a2.2⟩
        · constructor <;> linarith [a1.1, a1.2, a2.1, a2.2]
      obtain ⟨b1, b2, b3, b4⟩ := ih _ _ _ _ _ _ a1.1 a1.2 a2.1 a2.2 a3.1 a3.2 h
      refine ⟨b1, b2, fun hs => ?_, fun hs => ?_⟩
      · obtain ⟨c1, c2, c3⟩ := b3 hs
        exact ⟨c1, c2, by omega⟩
      · obtain ⟨c1, c2⟩ := b4 hs
        refine ⟨by omega, fun _ => ?_⟩
        rcases Nat.eq_zero_or_pos n with rfl | hn
        · simp only [rrLoop, Except.ok.injEq] at h
          rw [← h]
          exact not_le.1 hc
        · exact c2 hn

theorem rrLoop_ok (K z : Fin N → α) (atol : α) : ∀ (n iter : ℕ) (lo hi b : α) (F? : Option α), (F?.isSome ∨ 1 ≤ n) → ∃ r, rrLoop K z atol n iter lo hi b F? = .ok r := by
  intro n
  induction n with
  | zero =>
    intro iter lo hi b F? h
    cases F? with
    | none => simp at h
    | some F => exact ⟨_, rfl⟩
  | succ n ih =>
    intro iter lo hi b F? h
    simp only [rrLoop]
    split_ifs
    all_goals first | exact ⟨_, rfl⟩ | exact ih _ _ _ _ _ (Or.inl rfl)

end Verif.Flash
