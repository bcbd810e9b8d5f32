import Verif.Lemmas.RootsScalar

set_option linter.unusedSectionVars false

namespace Verif

variable {α : Type*} [Field α] [LinearOrder α] [IsStrictOrderedRing α]

theorem brentTol_ge (tolx xb : α) : 1 / 2 * tolx ≤ brentTol tolx xb := by
  unfold brentTol
  have h1 : (0 : α) < eps := eps_pos
  have h2 : 0 ≤ |xb| := abs_nonneg xb
  have : 0 ≤ 2 * eps * |xb| := by positivity
  linarith

/-- Interpolation steps are accepted only if they go towards `c`, not further than 3/4 of the way, and at most half
of the step before last. -/
theorem brentDE_cases (s : BrentState α) (tol1 m : α) (_ht : 0 ≤ tol1) :
    (brentDE s tol1 m = (m, m)) ∨
    (tol1 ≤ |s.e| ∧ (brentDE s tol1 m).2 = s.d ∧ 2 * |(brentDE s tol1 m).1| < |s.e| ∧
      0 ≤ (brentDE s tol1 m).1 * m ∧ 2 * |(brentDE s tol1 m).1| ≤ 3 * |m|) := by
  unfold brentDE
  split_ifs with h1
  · dsimp only
    split_ifs with h2
    · right
      have hp : 0 ≤ (brentPQ s m).1 := by unfold brentPQ; exact abs_nonneg _
      set p := (brentPQ s m).1
      set q := (brentPQ s m).2
      rw [lt_min_iff] at h2
      obtain ⟨ha, hb⟩ := h2
      have h3 : 0 ≤ |tol1 * q| := abs_nonneg _
      have hmq : 0 < m * q := by nlinarith
      have hq : q ≠ 0 := by rintro h; rw [h] at hmq; simp at hmq
      have hqpos : 0 < |q| := abs_pos.mpr hq
      have habs : |p / q| = p / |q| := by rw [abs_div, abs_of_nonneg hp]
      refine ⟨h1.1, rfl, ?_, ?_, ?_⟩
      · rw [habs, ← mul_div_assoc, div_lt_iff₀ hqpos, ← abs_mul]; exact hb
      · have : p / q * m = p * (m * q) / (q * q) := by field_simp
        rw [this]
        have : 0 < q * q := mul_self_pos.mpr hq
        positivity
      · rw [habs, ← mul_div_assoc, div_le_iff₀ hqpos, mul_assoc, ← abs_mul, abs_of_pos hmq]
        nlinarith
    · left; rfl
  · left; rfl

/-- Sign/size facts about the step actually taken. -/
theorem brentNext_spec (s : BrentState α) (tol1 m d : α) (ht : 0 ≤ tol1) (hm : tol1 < |m|)
    (hd : 0 ≤ d * m) (hd2 : 2 * |d| ≤ 3 * |m|) :
    ∃ t, brentNext s tol1 m d = s.xb + t ∧ 0 ≤ t * m ∧ 2 * |t| ≤ 3 * |m| ∧
      ((t = d ∧ tol1 < |d|) ∨ (|t| = tol1 ∧ |d| ≤ tol1)) := by
  unfold brentNext
  split_ifs with h
  · exact ⟨d, rfl, hd, hd2, Or.inl ⟨rfl, h⟩⟩
  · refine ⟨_, rfl, ?_, ?_, Or.inr ⟨?_, not_lt.mp h⟩⟩
    · unfold copysign
      rw [abs_of_nonneg ht]
      split_ifs with h2
      · nlinarith
      · have := not_lt.mp h2
        positivity
    · have : |copysign tol1 m| = tol1 := by
        unfold copysign
        split_ifs <;> simp [abs_of_nonneg ht]
      rw [this]
      linarith [abs_nonneg m]
    · unfold copysign
      split_ifs <;> simp [abs_of_nonneg ht]

/-- A step in the direction of `m = (c-b)/2` and not longer than `2|m|` stays between `b` and `c`. -/
theorem between_of_step {b c t lo hi : α} (hb : lo ≤ b ∧ b ≤ hi) (hc : lo ≤ c ∧ c ≤ hi)
    (hs : 0 ≤ t * (1 / 2 * (c - b))) (hl : 2 * |t| ≤ 3 * |1 / 2 * (c - b)|) :
    lo ≤ b + t ∧ b + t ≤ hi ∧ |c - (b + t)| ≤ |c - b| ∧ |c - (b + t)| = |c - b| - |t| := by
  rcases lt_trichotomy (c - b) 0 with h | h | h
  · have ht : t ≤ 0 := by
      by_contra hh
      have := mul_neg_of_pos_of_neg (not_le.mp hh) (show 1 / 2 * (c - b) < 0 by linarith)
      linarith
    rw [abs_of_nonpos ht, abs_of_neg (show 1 / 2 * (c - b) < 0 by linarith)] at hl
    rw [abs_of_neg h, abs_of_nonpos ht, abs_of_nonpos (by linarith)]
    refine ⟨by linarith, by linarith, by linarith, by ring⟩
  · have ht : t = 0 := by
      rw [h] at hl; simp at hl
      exact abs_nonpos_iff.mp (by linarith)
    subst ht
    simp [hb]
  · have ht : 0 ≤ t := by
      by_contra hh
      have := mul_neg_of_neg_of_pos (not_le.mp hh) (show 0 < 1 / 2 * (c - b) by linarith)
      linarith
    rw [abs_of_nonneg ht, abs_of_pos (show 0 < 1 / 2 * (c - b) by linarith)] at hl
    rw [abs_of_pos h, abs_of_nonneg ht, abs_of_nonneg (by linarith)]
    refine ⟨by linarith, by linarith, by linarith, by ring⟩

/-- Invariant of `root_brent` at the top of an iteration. -/
structure BrentInv (f : α → α) (lo hi : α) (s : BrentState α) : Prop where
  fa : s.fa = f s.xa
  fb : s.fb = f s.xb
  fc : s.fc = f s.xc
  a : lo ≤ s.xa ∧ s.xa ≤ hi
  b : lo ≤ s.xb ∧ s.xb ≤ hi
  c : lo ≤ s.xc ∧ s.xc ≤ hi
  sgn : 0 < s.fb * s.fc → s.fa * s.fb ≤ 0

theorem brentReorder_inv {f : α → α} {lo hi : α} {s : BrentState α} (h : BrentInv f lo hi s) :
    BrentInv f lo hi (brentReorder s) ∧ (brentReorder s).fb * (brentReorder s).fc ≤ 0 ∧
      |(brentReorder s).fb| ≤ |(brentReorder s).fc| := by
  obtain ⟨ha, hb, hc, h1, h2, h3, h4⟩ := h
  unfold brentReorder
  by_cases hp : 0 < s.fb * s.fc
  · have := h4 hp
    simp only [gt_iff_lt, hp, if_true]
    split_ifs with hlt
    · exact ⟨⟨hb, ha, hb, h2, h1, h2, fun _ => by simpa [mul_comm] using h4 hp⟩, by simpa using this, le_of_lt hlt⟩
    · exact ⟨⟨ha, hb, ha, h1, h2, h1, fun _ => this⟩, by simpa [mul_comm] using this, not_lt.mp hlt⟩
  · have hp' := not_lt.mp hp
    simp only [gt_iff_lt, hp, if_false]
    split_ifs with hlt
    · exact ⟨⟨hb, hc, hb, h2, h3, h2, fun _ => by simpa using hp'⟩, by simpa [mul_comm] using hp', le_of_lt hlt⟩
    · exact ⟨⟨ha, hb, hc, h1, h2, h3, h4⟩, hp', not_lt.mp hlt⟩

/-- The state handed to the next iteration. -/
def brentStep (f : α → α) (tolx : α) (s : BrentState α) : BrentState α :=
  let tol1 := brentTol tolx s.xb
  let m := 1 / 2 * (s.xc - s.xb)
  let de := brentDE s tol1 m
  let x' := brentNext s tol1 m de.1
  { xa := s.xb, fa := s.fb, xb := x', fb := f x', xc := s.xc, fc := s.fc, d := de.1, e := de.2 }

/-- Facts about one step from a reordered state that does not exit. -/
theorem brentStep_spec {f : α → α} {lo hi tolx : α} {s : BrentState α} (hx : 0 ≤ tolx)
    (h : BrentInv f lo hi s) (hs : s.fb * s.fc ≤ 0)
    (hm : brentTol tolx s.xb < |1 / 2 * (s.xc - s.xb)|) (hfb : s.fb ≠ 0) (hfc : s.fc ≠ 0) :
    BrentInv f lo hi (brentStep f tolx s) ∧
    ∃ t, (brentStep f tolx s).xb = s.xb + t ∧
      |s.xc - (s.xb + t)| = |s.xc - s.xb| - |t| ∧
      ((t = (brentStep f tolx s).d ∧ brentTol tolx s.xb < |t|) ∨
        (|t| = brentTol tolx s.xb ∧ |(brentStep f tolx s).d| ≤ brentTol tolx s.xb)) ∧
      (((brentStep f tolx s).d = 1 / 2 * (s.xc - s.xb) ∧ (brentStep f tolx s).e = 1 / 2 * (s.xc - s.xb)) ∨
       (brentTol tolx s.xb ≤ |s.e| ∧ (brentStep f tolx s).e = s.d ∧ 2 * |(brentStep f tolx s).d| < |s.e|)) := by
  have ht : 0 ≤ brentTol tolx s.xb := le_trans (by positivity) (brentTol_ge tolx s.xb)
  obtain ⟨ha, hb, hc, h1, h2, h3, h4⟩ := h
  have hneg : s.fb * s.fc < 0 := lt_of_le_of_ne hs (mul_ne_zero hfb hfc)
  have key : 0 ≤ (brentDE s (brentTol tolx s.xb) (1 / 2 * (s.xc - s.xb))).1 * (1 / 2 * (s.xc - s.xb)) ∧
      2 * |(brentDE s (brentTol tolx s.xb) (1 / 2 * (s.xc - s.xb))).1| ≤ 3 * |1 / 2 * (s.xc - s.xb)| := by
    rcases brentDE_cases s (brentTol tolx s.xb) (1 / 2 * (s.xc - s.xb)) ht with h | ⟨_, _, _, h5, h6⟩
    · rw [h]
      exact ⟨mul_self_nonneg _, by linarith [abs_nonneg (1 / 2 * (s.xc - s.xb))]⟩
    · exact ⟨h5, h6⟩
  obtain ⟨t, e1, e2, e3, e4⟩ := brentNext_spec s _ _ _ ht hm key.1 key.2
  obtain ⟨b1, b2, _, b4⟩ := between_of_step h2 h3 e2 e3
  refine ⟨⟨hb, rfl, hc, h2, ?_, h3, ?_⟩, t, e1, b4, ?_, ?_⟩
  · show lo ≤ brentNext s _ _ _ ∧ brentNext s _ _ _ ≤ hi
    rw [e1]; exact ⟨b1, b2⟩
  · show 0 < f (brentNext s _ _ _) * s.fc → s.fb * f (brentNext s _ _ _) ≤ 0
    intro hpos
    generalize f (brentNext s _ _ _) = y at hpos ⊢
    by_contra hcon
    have hcon := not_le.mp hcon
    have h5 : y * s.fc * (s.fb * y) = s.fb * s.fc * (y * y) := by ring
    have h6 := mul_pos hpos hcon
    rw [h5] at h6
    exact absurd h6 (not_lt.mpr (mul_nonpos_of_nonpos_of_nonneg hs (mul_self_nonneg y)))
  · rcases e4 with ⟨p, q⟩ | ⟨p, q⟩
    · exact Or.inl ⟨p, by rw [p]; exact q⟩
    · exact Or.inr ⟨p, q⟩
  · rcases brentDE_cases s (brentTol tolx s.xb) (1 / 2 * (s.xc - s.xb)) ht with h | ⟨h5, h6, h7, _, _⟩
    · left
      exact ⟨congrArg Prod.fst h, congrArg Prod.snd h⟩
    · right
      exact ⟨h5, h6, h7⟩

theorem brentLoop_succ (f : α → α) (tolx tolf : α) (n k : ℕ) (s : BrentState α) (nf : ℕ) (calls : List α) :
    brentLoop f tolx tolf (n + 1) k s nf calls =
      if |1 / 2 * ((brentReorder s).xc - (brentReorder s).xb)| ≤ brentTol tolx (brentReorder s).xb then
        .ok (⟨true, .tolx, nf, k + 1, (brentReorder s).xb, (brentReorder s).fb⟩, calls)
      else if |(brentReorder s).fb| ≤ tolf then
        .ok (⟨true, .tolf, nf, k + 1, (brentReorder s).xb, (brentReorder s).fb⟩, calls)
      else brentLoop f tolx tolf n (k + 1) (brentStep f tolx (brentReorder s)) (nf + 1)
        (calls ++ [(brentStep f tolx (brentReorder s)).xb]) := rfl

theorem brentLoop_spec (f : α → α) (lo hi tolx tolf : α) (maxiter : ℕ) (hx : 0 ≤ tolx) (hf : 0 ≤ tolf) :
    ∀ (n k : ℕ) (s : BrentState α) (calls : List α) (r : RootResult α) (tr : List α),
      n + k = maxiter → BrentInv f lo hi s → calls.length = k + 2 → (∀ x ∈ calls, lo ≤ x ∧ x ≤ hi) →
      s.xb ∈ calls → s.xa ∈ calls → s.xc ∈ calls →
      brentLoop f tolx tolf n k s (k + 2) calls = .ok (r, tr) →
      r.nfeval = tr.length ∧ r.nfeval ≤ maxiter + 2 ∧ r.niter ≤ maxiter ∧
      (∀ x ∈ tr, lo ≤ x ∧ x ≤ hi) ∧ r.x ∈ tr ∧ r.f = f r.x ∧ calls <+: tr ∧
      (r.success = true →
        (r.message = .tolf ∧ |r.f| ≤ tolf) ∨
        (r.message = .tolx ∧ ∃ y ∈ tr, f r.x * f y ≤ 0 ∧ |y - r.x| ≤ 4 * eps * |r.x| + tolx)) ∧
      (r.success = false → r.message = .maxiter ∧ r.niter = maxiter) := by
  intro n
  induction n with
  | zero =>
    intro k s calls r tr hk hI hlen hcalls mb ma mc h
    unfold brentLoop at h
    split_ifs at h
    simp only [Except.ok.injEq, Prod.mk.injEq] at h
    obtain ⟨rfl, rfl⟩ := h
    exact ⟨by simp [hlen], by simp; omega, by simp; omega, hcalls, mb, hI.fb, List.prefix_refl _,
      by simp, fun _ => ⟨rfl, by simp; omega⟩⟩
  | succ n ih =>
    intro k s calls r tr hk hI hlen hcalls mb ma mc h
    rw [brentLoop_succ] at h
    obtain ⟨hI', hsg, hle⟩ := brentReorder_inv hI
    have mb' : (brentReorder s).xb ∈ calls := by
      unfold brentReorder; dsimp only; split_ifs <;> assumption
    have ma' : (brentReorder s).xa ∈ calls := by
      unfold brentReorder; dsimp only; split_ifs <;> assumption
    have mc' : (brentReorder s).xc ∈ calls := by
      unfold brentReorder; dsimp only; split_ifs <;> assumption
    generalize brentReorder s = u at *
    split_ifs at h with h1 h2
    · simp only [Except.ok.injEq, Prod.mk.injEq] at h
      obtain ⟨rfl, rfl⟩ := h
      refine ⟨by simp [hlen], by simp; omega, by simp; omega, hcalls, mb', hI'.fb, List.prefix_refl _,
        fun _ => Or.inr ⟨rfl, u.xc, mc', ?_, ?_⟩, by simp⟩
      · show f u.xb * f u.xc ≤ 0
        rw [← hI'.fb, ← hI'.fc]; exact hsg
      · show |u.xc - u.xb| ≤ 4 * eps * |u.xb| + tolx
        rw [abs_mul, abs_of_pos (by norm_num : (0 : α) < 1 / 2)] at h1
        unfold brentTol at h1
        linarith
    · simp only [Except.ok.injEq, Prod.mk.injEq] at h
      obtain ⟨rfl, rfl⟩ := h
      exact ⟨by simp [hlen], by simp; omega, by simp; omega, hcalls, mb', hI'.fb, List.prefix_refl _,
        fun _ => Or.inl ⟨rfl, h2⟩, by simp⟩
    · have hfb : u.fb ≠ 0 := by
        intro h0; rw [h0] at h2; simp at h2; linarith
      have hfc : u.fc ≠ 0 := by
        intro h0; rw [h0] at hle; simp at hle; exact hfb hle
      obtain ⟨hS, -⟩ := brentStep_spec hx hI' hsg (not_le.mp h1) hfb hfc
      have := ih (k + 1) _ _ r tr (by omega) hS (by simp [hlen]) (by
        intro x hx
        rcases List.mem_append.mp hx with hx | hx
        · exact hcalls x hx
        · rw [List.mem_singleton] at hx; subst hx; exact hS.b) (by simp)
        (List.mem_append_left _ mb') (List.mem_append_left _ mc') h
      obtain ⟨g1, g2, g3, g4, g5, g6, g7, g8⟩ := this
      exact ⟨g1, g2, g3, g4, g5, g6, (List.prefix_append _ _).trans g7, g8⟩

theorem brentLoop_ok (f : α → α) (tolx tolf : α) :
    ∀ (n k : ℕ) (s : BrentState α) (nf : ℕ) (calls : List α),
      0 < k ∨ 0 < n → ∃ r, brentLoop f tolx tolf n k s nf calls = .ok r := by
  intro n
  induction n with
  | zero =>
    intro k s nf calls h
    unfold brentLoop
    rw [if_neg (by omega)]
    exact ⟨_, rfl⟩
  | succ n ih =>
    intro k s nf calls _
    rw [brentLoop_succ]
    split_ifs
    all_goals first | exact ⟨_, rfl⟩ | exact ih _ _ _ _ (Or.inl (Nat.succ_pos _))

/-- Size bookkeeping for the convergence proof (reordered states). -/
structure BrentMeas (δ : α) (b u v : ℕ) (s : BrentState α) : Prop where
  len : |s.xc - s.xb| ≤ 2 * δ * 2 ^ b
  e : |s.e| < δ * 2 ^ u
  d : |s.d| < δ * 2 ^ v
  shape : v = u ∨ v + 1 = u

theorem brentReorder_len (s : BrentState α) :
    (0 < s.fb * s.fc ∧ |(brentReorder s).xc - (brentReorder s).xb| = |s.xb - s.xa| ∧
      (brentReorder s).d = s.xb - s.xa ∧ (brentReorder s).e = s.xb - s.xa ∧
      ((brentReorder s).xb = s.xb ∨ (brentReorder s).xb = s.xa)) ∨
    (s.fb * s.fc ≤ 0 ∧ |(brentReorder s).xc - (brentReorder s).xb| = |s.xc - s.xb| ∧
      (brentReorder s).d = s.d ∧ (brentReorder s).e = s.e) := by
  unfold brentReorder
  by_cases hp : 0 < s.fb * s.fc
  · left
    simp only [gt_iff_lt, hp, if_true]
    split_ifs with hlt
    · simp
    · simp [abs_sub_comm]
  · right
    simp only [gt_iff_lt, hp, if_false]
    split_ifs with hlt
    · simp [abs_sub_comm, not_lt.mp hp]
    · simp [not_lt.mp hp]

/-- Any run that has enough iterations left converges. -/
theorem brentLoop_converges (f : α → α) (lo hi tolx tolf : α) (hx : 0 < tolx) (hf : 0 ≤ tolf) :
    ∀ (n b w u v k : ℕ) (s : BrentState α) (nf : ℕ) (calls : List α),
      BrentInv f lo hi s → BrentMeas (1 / 2 * tolx) b u v (brentReorder s) → u + v ≤ w → w ≤ 2 * b + 4 →
      (b = 0 → 1 ≤ n) → (b ≠ 0 → w + (b ^ 2 + 4 * b - 3) ≤ n) →
      ∃ r tr, brentLoop f tolx tolf n k s nf calls = .ok (r, tr) ∧ r.success = true := by
  intro n
  induction n with
  | zero =>
    intro b w u v k s nf calls _ _ _ _ hn0 hn
    rcases Nat.eq_zero_or_pos b with h | h
    · exact absurd (hn0 h) (by norm_num)
    · have := hn (by omega)
      have : b ^ 2 + 4 * b - 3 = 0 := by omega
      have : 1 ≤ b ^ 2 := Nat.one_le_pow _ _ h
      omega
  | succ n ih =>
    intro b w u v k s nf calls hI hM huv hw hn0 hn
    rw [brentLoop_succ]
    obtain ⟨hI', hsg, hle⟩ := brentReorder_inv hI
    generalize brentReorder s = g at *
    split_ifs with h1 h2
    · exact ⟨_, _, rfl, rfl⟩
    · exact ⟨_, _, rfl, rfl⟩
    · have hfb : g.fb ≠ 0 := by
        intro h0; rw [h0] at h2; simp at h2; linarith
      have hfc : g.fc ≠ 0 := by
        intro h0; rw [h0] at hle; simp at hle; exact hfb hle
      have hm := not_le.mp h1
      obtain ⟨hS, t, ht1, ht2, ht3, ht4⟩ := brentStep_spec hx.le hI' hsg hm hfb hfc
      have htol := brentTol_ge tolx g.xb
      have hδ : 0 < 1 / 2 * tolx := by positivity
      have hm2 : |1 / 2 * (g.xc - g.xb)| = 1 / 2 * |g.xc - g.xb| := by
        rw [abs_mul, abs_of_pos (by norm_num : (0 : α) < 1 / 2)]
      have hb : b ≠ 0 := by
        rintro rfl
        have := hM.len
        rw [hm2] at hm
        simp at this
        linarith
      obtain ⟨b, rfl⟩ := Nat.exists_eq_succ_of_ne_zero hb
      have hn' := hn hb
      have hr := brentReorder_len (brentStep f tolx g)
      have hxa : (brentStep f tolx g).xa = g.xb := rfl
      have hxc : (brentStep f tolx g).xc = g.xc := rfl
      rw [hxa, hxc, ht1, ht2] at hr
      have hst : g.xb + t - g.xb = t := by ring
      rw [hst] at hr
      have hL := hM.len
      rcases ht4 with ⟨hd, he⟩ | ⟨he1, he2, hd2⟩
      · -- bisection
        have htm : t = 1 / 2 * (g.xc - g.xb) := by
          rcases ht3 with ⟨p, _⟩ | ⟨_, q⟩
          · rw [p, hd]
          · rw [hd] at q; exact absurd hm (not_lt.mpr q)
        have hhalf : |t| ≤ 1 / 2 * tolx * 2 ^ (b + 1) := by
          rw [htm, hm2]; rw [Nat.succ_eq_add_one] at hL; linarith
        have hlt : |t| < 1 / 2 * tolx * 2 ^ (b + 2) := by
          have : 1 / 2 * tolx * 2 ^ (b + 1) < 1 / 2 * tolx * 2 ^ (b + 2) := by
            rw [pow_succ _ (b + 1)]
            have : (0 : α) < 1 / 2 * tolx * 2 ^ (b + 1) := by positivity
            rw [← mul_assoc]; exact lt_mul_of_one_lt_right this one_lt_two
          linarith
        have hM' : BrentMeas (1 / 2 * tolx) b (b + 2) (b + 2) (brentReorder (brentStep f tolx g)) := by
          rcases hr with ⟨_, r1, r2, r3, _⟩ | ⟨_, r1, r2, r3⟩
          · refine ⟨?_, ?_, ?_, Or.inl rfl⟩
            · rw [r1]; rw [pow_succ] at hhalf; linarith
            · rw [r3]; exact hlt
            · rw [r2]; exact hlt
          · refine ⟨?_, ?_, ?_, Or.inl rfl⟩
            · rw [r1, htm, hm2]; rw [pow_succ] at hL; linarith
            · rw [r3, he, ← htm]; exact hlt
            · rw [r2, hd, ← htm]; exact hlt
        refine ih b (2 * b + 4) (b + 2) (b + 2) _ _ _ _ hS hM' (by omega) le_rfl ?_ ?_
        · rintro rfl
          simp at hn' ; omega
        · intro hb0
          have e1 : (b + 1) ^ 2 = b ^ 2 + 2 * b + 1 := by ring
          have e2 : b.succ = b + 1 := rfl
          rw [e2, e1] at hn'
          have : 1 ≤ b ^ 2 := Nat.one_le_pow _ _ (by omega)
          omega
      · -- interpolation
        have hu : u ≠ 0 := by
          rintro rfl
          have := hM.e
          simp at this
          linarith
        obtain ⟨u, rfl⟩ := Nat.exists_eq_succ_of_ne_zero hu
        have he := hM.e
        have hd := hM.d
        have hdlt : |(brentStep f tolx g).d| < 1 / 2 * tolx * 2 ^ u := by
          rw [Nat.succ_eq_add_one, pow_succ] at he; linarith
        have hlen_t : |t| ≤ |g.xc - g.xb| := by
          have : 0 ≤ |g.xc - (g.xb + t)| := abs_nonneg _
          linarith
        rcases hr with ⟨_, r1, r2, r3, r4⟩ | ⟨_, r1, r2, r3⟩
        · rcases ht3 with ⟨p, q⟩ | ⟨p, q⟩
          · -- reset with a regular step
            have hM' : BrentMeas (1 / 2 * tolx) b.succ u u (brentReorder (brentStep f tolx g)) := by
              refine ⟨?_, ?_, ?_, Or.inl rfl⟩
              · rw [r1]; linarith
              · rw [r3, p]; exact hdlt
              · rw [r2, p]; exact hdlt
            refine ih b.succ (w - 1) u u _ _ _ _ hS hM' ?_ (by omega) (by simp) ?_
            · rcases hM.shape with h | h <;> omega
            · intro _; rcases hM.shape with h | h <;> omega
          · -- the bracket is now as short as the minimal step: exit at the next test
            have hN : 0 < n := by
              rcases hM.shape with h | h <;> omega
            obtain ⟨n, rfl⟩ := Nat.exists_eq_succ_of_ne_zero hN.ne'
            rw [brentLoop_succ, if_pos]
            · exact ⟨_, _, rfl, rfl⟩
            · rw [abs_mul, r1, p, abs_of_pos (by norm_num : (0 : α) < 1 / 2)]
              rcases r4 with r4 | r4
              · rw [r4]
                have habs : |g.xb| - |t| ≤ |g.xb + t| := by
                  have := abs_sub_abs_le_abs_sub g.xb (-t)
                  rw [abs_neg, sub_neg_eq_add] at this
                  exact this
                have heps : (0 : α) < eps := eps_pos
                have heps' : (eps : α) ≤ 1 / 4 := by
                  unfold eps
                  rw [div_le_div_iff₀ (by positivity) (by norm_num)]
                  norm_num
                rw [p] at habs
                have hT : 0 < brentTol tolx g.xb := by linarith
                have h3 : brentTol tolx g.xb = 2 * eps * |g.xb| + 1 / 2 * tolx := rfl
                have h4 : brentTol tolx (g.xb + t) = 2 * eps * |g.xb + t| + 1 / 2 * tolx := rfl
                rw [h4]
                have h5 : 2 * eps * (|g.xb| - brentTol tolx g.xb) ≤ 2 * eps * |g.xb + t| := by
                  apply mul_le_mul_of_nonneg_left habs; positivity
                have h6 : 2 * eps * brentTol tolx g.xb ≤ 2 * (1 / 4) * brentTol tolx g.xb := by
                  apply mul_le_mul_of_nonneg_right _ hT.le; linarith
                rw [mul_sub] at h5
                linarith
              · rw [r4]
                have hT : 0 < brentTol tolx g.xb := by linarith
                linarith
        · have hM' : BrentMeas (1 / 2 * tolx) b.succ v u (brentReorder (brentStep f tolx g)) := by
            refine ⟨?_, ?_, ?_, ?_⟩
            · rw [r1]; linarith [abs_nonneg t]
            · rw [r3, he2]; exact hd
            · rw [r2]; exact hdlt
            · rcases hM.shape with h | h
              · right; omega
              · left; omega
          refine ih b.succ (w - 1) v u _ _ _ _ hS hM' (by omega) (by omega) (by simp) ?_
          intro _; rcases hM.shape with h | h <;> omega

end Verif
