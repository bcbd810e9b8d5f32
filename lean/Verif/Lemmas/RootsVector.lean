import Verif.Spec.RootsVector
import Verif.Lemmas.Tactics

/-! # Helper lemmas for `vector.py` -/

namespace Verif.RootsVector

variable {n : ℕ}

theorem le_foldl_max (g : Fin n → ℝ) (l : List (Fin n)) (m : ℝ) :
    m ≤ l.foldl (fun m i => max m (g i)) m ∧ ∀ i ∈ l, g i ≤ l.foldl (fun m i => max m (g i)) m := by
  induction l generalizing m with
  | nil => simp
  | cons a l ih =>
    rw [List.foldl_cons]
    obtain ⟨h1, h2⟩ := ih (max m (g a))
    refine ⟨(le_max_left _ _).trans h1, ?_⟩
    intro i hi
    rcases List.mem_cons.mp hi with rfl | hi
    · exact (le_max_right _ _).trans h1
    · exact h2 i hi

theorem le_relMax (v x sclx : Vec n) (i : Fin n) : |v i| / max |x i| (1 / sclx i) ≤ relMax v x sclx :=
  (le_foldl_max (fun i => |v i| / max |x i| (1 / sclx i)) (List.finRange n) 0).2 i (List.mem_finRange i)

theorem relMax_nonneg (v x sclx : Vec n) : 0 ≤ relMax v x sclx :=
  (le_foldl_max (fun i => |v i| / max |x i| (1 / sclx i)) (List.finRange n) 0).1

theorem relMax_le (v x sclx : Vec n) (B : ℝ) (hB : 0 ≤ B) (h : ∀ i, |v i| / max |x i| (1 / sclx i) ≤ B) :
    relMax v x sclx ≤ B := by
  unfold relMax
  have : ∀ (l : List (Fin n)) (m : ℝ), m ≤ B →
      l.foldl (fun m i => max m (|v i| / max |x i| (1 / sclx i))) m ≤ B := by
    intro l
    induction l with
    | nil => intro m hm; simpa using hm
    | cons a l ih => intro m hm; rw [List.foldl_cons]; exact ih _ (max_le hm (h a))
  exact this _ _ hB

theorem scale_pos (x sclx : Vec n) (h : ∀ i, 0 < sclx i) (i : Fin n) : 0 < max |x i| (1 / sclx i) :=
  lt_of_lt_of_le (one_div_pos.mpr (h i)) (le_max_right _ _)

theorem norm2_nonneg (scl v : Vec n) : 0 ≤ norm2 scl v := Real.sqrt_nonneg _

theorem norm2_sq (scl v : Vec n) : norm2 scl v ^ 2 = ∑ i, (scl i * v i) ^ 2 :=
  Real.sq_sqrt (Finset.sum_nonneg fun i _ => sq_nonneg _)

theorem abs_le_norm2 (scl v : Vec n) (i : Fin n) : |scl i * v i| ≤ norm2 scl v := by
  unfold norm2
  rw [← Real.sqrt_sq_eq_abs]
  exact Real.sqrt_le_sqrt (Finset.single_le_sum (f := fun i => (scl i * v i) ^ 2) (fun i _ => sq_nonneg _)
    (Finset.mem_univ i))

theorem norm2_smul (scl v : Vec n) (c : ℝ) (hc : 0 ≤ c) : norm2 scl (fun i => c * v i) = c * norm2 scl v := by
  unfold norm2
  have : ∑ i, (scl i * (c * v i)) ^ 2 = c ^ 2 * ∑ i, (scl i * v i) ^ 2 := by
    rw [Finset.mul_sum]; exact Finset.sum_congr rfl fun i _ => by ring
  rw [this, Real.sqrt_mul (sq_nonneg c), Real.sqrt_sq hc]

theorem merit_nonneg (sclf v : Vec n) : 0 ≤ merit sclf v := by
  unfold merit
  have : 0 ≤ ∑ i, (sclf i * v i) ^ 2 := Finset.sum_nonneg fun i _ => sq_nonneg _
  positivity

/-! ### Line search -/

theorem nextLambda_ge (lam : ℝ) (t : Option ℝ) : 1 / 10 * lam ≤ nextLambda lam t := by
  cases t with
  | none => exact le_rfl
  | some t => exact le_max_left _ _

theorem lambdaTemp_later (slope fNc lam fNp : ℝ) (q : ℝ × ℝ) (t : ℝ) (h : lambdaTemp slope fNc lam fNp (some q) = some t) :
    t ≤ 1 / 2 * lam := by
  obtain ⟨a, b⟩ := q
  unfold lambdaTemp at h
  dsimp only at h
  split_ifs at h with h1 h2 h3
  · simp only [Option.some.injEq] at h; rw [← h]
  · simp only [Option.some.injEq] at h; rw [← h]; exact min_le_right _ _
  · simp only [Option.some.injEq] at h; rw [← h]; exact min_le_right _ _

theorem nextLambda_later (slope fNc lam fNp : ℝ) (hl : 0 < lam) (q : ℝ × ℝ) :
    nextLambda lam (lambdaTemp slope fNc lam fNp (some q)) ≤ 1 / 2 * lam := by
  cases h : lambdaTemp slope fNc lam fNp (some q) with
  | none => simp only [nextLambda]; linarith
  | some t => exact max_le (by linarith) (lambdaTemp_later _ _ _ _ _ _ h)

theorem nextLambda_first (slope fNc fNp : ℝ) (hs : slope ≤ 0) (hA : ¬ fNp ≤ fNc + 1 / 10 ^ 4 * 1 * slope) :
    nextLambda 1 (lambdaTemp slope fNc 1 fNp none) ≤ 51 / 100 := by
  simp only [lambdaTemp, nextLambda]
  push Not at hA
  refine max_le (by norm_num) ?_
  have hd : 0 < 2 * (fNp - fNc - slope) := by linarith
  rw [div_le_iff₀ hd]
  linarith

structure LSSpec (f : Vec n → Vec n) (sclf xc p : Vec n) (fNc slope tolx M : ℝ) (c0 : List (Vec n)) (n0 : ℕ) (o : GMOut n) :
    Prop where
  ok : o.success = true → ∃ lam, 0 < lam ∧ (slope ≤ 0 → lam ≤ 1) ∧ o.xp = (fun i => xc i + lam * p i) ∧ o.fp = f o.xp ∧
    merit sclf o.fp ≤ fNc + 1 / 10 ^ 4 * lam * slope
  bad : o.success = false → o.xp = xc ∧ ∃ lam, 0 < lam ∧ belowMin lam tolx M ∧ o.fp = f (fun i => xc i + lam * p i) ∧
    fNc + 1 / 10 ^ 4 * lam * slope < merit sclf o.fp
  count : ∃ new, o.calls = c0 ++ new ∧ o.nfeval = n0 + new.length ∧ 1 ≤ new.length

theorem lsLoop_spec (f : Vec n → Vec n) (sclf xc p : Vec n) (fNc slope tolx M newtlen maxlen : ℝ) (fuel : ℕ) :
    ∀ (lam : ℝ) (prev : Option (ℝ × ℝ)) (nfeval : ℕ) (calls : List (Vec n)) (o : GMOut n),
      0 < lam → (slope ≤ 0 → lam ≤ 1) → (prev = none → lam = 1) →
      lsLoop f sclf xc p fNc slope tolx M newtlen maxlen fuel lam prev nfeval calls = some o →
      LSSpec f sclf xc p fNc slope tolx M calls nfeval o := by
  induction fuel with
  | zero => intro lam prev nfeval calls o _ _ _ h; simp [lsLoop] at h
  | succ fuel ih =>
    intro lam prev nfeval calls o hl hl1 hp h
    unfold lsLoop at h
    dsimp only at h
    split_ifs at h with h1 h2
    · simp only [Option.some.injEq] at h
      subst h
      exact ⟨fun _ => ⟨lam, hl, hl1, rfl, rfl, h1⟩, fun h => by simp at h, [_], rfl, rfl, by simp⟩
    · simp only [Option.some.injEq] at h
      subst h
      exact ⟨fun h => by simp at h, fun _ => ⟨rfl, lam, hl, h2, rfl, not_le.mp h1⟩, [_], rfl, rfl, by simp⟩
    · have hn0 : 0 < nextLambda lam (lambdaTemp slope fNc lam (merit sclf (f fun i => xc i + lam * p i)) prev) :=
        lt_of_lt_of_le (by linarith) (nextLambda_ge _ _)
      have hn1 : slope ≤ 0 → nextLambda lam (lambdaTemp slope fNc lam (merit sclf (f fun i => xc i + lam * p i)) prev) ≤ 1 := by
        intro hs
        cases prev with
        | none =>
          have := hp rfl
          subst this
          exact (nextLambda_first slope fNc _ hs h1).trans (by norm_num)
        | some q => exact (nextLambda_later _ _ _ _ hl _).trans (by linarith [hl1 hs])
      obtain ⟨a, b, new, c1, c2, c3⟩ := ih _ _ _ _ o hn0 hn1 (by simp) h
      refine ⟨a, b, (fun i => xc i + lam * p i) :: new, ?_, ?_, by simp⟩
      · rw [c1]; simp
      · rw [c2]; simp; omega

theorem lsLoop_terminates_later (f : Vec n → Vec n) (sclf xc p : Vec n) (fNc slope tolx M newtlen maxlen : ℝ) (k : ℕ) :
    ∀ (fuel : ℕ) (lam : ℝ) (q : ℝ × ℝ) (nfeval : ℕ) (calls : List (Vec n)), k + 1 ≤ fuel → 0 < lam →
      (∀ l, l ≤ lam * (1 / 2) ^ k → belowMin l tolx M) →
      ∃ o, lsLoop f sclf xc p fNc slope tolx M newtlen maxlen fuel lam (some q) nfeval calls = some o ∧
        o.nfeval ≤ nfeval + (k + 1) := by
  induction k with
  | zero =>
    intro fuel lam q nfeval calls hf hl hb
    obtain ⟨fuel, rfl⟩ : ∃ m, fuel = m + 1 := ⟨fuel - 1, by omega⟩
    unfold lsLoop
    dsimp only
    split_ifs with h1 h2
    · exact ⟨_, rfl, by simp⟩
    · exact ⟨_, rfl, by simp⟩
    · exact absurd (hb lam (by simp)) h2
  | succ k ih =>
    intro fuel lam q nfeval calls hf hl hb
    obtain ⟨fuel, rfl⟩ : ∃ m, fuel = m + 1 := ⟨fuel - 1, by omega⟩
    unfold lsLoop
    dsimp only
    split_ifs with h1 h2
    · exact ⟨_, rfl, by simp⟩
    · exact ⟨_, rfl, by simp⟩
    · obtain ⟨o, h3, h4⟩ := ih fuel _ _ (nfeval + 1) (calls ++ [fun i => xc i + lam * p i]) (by omega)
        (lt_of_lt_of_le (by linarith) (nextLambda_ge lam
          (lambdaTemp slope fNc lam (merit sclf (f fun i => xc i + lam * p i)) (some q))))
        (fun l hle => hb l (hle.trans (by
          have := nextLambda_later slope fNc lam (merit sclf (f fun i => xc i + lam * p i)) hl q
          have hp : (0 : ℝ) < (1 / 2) ^ k := by positivity
          have := mul_le_mul_of_nonneg_right this hp.le
          refine this.trans (le_of_eq ?_)
          rw [pow_succ]; ring)))
      exact ⟨o, h3, by omega⟩

theorem lsLoop_terminates (f : Vec n → Vec n) (sclf xc p : Vec n) (fNc slope tolx M newtlen maxlen : ℝ) (k fuel : ℕ)
    (hs : slope ≤ 0) (hf : k + 2 ≤ fuel) (hb : ∀ l, l ≤ 51 / 100 * (1 / 2) ^ k → belowMin l tolx M) :
    ∃ o, lsLoop f sclf xc p fNc slope tolx M newtlen maxlen fuel 1 none 0 [] = some o ∧ o.nfeval ≤ k + 2 := by
  obtain ⟨fuel, rfl⟩ : ∃ m, fuel = m + 1 := ⟨fuel - 1, by omega⟩
  unfold lsLoop
  dsimp only
  split_ifs with h1 h2
  · exact ⟨_, rfl, by simp⟩
  · exact ⟨_, rfl, by simp⟩
  · obtain ⟨o, h3, h4⟩ := lsLoop_terminates_later f sclf xc p fNc slope tolx M newtlen maxlen k fuel _
      (1, merit sclf (f fun i => xc i + 1 * p i)) (0 + 1) ([] ++ [fun i => xc i + 1 * p i]) (by omega)
      (lt_of_lt_of_le (by norm_num) (nextLambda_ge 1
          (lambdaTemp slope fNc 1 (merit sclf (f fun i => xc i + 1 * p i)) none)))
      (fun l hle => hb l (hle.trans (mul_le_mul_of_nonneg_right (nextLambda_first _ _ _ hs h1) (by positivity))))
    exact ⟨o, h3, by omega⟩

/-! ### Dogleg -/

/-- What the trust-region update guarantees, given the invariant of the exploratory phase. -/
def ExpInv (f : Vec n → Vec n) (sclf : Vec n) (fNc : ℝ) (xc gc : Vec n) (xprev fprev : Vec n) (fNprev : ℝ)
    (state : TrustState) : Prop :=
  state = .exploratory → fprev = f xprev ∧ fNprev = merit sclf fprev ∧
    fNprev < fNc + 1 / 10 ^ 4 * dot gc (fun i => xprev i - xc i)

theorem updateTrust_spec (f : Vec n → Vec n) (sclf : Vec n) (fNc : ℝ) (xc gc : Vec n) (R : Fin n → Fin n → ℝ)
    (s sclx : Vec n) (tolx maxlen trustlen : ℝ) (isnewt : Bool) (xprev fprev : Vec n) (fNprev : ℝ)
    (state : TrustState) (hinv : ExpInv f sclf fNc xc gc xprev fprev fNprev state) (o : TROut n)
    (ho : updateTrust f sclf fNc xc gc R s sclx tolx maxlen trustlen isnewt xprev fprev fNprev state = o) :
    (o.state = .accepted → o.fp = f o.xp ∧
      merit sclf o.fp < fNc + 1 / 10 ^ 4 * dot gc (fun i => o.xp i - xc i)) ∧
    (o.state = .convergence → o.xp = xc ∧ o.fp = f (fun i => xc i + s i) ∧ relMax s (fun i => xc i + s i) sclx < tolx) ∧
    ExpInv f sclf fNc xc gc o.xprev o.fprev o.fNprev o.state := by
  have hsub : (fun i => (xc i + s i) - xc i) = s := by funext i; ring
  unfold updateTrust at ho
  dsimp only at ho
  split_ifs at ho with h1 h2 h3 h4 <;> subst ho <;> dsimp only
  · obtain ⟨a, b, c⟩ := hinv h1.1
    refine ⟨fun _ => ⟨a, by rw [← b]; exact c⟩, by simp, by intro h; simp at h⟩
  · exact ⟨by simp, fun _ => ⟨rfl, rfl, h3⟩, by intro h; simp at h⟩
  · exact ⟨by simp, by simp, by intro h; simp at h⟩
  · refine ⟨by simp, by simp, fun _ => ⟨rfl, rfl, ?_⟩⟩
    rw [hsub]; push Not at h2; linarith
  all_goals
    refine ⟨fun _ => ⟨rfl, ?_⟩, by simp, by intro h; simp at h⟩
    rw [hsub]; push Not at h2; linarith

structure DLSpec (f : Vec n → Vec n) (sclf : Vec n) (fNc : ℝ) (xc gc sclx : Vec n) (tolx : ℝ) (c0 : List (Vec n)) (n0 : ℕ)
    (o : GMOut n) : Prop where
  ok : o.success = true → o.fp = f o.xp ∧ merit sclf o.fp < fNc + 1 / 10 ^ 4 * dot gc (fun i => o.xp i - xc i)
  bad : o.success = false → o.xp = xc ∧ ∃ s : Vec n, o.fp = f (fun i => xc i + s i) ∧
    relMax s (fun i => xc i + s i) sclx < tolx
  count : ∃ new, o.calls = c0 ++ new ∧ o.nfeval = n0 + new.length ∧ 1 ≤ new.length

theorem dlLoop_spec (f : Vec n → Vec n) (sclf : Vec n) (fNc : ℝ) (xc gc p : Vec n) (R : Fin n → Fin n → ℝ)
    (sclx : Vec n) (tolx newtlen maxlen : ℝ) (fuel : ℕ) :
    ∀ (first : Bool) (trustlen : ℝ) (xprev fprev : Vec n) (fNprev : ℝ) (state : TrustState) (nfeval : ℕ)
      (calls : List (Vec n)) (o : GMOut n), ExpInv f sclf fNc xc gc xprev fprev fNprev state →
      dlLoop f sclf fNc xc gc p R sclx tolx newtlen maxlen fuel first trustlen xprev fprev fNprev state nfeval calls = some o →
      DLSpec f sclf fNc xc gc sclx tolx calls nfeval o := by
  induction fuel with
  | zero => intro first trustlen xprev fprev fNprev state nfeval calls o _ h; simp [dlLoop] at h
  | succ fuel ih =>
    intro first trustlen xprev fprev fNprev state nfeval calls o hinv h
    unfold dlLoop at h
    dsimp only at h
    generalize hd : doglegStep gc p R sclx newtlen maxlen trustlen first = d at h
    obtain ⟨a, b, c⟩ := updateTrust_spec f sclf fNc xc gc R d.2.1 sclx tolx maxlen d.2.2 d.1 xprev fprev fNprev state hinv _ rfl
    generalize updateTrust f sclf fNc xc gc R d.2.1 sclx tolx maxlen d.2.2 d.1 xprev fprev fNprev state = u at h a b c
    split_ifs at h with h1
    · simp only [Option.some.injEq] at h
      subst h
      refine ⟨?_, ?_, [_], rfl, rfl, by simp⟩
      · intro hs
        simp only [decide_eq_true_eq] at hs
        exact a hs
      · intro hs
        simp only [decide_eq_false_iff_not] at hs
        obtain ⟨h2, h3, h4⟩ := b (h1.resolve_left hs)
        exact ⟨h2, d.2.1, h3, h4⟩
    · obtain ⟨e1, e2, new, e3, e4, e5⟩ := ih _ _ _ _ _ _ _ _ o c h
      refine ⟨e1, e2, (fun i => xc i + d.2.1 i) :: new, ?_, ?_, by simp⟩
      · rw [e3]; simp
      · rw [e4]; simp; omega

/-! ### Length of the dogleg step -/

theorem norm2_pos_iff_dot (v : Vec n) : dot v v = 0 ↔ v = 0 := by
  unfold dot
  rw [Finset.sum_eq_zero_iff_of_nonneg (fun i _ => mul_self_nonneg _)]
  constructor
  · intro h; funext i; exact mul_self_eq_zero.mp (h i (Finset.mem_univ i))
  · intro h i _; rw [h]; simp

theorem dot_self_nonneg (v : Vec n) : 0 ≤ dot v v := Finset.sum_nonneg fun i _ => mul_self_nonneg _

/-- The step returned by the curve has exactly the returned scaled length. -/
theorem doglegStep_length (gc p : Vec n) (R : Fin n → Fin n → ℝ) (sclx : Vec n) (maxlen trustlen : ℝ) (first : Bool)
    (hscl : ∀ i, 0 < sclx i) (hp : 0 < norm2 sclx p)
    (hg : 0 < norm2 (fun _ => 1) fun i => gc i / sclx i)
    (hR : 0 < norm2 (fun _ => 1) (matVec R fun i => gc i / sclx i ^ 2))
    (ht : 0 < trustlen ∨ (first = true ∧ 0 < maxlen)) (d : Bool × Vec n × ℝ)
    (hd : doglegStep gc p R sclx (norm2 sclx p) maxlen trustlen first = d) :
    norm2 sclx d.2.1 = d.2.2 ∧ 0 < d.2.2 ∧ (0 < trustlen → d.2.2 ≤ trustlen) ∧
      (0 < trustlen → d.1 = false → d.2.2 = trustlen) := by
  unfold doglegStep at hd
  by_cases h0 : norm2 sclx p ≤ trustlen
  · rw [if_pos h0] at hd
    subst hd
    exact ⟨rfl, hp, fun _ => h0, by simp⟩
  rw [if_neg h0] at hd
  dsimp only [doglegData] at hd
  set A := norm2 (fun _ => 1) (fun i => gc i / sclx i) with hA
  set β := norm2 (fun _ => 1) (matVec R fun i => gc i / sclx i ^ 2) ^ 2 with hβ
  have hβ0 : 0 < β := by positivity
  have hs : √(A ^ 2) = A := Real.sqrt_sq hg.le
  have hA2 : A ^ 2 = ∑ i, (gc i / sclx i) ^ 2 := by
    rw [hA, norm2_sq]; simp
  rw [hs] at hd
  set cl := A ^ 2 * A / β with hcl
  have hcl0 : 0 < cl := by positivity
  set t := (if first = true ∧ trustlen ≤ 0 then min cl maxlen else trustlen) with htd
  have ht0 : 0 < t := by
    rw [htd]
    split_ifs with h
    · rcases ht with h' | h'
      · linarith [h.2]
      · exact lt_min hcl0 h'.2
    · rcases ht with h' | h'
      · exact h'
      · by_contra hc
        exact h ⟨h'.1, not_lt.mp hc⟩
  have htt : 0 < trustlen → t = trustlen := by
    intro h
    rw [htd, if_neg]
    rintro ⟨_, h'⟩; linarith
  set sSD : Vec n := fun i => -(A ^ 2 / β) * (gc i / sclx i) with hsSD
  have hSD2 : ∑ i, sSD i ^ 2 = cl ^ 2 := by
    have : ∑ i, sSD i ^ 2 = (A ^ 2 / β) ^ 2 * ∑ i, (gc i / sclx i) ^ 2 := by
      rw [Finset.mul_sum]; exact Finset.sum_congr rfl fun i _ => by rw [hsSD]; ring
    rw [this, ← hA2, hcl]; ring
  set η := 1 / 5 + 4 / 5 * (A ^ 2) ^ 2 / (β * |dot gc p|) with hη
  have hη0 : 0 ≤ η := by
    have : 0 ≤ 4 / 5 * (A ^ 2) ^ 2 / (β * |dot gc p|) := by positivity
    linarith
  split_ifs at hd with h1 h2 <;> subst hd <;> dsimp only
  · refine ⟨?_, ht0, fun h => (htt h).le, fun h _ => htt h⟩
    rw [norm2_smul _ _ _ (by positivity)]
    field_simp
  · refine ⟨?_, ht0, fun h => (htt h).le, fun h _ => htt h⟩
    rw [norm2_smul _ _ _ (by positivity)]
    have : norm2 sclx (fun i => sSD i / sclx i) = cl := by
      unfold norm2
      have : ∑ i, (sclx i * (sSD i / sclx i)) ^ 2 = cl ^ 2 := by
        rw [← hSD2]
        refine Finset.sum_congr rfl fun i _ => ?_
        rw [mul_div_cancel₀ _ (hscl i).ne']
      rw [this, Real.sqrt_sq hcl0.le]
    rw [this]
    field_simp
  · refine ⟨?_, ht0, fun h => (htt h).le, fun h _ => htt h⟩
    set v : Vec n := fun i => η * (p i * sclx i) - sSD i with hv
    have ha : dot v v ≠ 0 := by
      intro hz
      rw [norm2_pos_iff_dot] at hz
      have hpt : ∀ i, η * (sclx i * p i) = sSD i := by
        intro i
        have := congrFun hz i
        simp only [hv, Pi.zero_apply] at this
        linarith
      have h3 : (η * norm2 sclx p) ^ 2 = cl ^ 2 := by
        rw [mul_pow, norm2_sq, ← hSD2, Finset.mul_sum]
        exact Finset.sum_congr rfl fun i _ => by rw [← hpt i]; ring
      have h4 : η * norm2 sclx p = cl := by
        rw [← abs_of_nonneg (mul_nonneg hη0 hp.le), ← abs_of_nonneg hcl0.le]
        exact (sq_eq_sq_iff_abs_eq_abs _ _).mp h3
      push Not at h1 h2
      linarith
    have ha0 : 0 < dot v v := lt_of_le_of_ne (dot_self_nonneg v) (Ne.symm ha)
    set a := dot v v with had
    set b := dot v sSD with hbd
    set D := b ^ 2 - a * (cl ^ 2 - t ^ 2) with hD
    have hD0 : 0 ≤ D := by
      push Not at h2
      have : cl ^ 2 ≤ t ^ 2 := by nlinarith
      have : 0 ≤ a * (t ^ 2 - cl ^ 2) := mul_nonneg ha0.le (by linarith)
      rw [hD]; nlinarith [sq_nonneg b]
    set l := (-b + √D) / a with hl
    have hq : a * l ^ 2 + 2 * b * l + cl ^ 2 = t ^ 2 := by
      have e1 : a * l = -b + √D := by rw [hl]; field_simp
      have e2 : √D ^ 2 = D := Real.sq_sqrt hD0
      have e3 : (a * l + b) ^ 2 = D := by rw [e1]; linear_combination e2
      have e4 : a * (a * l ^ 2 + 2 * b * l + cl ^ 2 - t ^ 2) = 0 := by
        have : a * (a * l ^ 2 + 2 * b * l + cl ^ 2 - t ^ 2) = (a * l + b) ^ 2 - D := by rw [hD]; ring
        rw [this, e3, sub_self]
      have := (mul_eq_zero.mp e4).resolve_left ha
      linarith
    unfold norm2
    have : ∑ i, (sclx i * ((sSD i + l * v i) / sclx i)) ^ 2 = t ^ 2 := by
      rw [← hq, ← hSD2, had, hbd]
      unfold dot
      rw [Finset.sum_mul, Finset.mul_sum, Finset.sum_mul, ← Finset.sum_add_distrib, ← Finset.sum_add_distrib]
      refine Finset.sum_congr rfl fun i _ => ?_
      rw [mul_div_cancel₀ _ (hscl i).ne']
      ring
    rw [this, Real.sqrt_sq ht0.le]

theorem relMax_le_norm2 (v x sclx : Vec n) (h : ∀ i, 0 < sclx i) : relMax v x sclx ≤ norm2 sclx v := by
  refine relMax_le _ _ _ _ (norm2_nonneg _ _) fun i => ?_
  rw [div_le_iff₀ (scale_pos x sclx h i)]
  have h1 := abs_le_norm2 sclx v i
  rw [abs_mul, abs_of_pos (h i)] at h1
  have h2 : norm2 sclx v * (1 / sclx i) ≤ norm2 sclx v * max |x i| (1 / sclx i) :=
    mul_le_mul_of_nonneg_left (le_max_right _ _) (norm2_nonneg _ _)
  have h3 : |v i| ≤ norm2 sclx v * (1 / sclx i) := by
    rw [mul_one_div, le_div_iff₀ (h i)]; linarith
  exact h3.trans h2

/-- One trust region update: done, rejected with at most half the radius, or exploratory. -/
theorem updateTrust_cases (f : Vec n → Vec n) (sclf : Vec n) (fNc : ℝ) (xc gc : Vec n) (R : Fin n → Fin n → ℝ)
    (s sclx : Vec n) (tolx maxlen t : ℝ) (isnewt : Bool) (xprev fprev : Vec n) (fNprev : ℝ)
    (state : TrustState) (hscl : ∀ i, 0 < sclx i) (hs : norm2 sclx s = t) (ht : 0 < t) (o : TROut n)
    (ho : updateTrust f sclf fNc xc gc R s sclx tolx maxlen t isnewt xprev fprev fNprev state = o) :
    o.state = .accepted ∨ o.state = .convergence ∨
      (o.state = .rejected ∧ 0 < o.trustlen ∧ o.trustlen ≤ 1 / 2 * t ∧ tolx ≤ t) ∨
      (o.state = .exploratory ∧ state ≠ .rejected ∧ isnewt = false ∧ t ≤ 99 / 100 * maxlen ∧
        o.trustlen = min (2 * t) maxlen) := by
  unfold updateTrust at ho
  dsimp only at ho
  split_ifs at ho with h1 h2 h3 h4 <;> subst ho <;> dsimp only
  · exact Or.inl rfl
  · exact Or.inr (Or.inl rfl)
  · refine Or.inr (Or.inr (Or.inl ⟨rfl, ?_, min_le_right _ _, ?_⟩))
    · exact lt_min (lt_of_lt_of_le (by linarith) (le_max_right _ _)) (by linarith)
    · push Not at h3
      rw [← hs]
      exact h3.trans (relMax_le_norm2 _ _ _ hscl)
  · exact Or.inr (Or.inr (Or.inr ⟨rfl, h4.1, h4.2.1, h4.2.2.1, rfl⟩))
  all_goals exact Or.inl rfl

/-! ### Slope along the dogleg step -/

/-- The positive root of `a l² + 2 b l + c² - t²` lies in the unit interval if `c < t` and the value at 1 is positive. -/
theorem dogleg_lambda (a b c t : ℝ) (ha : 0 < a) (hc : 0 ≤ c) (hct : c < t) (h1 : t ^ 2 < a + 2 * b + c ^ 2) :
    0 ≤ (-b + √(b ^ 2 - a * (c ^ 2 - t ^ 2))) / a ∧ (-b + √(b ^ 2 - a * (c ^ 2 - t ^ 2))) / a ≤ 1 := by
  have h2 : c ^ 2 < t ^ 2 := by nlinarith
  have hb : |b| ≤ √(b ^ 2 - a * (c ^ 2 - t ^ 2)) := by
    apply Real.abs_le_sqrt
    nlinarith
  constructor
  · exact div_nonneg (by linarith [le_abs_self b]) ha.le
  · rw [div_le_one ha]
    have : √(b ^ 2 - a * (c ^ 2 - t ^ 2)) ≤ a + b := by
      rw [Real.sqrt_le_left (by linarith)]
      nlinarith
    linarith

/-- The model does not increase along any point of the dogleg curve. -/
theorem doglegStep_slope (gc p : Vec n) (R : Fin n → Fin n → ℝ) (sclx : Vec n) (maxlen trustlen : ℝ) (first : Bool)
    (hscl : ∀ i, 0 < sclx i) (hp : 0 < norm2 sclx p)
    (hg : 0 < norm2 (fun _ => 1) fun i => gc i / sclx i)
    (hR : 0 < norm2 (fun _ => 1) (matVec R fun i => gc i / sclx i ^ 2)) (hdesc : dot gc p ≤ 0)
    (ht : 0 < trustlen ∨ (first = true ∧ 0 < maxlen)) :
    dot gc (doglegStep gc p R sclx (norm2 sclx p) maxlen trustlen first).2.1 ≤ 0 := by
  obtain ⟨_, ht2, _, _⟩ := doglegStep_length gc p R sclx maxlen trustlen first hscl hp hg hR ht _ rfl
  revert ht2
  unfold doglegStep
  by_cases h0 : norm2 sclx p ≤ trustlen
  · rw [if_pos h0]; exact fun _ => hdesc
  rw [if_neg h0]
  dsimp only [doglegData]
  set A := norm2 (fun _ => 1) (fun i => gc i / sclx i) with hA
  set β := norm2 (fun _ => 1) (matVec R fun i => gc i / sclx i ^ 2) ^ 2 with hβ
  have hβ0 : 0 < β := by positivity
  have hs : √(A ^ 2) = A := Real.sqrt_sq hg.le
  have hA2 : A ^ 2 = ∑ i, (gc i / sclx i) ^ 2 := by
    rw [hA, norm2_sq]; simp
  rw [hs]
  set cl := A ^ 2 * A / β with hcl
  have hcl0 : 0 < cl := by positivity
  set t := (if first = true ∧ trustlen ≤ 0 then min cl maxlen else trustlen) with htd
  set sSD : Vec n := fun i => -(A ^ 2 / β) * (gc i / sclx i) with hsSD
  have hSD2 : ∑ i, sSD i ^ 2 = cl ^ 2 := by
    have : ∑ i, sSD i ^ 2 = (A ^ 2 / β) ^ 2 * ∑ i, (gc i / sclx i) ^ 2 := by
      rw [Finset.mul_sum]; exact Finset.sum_congr rfl fun i _ => by rw [hsSD]; ring
    rw [this, ← hA2, hcl]; ring
  have hslope : dot gc (fun i => sSD i / sclx i) ≤ 0 := by
    have : dot gc (fun i => sSD i / sclx i) = -(A ^ 2 / β) * ∑ i, (gc i / sclx i) ^ 2 := by
      unfold dot
      rw [Finset.mul_sum]; exact Finset.sum_congr rfl fun i _ => by rw [hsSD]; ring
    rw [this, ← hA2]
    have : 0 ≤ A ^ 2 / β * A ^ 2 := by positivity
    linarith
  have hsm : ∀ (c : ℝ) (v : Vec n), dot gc (fun i => c * v i) = c * dot gc v := by
    intro c v; unfold dot; rw [Finset.mul_sum]; exact Finset.sum_congr rfl fun i _ => by ring
  set η := 1 / 5 + 4 / 5 * (A ^ 2) ^ 2 / (β * |dot gc p|) with hη
  have hη0 : 0 ≤ η := by
    have : 0 ≤ 4 / 5 * (A ^ 2) ^ 2 / (β * |dot gc p|) := by positivity
    linarith
  split_ifs with h1 h2 <;> dsimp only <;> intro ht0
  · rw [hsm]; exact mul_nonpos_of_nonneg_of_nonpos (by positivity) hdesc
  · rw [hsm]; exact mul_nonpos_of_nonneg_of_nonpos (by positivity) hslope
  · set v : Vec n := fun i => η * (p i * sclx i) - sSD i with hv
    push Not at h1 h2
    have hone : dot v v + 2 * dot v sSD + cl ^ 2 = (η * norm2 sclx p) ^ 2 := by
      rw [mul_pow, norm2_sq, ← hSD2]
      unfold dot
      rw [Finset.mul_sum, Finset.mul_sum, ← Finset.sum_add_distrib, ← Finset.sum_add_distrib]
      exact Finset.sum_congr rfl fun i _ => by rw [hv]; ring
    have hgt : t ^ 2 < dot v v + 2 * dot v sSD + cl ^ 2 := by
      rw [hone]; nlinarith
    have ha0 : 0 < dot v v := by
      refine lt_of_le_of_ne (dot_self_nonneg v) (fun hz => ?_)
      have hv0 := (norm2_pos_iff_dot v).mp hz.symm
      have hb0 : dot v sSD = 0 := by rw [hv0]; unfold dot; simp
      rw [← hz, hb0] at hgt
      nlinarith
    obtain ⟨l0, l1⟩ := dogleg_lambda _ _ cl t ha0 hcl0.le h2 hgt
    set l := (-dot v sSD + √(dot v sSD ^ 2 - dot v v * (cl ^ 2 - t ^ 2))) / dot v v
    have : dot gc (fun i => (sSD i + l * v i) / sclx i) =
        (1 - l) * dot gc (fun i => sSD i / sclx i) + l * (η * dot gc p) := by
      unfold dot
      rw [Finset.mul_sum, Finset.mul_sum, Finset.mul_sum, ← Finset.sum_add_distrib]
      refine Finset.sum_congr rfl fun i _ => ?_
      have := (hscl i).ne'
      simp only [hv]
      field_simp
      ring
    rw [this]
    have e1 := mul_nonpos_of_nonneg_of_nonpos (sub_nonneg.mpr l1) hslope
    have e2 := mul_nonpos_of_nonneg_of_nonpos l0 (mul_nonpos_of_nonneg_of_nonpos hη0 hdesc)
    linarith

/-- A successful dogleg iteration does not increase the merit. -/
theorem dlLoop_merit (f : Vec n → Vec n) (sclf : Vec n) (fNc : ℝ) (xc gc p : Vec n) (R : Fin n → Fin n → ℝ)
    (sclx : Vec n) (tolx maxlen : ℝ) (hscl : ∀ i, 0 < sclx i) (hp : 0 < norm2 sclx p)
    (hg : 0 < norm2 (fun _ => 1) fun i => gc i / sclx i)
    (hR : 0 < norm2 (fun _ => 1) (matVec R fun i => gc i / sclx i ^ 2)) (hdesc : dot gc p ≤ 0) (hmax : 0 < maxlen)
    (fuel : ℕ) :
    ∀ (first : Bool) (t : ℝ) (xprev fprev : Vec n) (fNprev : ℝ) (state : TrustState) (nfeval : ℕ)
      (calls : List (Vec n)) (o : GMOut n), (0 < t ∨ (first = true ∧ 0 < maxlen)) →
      (state = .exploratory → merit sclf fprev ≤ fNc) →
      dlLoop f sclf fNc xc gc p R sclx tolx (norm2 sclx p) maxlen fuel first t xprev fprev fNprev state nfeval calls = some o →
      o.success = true → merit sclf o.fp ≤ fNc := by
  induction fuel with
  | zero => intro first t xprev fprev fNprev state nfeval calls o _ _ h; simp [dlLoop] at h
  | succ fuel ih =>
    intro first t xprev fprev fNprev state nfeval calls o ht hinv h hs
    have hsl := doglegStep_slope gc p R sclx maxlen t first hscl hp hg hR hdesc ht
    obtain ⟨l1, l2, _, _⟩ := doglegStep_length gc p R sclx maxlen t first hscl hp hg hR ht _ rfl
    unfold dlLoop at h
    dsimp only at h
    generalize doglegStep gc p R sclx (norm2 sclx p) maxlen t first = d at h hsl l1 l2
    have hc := updateTrust_cases f sclf fNc xc gc R d.2.1 sclx tolx maxlen d.2.2 d.1 xprev fprev fNprev state hscl l1 l2 _ rfl
    have hu : ((updateTrust f sclf fNc xc gc R d.2.1 sclx tolx maxlen d.2.2 d.1 xprev fprev fNprev state).state = .accepted →
          merit sclf (updateTrust f sclf fNc xc gc R d.2.1 sclx tolx maxlen d.2.2 d.1 xprev fprev fNprev state).fp ≤ fNc) ∧
        ((updateTrust f sclf fNc xc gc R d.2.1 sclx tolx maxlen d.2.2 d.1 xprev fprev fNprev state).state = .exploratory →
          merit sclf (updateTrust f sclf fNc xc gc R d.2.1 sclx tolx maxlen d.2.2 d.1 xprev fprev fNprev state).fprev ≤ fNc) := by
      unfold updateTrust
      dsimp only
      split_ifs with h1 h2 h3 h4 <;> dsimp only
      · exact ⟨fun _ => hinv h1.1, by simp⟩
      · exact ⟨by simp, by simp⟩
      · exact ⟨by simp, by simp⟩
      · refine ⟨by simp, fun _ => ?_⟩
        push Not at h2; linarith
      all_goals
        refine ⟨fun _ => ?_, by simp⟩
        push Not at h2; linarith
    generalize updateTrust f sclf fNc xc gc R d.2.1 sclx tolx maxlen d.2.2 d.1 xprev fprev fNprev state = u at h hc hu
    split_ifs at h with h1
    · simp only [Option.some.injEq] at h
      subst h
      simp only [decide_eq_true_eq] at hs
      exact hu.1 hs
    · refine ih _ _ _ _ _ _ _ _ o (Or.inl ?_) hu.2 h hs
      rcases hc with hc | hc | hc | hc
      · exact absurd (Or.inl hc) h1
      · exact absurd (Or.inr hc) h1
      · exact hc.2.1
      · rw [hc.2.2.2.2]; exact lt_min (by linarith) hmax

section Termination

variable (f : Vec n → Vec n) (sclf : Vec n) (fNc : ℝ) (xc gc p : Vec n) (R : Fin n → Fin n → ℝ) (sclx : Vec n)
  (tolx maxlen : ℝ) (hscl : ∀ i, 0 < sclx i) (hp : 0 < norm2 sclx p)
  (hg : 0 < norm2 (fun _ => 1) fun i => gc i / sclx i)
  (hR : 0 < norm2 (fun _ => 1) (matVec R fun i => gc i / sclx i ^ 2))

include hscl hp hg hR

theorem dl_rejected (k : ℕ) : ∀ (t : ℝ) (fuel : ℕ) (first : Bool) (xprev fprev : Vec n) (fNprev : ℝ) (nfeval : ℕ)
    (calls : List (Vec n)), 0 < t → t * (1 / 2) ^ k < tolx → k + 1 ≤ fuel →
    ∃ o, dlLoop f sclf fNc xc gc p R sclx tolx (norm2 sclx p) maxlen fuel first t xprev fprev fNprev .rejected nfeval
      calls = some o := by
  induction k with
  | zero =>
    intro t fuel first xprev fprev fNprev nfeval calls ht hk hf
    obtain ⟨fuel, rfl⟩ : ∃ m, fuel = m + 1 := ⟨fuel - 1, by omega⟩
    obtain ⟨l1, l2, l3, _⟩ := doglegStep_length gc p R sclx maxlen t first hscl hp hg hR (Or.inl ht) _ rfl
    unfold dlLoop
    dsimp only
    have hc := updateTrust_cases f sclf fNc xc gc R _ sclx tolx maxlen _
      (doglegStep gc p R sclx (norm2 sclx p) maxlen t first).1 xprev fprev fNprev .rejected hscl l1 l2 _ rfl
    rcases hc with h | h | h | h
    · rw [if_pos (Or.inl h)]; exact ⟨_, rfl⟩
    · rw [if_pos (Or.inr h)]; exact ⟨_, rfl⟩
    · have := l3 ht
      rw [pow_zero, mul_one] at hk
      linarith [h.2.2.2]
    · exact absurd rfl h.2.1
  | succ k ih =>
    intro t fuel first xprev fprev fNprev nfeval calls ht hk hf
    obtain ⟨fuel, rfl⟩ : ∃ m, fuel = m + 1 := ⟨fuel - 1, by omega⟩
    obtain ⟨l1, l2, l3, _⟩ := doglegStep_length gc p R sclx maxlen t first hscl hp hg hR (Or.inl ht) _ rfl
    unfold dlLoop
    dsimp only
    have hc := updateTrust_cases f sclf fNc xc gc R _ sclx tolx maxlen _
      (doglegStep gc p R sclx (norm2 sclx p) maxlen t first).1 xprev fprev fNprev .rejected hscl l1 l2 _ rfl
    rcases hc with h | h | h | h
    · rw [if_pos (Or.inl h)]; exact ⟨_, rfl⟩
    · rw [if_pos (Or.inr h)]; exact ⟨_, rfl⟩
    · rw [if_neg (by rw [h.1]; simp), h.1]
      refine ih _ _ _ _ _ _ _ _ h.2.1 (lt_of_le_of_lt ?_ hk) (by omega)
      have h5 := l3 ht
      have h6 : (0 : ℝ) < (1 / 2) ^ k := by positivity
      have := mul_le_mul_of_nonneg_right (h.2.2.1.trans (mul_le_mul_of_nonneg_left h5 (by norm_num))) h6.le
      refine this.trans (le_of_eq ?_)
      rw [pow_succ]; ring
    · exact absurd rfl h.2.1

theorem dl_exploring (hmax : 0 < maxlen) (htol : 0 < tolx) (k : ℕ) : ∀ (t : ℝ), 0 < t → 99 / 100 * maxlen < t * 2 ^ k →
    ∃ N, ∀ (fuel : ℕ) (first : Bool) (xprev fprev : Vec n) (fNprev : ℝ) (state : TrustState) (nfeval : ℕ)
    (calls : List (Vec n)), N ≤ fuel →
    ∃ o, dlLoop f sclf fNc xc gc p R sclx tolx (norm2 sclx p) maxlen fuel first t xprev fprev fNprev state nfeval
      calls = some o := by
  have hrej : ∀ T : ℝ, 0 < T → ∃ m : ℕ, T * (1 / 2) ^ m < tolx := by
    intro T hT
    obtain ⟨m, hm⟩ := exists_pow_lt_of_lt_one (show 0 < tolx / T by positivity) (show (1 / 2 : ℝ) < 1 by norm_num)
    exact ⟨m, by rw [lt_div_iff₀ hT] at hm; linarith⟩
  induction k with
  | zero =>
    intro t ht hk
    obtain ⟨m, hm⟩ := hrej t ht
    refine ⟨m + 2, ?_⟩
    intro fuel first xprev fprev fNprev state nfeval calls hf
    obtain ⟨fuel, rfl⟩ : ∃ m, fuel = m + 1 := ⟨fuel - 1, by omega⟩
    obtain ⟨l1, l2, l3, l4⟩ := doglegStep_length gc p R sclx maxlen t first hscl hp hg hR (Or.inl ht) _ rfl
    unfold dlLoop
    dsimp only
    have hc := updateTrust_cases f sclf fNc xc gc R _ sclx tolx maxlen _
      (doglegStep gc p R sclx (norm2 sclx p) maxlen t first).1 xprev fprev fNprev state hscl l1 l2 _ rfl
    rcases hc with h | h | h | h
    · rw [if_pos (Or.inl h)]; exact ⟨_, rfl⟩
    · rw [if_pos (Or.inr h)]; exact ⟨_, rfl⟩
    · rw [if_neg (by rw [h.1]; simp), h.1]
      refine dl_rejected f sclf fNc xc gc p R sclx tolx maxlen hscl hp hg hR m _ _ _ _ _ _ _ _ h.2.1
        (lt_of_le_of_lt ?_ hm) (by omega)
      exact mul_le_mul_of_nonneg_right (h.2.2.1.trans (by linarith [l3 ht])) (by positivity)
    · have h5 := l4 ht h.2.2.1
      have h6 := h.2.2.2.1
      rw [pow_zero, mul_one] at hk
      linarith
  | succ k ih =>
    intro t ht hk
    obtain ⟨m, hm⟩ := hrej t ht
    obtain ⟨N, hN⟩ := ih (min (2 * t) maxlen) (lt_min (by linarith) hmax) (by
      have h2 : (1 : ℝ) ≤ 2 ^ k := one_le_pow₀ (by norm_num)
      rcases min_choice (2 * t) maxlen with h | h <;> rw [h]
      · rw [pow_succ] at hk; linarith
      · nlinarith)
    refine ⟨max (m + 2) (N + 1), ?_⟩
    intro fuel first xprev fprev fNprev state nfeval calls hf
    obtain ⟨hf1, hf2⟩ := max_le_iff.mp hf
    obtain ⟨fuel, rfl⟩ : ∃ m, fuel = m + 1 := ⟨fuel - 1, by omega⟩
    obtain ⟨l1, l2, l3, l4⟩ := doglegStep_length gc p R sclx maxlen t first hscl hp hg hR (Or.inl ht) _ rfl
    unfold dlLoop
    dsimp only
    have hc := updateTrust_cases f sclf fNc xc gc R _ sclx tolx maxlen _
      (doglegStep gc p R sclx (norm2 sclx p) maxlen t first).1 xprev fprev fNprev state hscl l1 l2 _ rfl
    rcases hc with h | h | h | h
    · rw [if_pos (Or.inl h)]; exact ⟨_, rfl⟩
    · rw [if_pos (Or.inr h)]; exact ⟨_, rfl⟩
    · rw [if_neg (by rw [h.1]; simp), h.1]
      refine dl_rejected f sclf fNc xc gc p R sclx tolx maxlen hscl hp hg hR m _ _ _ _ _ _ _ _ h.2.1
        (lt_of_le_of_lt ?_ hm) (by omega)
      exact mul_le_mul_of_nonneg_right (h.2.2.1.trans (by linarith [l3 ht])) (by positivity)
    · rw [if_neg (by rw [h.1]; simp)]
      rw [h.2.2.2.2, l4 ht h.2.2.1]
      exact hN _ _ _ _ _ _ _ _ (by omega)

theorem dogleg_terminates (fc : Vec n) (hmax : 0 < maxlen) (htol : 0 < tolx) (trustlen : ℝ) :
    ∃ N, ∀ fuel, N ≤ fuel → ∃ o, dogleg fuel f sclf xc fc gc p R tolx sclx maxlen trustlen = some o := by
  have hk : ∀ t : ℝ, 0 < t → ∃ k : ℕ, 99 / 100 * maxlen < t * 2 ^ k := by
    intro t ht
    obtain ⟨k, hk⟩ := pow_unbounded_of_one_lt (99 / 100 * maxlen / t) (show (1 : ℝ) < 2 by norm_num)
    exact ⟨k, by rw [div_lt_iff₀ ht] at hk; linarith⟩
  have hexp : ∀ t : ℝ, 0 < t → _ := fun t ht =>
    dl_exploring f sclf (merit sclf fc) xc gc p R sclx tolx maxlen hscl hp hg hR hmax htol (hk t ht).choose t ht
      (hk t ht).choose_spec
  obtain ⟨l1, l2, _, _⟩ := doglegStep_length gc p R sclx maxlen trustlen true hscl hp hg hR (Or.inr ⟨rfl, hmax⟩) _ rfl
  have hc := updateTrust_cases f sclf (merit sclf fc) xc gc R _ sclx tolx maxlen _
      (doglegStep gc p R sclx (norm2 sclx p) maxlen trustlen true).1 xc fc 0 .start hscl l1 l2 _ rfl
  unfold dogleg
  rcases hc with h | h | h | h
  · refine ⟨1, fun fuel hf => ?_⟩
    obtain ⟨fuel, rfl⟩ : ∃ m, fuel = m + 1 := ⟨fuel - 1, by omega⟩
    unfold dlLoop; dsimp only
    rw [if_pos (Or.inl h)]; exact ⟨_, rfl⟩
  · refine ⟨1, fun fuel hf => ?_⟩
    obtain ⟨fuel, rfl⟩ : ∃ m, fuel = m + 1 := ⟨fuel - 1, by omega⟩
    unfold dlLoop; dsimp only
    rw [if_pos (Or.inr h)]; exact ⟨_, rfl⟩
  all_goals
    obtain ⟨N, hN⟩ := hexp (updateTrust f sclf (merit sclf fc) xc gc R
      (doglegStep gc p R sclx (norm2 sclx p) maxlen trustlen true).2.1 sclx tolx maxlen
      (doglegStep gc p R sclx (norm2 sclx p) maxlen trustlen true).2.2
      (doglegStep gc p R sclx (norm2 sclx p) maxlen trustlen true).1 xc fc 0 .start).trustlen
      (by first | exact h.2.1 | (rw [h.2.2.2.2]; exact lt_min (by linarith) hmax))
    refine ⟨N + 1, fun fuel hf => ?_⟩
    obtain ⟨fuel, rfl⟩ : ∃ m, fuel = m + 1 := ⟨fuel - 1, by omega⟩
    unfold dlLoop; dsimp only
    rw [if_neg (by rw [h.1]; simp)]
    exact hN _ _ _ _ _ _ _ _ (by omega)

end Termination

/-! ### More fuel does not change the outcome -/

theorem lsLoop_mono (f : Vec n → Vec n) (sclf xc p : Vec n) (fNc slope tolx M newtlen maxlen : ℝ) (fuel : ℕ) :
    ∀ (fuel' : ℕ) (lam : ℝ) (prev : Option (ℝ × ℝ)) (nfeval : ℕ) (calls : List (Vec n)) (o : GMOut n), fuel ≤ fuel' →
      lsLoop f sclf xc p fNc slope tolx M newtlen maxlen fuel lam prev nfeval calls = some o →
      lsLoop f sclf xc p fNc slope tolx M newtlen maxlen fuel' lam prev nfeval calls = some o := by
  induction fuel with
  | zero => intro fuel' lam prev nfeval calls o _ h; simp [lsLoop] at h
  | succ fuel ih =>
    intro fuel' lam prev nfeval calls o hle h
    obtain ⟨fuel', rfl⟩ : ∃ m, fuel' = m + 1 := ⟨fuel' - 1, by omega⟩
    unfold lsLoop at h ⊢
    dsimp only at h ⊢
    split_ifs at h ⊢ with h1 h2
    · exact h
    · exact h
    · exact ih _ _ _ _ _ _ (by omega) h

theorem dlLoop_mono (f : Vec n → Vec n) (sclf : Vec n) (fNc : ℝ) (xc gc p : Vec n) (R : Fin n → Fin n → ℝ)
    (sclx : Vec n) (tolx newtlen maxlen : ℝ) (fuel : ℕ) :
    ∀ (fuel' : ℕ) (first : Bool) (trustlen : ℝ) (xprev fprev : Vec n) (fNprev : ℝ) (state : TrustState) (nfeval : ℕ)
      (calls : List (Vec n)) (o : GMOut n), fuel ≤ fuel' →
      dlLoop f sclf fNc xc gc p R sclx tolx newtlen maxlen fuel first trustlen xprev fprev fNprev state nfeval calls = some o →
      dlLoop f sclf fNc xc gc p R sclx tolx newtlen maxlen fuel' first trustlen xprev fprev fNprev state nfeval calls = some o := by
  induction fuel with
  | zero => intro fuel' first trustlen xprev fprev fNprev state nfeval calls o _ h; simp [dlLoop] at h
  | succ fuel ih =>
    intro fuel' first trustlen xprev fprev fNprev state nfeval calls o hle h
    obtain ⟨fuel', rfl⟩ : ∃ m, fuel' = m + 1 := ⟨fuel' - 1, by omega⟩
    unfold dlLoop at h ⊢
    dsimp only at h ⊢
    split_ifs at h ⊢ with h1
    · exact h
    · exact ih _ _ _ _ _ _ _ _ _ _ (by omega) h

theorem globalStep_mono (gm : Global) (fuel fuel' : ℕ) (f : Vec n → Vec n) (sclf xc fc gc p : Vec n)
    (R : Fin n → Fin n → ℝ) (tolx : ℝ) (sclx : Vec n) (maxlen trustlen : ℝ) (o : Except Err (GMOut n)) (hle : fuel ≤ fuel')
    (h : globalStep gm fuel f sclf xc fc gc p R tolx sclx maxlen trustlen = some o) :
    globalStep gm fuel' f sclf xc fc gc p R tolx sclx maxlen trustlen = some o := by
  unfold globalStep at h ⊢
  cases gm with
  | plain => exact h
  | unknown => exact h
  | lineSearch =>
    dsimp only at h ⊢
    rw [Option.map_eq_some_iff] at h ⊢
    obtain ⟨a, h1, h2⟩ := h
    exact ⟨a, lsLoop_mono _ _ _ _ _ _ _ _ _ _ _ _ _ _ _ _ _ hle h1, h2⟩
  | dogleg =>
    dsimp only at h ⊢
    rw [Option.map_eq_some_iff] at h ⊢
    obtain ⟨a, h1, h2⟩ := h
    exact ⟨a, dlLoop_mono _ _ _ _ _ _ _ _ _ _ _ _ _ _ _ _ _ _ _ _ _ _ hle h1, h2⟩

/-! ### The outer loop -/

/-- The step of the global method, whatever it is, is coherent. -/
structure GMSpec (f : Vec n → Vec n) (xc sclx : Vec n) (tolx : ℝ) (o : GMOut n) : Prop where
  ok : o.success = true → o.fp = f o.xp
  bad : o.success = false → o.xp = xc ∧ ∃ x', o.fp = f x' ∧
    ∀ i, |x' i - xc i| < tolx * max (max |xc i| |x' i|) (1 / sclx i)
  count : o.nfeval = o.calls.length

theorem globalStep_spec (gm : Global) (fuel : ℕ) (f : Vec n → Vec n) (sclf xc fc gc p : Vec n)
    (R : Fin n → Fin n → ℝ) (tolx : ℝ) (sclx : Vec n) (maxlen trustlen : ℝ) (o : GMOut n) (hscl : ∀ i, 0 < sclx i)
    (h : globalStep gm fuel f sclf xc fc gc p R tolx sclx maxlen trustlen = some (.ok o)) :
    GMSpec f xc sclx tolx o := by
  unfold globalStep at h
  cases gm with
  | plain =>
    simp only [Option.some.injEq, Except.ok.injEq] at h
    subst h
    exact ⟨fun _ => rfl, fun h => by simp at h, rfl⟩
  | unknown => simp at h
  | lineSearch =>
    dsimp only at h
    rw [Option.map_eq_some_iff] at h
    obtain ⟨a, h1, h2⟩ := h
    simp only [Except.ok.injEq] at h2
    subst h2
    unfold lineSearch at h1
    dsimp only at h1
    generalize (if norm2 sclx p > maxlen then fun i => p i * (maxlen / norm2 sclx p) else p) = p' at h1
    obtain ⟨s1, s2, new, s3, s4, _⟩ := lsLoop_spec _ _ _ _ _ _ _ _ _ _ _ _ _ _ _ _ (by norm_num) (fun _ => le_rfl) (fun _ => rfl) h1
    refine ⟨fun hs => ?_, fun hs => ?_, ?_⟩
    · obtain ⟨_, _, _, _, h, _⟩ := s1 hs; exact h
    · obtain ⟨h5, lam, h6, h7, h8, _⟩ := s2 hs
      refine ⟨h5, _, h8, fun i => ?_⟩
      have hm := scale_pos xc sclx hscl i
      have hr := le_relMax p' xc sclx i
      have hle : max |xc i| (1 / sclx i) ≤ max (max |xc i| |xc i + lam * p' i|) (1 / sclx i) :=
        max_le_max (le_max_left _ _) le_rfl
      rw [add_sub_cancel_left, abs_mul, abs_of_pos h6]
      rw [div_le_iff₀ hm] at hr
      unfold belowMin at h7
      split_ifs at h7 with hM
      · rw [hM] at hr
        have : |p' i| = 0 := le_antisymm (by linarith) (abs_nonneg _)
        rw [this, mul_zero]
        exact mul_pos h7 (lt_of_lt_of_le hm hle)
      · have hM0 : 0 < relMax p' xc sclx := lt_of_le_of_ne (relMax_nonneg _ _ _) (Ne.symm hM)
        rw [lt_div_iff₀ hM0] at h7
        calc lam * |p' i| ≤ lam * (relMax p' xc sclx * max |xc i| (1 / sclx i)) := mul_le_mul_of_nonneg_left hr h6.le
          _ = (lam * relMax p' xc sclx) * max |xc i| (1 / sclx i) := by ring
          _ < tolx * max |xc i| (1 / sclx i) := mul_lt_mul_of_pos_right h7 hm
          _ ≤ _ := mul_le_mul_of_nonneg_left hle (by
            have := mul_pos h6 hM0
            linarith)
    · rw [s4, s3]; simp
  | dogleg =>
    dsimp only at h
    rw [Option.map_eq_some_iff] at h
    obtain ⟨a, h1, h2⟩ := h
    simp only [Except.ok.injEq] at h2
    subst h2
    obtain ⟨s1, s2, new, s3, s4, _⟩ := dlLoop_spec _ _ _ _ _ _ _ _ _ _ _ _ _ _ _ _ _ _ _ _ _ (by intro h; simp at h) h1
    refine ⟨fun hs => (s1 hs).1, fun hs => ?_, ?_⟩
    · obtain ⟨h5, s, h6, h7⟩ := s2 hs
      refine ⟨h5, _, h6, fun i => ?_⟩
      have hm := scale_pos (fun i => xc i + s i) sclx hscl i
      have hr := le_relMax s (fun i => xc i + s i) sclx i
      rw [add_sub_cancel_left]
      have h8 := lt_of_le_of_lt hr h7
      rw [div_lt_iff₀ hm] at h8
      refine lt_of_lt_of_le h8 (mul_le_mul_of_nonneg_left ?_ ((relMax_nonneg _ _ _).trans h7.le))
      exact max_le_max (le_max_right _ _) le_rfl
    · rw [s4, s3]; simp

/-- Invariant of the loop state. -/
structure QInv (f : Vec n → Vec n) {L : LinAlg n} (x0 : Vec n) (s : QState n L) : Prop where
  fc : s.fc = f s.xc
  count : s.nfeval = s.calls.length
  head : s.calls.head? = some x0

theorem newJac_inv (f : Vec n → Vec n) {L : LinAlg n} (x0 : Vec n)
    (jacEval : Vec n → Vec n → (Fin n → Fin n → ℝ) × List (Vec n)) (userJac : Bool)
    (hj : ∀ x fx, (jacEval x fx).2.length = if userJac then 0 else n) (x fx : Vec n) (s : QState n L)
    (hc : s.nfeval = s.calls.length) (hh : s.calls.head? = some x0) :
    (newJac jacEval userJac x fx s).nfeval = (newJac jacEval userJac x fx s).calls.length ∧
      (newJac jacEval userJac x fx s).calls.head? = some x0 := by
  unfold newJac
  dsimp only
  refine ⟨by rw [List.length_append, hj, hc], ?_⟩
  cases hcs : s.calls with
  | nil => rw [hcs] at hh; simp at hh
  | cons a l => rw [hcs] at hh; simpa using hh

/-- What a finished run reports. -/
structure QFinal (f : Vec n → Vec n) (P : QParams n) (x0 : Vec n) (r : QResult n) (calls : List (Vec n)) : Prop where
  ok : r.success = true → scaledNormLe P.sclf r.f P.tolf ∧ r.f = f r.x
  msg : r.success = true ↔ r.message = .tolf
  coherent : r.message ≠ .globalFail → r.f = f r.x
  near : r.message = .globalFail → ∃ x', r.f = f x' ∧ ∀ i, |x' i - r.x i| < P.tolx * max (max |r.x i| |x' i|) (1 / P.sclx i)
  count : r.nfeval = calls.length
  head : calls.head? = some x0

theorem afterStep_spec (f : Vec n → Vec n) {L : LinAlg n} (P : QParams n)
    (jacEval : Vec n → Vec n → (Fin n → Fin n → ℝ) × List (Vec n)) (x0 : Vec n)
    (hj : ∀ x fx, (jacEval x fx).2.length = if P.userJac then 0 else n) (niter : ℕ) (s : QState n L) (S : L.S)
    (o : GMOut n) (hs : QInv f x0 s) (ho : GMSpec f s.xc P.sclx P.tolx o) :
    (∀ r calls, afterStep P jacEval niter s S o = .stop r calls → QFinal f P x0 r calls ∧ r.niter = niter) ∧
    (∀ s', afterStep P jacEval niter s S o = .next s' → QInv f x0 s') := by
  have hcount : s.nfeval + o.nfeval = (s.calls ++ o.calls).length := by
    rw [List.length_append, hs.count, ho.count]
  have hhead : (s.calls ++ o.calls).head? = some x0 := by
    have := hs.head
    cases hcs : s.calls with
    | nil => rw [hcs] at this; simp at this
    | cons a l => rw [hcs] at this; simpa using this
  unfold afterStep
  dsimp only
  split_ifs with h1 h2 h3 h4 h5 h6
  · refine ⟨fun r calls h => by simp at h, fun s' h => ?_⟩
    simp only [Pass.next.injEq] at h
    subst h
    obtain ⟨a, b⟩ := newJac_inv f x0 jacEval P.userJac hj s.xc s.fc { s with
      S := some S
      nfeval := s.nfeval + o.nfeval
      nmaxsteps := countMax o.ismaxstep s.nmaxsteps
      trustlen := o.trustlen
      calls := s.calls ++ o.calls } hcount hhead
    exact ⟨hs.fc, a, b⟩
  · refine ⟨fun r calls h => ?_, fun s' h => by simp at h⟩
    simp only [Pass.stop.injEq] at h
    obtain ⟨rfl, rfl⟩ := h
    obtain ⟨e1, x', e2, e3⟩ := ho.bad h2
    refine ⟨⟨by simp, by simp, by simp, fun _ => ⟨x', e2, ?_⟩, hcount, hhead⟩, rfl⟩
    dsimp only
    rw [e1]; exact e3
  all_goals have hok : o.success = true := by simpa using h2
  · refine ⟨fun r calls h => ?_, fun s' h => by simp at h⟩
    simp only [Pass.stop.injEq] at h
    obtain ⟨rfl, rfl⟩ := h
    exact ⟨⟨fun _ => ⟨h3, ho.ok hok⟩, by simp, fun _ => ho.ok hok, by simp, hcount, hhead⟩, rfl⟩
  · refine ⟨fun r calls h => ?_, fun s' h => by simp at h⟩
    simp only [Pass.stop.injEq] at h
    obtain ⟨rfl, rfl⟩ := h
    exact ⟨⟨by simp, by simp, fun _ => ho.ok hok, by simp, hcount, hhead⟩, rfl⟩
  · refine ⟨fun r calls h => ?_, fun s' h => by simp at h⟩
    simp only [Pass.stop.injEq] at h
    obtain ⟨rfl, rfl⟩ := h
    exact ⟨⟨by simp, by simp, fun _ => ho.ok hok, by simp, hcount, hhead⟩, rfl⟩
  · cases hb : L.broyden s.xc o.xp s.fc o.fp S with
    | error e => exact ⟨fun r calls h => by simp at h, fun s' h => by simp at h⟩
    | ok S' =>
      refine ⟨fun r calls h => by simp at h, fun s' h => ?_⟩
      simp only [Pass.next.injEq] at h
      subst h
      exact ⟨ho.ok hok, hcount, hhead⟩
  · refine ⟨fun r calls h => by simp at h, fun s' h => ?_⟩
    simp only [Pass.next.injEq] at h
    subst h
    obtain ⟨a, b⟩ := newJac_inv f x0 jacEval P.userJac hj o.xp o.fp { s with
      S := some S
      nfeval := s.nfeval + o.nfeval
      nmaxsteps := countMax o.ismaxstep s.nmaxsteps
      trustlen := o.trustlen
      calls := s.calls ++ o.calls } hcount hhead
    exact ⟨ho.ok hok, a, b⟩

theorem pass_spec (f : Vec n → Vec n) {L : LinAlg n} (P : QParams n)
    (jacEval : Vec n → Vec n → (Fin n → Fin n → ℝ) × List (Vec n)) (x0 : Vec n)
    (hj : ∀ x fx, (jacEval x fx).2.length = if P.userJac then 0 else n) (hscl : ∀ i, 0 < P.sclx i) (niter : ℕ) (s : QState n L)
    (hs : QInv f x0 s) :
    (∀ r calls, pass f L P jacEval niter s = some (.stop r calls) → QFinal f P x0 r calls ∧ r.niter = niter) ∧
    (∀ s', pass f L P jacEval niter s = some (.next s') → QInv f x0 s') := by
  unfold pass
  split
  · refine ⟨fun r calls h => ?_, fun s' h => by simp at h⟩
    simp only [Option.some.injEq, Pass.stop.injEq] at h
    obtain ⟨rfl, rfl⟩ := h
    exact ⟨⟨by simp, by simp, fun _ => hs.fc, by simp, hs.count, hs.head⟩, rfl⟩
  · rename_i S _
    split
    · exact ⟨fun r calls h => by simp at h, fun s' h => by simp at h⟩
    · split
      · exact ⟨fun r calls h => by simp at h, fun s' h => by simp at h⟩
      · exact ⟨fun r calls h => by simp at h, fun s' h => by simp at h⟩
      · rename_i o hg
        obtain ⟨a, b⟩ := afterStep_spec f P jacEval x0 hj niter s _ o hs (globalStep_spec _ _ _ _ _ _ _ _ _ _ _ _ _ _ hscl hg)
        exact ⟨fun r calls h => a r calls (by simpa using h), fun s' h => b s' (by simpa using h)⟩

theorem qnLoop_spec (f : Vec n → Vec n) {L : LinAlg n} (P : QParams n)
    (jacEval : Vec n → Vec n → (Fin n → Fin n → ℝ) × List (Vec n)) (x0 : Vec n)
    (hj : ∀ x fx, (jacEval x fx).2.length = if P.userJac then 0 else n) (hscl : ∀ i, 0 < P.sclx i) (m : ℕ) :
    ∀ (niter : ℕ) (s : QState n L) (r : QResult n) (calls : List (Vec n)), QInv f x0 s →
      qnLoop f L P jacEval m niter s = some (.ok (r, calls)) → QFinal f P x0 r calls ∧ r.niter ≤ niter + m ∧ 1 ≤ r.niter := by
  induction m with
  | zero =>
    intro niter s r calls hs h
    unfold qnLoop at h
    split_ifs at h with h0
    · simp at h
    simp only [Option.some.injEq, Except.ok.injEq, Prod.mk.injEq] at h
    obtain ⟨rfl, rfl⟩ := h
    refine ⟨⟨by simp, by simp, fun _ => hs.fc, by simp, hs.count, hs.head⟩, ?_, ?_⟩ <;> dsimp only <;> omega
  | succ m ih =>
    intro niter s r calls hs h
    obtain ⟨a, b⟩ := pass_spec f P jacEval x0 hj hscl (niter + 1) s hs
    unfold qnLoop at h
    split at h
    · simp at h
    · simp at h
    · rename_i hp
      simp only [Option.some.injEq, Except.ok.injEq, Prod.mk.injEq] at h
      obtain ⟨rfl, rfl⟩ := h
      obtain ⟨h1, h2⟩ := a _ _ hp
      exact ⟨h1, by omega, by omega⟩
    · rename_i s' hp
      obtain ⟨h1, h2, h3⟩ := ih _ _ _ _ (b _ hp) h
      exact ⟨h1, by omega, h3⟩

/-! ### Termination of the outer loop -/

theorem pass_mono (f : Vec n → Vec n) {L : LinAlg n} (P : QParams n)
    (jacEval : Vec n → Vec n → (Fin n → Fin n → ℝ) × List (Vec n)) (niter : ℕ) (s : QState n L) (fuel : ℕ) (q : Pass n L)
    (hle : P.fuel ≤ fuel) (h : pass f L P jacEval niter s = some q) :
    pass f L { P with fuel := fuel } jacEval niter s = some q := by
  unfold pass at h ⊢
  dsimp only
  generalize (if P.broyden = false ∨ s.restart = true then L.factor s.J else s.S) = a at h ⊢
  cases a with
  | none => exact h
  | some S =>
    dsimp only at h ⊢
    cases hb : L.solve S s.fc with
    | error e => rw [hb] at h; exact h
    | ok v =>
      rw [hb] at h
      obtain ⟨p, gc, S'⟩ := v
      dsimp only at h ⊢
      cases hc : globalStep P.gm P.fuel f P.sclf s.xc s.fc gc p (L.Rmat S') P.tolx P.sclx P.maxlen s.trustlen with
      | none => rw [hc] at h; simp at h
      | some o =>
        rw [hc] at h
        rw [globalStep_mono _ _ fuel _ _ _ _ _ _ _ _ _ _ _ _ hle hc]
        exact h

theorem qnLoop_terminates (f : Vec n → Vec n) {L : LinAlg n} (P : QParams n)
    (jacEval : Vec n → Vec n → (Fin n → Fin n → ℝ) × List (Vec n))
    (hg : ∀ S fc p gc S' xc t, L.solve S fc = .ok (p, gc, S') → ∃ N o,
      globalStep P.gm N f P.sclf xc fc gc p (L.Rmat S') P.tolx P.sclx P.maxlen t = some o) (m : ℕ) :
    ∀ (niter : ℕ) (s : QState n L), ∃ N q, ∀ fuel, N ≤ fuel →
      qnLoop f L { P with fuel := fuel } jacEval m niter s = some q := by
  induction m with
  | zero =>
    intro niter s
    by_cases h : niter = 0
    · exact ⟨0, .error .NameError, fun fuel _ => by simp [qnLoop, h]⟩
    · exact ⟨0, _, fun fuel _ => by unfold qnLoop; rw [if_neg h]⟩
  | succ m ih =>
    intro niter s
    have hpass : ∃ N q, pass f L { P with fuel := N } jacEval (niter + 1) s = some q := by
      cases hfac : (if P.broyden = false ∨ s.restart = true then L.factor s.J else s.S) with
      | none => exact ⟨0, _, by unfold pass; dsimp only; rw [hfac]⟩
      | some S =>
        cases hb : L.solve S s.fc with
        | error e => exact ⟨0, .raise e, by unfold pass; dsimp only; rw [hfac]; dsimp only; rw [hb]⟩
        | ok v =>
          obtain ⟨p, gc, S'⟩ := v
          obtain ⟨N, o, ho⟩ := hg S s.fc p gc S' s.xc s.trustlen hb
          refine ⟨N, ?_⟩
          unfold pass; dsimp only; rw [hfac]; dsimp only; rw [hb]; dsimp only
          rw [ho]
          cases o with
          | error e => exact ⟨_, rfl⟩
          | ok o => exact ⟨_, rfl⟩
    obtain ⟨N, q, hN⟩ := hpass
    have hall : ∀ fuel, N ≤ fuel → pass f L { P with fuel := fuel } jacEval (niter + 1) s = some q := by
      intro fuel hf
      exact pass_mono f { P with fuel := N } jacEval (niter + 1) s fuel q hf hN
    cases q with
    | raise e => exact ⟨N, .error e, fun fuel hf => by unfold qnLoop; rw [hall fuel hf]⟩
    | stop r calls => exact ⟨N, .ok (r, calls), fun fuel hf => by unfold qnLoop; rw [hall fuel hf]⟩
    | next s' =>
      obtain ⟨N', q', h'⟩ := ih (niter + 1) s'
      refine ⟨max N N', q', fun fuel hf => ?_⟩
      obtain ⟨h1, h2⟩ := max_le_iff.mp hf
      unfold qnLoop
      rw [hall fuel h1]
      exact h' fuel h2

/-! ### Monotone decrease with the line search -/

theorem afterStep_merit (f : Vec n → Vec n) {L : LinAlg n} (P : QParams n)
    (jacEval : Vec n → Vec n → (Fin n → Fin n → ℝ) × List (Vec n)) (niter : ℕ) (s : QState n L) (S : L.S)
    (o : GMOut n) (B : ℝ) (hf : s.fc = f s.xc) (hs : merit P.sclf s.fc ≤ B)
    (ho : o.success = true → o.fp = f o.xp ∧ merit P.sclf o.fp ≤ B) (hbad : o.success = false → o.xp = s.xc) :
    (∀ r calls, afterStep P jacEval niter s S o = .stop r calls → merit P.sclf (f r.x) ≤ B) ∧
    (∀ s', afterStep P jacEval niter s S o = .next s' → s'.fc = f s'.xc ∧ merit P.sclf s'.fc ≤ B) := by
  unfold afterStep
  dsimp only
  split_ifs with h1 h2 h3 h4 h5 h6
  · refine ⟨fun r calls h => by simp at h, fun s' h => ?_⟩
    simp only [Pass.next.injEq] at h
    subst h
    exact ⟨hf, hs⟩
  · refine ⟨fun r calls h => ?_, fun s' h => by simp at h⟩
    simp only [Pass.stop.injEq] at h
    obtain ⟨rfl, rfl⟩ := h
    rw [show (⟨false, QMsg.globalFail, s.nfeval + o.nfeval, s.njeval, niter, o.xp, o.fp⟩ : QResult n).x = s.xc from hbad h2,
      ← hf]
    exact hs
  all_goals have hok : o.success = true := by simpa using h2
  iterate 3
    refine ⟨fun r calls h => ?_, fun s' h => by simp at h⟩
    simp only [Pass.stop.injEq] at h
    obtain ⟨rfl, rfl⟩ := h
    dsimp only
    rw [← (ho hok).1]
    exact (ho hok).2
  · cases hb : L.broyden s.xc o.xp s.fc o.fp S with
    | error e => exact ⟨fun r calls h => by simp at h, fun s' h => by simp at h⟩
    | ok S' =>
      refine ⟨fun r calls h => by simp at h, fun s' h => ?_⟩
      simp only [Pass.next.injEq] at h
      subst h
      exact ho hok
  · refine ⟨fun r calls h => by simp at h, fun s' h => ?_⟩
    simp only [Pass.next.injEq] at h
    subst h
    exact ho hok

theorem lineSearch_slope (gc p sclx : Vec n) (maxlen : ℝ) (hmax : 0 ≤ maxlen) (h : dot gc p ≤ 0) :
    dot gc (if norm2 sclx p > maxlen then fun i => p i * (maxlen / norm2 sclx p) else p) ≤ 0 := by
  split_ifs with h1
  · have : dot gc (fun i => p i * (maxlen / norm2 sclx p)) = dot gc p * (maxlen / norm2 sclx p) := by
      unfold dot; rw [Finset.sum_mul]; exact Finset.sum_congr rfl fun i _ => by ring
    rw [this]
    exact mul_nonpos_of_nonpos_of_nonneg h (div_nonneg hmax (norm2_nonneg _ _))
  · exact h

theorem qnLoop_merit (f : Vec n → Vec n) {L : LinAlg n} (P : QParams n)
    (jacEval : Vec n → Vec n → (Fin n → Fin n → ℝ) × List (Vec n)) (B : ℝ)
    (hg : ∀ S fc p gc S' xc t o, L.solve S fc = .ok (p, gc, S') → merit P.sclf fc ≤ B →
      globalStep P.gm P.fuel f P.sclf xc fc gc p (L.Rmat S') P.tolx P.sclx P.maxlen t = some (.ok o) →
      o.success = true → merit P.sclf o.fp ≤ B) (hscl : ∀ i, 0 < P.sclx i) (m : ℕ) :
    ∀ (niter : ℕ) (s : QState n L) (r : QResult n) (calls : List (Vec n)), s.fc = f s.xc → merit P.sclf s.fc ≤ B →
      qnLoop f L P jacEval m niter s = some (.ok (r, calls)) → merit P.sclf (f r.x) ≤ B := by
  induction m with
  | zero =>
    intro niter s r calls hf hs h
    unfold qnLoop at h
    split_ifs at h with h0
    · simp at h
    simp only [Option.some.injEq, Except.ok.injEq, Prod.mk.injEq] at h
    obtain ⟨rfl, rfl⟩ := h
    rw [hf] at hs
    exact hs
  | succ m ih =>
    intro niter s r calls hf hs h
    have hpass : (∀ r calls, pass f L P jacEval (niter + 1) s = some (.stop r calls) →
          merit P.sclf (f r.x) ≤ B) ∧
        (∀ s', pass f L P jacEval (niter + 1) s = some (.next s') → s'.fc = f s'.xc ∧ merit P.sclf s'.fc ≤ B) := by
      unfold pass
      split
      · refine ⟨fun r calls h => ?_, fun s' h => by simp at h⟩
        simp only [Option.some.injEq, Pass.stop.injEq] at h
        obtain ⟨rfl, rfl⟩ := h
        rw [hf] at hs
        exact hs
      · rename_i S _
        split
        · exact ⟨fun r calls h => by simp at h, fun s' h => by simp at h⟩
        · rename_i hsol
          split
          · exact ⟨fun r calls h => by simp at h, fun s' h => by simp at h⟩
          · exact ⟨fun r calls h => by simp at h, fun s' h => by simp at h⟩
          · rename_i o hgs
            obtain ⟨a, b⟩ := afterStep_merit f P jacEval (niter + 1) s _ o B hf hs
              (fun ho => ⟨(globalStep_spec _ _ _ _ _ _ _ _ _ _ _ _ _ _ hscl hgs).ok ho, hg _ _ _ _ _ _ _ _ hsol hs hgs ho⟩)
              (fun ho => ((globalStep_spec _ _ _ _ _ _ _ _ _ _ _ _ _ _ hscl hgs).bad ho).1)
            exact ⟨fun r calls h => a r calls (by simpa using h), fun s' h => b s' (by simpa using h)⟩
    unfold qnLoop at h
    split at h
    · simp at h
    · simp at h
    · rename_i hp
      simp only [Option.some.injEq, Except.ok.injEq, Prod.mk.injEq] at h
      obtain ⟨rfl, rfl⟩ := h
      exact hpass.1 _ _ hp
    · rename_i s' hp
      exact ih _ _ _ _ (hpass.2 _ hp).1 (hpass.2 _ hp).2 h

theorem norm2_pos (scl v : Vec n) (hs : ∀ i, scl i ≠ 0) (hv : v ≠ 0) : 0 < norm2 scl v := by
  obtain ⟨i, hi⟩ := Function.ne_iff.mp hv
  refine lt_of_lt_of_le ?_ (abs_le_norm2 scl v i)
  exact abs_pos.mpr (mul_ne_zero (hs i) hi)

theorem belowMin_eventually (tolx : ℝ) (htol : 0 < tolx) (M : ℝ) (hM : 0 ≤ M) :
    ∃ k : ℕ, ∀ l, l ≤ 51 / 100 * (1 / 2) ^ k → belowMin l tolx M := by
  unfold belowMin
  by_cases h : M = 0
  · exact ⟨0, fun l _ => by rw [if_pos h]; exact htol⟩
  · have hM0 : 0 < M := lt_of_le_of_ne hM (Ne.symm h)
    obtain ⟨k, hk⟩ := exists_pow_lt_of_lt_one (show 0 < tolx / M by positivity) (show (1 / 2 : ℝ) < 1 by norm_num)
    refine ⟨k, fun l hl => ?_⟩
    rw [if_neg h]
    have : (0 : ℝ) < (1 / 2) ^ k := by positivity
    linarith

theorem afterStep_not_x0 {L : LinAlg n} (P : QParams n)
    (jacEval : Vec n → Vec n → (Fin n → Fin n → ℝ) × List (Vec n)) (niter : ℕ) (s : QState n L) (S : L.S)
    (o : GMOut n) (r : QResult n) (calls : List (Vec n)) (h : afterStep P jacEval niter s S o = .stop r calls) :
    r.message ≠ .x0 := by
  unfold afterStep at h
  dsimp only at h
  split_ifs at h
  · simp only [Pass.stop.injEq] at h; obtain ⟨rfl, rfl⟩ := h; simp
  · simp only [Pass.stop.injEq] at h; obtain ⟨rfl, rfl⟩ := h; simp
  · simp only [Pass.stop.injEq] at h; obtain ⟨rfl, rfl⟩ := h; simp
  · simp only [Pass.stop.injEq] at h; obtain ⟨rfl, rfl⟩ := h; simp
  · split at h <;> simp at h

theorem qnLoop_not_x0 (f : Vec n → Vec n) {L : LinAlg n} (P : QParams n)
    (jacEval : Vec n → Vec n → (Fin n → Fin n → ℝ) × List (Vec n)) (m : ℕ) :
    ∀ (niter : ℕ) (s : QState n L) (r : QResult n) (calls : List (Vec n)),
      qnLoop f L P jacEval m niter s = some (.ok (r, calls)) → r.message ≠ .x0 := by
  induction m with
  | zero =>
    intro niter s r calls h
    unfold qnLoop at h
    split_ifs at h with h0
    · simp at h
    · simp only [Option.some.injEq, Except.ok.injEq, Prod.mk.injEq] at h
      obtain ⟨rfl, rfl⟩ := h
      simp
  | succ m ih =>
    intro niter s r calls h
    unfold qnLoop at h
    split at h
    · simp at h
    · simp at h
    · rename_i hp
      simp only [Option.some.injEq, Except.ok.injEq, Prod.mk.injEq] at h
      obtain ⟨rfl, rfl⟩ := h
      unfold pass at hp
      split at hp
      · simp only [Option.some.injEq, Pass.stop.injEq] at hp
        obtain ⟨rfl, rfl⟩ := hp
        simp
      · split at hp
        · simp at hp
        · split at hp
          · simp at hp
          · simp at hp
          · exact afterStep_not_x0 P jacEval _ _ _ _ _ _ (by simpa using hp)
    · exact ih _ _ _ _ h

/-! ### The history of a run -/

/-- The bookkeeping of the loop agrees with the history. -/
structure Tracks (f : Vec n → Vec n) {L : LinAlg n} (P : QParams n) (x0 : Vec n) (hist : List (Step n)) (s : QState n L) : Prop where
  real : History f L P x0 hist
  going : Ongoing P hist
  xc : s.xc = here x0 hist
  fc : s.fc = f s.xc
  restart : s.restart = true ↔ ∀ b t, hist = b :: t → b.o.success = false
  run : s.nmaxsteps = maxRun hist

theorem maxRun_cons (a : Step n) (t : List (Step n)) : maxRun (a :: t) = countMax a.o.ismaxstep (maxRun t) := by
  unfold maxRun countMax
  rw [List.takeWhile_cons]
  split_ifs <;> simp

theorem smallStep_iff (xc xp sclx : Vec n) (tolx : ℝ) (h : ∀ i, 0 < sclx i) :
    smallStep xc xp sclx tolx ↔ ∀ i, |xp i - xc i| ≤ tolx * max |xp i| (1 / sclx i) := by
  unfold smallStep
  refine forall_congr' fun i => ?_
  have := scale_pos xp sclx h i
  rw [abs_div, abs_of_pos this, div_le_iff₀ this]

theorem Tracks.tail {f : Vec n → Vec n} {L : LinAlg n} {P : QParams n} {x0 : Vec n} {hist : List (Step n)} {s : QState n L}
    (h : Tracks f P x0 hist s) : Ongoing P hist.tail := by
  cases hist with
  | nil => trivial
  | cons a t => exact h.going.2

theorem afterStep_tracks (f : Vec n → Vec n) {L : LinAlg n} (P : QParams n)
    (jacEval : Vec n → Vec n → (Fin n → Fin n → ℝ) × List (Vec n)) (x0 : Vec n) (hscl : ∀ i, 0 < P.sclx i) (hist : List (Step n)) (s : QState n L) (S : L.S)
    (o : GMOut n) (hs : Tracks f P x0 hist s) (hh : History f L P x0 (⟨s.xc, o⟩ :: hist)) (ho : GMSpec f s.xc P.sclx P.tolx o) :
    (∀ r calls, afterStep P jacEval (hist.length + 1) s S o = .stop r calls → Explains P x0 (⟨s.xc, o⟩ :: hist) r) ∧
    (∀ s', afterStep P jacEval (hist.length + 1) s S o = .next s' → Tracks f P x0 (⟨s.xc, o⟩ :: hist) s') := by
  have hrun : countMax o.ismaxstep s.nmaxsteps = maxRun (⟨s.xc, o⟩ :: hist) := by rw [maxRun_cons, hs.run]
  unfold afterStep
  dsimp only
  split_ifs with h1 h2 h3 h4 h5 h6
  · refine ⟨fun r calls h => by simp at h, fun s' h => ?_⟩
    simp only [Pass.next.injEq] at h
    subst h
    refine ⟨hh, ⟨⟨fun _ => ?_, fun h => by simp only [h1.1] at h; simp at h⟩, hs.going⟩, ?_, hs.fc, ?_, hrun⟩
    · have := hs.restart.not.mp (by simp [h1.2])
      push Not at this
      obtain ⟨b, t, e1, e2⟩ := this
      exact ⟨b, t, e1, by simpa using e2⟩
    · simp [here, h1.1, newJac]
    · simp [h1.1]
  · have hr : s.restart = true := by
      by_contra hc
      exact h1 ⟨h2, by simpa using hc⟩
    refine ⟨fun r calls h => ?_, fun s' h => by simp at h⟩
    simp only [Pass.stop.injEq] at h
    obtain ⟨rfl, rfl⟩ := h
    exact ⟨by simp [here, h2, (ho.bad h2).1], fun _ => by simp, by simp, by simp, hs.going, by simp, by simp, by simp,
      fun _ => ⟨_, _, rfl, h2, hs.restart.mp hr⟩⟩
  all_goals have hok : o.success = true := by simpa using h2
  · refine ⟨fun r calls h => ?_, fun s' h => by simp at h⟩
    simp only [Pass.stop.injEq] at h
    obtain ⟨rfl, rfl⟩ := h
    exact ⟨by simp [here, hok], fun _ => by simp, by simp, by simp, hs.going, fun _ => ⟨_, _, rfl, hok⟩, by simp, by simp, by simp⟩
  · refine ⟨fun r calls h => ?_, fun s' h => by simp at h⟩
    simp only [Pass.stop.injEq] at h
    obtain ⟨rfl, rfl⟩ := h
    exact ⟨by simp [here, hok], fun _ => by simp, by simp, by simp, hs.going, by simp,
      fun _ => ⟨_, _, rfl, hok, (smallStep_iff _ _ _ _ hscl).mp h4⟩, by simp, by simp⟩
  · refine ⟨fun r calls h => ?_, fun s' h => by simp at h⟩
    simp only [Pass.stop.injEq] at h
    obtain ⟨rfl, rfl⟩ := h
    exact ⟨by simp [here, hok], fun _ => by simp, by simp, by simp, hs.going, by simp, by simp,
      fun _ => ⟨h5.1, by rw [← hrun]; exact h5.2⟩, by simp⟩
  all_goals
    have hcont : Continued P ⟨s.xc, o⟩ hist := by
      refine ⟨fun h => by simp only [hok] at h; simp at h, fun _ => ⟨?_, ?_, fun hg => ?_⟩⟩
      · unfold scaledNormLe at h3
        push Not at h3
        exact h3
      · rw [smallStep_iff _ _ _ _ hscl] at h4
        push Not at h4
        exact h4
      · rw [← hrun]
        by_contra hc
        exact h5 ⟨hg, by omega⟩
  · refine ⟨fun r calls h => by split at h <;> simp at h, fun s' h => ?_⟩
    split at h
    · simp at h
    · simp only [Pass.next.injEq] at h
      subst h
      exact ⟨hh, ⟨hcont, hs.going⟩, by simp [here, hok], ho.ok hok, by simp [hok], hrun⟩
  · refine ⟨fun r calls h => by simp at h, fun s' h => ?_⟩
    simp only [Pass.next.injEq] at h
    subst h
    exact ⟨hh, ⟨hcont, hs.going⟩, by simp [here, hok], ho.ok hok, by simp [hok], hrun⟩

theorem qnLoop_tracks (f : Vec n → Vec n) {L : LinAlg n} (P : QParams n)
    (jacEval : Vec n → Vec n → (Fin n → Fin n → ℝ) × List (Vec n)) (x0 : Vec n) (hscl : ∀ i, 0 < P.sclx i) (m : ℕ) :
    ∀ (hist : List (Step n)) (s : QState n L) (r : QResult n) (calls : List (Vec n)), Tracks f P x0 hist s → hist.length + m = P.maxiter →
      qnLoop f L P jacEval m hist.length s = some (.ok (r, calls)) → ∃ hist, History f L P x0 hist ∧ Explains P x0 hist r := by
  induction m with
  | zero =>
    intro hist s r calls hs hm h
    unfold qnLoop at h
    split_ifs at h with h0
    · simp at h
    · simp only [Option.some.injEq, Except.ok.injEq, Prod.mk.injEq] at h
      obtain ⟨rfl, rfl⟩ := h
      exact ⟨hist, hs.real, hs.xc, fun _ => rfl, by simp, fun _ => ⟨by simpa using hm, hs.going⟩, hs.tail, by simp, by simp, by simp, by simp⟩
  | succ m ih =>
    intro hist s r calls hs hm h
    unfold qnLoop pass at h
    split at h
    · simp at h
    · simp at h
    · rename_i r' c' hp
      simp only [Option.some.injEq, Except.ok.injEq, Prod.mk.injEq] at h
      obtain ⟨rfl, rfl⟩ := h
      split at hp
      · simp only [Option.some.injEq, Pass.stop.injEq] at hp
        obtain ⟨rfl, rfl⟩ := hp
        exact ⟨hist, hs.real, hs.xc, by simp, fun _ => ⟨rfl, hs.going⟩, by simp, hs.tail, by simp, by simp, by simp, by simp⟩
      · split at hp
        · simp at hp
        · split at hp
          · simp at hp
          · simp at hp
          · rename_i o ho
            simp only [Option.some.injEq] at hp
            have hh : History f L P x0 (⟨s.xc, o⟩ :: hist) := by
              have := hs.xc
              rw [this]
              exact .cons hs.real _ _ _ _ _ (by rw [← this, ← hs.fc]; exact ho)
            exact ⟨_, hh, (afterStep_tracks f P jacEval x0 hscl hist s _ o hs hh (globalStep_spec _ _ _ _ _ _ _ _ _ _ _ _ _ _ hscl ho)).1 _ _ hp⟩
    · rename_i s' hp
      split at hp
      · simp at hp
      · split at hp
        · simp at hp
        · split at hp
          · simp at hp
          · simp at hp
          · rename_i o ho
            simp only [Option.some.injEq] at hp
            have hh : History f L P x0 (⟨s.xc, o⟩ :: hist) := by
              have := hs.xc
              rw [this]
              exact .cons hs.real _ _ _ _ _ (by rw [← this, ← hs.fc]; exact ho)
            have hs' := (afterStep_tracks f P jacEval x0 hscl hist s _ o hs hh (globalStep_spec _ _ _ _ _ _ _ _ _ _ _ _ _ _ hscl ho)).2 _ hp
            exact ih (⟨s.xc, o⟩ :: hist) s' r calls hs' (by simp; omega) h

end Verif.RootsVector
