import Mathlib.Analysis.Complex.Exponential
import Mathlib.Analysis.SpecialFunctions.Log.Basic
import Mathlib.Analysis.SpecialFunctions.Log.Base
import Mathlib.Analysis.SpecialFunctions.Pow.Real
import Mathlib.Analysis.Real.Pi.Bounds
import Mathlib.Tactic.NormNum
import Mathlib.Tactic.Linarith
import Mathlib.Tactic.Positivity
import Mathlib.Tactic.FieldSimp
import Mathlib.Tactic.Ring

/-!
# Verified interval arithmetic

Closed real expressions are enclosed in intervals with end points `n / 2^128`, computed by the kernel. Nothing here is about the modelled code: it
is used to prove numerical inequalities about its values.
-/

namespace Verif.Iv

/-- The scale `2^128`. -/
def S : ℤ := 340282366920938463463374607431768211456

theorem S_pos : (0 : ℝ) < (S : ℝ) := by norm_num [S]

/-- An interval `[lo / S, hi / S]`. -/
structure I where
  lo : ℤ
  hi : ℤ

def Mem (x : ℝ) (i : I) : Prop := (i.lo : ℝ) ≤ x * S ∧ x * S ≤ i.hi

/-- Rounding up. -/
def cdiv (a b : ℤ) : ℤ := -((-a) / b)

theorem fdiv_le (a : ℤ) {b : ℤ} (hb : 0 < b) : ((a / b : ℤ) : ℝ) ≤ (a : ℝ) / b := by
  rw [le_div_iff₀ (by exact_mod_cast hb)]
  exact_mod_cast Int.ediv_mul_le a hb.ne'

theorem le_cdiv (a : ℤ) {b : ℤ} (hb : 0 < b) : (a : ℝ) / b ≤ ((cdiv a b : ℤ) : ℝ) := by
  have := fdiv_le (-a) hb
  unfold cdiv
  push_cast at this ⊢
  rw [neg_div] at this
  linarith

def I.rat (n : ℤ) (d : ℕ) : I := ⟨n * S / d, cdiv (n * S) d⟩

theorem mem_rat (n : ℤ) {d : ℕ} (hd : 0 < d) : Mem ((n : ℝ) / d) (I.rat n d) := by
  have hd' : (0 : ℤ) < d := by exact_mod_cast hd
  have h1 := fdiv_le (n * S) hd'
  have h2 := le_cdiv (n * S) hd'
  push_cast at h1 h2
  constructor
  · rw [div_mul_eq_mul_div]; exact h1
  · rw [div_mul_eq_mul_div]; exact h2

def I.add (a b : I) : I := ⟨a.lo + b.lo, a.hi + b.hi⟩

theorem mem_add {x y : ℝ} {a b : I} (hx : Mem x a) (hy : Mem y b) : Mem (x + y) (a.add b) := by
  obtain ⟨h1, h2⟩ := hx
  obtain ⟨h3, h4⟩ := hy
  constructor <;> simp only [I.add] <;> push_cast <;> linarith

def I.neg (a : I) : I := ⟨-a.hi, -a.lo⟩

theorem mem_neg {x : ℝ} {a : I} (hx : Mem x a) : Mem (-x) a.neg := by
  obtain ⟨h1, h2⟩ := hx
  constructor <;> simp only [I.neg] <;> push_cast <;> linarith

def I.mul (a b : I) : I :=
  ⟨min (min (a.lo * b.lo) (a.lo * b.hi)) (min (a.hi * b.lo) (a.hi * b.hi)) / S,
    cdiv (max (max (a.lo * b.lo) (a.lo * b.hi)) (max (a.hi * b.lo) (a.hi * b.hi))) S⟩

theorem mul_bounds {x y l h l' h' : ℝ} (h1 : l ≤ x) (h2 : x ≤ h) (h3 : l' ≤ y) (h4 : y ≤ h') :
    min (min (l * l') (l * h')) (min (h * l') (h * h')) ≤ x * y ∧ x * y ≤ max (max (l * l') (l * h')) (max (h * l') (h * h')) := by
  constructor
  · rcases le_total 0 y with hy | hy
    · rcases le_total 0 l with hl | hl
      · exact ((min_le_left _ _).trans (min_le_left _ _)).trans ((mul_le_mul_of_nonneg_left h3 hl).trans (mul_le_mul_of_nonneg_right h1 hy))
      · exact ((min_le_left _ _).trans (min_le_right _ _)).trans ((mul_le_mul_of_nonpos_left h4 hl).trans (mul_le_mul_of_nonneg_right h1 hy))
    · rcases le_total 0 h with hl | hl
      · exact ((min_le_right _ _).trans (min_le_left _ _)).trans ((mul_le_mul_of_nonneg_left h3 hl).trans (mul_le_mul_of_nonpos_right h2 hy))
      · exact ((min_le_right _ _).trans (min_le_right _ _)).trans ((mul_le_mul_of_nonpos_left h4 hl).trans (mul_le_mul_of_nonpos_right h2 hy))
  · rcases le_total 0 y with hy | hy
    · rcases le_total 0 h with hl | hl
      · exact (mul_le_mul_of_nonneg_right h2 hy).trans ((mul_le_mul_of_nonneg_left h4 hl).trans ((le_max_right _ _).trans (le_max_right _ _)))
      · exact (mul_le_mul_of_nonneg_right h2 hy).trans ((mul_le_mul_of_nonpos_left h3 hl).trans ((le_max_left _ _).trans (le_max_right _ _)))
    · rcases le_total 0 l with hl | hl
      · exact (mul_le_mul_of_nonpos_right h1 hy).trans ((mul_le_mul_of_nonneg_left h4 hl).trans ((le_max_right _ _).trans (le_max_left _ _)))
      · exact (mul_le_mul_of_nonpos_right h1 hy).trans ((mul_le_mul_of_nonpos_left h3 hl).trans ((le_max_left _ _).trans (le_max_left _ _)))

theorem mem_mul {x y : ℝ} {a b : I} (hx : Mem x a) (hy : Mem y b) : Mem (x * y) (a.mul b) := by
  obtain ⟨h1, h2⟩ := mul_bounds hx.1 hx.2 hy.1 hy.2
  have e : x * y * S = x * S * (y * S) / S := by field_simp
  constructor
  · rw [e]
    refine (fdiv_le _ (by norm_num [S])).trans ?_
    push_cast
    exact div_le_div_of_nonneg_right h1 S_pos.le
  · rw [e]
    refine le_trans ?_ (le_cdiv _ (by norm_num [S]))
    push_cast
    exact div_le_div_of_nonneg_right h2 S_pos.le

/-- Reciprocal of a positive interval. -/
def I.invPos (a : I) : I := ⟨S * S / a.hi, cdiv (S * S) a.lo⟩

theorem mem_invPos {x : ℝ} {a : I} (hx : Mem x a) (h : 0 < a.lo) : Mem x⁻¹ a.invPos := by
  obtain ⟨h1, h2⟩ := hx
  have hlo : (0 : ℝ) < a.lo := by exact_mod_cast h
  have hxS : 0 < x * S := hlo.trans_le h1
  have hhi : (0 : ℝ) < a.hi := hxS.trans_le h2
  have hx0 : 0 < x := pos_of_mul_pos_left hxS S_pos.le
  have e : x⁻¹ * S = S * S / (x * S) := by have := S_pos; field_simp
  constructor
  · rw [e]
    refine (fdiv_le _ (by exact_mod_cast hhi)).trans ?_
    push_cast
    exact div_le_div_of_nonneg_left (mul_self_nonneg _) hxS h2
  · rw [e]
    refine le_trans ?_ (le_cdiv _ h)
    push_cast
    exact div_le_div_of_nonneg_left (mul_self_nonneg _) hlo h1

def I.inv (a : I) : Option I :=
  if 0 < a.lo then some a.invPos else if a.hi < 0 then some a.neg.invPos.neg else none

theorem mem_inv {x : ℝ} {a b : I} (hx : Mem x a) (h : a.inv = some b) : Mem x⁻¹ b := by
  unfold I.inv at h
  split_ifs at h with h1 h2
  · cases h
    exact mem_invPos hx h1
  · cases h
    have := mem_neg (mem_invPos (mem_neg hx) (by simpa [I.neg] using h2))
    rwa [inv_neg, neg_neg] at this

/-! ### Exponential -/

def I.one : I := ⟨S, S⟩

theorem mem_one : Mem 1 I.one := by constructor <;> simp [I.one]

def I.divN (a : I) (n : ℕ) : I := ⟨a.lo / n, cdiv a.hi n⟩

theorem mem_divN {x : ℝ} {a : I} (hx : Mem x a) {n : ℕ} (hn : 0 < n) : Mem (x / n) (a.divN n) := by
  have hn' : (0 : ℤ) < n := by exact_mod_cast hn
  have hn0 : (0 : ℝ) < n := by exact_mod_cast hn
  constructor
  · refine (fdiv_le _ hn').trans ?_
    push_cast
    rw [div_mul_eq_mul_div]
    exact div_le_div_of_nonneg_right hx.1 hn0.le
  · refine le_trans ?_ (le_cdiv _ hn')
    push_cast
    rw [div_mul_eq_mul_div]
    exact div_le_div_of_nonneg_right hx.2 hn0.le

/-- `n` further terms of the exponential series, from the `m`-th on. -/
def expLoop (y : I) : ℕ → ℕ → I → I → I
  | 0, _, _, s => s
  | n + 1, m, t, s => expLoop y n (m + 1) ((t.mul y).divN (m + 1)) (s.add t)

theorem mem_expLoop {x : ℝ} {y : I} (hy : Mem x y) : ∀ (n m : ℕ) (t s : I), Mem (x ^ m / m.factorial) t → Mem (∑ i ∈ Finset.range m, x ^ i / i.factorial) s →
    Mem (∑ i ∈ Finset.range (m + n), x ^ i / i.factorial) (expLoop y n m t s)
  | 0, m, t, s, _, hs => by simpa [expLoop] using hs
  | n + 1, m, t, s, ht, hs => by
    have h1 : Mem (x ^ (m + 1) / (m + 1).factorial) ((t.mul y).divN (m + 1)) := by
      have := mem_divN (mem_mul ht hy) (Nat.succ_pos m)
      convert this using 1
      rw [Nat.factorial_succ, pow_succ]
      push_cast
      field_simp
    have h2 : Mem (∑ i ∈ Finset.range (m + 1), x ^ i / i.factorial) (s.add t) := by
      rw [Finset.sum_range_succ]
      exact mem_add hs ht
    have := mem_expLoop hy n (m + 1) _ _ h1 h2
    rw [show m + 1 + n = m + (n + 1) by omega] at this
    exact this

/-- Exponential of a small number, with 30 terms. -/
def expSmall (y : I) : I :=
  let s := expLoop y 30 0 I.one ⟨0, 0⟩
  ⟨s.lo - 1, s.hi + 1⟩

theorem mem_expSmall {x : ℝ} {y : I} (hy : Mem x y) (h : |x| ≤ 1 / 8) : Mem (Real.exp x) (expSmall y) := by
  have h1 := mem_expLoop hy 30 0 I.one ⟨0, 0⟩ (by simpa using mem_one) (by simp [Mem])
  have h2 := Real.exp_bound (x := x) (h.trans (by norm_num)) (n := 30) (by norm_num)
  have h3 : |x| ^ 30 * ((Nat.succ 30 : ℕ) / ((Nat.factorial 30 : ℕ) * (30 : ℕ)) : ℝ) ≤ 1 / S := by
    have : |x| ^ 30 ≤ (1 / 8) ^ 30 := pow_le_pow_left₀ (abs_nonneg _) h 30
    refine (mul_le_mul_of_nonneg_right this (by positivity)).trans ?_
    norm_num [S, Nat.factorial]
  have h4 := abs_le.1 (h2.trans h3)
  have hS := S_pos
  have h5 : 1 / (S : ℝ) * S = 1 := by field_simp
  rw [zero_add] at h1
  obtain ⟨h6, h7⟩ := h1
  constructor
  · simp only [expSmall]
    push_cast
    nlinarith
  · simp only [expSmall]
    push_cast
    nlinarith

/-- `k` squarings. -/
def sqN : ℕ → I → I
  | 0, a => a
  | k + 1, a => sqN k (a.mul a)

theorem mem_sqN : ∀ (k : ℕ) {x : ℝ} {a : I}, Mem x a → Mem (x ^ 2 ^ k) (sqN k a)
  | 0, x, a, h => by simpa [sqN] using h
  | k + 1, x, a, h => by
    have := mem_sqN k (mem_mul h h)
    rw [show x ^ 2 ^ (k + 1) = (x * x) ^ 2 ^ k by rw [← sq, ← pow_mul, ← pow_succ']]
    exact this

/-- Number of halvings. -/
def halvings (x : ℤ) : ℕ := (x.natAbs / S.toNat).log2 + 4

/-- Exponential of `x / S`. -/
def expPt (x : ℤ) : Option I :=
  let k := halvings x
  if 8 * x.natAbs ≤ 2 ^ k * S.toNat then some (sqN k (expSmall ⟨x / 2 ^ k, cdiv x (2 ^ k)⟩)) else none

theorem mem_expPt {x : ℤ} {b : I} (h : expPt x = some b) : Mem (Real.exp (x / S)) b := by
  simp only [expPt] at h
  generalize halvings x = k at h
  split_ifs at h with hk
  cases h
  have hS := S_pos
  have e : Real.exp (x / S) = Real.exp (x / S / 2 ^ k) ^ 2 ^ k := by
    rw [← Real.exp_nat_mul]
    congr 1
    push_cast
    field_simp
  rw [e]
  refine mem_sqN k (mem_expSmall ?_ ?_)
  · have h2 : (0 : ℤ) < 2 ^ k := by positivity
    have e2 : (x : ℝ) / S / 2 ^ k * S = x / 2 ^ k := by field_simp
    constructor
    · rw [e2]
      simpa using fdiv_le x h2
    · rw [e2]
      simpa using le_cdiv x h2
  · have h3 : (8 : ℝ) * |(x : ℝ)| ≤ 2 ^ k * S := by
      have : ((8 * x.natAbs : ℕ) : ℝ) ≤ ((2 ^ k * S.toNat : ℕ) : ℝ) := by exact_mod_cast hk
      have e1 : ((x.natAbs : ℕ) : ℝ) = |(x : ℝ)| := by rw [Nat.cast_natAbs]; simp
      have e2 : ((S.toNat : ℕ) : ℝ) = S := by rw [show S.toNat = 340282366920938463463374607431768211456 from rfl]; norm_num [S]
      push_cast at this
      rw [e2] at this
      push_cast at e1
      linarith
    rw [abs_div, abs_div, abs_of_pos hS, abs_of_pos (by positivity : (0 : ℝ) < 2 ^ k), div_div, div_le_div_iff₀ (by positivity) (by norm_num)]
    linarith

def I.exp (a : I) : Option I :=
  match expPt a.lo, expPt a.hi with
  | some l, some h => some ⟨l.lo, h.hi⟩
  | _, _ => none

theorem mem_exp {x : ℝ} {a b : I} (hx : Mem x a) (h : a.exp = some b) : Mem (Real.exp x) b := by
  unfold I.exp at h
  split at h
  · next l u hl hu =>
    cases h
    have h1 := mem_expPt hl
    have h2 := mem_expPt hu
    have hS := S_pos
    constructor
    · refine h1.1.trans (mul_le_mul_of_nonneg_right (Real.exp_le_exp.2 ?_) hS.le)
      rw [div_le_iff₀ hS]
      exact hx.1
    · refine le_trans (mul_le_mul_of_nonneg_right (Real.exp_le_exp.2 ?_) hS.le) h2.2
      rw [le_div_iff₀ hS]
      exact hx.2
  · cases h

/-! ### Logarithm -/

/-- One step of Halley's iteration for `exp y = x` (its result is checked afterwards). -/
def halley (x y : ℤ) : ℤ :=
  match expPt y with
  | some e => y + 2 * (x - e.lo) * S / (x + e.lo)
  | none => y

/-- Approximate logarithm. -/
def lnGuess (x : ℤ) : ℤ :=
  let y0 : ℤ := ((x.toNat.log2 : ℤ) - 128) * 235865763225513294137944142764154484399
  halley x (halley x (halley x (halley x (halley x y0))))

def chkLo (x l : ℤ) : Option ℤ :=
  match expPt l with
  | some e => if e.hi ≤ x then some l else none
  | none => none

def chkHi (x u : ℤ) : Option ℤ :=
  match expPt u with
  | some e => if x ≤ e.lo then some u else none
  | none => none

theorem chkLo_le {x m l : ℤ} (h : chkLo x m = some l) : Real.exp (l / S) * S ≤ x := by
  unfold chkLo at h
  generalize he : expPt m = o at h
  cases o with
  | none => cases h
  | some e =>
    dsimp only at h
    split_ifs at h with hx
    cases h
    exact (mem_expPt he).2.trans (by exact_mod_cast hx)

theorem le_chkHi {x m l : ℤ} (h : chkHi x m = some l) : (x : ℝ) ≤ Real.exp (l / S) * S := by
  unfold chkHi at h
  generalize he : expPt m = o at h
  cases o with
  | none => cases h
  | some e =>
    dsimp only at h
    split_ifs at h with hx
    cases h
    exact le_trans (by exact_mod_cast hx) (mem_expPt he).1

def lnLo (x : ℤ) : Option ℤ := chkLo x (lnGuess x - 1048576 - S * 4096 / x)

def lnHi (x : ℤ) : Option ℤ := chkHi x (lnGuess x + 1048576 + S * 4096 / x)

def I.log (a : I) : Option I :=
  if 0 < a.lo then
    match lnLo a.lo, lnHi a.hi with
    | some l, some h => some ⟨l, h⟩
    | _, _ => none
  else none

theorem mem_log {x : ℝ} {a b : I} (hx : Mem x a) (h : a.log = some b) : 0 < x ∧ Mem (Real.log x) b := by
  unfold I.log at h
  split_ifs at h with h0
  have hS := S_pos
  have hx0 : 0 < x := by
    have : (0 : ℝ) < a.lo := by exact_mod_cast h0
    exact pos_of_mul_pos_left (this.trans_le hx.1) hS.le
  refine ⟨hx0, ?_⟩
  split at h
  · next l u hl hu =>
    cases h
    have h1 := (chkLo_le hl).trans hx.1
    have h2 := hx.2.trans (le_chkHi hu)
    constructor
    · rw [← div_le_iff₀ hS, Real.le_log_iff_exp_le hx0]
      exact le_of_mul_le_mul_right h1 hS
    · rw [← le_div_iff₀ hS, Real.log_le_iff_le_exp hx0]
      exact le_of_mul_le_mul_right h2 hS
  · cases h

/-! ### Square root -/

/-- Newton iterations for the integer square root (checked afterwards). -/
def isqrtLoop (x : ℕ) : ℕ → ℕ → ℕ
  | 0, y => y
  | k + 1, y => isqrtLoop x k ((y + x / y) / 2)

def isqrt (x : ℕ) : ℕ := isqrtLoop x 12 (2 ^ (x.log2 / 2 + 1))

def I.sqrt (a : I) : Option I :=
  let l := isqrt (a.lo * S).toNat - 2
  let u := isqrt (a.hi * S).toNat + 2
  if 0 ≤ a.lo ∧ ((l * l : ℕ) : ℤ) ≤ a.lo * S ∧ a.hi * S ≤ ((u * u : ℕ) : ℤ) then some ⟨l, u⟩ else none

theorem mem_sqrt {x : ℝ} {a b : I} (hx : Mem x a) (h : a.sqrt = some b) : Mem (Real.sqrt x) b := by
  simp only [I.sqrt] at h
  generalize isqrt (a.lo * S).toNat - 2 = l at h
  generalize isqrt (a.hi * S).toNat + 2 = u at h
  split_ifs at h with hc
  cases h
  obtain ⟨h0, h1, h2⟩ := hc
  have hS := S_pos
  have h0' : (0 : ℝ) ≤ a.lo := by exact_mod_cast h0
  have h1' : (l : ℝ) * l ≤ a.lo * S := by exact_mod_cast h1
  have h2' : (a.hi : ℝ) * S ≤ u * u := by exact_mod_cast h2
  have hx0 : 0 ≤ x := nonneg_of_mul_nonneg_left (h0'.trans hx.1) hS
  constructor
  · rw [← div_le_iff₀ hS]
    apply Real.le_sqrt_of_sq_le
    rw [div_pow, div_le_iff₀ (by positivity)]
    simp only [Int.cast_natCast]
    nlinarith [hx.1]
  · rw [← le_div_iff₀ hS]
    refine Real.sqrt_le_iff.2 ⟨by simp only [Int.cast_natCast]; positivity, ?_⟩
    rw [div_pow, le_div_iff₀ (by positivity)]
    simp only [Int.cast_natCast]
    nlinarith [hx.2]

/-! ### Powers -/

def I.pow (a : I) : ℕ → I
  | 0 => I.one
  | n + 1 => (I.pow a n).mul a

theorem mem_pow {x : ℝ} {a : I} (hx : Mem x a) : ∀ n : ℕ, Mem (x ^ n) (a.pow n)
  | 0 => by simpa [I.pow] using mem_one
  | n + 1 => by rw [pow_succ]; exact mem_mul (mem_pow hx n) hx

def I.rpow (a b : I) : Option I :=
  match a.log with
  | some l => (l.mul b).exp
  | none => none

theorem mem_rpow {x y : ℝ} {a b c : I} (hx : Mem x a) (hy : Mem y b) (h : a.rpow b = some c) : Mem (x ^ y) c := by
  unfold I.rpow at h
  split at h
  · next l hl =>
    obtain ⟨h0, h1⟩ := mem_log hx hl
    rw [Real.rpow_def_of_pos h0]
    exact mem_exp (mem_mul h1 hy) h
  · cases h

/-! ### Expressions -/

/-- A real number with a computed enclosure. -/
class Enc (x : ℝ) where
  i : Option I
  mem : ∀ a, i = some a → Mem x a

/-- Evaluates `o` and continues. -/
def bnd (o : Option I) (f : I → Option I) : Option I :=
  match o with
  | some a => f a
  | none => none

theorem bnd_some {o : Option I} {f : I → Option I} {b : I} (h : bnd o f = some b) : ∃ a, o = some a ∧ f a = some b := by
  cases o with
  | none => cases h
  | some a => exact ⟨a, rfl, h⟩

theorem mem_nat (n : ℕ) : Mem n (I.rat n 1) := by
  have h := mem_rat n one_pos
  rwa [Nat.cast_one, div_one, Int.cast_natCast] at h

instance (priority := low) (n : ℕ) [n.AtLeastTwo] : Enc (no_index (OfNat.ofNat n : ℝ)) := ⟨some (I.rat n 1), by
  rintro a ⟨⟩
  exact mem_nat n⟩

instance : Enc 0 := ⟨some ⟨0, 0⟩, by rintro a ⟨⟩; simp [Mem]⟩

instance : Enc 1 := ⟨some I.one, by rintro a ⟨⟩; exact mem_one⟩

instance (n : ℕ) : Enc (n : ℝ) := ⟨some (I.rat n 1), by
  rintro a ⟨⟩
  exact mem_nat n⟩

instance (m e : ℕ) : Enc (OfScientific.ofScientific m true e : ℝ) := ⟨some (I.rat m (10 ^ e)), by
  rintro a ⟨⟩
  have := mem_rat m (show 0 < 10 ^ e by positivity)
  convert this using 1
  rw [NNRatCast.ofScientific_eq_ite, if_pos rfl, NNRat.cast_divNat_of_ne_zero _ (by positivity)]
  push_cast
  rfl⟩

instance (m e : ℕ) : Enc (OfScientific.ofScientific m false e : ℝ) := ⟨some (I.rat (m * 10 ^ e) 1), by
  rintro a ⟨⟩
  have := mem_rat (m * 10 ^ e) one_pos
  convert this using 1
  rw [NNRatCast.ofScientific_eq_ite, if_neg Bool.false_ne_true]
  push_cast
  rw [div_one]⟩

variable {x y : ℝ}

instance [a : Enc x] [b : Enc y] : Enc (x + y) := ⟨bnd a.i fun a => bnd b.i fun b => some (a.add b), by
  intro c h
  obtain ⟨p, hp, h⟩ := bnd_some h
  obtain ⟨q, hq, h⟩ := bnd_some h
  cases h
  exact mem_add (a.mem _ hp) (b.mem _ hq)⟩

instance [a : Enc x] : Enc (-x) := ⟨bnd a.i fun a => some a.neg, by
  intro c h
  obtain ⟨p, hp, h⟩ := bnd_some h
  cases h
  exact mem_neg (a.mem _ hp)⟩

instance [a : Enc x] [b : Enc y] : Enc (x - y) := ⟨bnd a.i fun a => bnd b.i fun b => some (a.add b.neg), by
  intro c h
  obtain ⟨p, hp, h⟩ := bnd_some h
  obtain ⟨q, hq, h⟩ := bnd_some h
  cases h
  rw [sub_eq_add_neg]
  exact mem_add (a.mem _ hp) (mem_neg (b.mem _ hq))⟩

instance [a : Enc x] [b : Enc y] : Enc (x * y) := ⟨bnd a.i fun a => bnd b.i fun b => some (a.mul b), by
  intro c h
  obtain ⟨p, hp, h⟩ := bnd_some h
  obtain ⟨q, hq, h⟩ := bnd_some h
  cases h
  exact mem_mul (a.mem _ hp) (b.mem _ hq)⟩

instance [a : Enc x] : Enc x⁻¹ := ⟨bnd a.i I.inv, by
  intro c h
  obtain ⟨p, hp, h⟩ := bnd_some h
  exact mem_inv (a.mem _ hp) h⟩

instance [a : Enc x] [b : Enc y] : Enc (x / y) := ⟨bnd a.i fun a => bnd b.i fun b => bnd b.inv fun b => some (a.mul b), by
  intro c h
  obtain ⟨p, hp, h⟩ := bnd_some h
  obtain ⟨q, hq, h⟩ := bnd_some h
  obtain ⟨r, hr, h⟩ := bnd_some h
  cases h
  rw [div_eq_mul_inv]
  exact mem_mul (a.mem _ hp) (mem_inv (b.mem _ hq) hr)⟩

instance [a : Enc x] (n : ℕ) : Enc (x ^ n) := ⟨bnd a.i fun a => some (a.pow n), by
  intro c h
  obtain ⟨p, hp, h⟩ := bnd_some h
  cases h
  exact mem_pow (a.mem _ hp) n⟩

instance [a : Enc x] [b : Enc y] : Enc (x ^ y) := ⟨bnd a.i fun a => bnd b.i fun b => a.rpow b, by
  intro c h
  obtain ⟨p, hp, h⟩ := bnd_some h
  obtain ⟨q, hq, h⟩ := bnd_some h
  exact mem_rpow (a.mem _ hp) (b.mem _ hq) h⟩

instance [a : Enc x] : Enc (Real.exp x) := ⟨bnd a.i I.exp, by
  intro c h
  obtain ⟨p, hp, h⟩ := bnd_some h
  exact mem_exp (a.mem _ hp) h⟩

instance [a : Enc x] : Enc (Real.log x) := ⟨bnd a.i I.log, by
  intro c h
  obtain ⟨p, hp, h⟩ := bnd_some h
  exact (mem_log (a.mem _ hp) h).2⟩

instance [a : Enc x] : Enc (Real.sqrt x) := ⟨bnd a.i I.sqrt, by
  intro c h
  obtain ⟨p, hp, h⟩ := bnd_some h
  exact mem_sqrt (a.mem _ hp) h⟩

theorem mem_max {x y : ℝ} {a b : I} (hx : Mem x a) (hy : Mem y b) : Mem (max x y) ⟨max a.lo b.lo, max a.hi b.hi⟩ := by
  obtain ⟨h1, h2⟩ := hx
  obtain ⟨h3, h4⟩ := hy
  unfold Mem
  rw [max_mul_of_nonneg _ _ S_pos.le]
  push_cast
  exact ⟨max_le_max h1 h3, max_le_max h2 h4⟩

instance [a : Enc x] [b : Enc y] : Enc (max x y) := ⟨bnd a.i fun a => bnd b.i fun b => some ⟨max a.lo b.lo, max a.hi b.hi⟩, by
  intro c h
  obtain ⟨p, hp, h⟩ := bnd_some h
  obtain ⟨q, hq, h⟩ := bnd_some h
  cases h
  exact mem_max (a.mem _ hp) (b.mem _ hq)⟩

instance [a : Enc x] : Enc |x| := ⟨bnd a.i fun a => some ⟨max a.lo a.neg.lo, max a.hi a.neg.hi⟩, by
  intro c h
  obtain ⟨p, hp, h⟩ := bnd_some h
  cases h
  rw [abs_eq_max_neg]
  exact mem_max (a.mem _ hp) (mem_neg (a.mem _ hp))⟩

instance [Enc x] [Enc y] : Enc (Real.logb y x) := inferInstanceAs (Enc (Real.log x / Real.log y))

instance : Enc Real.pi := ⟨some ⟨S * 314159265358979323846 / 10 ^ 20, S * 314159265358979323847 / 10 ^ 20 + 1⟩, by
  rintro a ⟨⟩
  have h1 := Real.pi_gt_d20
  have h2 := Real.pi_lt_d20
  have hS := S_pos
  constructor
  · refine (fdiv_le _ (by norm_num)).trans ?_
    norm_num [S] at h1 ⊢
    linarith
  · norm_num [S] at h2 ⊢
    linarith⟩

/-- The checks, evaluated by the kernel. -/
def leCheck (a b : Option I) : Bool :=
  match a, b with
  | some a, some b => decide (a.hi ≤ b.lo)
  | _, _ => false

def ltCheck (a b : Option I) : Bool :=
  match a, b with
  | some a, some b => decide (a.hi < b.lo)
  | _, _ => false

theorem le_of [a : Enc x] [b : Enc y] (h : leCheck a.i b.i = true) : x ≤ y := by
  unfold leCheck at h
  split at h
  · next p q hp hq =>
    have h := of_decide_eq_true h
    have h1 := (a.mem _ hp).2
    have h2 := (b.mem _ hq).1
    have h3 : (p.hi : ℝ) ≤ q.lo := by exact_mod_cast h
    exact le_of_mul_le_mul_right (h1.trans (h3.trans h2)) S_pos
  · cases h

theorem lt_of [a : Enc x] [b : Enc y] (h : ltCheck a.i b.i = true) : x < y := by
  unfold ltCheck at h
  split at h
  · next p q hp hq =>
    have h := of_decide_eq_true h
    have h1 := (a.mem _ hp).2
    have h2 := (b.mem _ hq).1
    have h3 : (p.hi : ℝ) < q.lo := by exact_mod_cast h
    exact lt_of_mul_lt_mul_right (h1.trans_lt (h3.trans_le h2)) S_pos.le
  · cases h

theorem abs_of {z : ℝ} [Enc x] [Enc y] [Enc z] (h1 : leCheck (Enc.i (x - y)) (Enc.i z) = true) (h2 : leCheck (Enc.i (-z)) (Enc.i (x - y)) = true) :
    |x - y| ≤ z := abs_le.2 ⟨le_of h2, le_of h1⟩

/-- Proves a numerical inequality `x ≤ y`, `x < y` or `|x - y| ≤ z`. -/
macro "iv" : tactic => `(tactic| first
  | exact Verif.Iv.abs_of (by decide +kernel) (by decide +kernel)
  | exact Verif.Iv.lt_of (by decide +kernel)
  | exact Verif.Iv.le_of (by decide +kernel))

example : Real.exp 1 < 2.718281828459045235360287471352663 := by iv
example : 2.718281828459045235360287471352662 < Real.exp 1 := by iv
example : |Real.log 7 - 1.945910149055313305105| ≤ 1e-21 := by iv
example : |(7.5 : ℝ) ^ (-0.56261 : ℝ) - 0.32187| ≤ 1e-5 := by iv

end Verif.Iv
