import Verif.Lemmas.Nozzle
import Verif.Lemmas.Interval

/-!
# Accuracy of the correlation for the critical pressure ratio of the omega method

The correlation and the exact root of `chokeH` both increase with `w`. It is therefore enough to compare them on a grid of values of `L = log w`
fine enough that neither changes by more than the tolerance left. The values on the grid are obtained recursively, with intervals of 64 binary digits, in
the kernel.
-/

namespace Verif.OmegaCrit

open Real Verif.Prv Verif.Nozzle

/-- The scale `2^64`. -/
def S : ℕ := 18446744073709551616

/-- An interval `[lo / S, hi / S]`. -/
structure NI where
  lo : ℕ
  hi : ℕ

/-- Evaluates `n` and continues. -/
def force {β : Type} (n : ℕ) (f : ℕ → β) : β :=
  match n with
  | 0 => f 0
  | k + 1 => f (k + 1)

def NI.frc {β : Type} (a : NI) (f : NI → β) : β := force a.lo fun l => force a.hi fun h => f ⟨l, h⟩

def NI.add (a b : NI) : NI := ⟨a.lo + b.lo, a.hi + b.hi⟩
def NI.sub (a b : NI) : NI := ⟨a.lo - b.hi, a.hi - b.lo⟩
def NI.mul (a b : NI) : NI := ⟨a.lo * b.lo / S, a.hi * b.hi / S + 1⟩
def NI.div (a b : NI) : NI := ⟨a.lo * S / b.hi, a.hi * S / b.lo + 1⟩
def NI.divN (a : NI) (n : ℕ) : NI := ⟨a.lo / n, a.hi / n + 1⟩
def NI.one : NI := ⟨S, S⟩

/-- Enclosures of the quantities of the correlation at one `L = log w`. -/
structure St where
  w : NI
  s : NI
  p : NI
  a : NI
  b : NI
  l : NI
  y : NI
  e : NI

/-- Enclosures of their factors over one step. -/
structure Cs where
  rw : NI
  rs : NI
  rp : NI
  da : NI

/-! Start values and factors, with 64 binary digits (proved right below). -/

def stA : St :=
  ⟨⟨184314430563803950, 184314430563803955⟩, ⟨1843909197792017416, 1843909197792017421⟩,
    ⟨246230857734828143549, 246230857734828143554⟩, ⟨14226112612042580602, 14226112612042580607⟩,
    ⟨275429537542848258328, 275429537542848258333⟩, ⟨49869738697241155749, 49869738697241155754⟩,
    ⟨38459498099244938768, 38459498099244938773⟩, ⟨2293305696703510232, 2293305696703510237⟩⟩
def stB : St :=
  ⟨⟨207242142872075546972, 207242142872075546977⟩, ⟨61829950435434830538, 61829950435434830543⟩,
    ⟨4730042993245815726, 4730042993245815731⟩, ⟨12323107294067546625, 12323107294067546630⟩,
    ⟨23239619631764875257, 23239619631764875262⟩, ⟨4260657076769234510, 4260657076769234515⟩,
    ⟨2846276507683832962, 2846276507683832967⟩, ⟨15809182202515659565, 15809182202515659570⟩⟩
def stC : St :=
  ⟨⟨1532855909481305695372, 1532855909481305695377⟩, ⟨168155287350933276347, 168155287350933276352⟩,
    ⟨1534418806944021801, 1534418806944021806⟩, ⟨11781055530185974669, 11781055530185974674⟩,
    ⟨19918912967611787455, 19918912967611787460⟩, ⟨1416374192439712708, 1416374192439712713⟩,
    ⟨904570635662265131, 904570635662265136⟩, ⟨17563993972503882759, 17563993972503882764⟩⟩
def cs1 : Cs :=
  ⟨⟨18511420796207766183, 18511420796207766188⟩, ⟨18479054138899787319, 18479054138899787324⟩,
    ⟨18410455684412359720, 18410455684412359725⟩, ⟨948116528528484, 948116528528489⟩⟩
def cs2 : Cs :=
  ⟨⟨18554046064306720479, 18554046064306720484⟩, ⟨18500317275119473641, 18500317275119473646⟩,
    ⟨18386647906515439392, 18386647906515439397⟩, ⟨1571164532990061, 1571164532990066⟩⟩
def cs3 : Cs :=
  ⟨⟨18613514109839297247, 18613514109839297252⟩, ⟨18529941475800380316, 18529941475800380321⟩,
    ⟨18353575248329913363, 18353575248329913368⟩, ⟨2438013930501820, 2438013930501825⟩⟩
def cs4 : Cs :=
  ⟨⟨18714298960221393709, 18714298960221393714⟩, ⟨18580039920250247357, 18580039920250247362⟩,
    ⟨18297899977665916144, 18297899977665916149⟩, ⟨3900822288802914, 3900822288802919⟩⟩
def cs5 : Cs :=
  ⟨⟨18989532037464977886, 18989532037464977891⟩, ⟨18716170483692029777, 18716170483692029782⟩,
    ⟨18148214694686222323, 18148214694686222328⟩, ⟨7855822664950316, 7855822664950321⟩⟩
def cs6 : Cs :=
  ⟨⟨19983119295759239692, 19983119295759239697⟩, ⟨19199569980686487848, 19199569980686487853⟩,
    ⟨17634885694809051344, 17634885694809051349⟩, ⟨21671234937793979, 21671234937793984⟩⟩
def tau : NI := ⟨45932392743536781, 45932392743536786⟩
def E1 : NI := ⟨18400868819360274272, 18400868819360274277⟩
def E2 : NI := ⟨18492733699775853350, 18492733699775853355⟩
def c0 : NI := ⟨19269468859396997616, 19269468859396997621⟩
def c1 : NI := ⟨172349774555075709, 172349774555075714⟩

/-- One step of the recursion. -/
def step (c : Cs) (st : St) (f : St → Bool) : Bool :=
  (st.w.mul c.rw).frc fun w => (st.s.mul c.rs).frc fun s => (st.p.mul c.rp).frc fun p => (st.a.sub c.da).frc fun a =>
  (NI.one.add ((c0.sub (c1.mul s)).mul p)).frc fun b =>
  ((st.b.sub b).div b).frc fun z => (z.mul z).frc fun z2 => ((z.sub (z2.divN 2)).add ((z2.mul z).divN 3)).frc fun u => (u.sub ((z2.mul z2).divN 4)).frc fun u' =>
  (st.l.sub ⟨u'.lo, u.hi⟩).frc fun l => (a.mul l).frc fun y =>
  (st.y.sub y).frc fun d => (d.mul d).frc fun d2 => ((NI.one.add d).add (d2.divN 2)).frc fun g => (g.add ((d2.mul d).divN 3)).frc fun g' =>
  (st.e.mul ⟨g.lo, g'.hi⟩).frc fun e =>
  Nat.ble 1 b.lo && (Nat.ble z.hi S && (Nat.ble d.hi S && f ⟨w, s, p, a, b, l, y, e⟩))

/-- The two sides of `chokeH ≥ 0`. -/
def lhs (w q d : NI) : NI := (((w.add w).mul w).mul q).add ((w.add w).mul (d.mul d))
def rhs (w d h : NI) : NI := ((((w.add w).mul w).mul d).add ((w.mul w).mul (d.mul d))).add (h.mul h)

/-- The check of one cell. -/
def check (st st' : St) : Bool :=
  Nat.ble tau.hi st.y.lo &&
  ((st'.e.mul E1).frc fun h => (NI.one.sub h).frc fun d => Nat.ble (rhs st.w d h).hi (lhs st.w (st'.y.add tau) d).lo) &&
  ((st.e.mul E2).frc fun h => (NI.one.sub h).frc fun d => Nat.ble (lhs st'.w (st.y.sub tau) d).hi (rhs st'.w d h).lo)

/-- `n` cells, then `f`. -/
def run (c : Cs) : ℕ → St → (St → Bool) → Bool
  | 0, st, f => f st
  | n + 1, st, f => step c st fun st' => check st st' && run c n st' f


/-! ### Soundness of the interval operations -/

def NM (x : ℝ) (a : NI) : Prop := (a.lo : ℝ) ≤ x * S ∧ x * S ≤ a.hi

theorem S_pos : (0 : ℝ) < S := by norm_num [S]

theorem force_eq {β : Type} (n : ℕ) (f : ℕ → β) : force n f = f n := by cases n <;> rfl

theorem frc_eq {β : Type} (a : NI) (f : NI → β) : a.frc f = f a := by unfold NI.frc; rw [force_eq, force_eq]

theorem div_le_real (m n : ℕ) : ((m / n : ℕ) : ℝ) ≤ (m : ℝ) / n := Nat.cast_div_le

theorem real_le_div (m : ℕ) {n : ℕ} (hn : 0 < n) : (m : ℝ) / n ≤ ((m / n + 1 : ℕ) : ℝ) := by
  have hn' : (0 : ℝ) < n := by exact_mod_cast hn
  rw [div_le_iff₀ hn']
  have := Nat.lt_div_mul_add hn (a := m)
  have h2 : m ≤ (m / n + 1) * n := by rw [Nat.add_mul, one_mul]; omega
  exact_mod_cast h2

theorem nm_one : NM 1 NI.one := by constructor <;> simp [NI.one]

variable {x y : ℝ} {a b : NI}

theorem nm_add (hx : NM x a) (hy : NM y b) : NM (x + y) (a.add b) := by
  unfold NM NI.add at *
  push_cast
  constructor <;> linarith [hx.1, hx.2, hy.1, hy.2]

theorem nm_sub (hxy : y ≤ x) (hx : NM x a) (hy : NM y b) : NM (x - y) (a.sub b) := by
  unfold NM NI.sub at *
  have h0 : 0 ≤ (x - y) * S := mul_nonneg (by linarith) S_pos.le
  simp only
  constructor
  · rcases le_total a.lo b.hi with h | h
    · rw [Nat.sub_eq_zero_of_le h, Nat.cast_zero]; exact h0
    · rw [Nat.cast_sub h]; linarith [hx.1, hy.2]
  · have h : (b.lo : ℝ) ≤ a.hi := by linarith [hx.2, hy.1]
    rw [Nat.cast_sub (by exact_mod_cast h)]
    linarith [hx.2, hy.1]

theorem nm_mul (hx0 : 0 ≤ x) (hy0 : 0 ≤ y) (hx : NM x a) (hy : NM y b) : NM (x * y) (a.mul b) := by
  unfold NM NI.mul at *
  simp only
  have hS := S_pos
  have e : x * y * S = x * S * (y * S) / S := by field_simp
  rw [e]
  constructor
  · refine (div_le_real _ _).trans ?_
    push_cast
    have := mul_le_mul hx.1 hy.1 (Nat.cast_nonneg _) (by positivity)
    gcongr
  · refine le_trans ?_ (real_le_div _ (by norm_num [S]))
    push_cast
    have := mul_le_mul hx.2 hy.2 (by positivity) (Nat.cast_nonneg _)
    gcongr

theorem nm_div (hx0 : 0 ≤ x) (hy0 : 0 < y) (hb : 1 ≤ b.lo) (hx : NM x a) (hy : NM y b) : NM (x / y) (a.div b) := by
  unfold NM NI.div at *
  simp only
  have hS := S_pos
  have hb' : (0 : ℝ) < b.lo := by exact_mod_cast hb
  have hyS : 0 < y * S := by positivity
  have e : x / y * S = x * S * S / (y * S) := by field_simp
  rw [e]
  constructor
  · refine (div_le_real _ _).trans ?_
    push_cast
    have h1 : (0 : ℝ) < b.hi := hyS.trans_le hy.2
    exact div_le_div₀ (by positivity) (mul_le_mul_of_nonneg_right hx.1 hS.le) hyS hy.2
  · refine le_trans ?_ (real_le_div _ hb)
    push_cast
    exact div_le_div₀ (by positivity) (mul_le_mul_of_nonneg_right hx.2 hS.le) hb' hy.1

theorem nm_divN {n : ℕ} (hn : 0 < n) (hx : NM x a) : NM (x / n) (a.divN n) := by
  unfold NM NI.divN at *
  simp only
  have e : x / n * S = x * S / n := by ring
  have hn' : (0 : ℝ) < n := by exact_mod_cast hn
  rw [e]
  constructor
  · exact (div_le_real _ _).trans (by gcongr; exact hx.1)
  · exact le_trans (by gcongr; exact hx.2) (real_le_div _ hn)

theorem nm_le_one (hx : NM x a) (h : a.hi ≤ S) : x ≤ 1 := by
  have h2 : (a.hi : ℝ) ≤ S := by exact_mod_cast h
  have := hx.2.trans h2
  nlinarith [S_pos]

theorem nm_between {z : ℝ} (h1 : x ≤ z) (h2 : z ≤ y) (hx : NM x a) (hy : NM y b) : NM z ⟨a.lo, b.hi⟩ := by
  have hS := S_pos
  exact ⟨hx.1.trans (mul_le_mul_of_nonneg_right h1 hS.le), le_trans (mul_le_mul_of_nonneg_right h2 hS.le) hy.2⟩

/-- The check that an enclosure with 128 digits lies in one with 64. -/
def within (o : Option Iv.I) (a : NI) : Bool :=
  match o with
  | some i => decide ((a.lo : ℤ) * 18446744073709551616 ≤ i.lo) && decide (i.hi ≤ (a.hi : ℤ) * 18446744073709551616)
  | none => false

theorem nm_of [i : Iv.Enc x] (h : within i.i a = true) : NM x a := by
  unfold within at h
  split at h
  · next j hj =>
    simp only [Bool.and_eq_true, decide_eq_true_eq] at h
    have hm := i.mem _ hj
    have h1 : ((a.lo : ℝ)) * 18446744073709551616 ≤ j.lo := by exact_mod_cast h.1
    have h2 : (j.hi : ℝ) ≤ (a.hi : ℝ) * 18446744073709551616 := by exact_mod_cast h.2
    unfold Iv.Mem at hm
    have e1 : ((Iv.S : ℤ) : ℝ) = 18446744073709551616 * 18446744073709551616 := by norm_num [Iv.S]
    have e2 : ((S : ℕ) : ℝ) = 18446744073709551616 := by norm_num [S]
    rw [e1] at hm
    unfold NM
    rw [e2]
    constructor <;> linarith [hm.1, hm.2]
  · cases h

/-! ### The correlation as a function of `L` -/

noncomputable def bL (L : ℝ) : ℝ := 1 + (1.0446 - 0.0093431 * exp (L / 2)) * exp (-0.56261 * L)
noncomputable def aL (L : ℝ) : ℝ := 0.70356 - 0.014685 * L
noncomputable def yL (L : ℝ) : ℝ := aL L * log (bL L)

theorem omegaEta_exp (L : ℝ) (hb : 0 < bL L) : omegaEta (exp L) = exp (-yL L) := by
  have e1 : √(exp L) = exp (L / 2) := by rw [sqrt_eq_rpow, ← exp_mul]; ring_nf
  have e2 : exp L ^ (-0.56261 : ℝ) = exp (-0.56261 * L) := by rw [← exp_mul, mul_comm]
  unfold omegaEta
  rw [e1, e2, log_exp]
  change bL L ^ _ = _
  rw [rpow_def_of_pos hb, yL, aL]
  congr 1
  ring

theorem cpos {L : ℝ} (hL : L ≤ 8) : 0 < 1.0446 - 0.0093431 * exp (L / 2) := by
  have h1 : exp (L / 2) ≤ exp 4 := exp_le_exp.2 (by linarith)
  have h2 : exp 4 ≤ 55 := by iv
  linarith

theorem bL_gt {L : ℝ} (hL : L ≤ 8) : 1 < bL L := by
  unfold bL
  have := mul_pos (cpos hL) (exp_pos (-0.56261 * L))
  linarith

theorem bL_anti {L M : ℝ} (h : L ≤ M) (hM : M ≤ 8) : bL M ≤ bL L := by
  unfold bL
  have h1 : exp (L / 2) ≤ exp (M / 2) := exp_le_exp.2 (by linarith)
  have h2 : exp (-0.56261 * M) ≤ exp (-0.56261 * L) := exp_le_exp.2 (by linarith)
  have h3 : (1.0446 - 0.0093431 * exp (M / 2)) * exp (-0.56261 * M) ≤ (1.0446 - 0.0093431 * exp (L / 2)) * exp (-0.56261 * L) :=
    mul_le_mul (by linarith) h2 (exp_pos _).le (cpos (h.trans hM)).le
  linarith

theorem aL_pos {L : ℝ} (hL : L ≤ 8) : 0 < aL L := by unfold aL; linarith

theorem yL_anti {L M : ℝ} (h : L ≤ M) (hM : M ≤ 8) : yL M ≤ yL L := by
  unfold yL
  have h1 : log (bL M) ≤ log (bL L) := log_le_log (by linarith [bL_gt hM]) (bL_anti h hM)
  refine mul_le_mul ?_ h1 (log_nonneg (bL_gt hM).le) (aL_pos (h.trans hM)).le
  unfold aL
  linarith

theorem yL_pos {L : ℝ} (hL : L ≤ 8) : 0 < yL L := mul_pos (aL_pos hL) (log_pos (bL_gt hL))

/-! ### Soundness of the recursion -/

theorem log_bounds {z : ℝ} (hz : 0 ≤ z) : z - z ^ 2 / 2 + z ^ 3 / 3 - z ^ 4 / 4 ≤ log (1 + z) ∧ log (1 + z) ≤ z - z ^ 2 / 2 + z ^ 3 / 3 := by
  have hd : ∀ t : ℝ, 0 ≤ t → HasDerivAt (fun t => log (1 + t)) (1 / (1 + t)) t := by
    intro t ht
    have := ((hasDerivAt_id' t).const_add 1).log (by linarith : (1 : ℝ) + t ≠ 0)
    simpa using this
  have p3 : ∀ t : ℝ, HasDerivAt (fun t : ℝ => t - t ^ 2 / 2 + t ^ 3 / 3) (1 - t + t ^ 2) t := by
    intro t
    have h2 := (hasDerivAt_pow 2 t).div_const 2
    have h3 := (hasDerivAt_pow 3 t).div_const 3
    refine (((hasDerivAt_id' t).fun_sub h2).fun_add h3).congr_deriv ?_
    norm_num
  have p4 : ∀ t : ℝ, HasDerivAt (fun t : ℝ => t - t ^ 2 / 2 + t ^ 3 / 3 - t ^ 4 / 4) (1 - t + t ^ 2 - t ^ 3) t := by
    intro t
    refine ((p3 t).fun_sub ((hasDerivAt_pow 4 t).div_const 4)).congr_deriv ?_
    norm_num
  have mono : ∀ (g g' : ℝ → ℝ), (∀ t, 0 ≤ t → HasDerivAt g (g' t) t) → (∀ t, 0 ≤ t → 0 ≤ g' t) → g 0 ≤ g z := by
    intro g g' h1 h2
    refine monotoneOn_of_deriv_nonneg (convex_Ici 0) (fun t ht => (h1 t ht).continuousAt.continuousWithinAt)
      (fun t ht => by rw [interior_Ici] at ht; exact (h1 t (le_of_lt ht)).differentiableAt.differentiableWithinAt)
      (fun t ht => by rw [interior_Ici] at ht; rw [(h1 t (le_of_lt ht)).deriv]; exact h2 t (le_of_lt ht)) (Set.mem_Ici.2 le_rfl) (Set.mem_Ici.2 hz) hz
  constructor
  · have := mono (fun t => log (1 + t) - (t - t ^ 2 / 2 + t ^ 3 / 3 - t ^ 4 / 4)) _ (fun t ht => (hd t ht).fun_sub (p4 t)) (by
      intro t ht
      have e : 1 / (1 + t) - (1 - t + t ^ 2 - t ^ 3) = t ^ 4 / (1 + t) := by field_simp; ring
      rw [e]; positivity)
    norm_num at this
    linarith
  · have := mono (fun t => (t - t ^ 2 / 2 + t ^ 3 / 3) - log (1 + t)) _ (fun t ht => (p3 t).fun_sub (hd t ht)) (by
      intro t ht
      have e : 1 - t + t ^ 2 - 1 / (1 + t) = t ^ 3 / (1 + t) := by field_simp; ring
      rw [e]; positivity)
    norm_num at this
    linarith

theorem exp_bounds {d : ℝ} (h0 : 0 ≤ d) (h1 : d ≤ 1) : 1 + d + d ^ 2 / 2 ≤ exp d ∧ exp d ≤ 1 + d + d ^ 2 / 2 + d ^ 3 / 3 := by
  refine ⟨quadratic_le_exp_of_nonneg h0, ?_⟩
  have := exp_bound' h0 h1 (n := 3) (by norm_num)
  simp [Finset.sum_range_succ, Nat.factorial] at this
  have h3 : 0 ≤ d ^ 3 := by positivity
  linarith

/-- The state describes the point `L`. -/
structure SM (L : ℝ) (st : St) : Prop where
  w : NM (exp L) st.w
  s : NM (exp (L / 2)) st.s
  p : NM (exp (-0.56261 * L)) st.p
  a : NM (aL L) st.a
  b : NM (bL L) st.b
  l : NM (log (bL L)) st.l
  y : NM (yL L) st.y
  e : NM (exp (-yL L)) st.e

structure CM (h : ℝ) (c : Cs) : Prop where
  rw : NM (exp h) c.rw
  rs : NM (exp (h / 2)) c.rs
  rp : NM (exp (-0.56261 * h)) c.rp
  da : NM (0.014685 * h) c.da

theorem c0_mem : NM 1.0446 c0 := nm_of (by decide +kernel)
theorem c1_mem : NM 0.0093431 c1 := nm_of (by decide +kernel)
theorem tau_mem : NM 0.00249 tau := nm_of (by decide +kernel)
theorem E1_mem : NM (exp (-0.00249)) E1 := nm_of (by decide +kernel)
theorem E2_mem : NM (exp 0.00249) E2 := nm_of (by decide +kernel)

theorem step_sound {L h : ℝ} {c : Cs} {st : St} {f : St → Bool} (hh : 0 ≤ h) (hL : L + h ≤ 8) (hc : CM h c) (hs : SM L st) (hr : step c st f = true) :
    ∃ st', SM (L + h) st' ∧ f st' = true := by
  unfold step at hr
  simp only [frc_eq, Bool.and_eq_true, Nat.ble_eq] at hr
  obtain ⟨hb, hz, hd, hf⟩ := hr
  refine ⟨_, ?_, hf⟩
  have hL8 : L ≤ 8 := by linarith
  have mw := nm_mul (exp_pos _).le (exp_pos _).le hs.w hc.rw
  rw [← exp_add] at mw
  have ms := nm_mul (exp_pos _).le (exp_pos _).le hs.s hc.rs
  rw [← exp_add, show L / 2 + h / 2 = (L + h) / 2 by ring] at ms
  have mp := nm_mul (exp_pos _).le (exp_pos _).le hs.p hc.rp
  rw [← exp_add, show -0.56261 * L + -0.56261 * h = -0.56261 * (L + h) by ring] at mp
  have ma := nm_sub (by have := aL_pos hL; unfold aL at *; linarith) hs.a hc.da
  rw [show aL L - 0.014685 * h = aL (L + h) by unfold aL; ring] at ma
  have mb := nm_add nm_one (nm_mul (cpos hL).le (exp_pos _).le (nm_sub (by have := cpos hL; linarith) c0_mem (nm_mul (by norm_num) (exp_pos _).le c1_mem ms)) mp)
  change NM (bL (L + h)) _ at mb
  have hb1 := bL_gt hL
  have hba := bL_anti (by linarith : L ≤ L + h) hL
  generalize ((NI.one.add ((c0.sub (c1.mul (st.s.mul c.rs))).mul (st.p.mul c.rp)))) = B at *
  have hz0 : 0 ≤ (bL L - bL (L + h)) / bL (L + h) := div_nonneg (by linarith) (by linarith)
  have mz := nm_div (by linarith) (by linarith) hb (nm_sub hba hs.b mb) mb
  generalize ((st.b.sub B).div B) = Z at *
  have elog : log (bL L) = log (bL (L + h)) + log (1 + (bL L - bL (L + h)) / bL (L + h)) := by
    rw [← log_mul (by linarith) (by linarith)]
    congr 1
    field_simp [show bL (L + h) ≠ 0 by linarith]
    ring
  obtain ⟨lb1, lb2⟩ := log_bounds hz0
  generalize (bL L - bL (L + h)) / bL (L + h) = z at *
  have hz1 : z ≤ 1 := nm_le_one mz hz
  have hz2 : z ^ 2 ≤ z := by nlinarith
  have hz3 : 0 ≤ z ^ 3 := by positivity
  have hz4 : z ^ 4 ≤ z ^ 3 := by nlinarith
  have mz2 := nm_mul hz0 hz0 mz mz
  have mu := nm_add (nm_sub (by rw [Nat.cast_ofNat]; nlinarith) mz (nm_divN two_pos mz2)) (nm_divN three_pos (nm_mul (mul_nonneg hz0 hz0) hz0 mz2 mz))
  have mu' := nm_sub (by push_cast; nlinarith) mu (nm_divN four_pos (nm_mul (mul_nonneg hz0 hz0) (mul_nonneg hz0 hz0) mz2 mz2))
  have mlz := nm_between (z := log (1 + z)) (by push_cast; nlinarith) (by push_cast; nlinarith) mu' mu
  have ml := nm_sub (by linarith [log_nonneg hb1.le]) hs.l mlz
  rw [show log (bL L) - log (1 + z) = log (bL (L + h)) by linarith] at ml
  have my := nm_mul (aL_pos hL).le (log_nonneg hb1.le) ma ml
  change NM (yL (L + h)) _ at my
  have hya := yL_anti (by linarith : L ≤ L + h) hL
  have md := nm_sub hya hs.y my
  have hd0 : 0 ≤ yL L - yL (L + h) := by linarith
  have hd1 := nm_le_one md hd
  obtain ⟨g1, g2⟩ := exp_bounds hd0 hd1
  have md2 := nm_mul hd0 hd0 md md
  have mg := nm_add (nm_add nm_one md) (nm_divN two_pos md2)
  have mg' := nm_add mg (nm_divN three_pos (nm_mul (mul_nonneg hd0 hd0) hd0 md2 md))
  have mexp := nm_between (z := exp (yL L - yL (L + h))) (by push_cast; linarith) (by push_cast; linarith) mg mg'
  have me := nm_mul (exp_pos _).le (exp_pos _).le hs.e mexp
  rw [← exp_add, show -yL L + (yL L - yL (L + h)) = -yL (L + h) by ring] at me
  exact ⟨mw, ms, mp, ma, mb, ml, my, me⟩

/-! ### The exact critical ratio -/

theorem chokeH_eq {w q : ℝ} : chokeH w 1 (exp (-q)) =
    ((w + w) * w * q + (w + w) * ((1 - exp (-q)) * (1 - exp (-q)))) - ((w + w) * w * (1 - exp (-q)) + w * w * ((1 - exp (-q)) * (1 - exp (-q))) + exp (-q) * exp (-q)) := by
  unfold chokeH workN
  rw [one_div, log_inv, log_exp]
  ring

theorem gap_pos {q : ℝ} (hq : 0 ≤ q) : 0 ≤ 2 * (q - (1 - exp (-q))) - (1 - exp (-q)) ^ 2 := by
  have h1 := add_one_le_exp (-q)
  have h3 : 0 < exp (-q) := exp_pos _
  -- `t² - 4 t + 3 + 2 log t ≤ 0` for `t = exp (-q) ≤ 1`
  have hd : ∀ t : ℝ, HasDerivAt (fun q => 2 * (q - (1 - exp (-q))) - (1 - exp (-q)) ^ 2) (2 * (1 - exp (-t)) - 2 * (1 - exp (-t)) * exp (-t)) t := by
    intro t
    have he : HasDerivAt (fun q : ℝ => 1 - exp (-q)) (exp (-t)) t := by
      have := ((hasDerivAt_id' t).fun_neg.exp).const_sub 1
      simpa using this
    refine ((((hasDerivAt_id' t).fun_sub he).const_mul 2).fun_sub (he.fun_pow 2)).congr_deriv ?_
    norm_num
  have hm := monotoneOn_of_deriv_nonneg (convex_Ici (0 : ℝ)) (fun t _ => (hd t).continuousAt.continuousWithinAt)
    (fun t _ => (hd t).differentiableAt.differentiableWithinAt) (fun t ht => by
      rw [interior_Ici] at ht
      rw [(hd t).deriv]
      have : exp (-t) ≤ 1 := exp_le_one_iff.2 (by linarith [Set.mem_Ioi.1 ht])
      nlinarith [sq_nonneg (1 - exp (-t))]) (Set.mem_Ici.2 le_rfl) (Set.mem_Ici.2 hq) hq
  simpa using hm

theorem chokeH_up {w w' q : ℝ} (hq : 0 ≤ q) (hw : 0 < w) (hw' : w ≤ w') (h : 0 ≤ chokeH w 1 (exp (-q))) : 0 ≤ chokeH w' 1 (exp (-q)) := by
  rw [chokeH_eq] at *
  have hg := gap_pos hq
  have he := exp_pos (-q)
  generalize exp (-q) = t at *
  have h1 : 0 ≤ w * (2 * (q - (1 - t)) - (1 - t) ^ 2) := by positivity
  have h2 := sq_nonneg (1 - t)
  have hx : w' ^ 2 * (2 * (q - (1 - t)) - (1 - t) ^ 2) ≥ w ^ 2 * (2 * (q - (1 - t)) - (1 - t) ^ 2) := by gcongr
  have hy : w' * (1 - t) ^ 2 ≥ w * (1 - t) ^ 2 := by gcongr
  nlinarith

theorem chokeH_down {w w' q : ℝ} (hq : 0 ≤ q) (hw : 0 < w) (hw' : w ≤ w') (h : chokeH w' 1 (exp (-q)) ≤ 0) : chokeH w 1 (exp (-q)) ≤ 0 := by
  rw [chokeH_eq] at *
  have hg := gap_pos hq
  generalize exp (-q) = t at *
  have hx : w' ^ 2 * (2 * (q - (1 - t)) - (1 - t) ^ 2) ≥ w ^ 2 * (2 * (q - (1 - t)) - (1 - t) ^ 2) := by gcongr
  have hy : w' * (1 - t) ^ 2 ≥ w * (1 - t) ^ 2 := by gcongr
  nlinarith

/-- The correlation is right at `L` (within the tolerance). -/
def Good (L : ℝ) : Prop := ∀ e, 0 < e → e ≤ 1 → chokeH (exp L) 1 e = 0 → exp (-0.00249) * omegaEta (exp L) ≤ e ∧ e ≤ exp 0.00249 * omegaEta (exp L)

theorem nm_lhs {w q d : ℝ} {a b c : NI} (hw0 : 0 ≤ w) (hq0 : 0 ≤ q) (hd0 : 0 ≤ d) (hw : NM w a) (hq : NM q b) (hd : NM d c) :
    NM ((w + w) * w * q + (w + w) * (d * d)) (lhs a b c) := by
  have h2 : 0 ≤ w + w := by linarith
  exact nm_add (nm_mul (by positivity) hq0 (nm_mul h2 hw0 (nm_add hw hw) hw) hq) (nm_mul h2 (by positivity) (nm_add hw hw) (nm_mul hd0 hd0 hd hd))

theorem nm_rhs {w d t : ℝ} {a b c : NI} (hw0 : 0 ≤ w) (hd0 : 0 ≤ d) (ht0 : 0 ≤ t) (hw : NM w a) (hd : NM d b) (ht : NM t c) :
    NM ((w + w) * w * d + w * w * (d * d) + t * t) (rhs a b c) := by
  have h2 : 0 ≤ w + w := by linarith
  exact nm_add (nm_add (nm_mul (by positivity) hd0 (nm_mul h2 hw0 (nm_add hw hw) hw) hd) (nm_mul (by positivity) (by positivity) (nm_mul hw0 hw0 hw hw)
    (nm_mul hd0 hd0 hd hd))) (nm_mul ht0 ht0 ht ht)

theorem nm_le {a b : NI} (hx : NM x a) (hy : NM y b) (h : a.hi ≤ b.lo) : x ≤ y := by
  have h2 : (a.hi : ℝ) ≤ b.lo := by exact_mod_cast h
  have := (hx.2.trans h2).trans hy.1
  exact le_of_mul_le_mul_right this S_pos

theorem cell {L h M : ℝ} {st st' : St} (hL : L + h ≤ 8) (hs : SM L st) (hs' : SM (L + h) st') (hc : check st st' = true) (h1 : L ≤ M) (h2 : M ≤ L + h) : Good M := by
  unfold check at hc
  simp only [frc_eq, Bool.and_eq_true, Nat.ble_eq] at hc
  obtain ⟨⟨c1, c2⟩, c3⟩ := hc
  intro e he he1 hr
  have hM : M ≤ 8 := h2.trans hL
  have hM' := bL_gt hM
  rw [omegaEta_exp M (by linarith)]
  have y1 := yL_anti h1 hM
  have y2 := yL_anti h2 hL
  have y3 := yL_pos hL
  have hanti := chokeH_anti (w := exp M) (s := 1) (exp_pos _) one_pos
  have t1 : (0.00249 : ℝ) ≤ yL L := nm_le tau_mem hs.y c1
  constructor
  · have mh := nm_mul (exp_pos _).le (exp_pos _).le hs'.e E1_mem
    rw [← exp_add, show -yL (L + h) + -0.00249 = -(yL (L + h) + 0.00249) by ring] at mh
    have hle : exp (-(yL (L + h) + 0.00249)) ≤ 1 := exp_le_one_iff.2 (by linarith)
    have md := nm_sub hle nm_one mh
    have mw := hs.w
    have hq : 0 ≤ yL (L + h) + 0.00249 := by linarith
    have key := nm_le (nm_rhs (exp_pos _).le (by linarith) (exp_pos _).le mw md mh) (nm_lhs (exp_pos _).le hq (by linarith) mw (nm_add hs'.y tau_mem) md) c2
    have hH := chokeH_up hq (exp_pos _) (exp_le_exp.2 h1) (by rw [chokeH_eq]; linarith : 0 ≤ chokeH (exp L) 1 (exp (-(yL (L + h) + 0.00249))))
    have : exp (-(yL (L + h) + 0.00249)) ≤ e := by
      by_contra hn
      push Not at hn
      have := hanti ⟨he, he1⟩ ⟨exp_pos _, hle⟩ hn
      linarith
    rw [← exp_add]
    exact le_trans (exp_le_exp.2 (by linarith)) this
  · have mh := nm_mul (exp_pos _).le (exp_pos _).le hs.e E2_mem
    rw [← exp_add, show -yL L + 0.00249 = -(yL L - 0.00249) by ring] at mh
    have hle : exp (-(yL L - 0.00249)) ≤ 1 := exp_le_one_iff.2 (by linarith)
    have md := nm_sub hle nm_one mh
    have mw := hs'.w
    have hq : 0 ≤ yL L - 0.00249 := by linarith
    have key := nm_le (nm_lhs (exp_pos _).le hq (by linarith) mw (nm_sub t1 hs.y tau_mem) md) (nm_rhs (exp_pos _).le (by linarith) (exp_pos _).le mw md mh) c3
    have hH := chokeH_down hq (exp_pos M) (exp_le_exp.2 h2) (by rw [chokeH_eq]; linarith : chokeH (exp (L + h)) 1 (exp (-(yL L - 0.00249))) ≤ 0)
    have : e ≤ exp (-(yL L - 0.00249)) := by
      by_contra hn
      push Not at hn
      have := hanti ⟨exp_pos _, hle⟩ ⟨he, he1⟩ hn
      linarith
    rw [← exp_add]
    exact this.trans (exp_le_exp.2 (by linarith))

theorem run_sound {h : ℝ} {c : Cs} (hh : 0 ≤ h) (hc : CM h c) : ∀ (n : ℕ) {L : ℝ} {st : St} {f : St → Bool}, L + n * h ≤ 8 → SM L st → run c n st f = true →
    (∀ M, L ≤ M → M ≤ L + n * h → L < M → Good M) ∧ ∃ st', SM (L + n * h) st' ∧ f st' = true := by
  intro n
  induction n with
  | zero =>
    intro L st f _ hs hr
    refine ⟨fun M h1 h2 h3 => ?_, st, by simpa using hs, hr⟩
    norm_num at h2
    linarith
  | succ n ih =>
    intro L st f hL hs hr
    push_cast at hL ⊢
    have hn : 0 ≤ (n : ℝ) * h := by positivity
    unfold run at hr
    obtain ⟨st1, hs1, hr1⟩ := step_sound hh (by linarith) hc hs hr
    simp only [Bool.and_eq_true] at hr1
    obtain ⟨g, st2, hs2, hf⟩ := ih (by linarith) hs1 hr1.2
    refine ⟨fun M h1 h2 h3 => ?_, st2, ?_, hf⟩
    · rcases le_or_gt M (L + h) with hM | hM
      · exact cell (by linarith) hs hs1 hr1.1 h1 hM
      · exact g M hM.le (by linarith) hM
    · rw [show L + (n + 1) * h = L + h + n * h by ring]
      exact hs2

theorem stA_mem : SM (-4.606) stA := by
  constructor <;> (try unfold yL) <;> (try unfold aL) <;> (try unfold bL) <;> exact nm_of (by decide +kernel)

theorem stB_mem : SM 2.419 stB := by
  constructor <;> (try unfold yL) <;> (try unfold aL) <;> (try unfold bL) <;> exact nm_of (by decide +kernel)

theorem stC_mem : SM 4.42 stC := by
  constructor <;> (try unfold yL) <;> (try unfold aL) <;> (try unfold bL) <;> exact nm_of (by decide +kernel)

theorem cs1_mem : CM 0.0035 cs1 := by constructor <;> exact nm_of (by decide +kernel)
theorem cs2_mem : CM 0.0058 cs2 := by constructor <;> exact nm_of (by decide +kernel)
theorem cs3_mem : CM 0.009 cs3 := by constructor <;> exact nm_of (by decide +kernel)
theorem cs4_mem : CM 0.0144 cs4 := by constructor <;> exact nm_of (by decide +kernel)
theorem cs5_mem : CM 0.029 cs5 := by constructor <;> exact nm_of (by decide +kernel)
theorem cs6_mem : CM 0.08 cs6 := by constructor <;> exact nm_of (by decide +kernel)

set_option maxRecDepth 100000 in
theorem runA : (run cs1 574 stA fun st => run cs2 345 st fun st => run cs3 167 st fun st => run cs4 105 st fun _ => true) = true := by decide +kernel

set_option maxRecDepth 100000 in
theorem runB : run cs5 69 stB (fun _ => true) = true := by decide +kernel

set_option maxRecDepth 100000 in
theorem runC : run cs6 32 stC (fun _ => true) = true := by decide +kernel

theorem good {M : ℝ} (h1 : -4.606 < M) (h2 : M ≤ 6.98) : Good M := by
  obtain ⟨gA, sA, mA, rA⟩ := run_sound (by norm_num) cs1_mem 574 (by norm_num) stA_mem runA
  obtain ⟨gB, sB, mB, rB⟩ := run_sound (by norm_num) cs2_mem 345 (by norm_num) mA rA
  obtain ⟨gC, sC, mC, rC⟩ := run_sound (by norm_num) cs3_mem 167 (by norm_num) mB rB
  obtain ⟨gD, -⟩ := run_sound (by norm_num) cs4_mem 105 (by norm_num) mC rC
  obtain ⟨gE, -⟩ := run_sound (by norm_num) cs5_mem 69 (by norm_num) stB_mem runB
  obtain ⟨gF, -⟩ := run_sound (by norm_num) cs6_mem 32 (by norm_num) stC_mem runC
  norm_num at gA gB gC gD gE gF h1 h2
  rcases le_or_gt M (-(2597 / 1000)) with h | h
  · exact gA M h1.le h h1
  rcases le_or_gt M (-(149 / 250)) with h' | h'
  · exact gB M h.le h' h
  rcases le_or_gt M (907 / 1000) with h'' | h''
  · exact gC M h'.le h'' h'
  rcases le_or_gt M (2419 / 1000) with h3 | h3
  · exact gD M h''.le h3 h''
  rcases le_or_gt M (221 / 50) with h4 | h4
  · exact gE M h3.le h4 h3
  · exact gF M h4.le h2 h4

/-- The correlation is within 0.25 % of the exact critical ratio. -/
theorem omegaEta_accurate {w e : ℝ} (h1 : 0.01 ≤ w) (h2 : w ≤ 1000) (he : 0 < e) (he1 : e ≤ 1) (hr : chokeH w 1 e = 0) : |omegaEta w / e - 1| ≤ 0.0025 := by
  have hw : 0 < w := by linarith
  have l1 : -4.606 < log w := (by iv : (-4.606 : ℝ) < log 0.01).trans_le (log_le_log (by norm_num) h1)
  have l2 : log w ≤ 6.98 := (log_le_log hw h2).trans (by iv)
  have hg := good l1 l2
  unfold Good at hg
  rw [exp_log hw] at hg
  obtain ⟨g1, g2⟩ := hg e he he1 hr
  have ho : 0 ≤ omegaEta w := by
    by_contra hn
    push Not at hn
    have := mul_neg_of_pos_of_neg (exp_pos 0.00249) hn
    linarith
  have b1 : (0.9975 + 1e-7 : ℝ) ≤ exp (-0.00249) := by iv
  have b2 : exp (0.00249 : ℝ) ≤ 1.0025 - 1e-6 := by iv
  have e1 := exp_pos (0.00249 : ℝ)
  have k1 : omegaEta w ≤ e * exp 0.00249 := by
    have : exp (0.00249 : ℝ) * exp (-0.00249) = 1 := by rw [← exp_add]; norm_num
    nlinarith
  have k2 : e * exp (-0.00249) ≤ omegaEta w := by
    have : exp (-0.00249 : ℝ) * exp 0.00249 = 1 := by rw [← exp_add]; norm_num
    nlinarith [exp_pos (-0.00249 : ℝ)]
  rw [abs_le]
  constructor
  · rw [neg_le_sub_iff_le_add, ← sub_le_iff_le_add, le_div_iff₀ he]
    nlinarith
  · rw [sub_le_iff_le_add, div_le_iff₀ he]
    nlinarith

end Verif.OmegaCrit
