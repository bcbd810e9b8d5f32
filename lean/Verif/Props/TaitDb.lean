import Verif.Lemmas.TaitDb
import Verif.Props.Tait
import Mathlib.Analysis.Calculus.Deriv.MeanValue

/-!
# C117: the Tait database
-/

namespace Verif.Tait

open Real

/-- **C117.** The names in the database are distinct. For a name in the database `from_database` returns an object with the numbers of its line and their ranges: all
lines pass the checks of the constructor. For any other string (also one that differs in case) it returns `None`; it never raises. -/
theorem C117_lookup (name : String) : (table.map Row.name).Nodup ∧
    (∀ r ∈ table, r.name = name → fromDatabase name = .ok (some ⟨r.A0, r.A1, r.A2, r.B0, r.B1, (r.Tmin, some (r.Tmax : ℝ)), (r.Pmin, some (r.Pmax : ℝ))⟩)) ∧
    ((∀ r ∈ table, r.name ≠ name) → fromDatabase name = .ok none) := by
  refine ⟨names_nodup, fun r hr hn => ?_, fun h => ?_⟩
  · have hne : r ∈ table.filter fun r => r.name = name := List.mem_filter.2 ⟨hr, by simpa using hn⟩
    have huniq : ∀ q ∈ table.filter (fun r => r.name = name), q = r := by
      intro q hq
      rw [List.mem_filter] at hq
      have : q.name = r.name := by rw [hn]; simpa using hq.2
      exact List.inj_on_of_nodup_map names_nodup hq.1 hr this
    unfold fromDatabase
    cases hl : table.filter fun r => r.name = name with
    | nil => rw [hl] at hne; simp at hne
    | cons q l =>
      have : q = r := huniq q (by rw [hl]; simp)
      subst this
      show Except.map some q.make = _
      rw [make_ok (init_of_mem hr)]
      rfl
  · unfold fromDatabase
    rw [show table.filter (fun r => r.name = name) = [] from List.filter_eq_nil_iff.2 (fun r hr => by simpa using h r hr)]

/-- **C117.** For every polymer of the database and every temperature and pressure in the range given there, the specific volume is between 0.4 and 1.6 litres per kilogram and thermal
expansion and compressibility are positive. -/
theorem C117_physical {name : String} {s : Tait} (h : fromDatabase name = .ok (some s)) {T P : ℝ} (hT : s.Trange.1 ≤ T ∧ ∀ t ∈ s.Trange.2, T ≤ t)
    (hP : s.Prange.1 ≤ P ∧ ∀ p ∈ s.Prange.2, P ≤ p) : 4e-4 < eval s T P ∧ eval s T P < 1.6e-3 ∧ 0 < alpha s T P ∧ 0 < beta s T P := by
  have hL := C117_lookup name
  by_cases hr : ∃ r ∈ table, r.name = name
  · obtain ⟨r, hr, hn⟩ := hr
    rw [hL.2.1 r hr hn] at h
    injection h with h
    injection h with h
    subst h
    have hp : (0 : ℝ) ≤ r.Pmin := by exact_mod_cast (range_of_mem hr).2.1
    exact row_sound hr hT.1 (hT.2 _ rfl) (hp.trans hP.1) (hP.2 _ rfl)
  · push Not at hr
    rw [hL.2.2 hr] at h
    cases h

/-- **C117.** Hence the volume rises with temperature at fixed pressure and falls with pressure at fixed temperature, strictly, over the whole range. -/
theorem C117_monotone {name : String} {s : Tait} (h : fromDatabase name = .ok (some s)) {T T' P P' : ℝ} (hT : s.Trange.1 ≤ T) (hT' : ∀ t ∈ s.Trange.2, T' ≤ t)
    (hP : s.Prange.1 ≤ P) (hP' : ∀ p ∈ s.Prange.2, P' ≤ p) (hTT : T ≤ T') (hPP : P ≤ P') :
    (T < T' → eval s T P < eval s T' P) ∧ (P < P' → eval s T P' < eval s T P) := by
  have hL := C117_lookup name
  by_cases hr : ∃ r ∈ table, r.name = name
  swap
  · push Not at hr
    rw [hL.2.2 hr] at h
    cases h
  obtain ⟨r, hr, hn⟩ := hr
  have hs := hL.2.1 r hr hn
  rw [h] at hs
  injection hs with hs
  injection hs with hs
  have hB : 0 < s.B0 := by
    have hb : (0 : ℝ) < r.B0 := by exact_mod_cast (range_of_mem hr).2.2
    rw [hs]; exact hb
  have hP0 : 0 ≤ P := by
    have hp : (0 : ℝ) ≤ r.Pmin := by exact_mod_cast (range_of_mem hr).2.1
    rw [hs] at hP
    exact hp.trans hP
  constructor
  · intro hlt
    have key : ∀ t ∈ Set.Icc T T', 4e-4 < eval s t P ∧ 0 < alpha s t P := fun t ht => by
      have := C117_physical h (T := t) (P := P) ⟨hT.trans ht.1, fun u hu => ht.2.trans (hT' u hu)⟩ ⟨hP, fun p hp => hPP.trans (hP' p hp)⟩
      exact ⟨this.1, this.2.2.1⟩
    have hd : ∀ t ∈ Set.Icc T T', HasDerivAt (fun t => eval s t P) (alpha s t P * eval s t P) t := fun t ht =>
      C65_alpha hB (by have := B_pos hB t; linarith) (by have := (key t ht).1; norm_num at this ⊢; linarith)
    refine strictMonoOn_of_deriv_pos (convex_Icc T T') (fun t ht => (hd t ht).continuousAt.continuousWithinAt) (fun t ht => ?_) ⟨le_rfl, hTT⟩ ⟨hTT, le_rfl⟩ hlt
    rw [interior_Icc] at ht
    rw [(hd t (Set.Ioo_subset_Icc_self ht)).deriv]
    have := key t (Set.Ioo_subset_Icc_self ht)
    exact mul_pos this.2 (by norm_num at this ⊢; linarith)
  · intro hlt
    have key : ∀ p ∈ Set.Icc P P', 4e-4 < eval s T p ∧ 0 < beta s T p := fun p hp => by
      have := C117_physical h (T := T) (P := p) ⟨hT, fun u hu => hTT.trans (hT' u hu)⟩ ⟨hP.trans hp.1, fun q hq => hp.2.trans (hP' q hq)⟩
      exact ⟨this.1, this.2.2.2⟩
    have hd : ∀ p ∈ Set.Icc P P', HasDerivAt (fun p => eval s T p) (-(beta s T p) * eval s T p) p := fun p hp =>
      C65_beta hB (by have := B_pos hB T; have := hp.1; linarith) (by have := (key p hp).1; norm_num at this ⊢; linarith)
    refine strictAntiOn_of_deriv_neg (convex_Icc P P') (fun p hp => (hd p hp).continuousAt.continuousWithinAt) (fun p hp => ?_) ⟨le_rfl, hPP⟩ ⟨hPP, le_rfl⟩ hlt
    rw [interior_Icc] at hp
    rw [(hd p (Set.Ioo_subset_Icc_self hp)).deriv]
    have := key p (Set.Ioo_subset_Icc_self hp)
    have h1 : 0 < eval s T p := by norm_num at this ⊢; linarith
    have := mul_pos this.2 h1
    linarith

/-- Non-vacuity: polystyrene at 400 K and 1 bar. -/
example : ∃ s, fromDatabase "PS" = .ok (some s) ∧ (s.Trange.1 ≤ 400 ∧ ∀ t ∈ s.Trange.2, (400 : ℝ) ≤ t) ∧ (s.Prange.1 ≤ 100000 ∧ ∀ p ∈ s.Prange.2, (100000 : ℝ) ≤ p) := by
  refine ⟨_, (C117_lookup "PS").2.1 ⟨"PS", 9.3805e-4, 3.3086e-7, 6.6910e-10, 2.5001e8, 4.1815e-3, 389, 469, 1.00e5, 2.00e8⟩ (by simp [table]) rfl, ⟨?_, ?_⟩, ?_, ?_⟩ <;> norm_num

end Verif.Tait
