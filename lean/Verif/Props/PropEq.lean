import Verif.Model.PropEq
import Verif.Props.Utils

/-!
# C70 (temperature handling of property equations), C80 (fitting)
-/

namespace Verif.PropEq

open Verif.Utils

variable {α : Type} [Field α] [LinearOrder α] [IsStrictOrderedRing α] {κ β V : Type} [DecidableEq κ]

/-! ### C70 -/

/-- **C70.** Finite readings in a known unit: the equation is evaluated at the kelvin value of every reading, and a warning is issued exactly
if one of them lies outside the validity range; a negative absolute temperature is refused. -/
theorem C70_call (equation : Fl α → Dict κ β → V) (e : Eqn α κ β) (T : List α) (unit : TUnit) (hu : unit ≠ .other) :
    ((∃ t ∈ T, kelvin unit t < 0) → call equation e (T.map .fin) unit = .error .RangeError) ∧
    ((∀ t ∈ T, 0 ≤ kelvin unit t) → ∃ w, call equation e (T.map .fin) unit = .ok (T.map fun t => equation (.fin (kelvin unit t)) e.p, w) ∧
      (w = true ↔ ∃ t ∈ T, Fl.Below (.fin (kelvin unit t)) e.Tmin ∨ Fl.Below e.Tmax (.fin (kelvin unit t)))) := by
  have hk : (27315 / 100 : α) = 5463 / 20 := by norm_num
  have conv : tempConv unit (T.map .fin) = some (T.map fun t => Fl.fin (kelvin unit t)) := by
    cases unit with
    | K => rfl
    | C => simp [tempConv, kelvin, Fl.addFin, hk, Function.comp_def]
    | other => exact absurd rfl hu
  unfold call convertCheckTemperature
  rw [conv]
  dsimp only
  constructor
  · rintro ⟨t, ht, h⟩
    rw [if_pos]
    · rfl
    · simp only [List.any_map, List.any_eq_true, Function.comp_apply, Fl.lt, decide_eq_true_eq]
      exact ⟨t, ht, h⟩
  · intro h
    rw [if_neg]
    · refine ⟨_, congrArg Except.ok (Prod.ext (List.map_map ..) rfl), ?_⟩
      simp only [List.any_map, Bool.or_eq_true, List.any_eq_true, Function.comp_apply, Fl.lt_iff]
      constructor
      · rintro (⟨t, h1, h2⟩ | ⟨t, h1, h2⟩)
        · exact ⟨t, h1, Or.inl h2⟩
        · exact ⟨t, h1, Or.inr h2⟩
      · rintro ⟨t, h1, h2 | h2⟩
        · exact Or.inl ⟨t, h1, h2⟩
        · exact Or.inr ⟨t, h1, h2⟩
    · simp only [List.any_map, List.any_eq_true, Function.comp_apply, Fl.lt, decide_eq_true_eq, not_exists, not_and, not_lt]
      exact h

/-- **C70.** An unknown unit is refused. -/
theorem C70_unknown_unit (equation : Fl α → Dict κ β → V) (e : Eqn α κ β) (T : List (Fl α)) : call equation e T .other = .error .ValueError := rfl

/-- **C70.** Readings in Celsius and in kelvin that denote the same temperatures give the same answer. -/
theorem C70_units_agree (equation : Fl α → Dict κ β → V) (e : Eqn α κ β) (T : List α) :
    call equation e (T.map .fin) .C = call equation e ((T.map fun t => t + 5463 / 20).map .fin) .K := by
  have hk : (27315 / 100 : α) = 5463 / 20 := by norm_num
  have conv : tempConv .C (T.map .fin) = tempConv .K ((T.map fun t => t + 5463 / 20).map Fl.fin) := by
    simp [tempConv, Fl.addFin, hk, Function.comp_def]
  unfold call convertCheckTemperature
  rw [conv]

omit [IsStrictOrderedRing α] in
theorem num_ok (x lo hi : Fl α) : checkBounds (.num x) lo hi = .ok (.num x) ∨ ∃ er, checkBounds (.num x) lo hi = .error er := by
  simp only [checkBounds]
  split_ifs
  · exact Or.inl rfl
  · exact Or.inr ⟨_, rfl⟩

/-- **C70.** The constructor accepts exactly the ranges of nonnegative numbers with `Tmin` finite and `Tmax` above `Tmin` by at least the machine
epsilon (or infinite); the accepted range is stored as given. -/
theorem C70_range_accepted (p : Dict κ β) (Tmin Tmax : Fl α) (e : Eqn α κ β) :
    init p Tmin Tmax = .ok e ↔ e = ⟨p, Tmin, Tmax⟩ ∧ ∃ a : α, Tmin = .fin a ∧ 0 ≤ a ∧ (Tmax = .pinf ∨ ∃ b : α, Tmax = .fin b ∧ 1 / 2 ^ 52 ≤ b - a) := by
  have key : init p Tmin Tmax = .ok e ↔ e = ⟨p, Tmin, Tmax⟩ ∧ inRange (.fin 0) .pinf Tmin = true ∧ inRange (.fin 0) .pinf Tmax = true ∧
      inRange (.fin (1 / 2 ^ 52)) .pinf (fsub Tmax Tmin) = true := by
    simp only [init, checkBounds]
    cases h1 : inRange (.fin 0) .pinf Tmin <;> cases h2 : inRange (.fin 0) .pinf Tmax <;>
      cases h3 : inRange (.fin (1 / 2 ^ 52)) .pinf (fsub Tmax Tmin)
    all_goals first
      | (simp [bind, Except.bind, pure, Except.pure, eq_comm]; done)
  rw [key]
  have pos : (0 : α) < 1 / 2 ^ 52 := by positivity
  cases Tmin with
  | nan => simp [inRange, Fl.le]
  | ninf => simp [inRange, Fl.le]
  | pinf => cases Tmax <;> simp [inRange, Fl.le, fsub]
  | fin a =>
    cases Tmax with
    | nan => simp [inRange, Fl.le, fsub]
    | ninf => simp [inRange, Fl.le, fsub]
    | pinf => simp [inRange, Fl.le, fsub]
    | fin b =>
      simp only [inRange, Fl.le, fsub, Bool.and_true, decide_eq_true_eq, Fl.fin.injEq, exists_eq_left', reduceCtorEq, false_or]
      constructor
      · rintro ⟨h, h1, h2, h3⟩; exact ⟨h, h1, h3⟩
      · rintro ⟨h, h1, h3⟩; exact ⟨h, h1, by linarith, h3⟩

example : init ([] : Dict String ℚ) (.fin (200 : ℚ)) (.fin 400) = .ok ⟨[], .fin 200, .fin 400⟩ :=
  (C70_range_accepted _ _ _ _).2 ⟨rfl, 200, rfl, by norm_num, Or.inr ⟨400, rfl, by norm_num⟩⟩

example : ∀ t ∈ ([25, 100] : List ℚ), 0 ≤ kelvin .C t := by simp [kelvin]; norm_num

/-! ### C80 -/

/-- Value of a parameter in a dict. -/
def val (d : Dict κ β) (k : κ) : Option β := (d.find? fun kv => kv.1 = k).map Prod.snd

theorem val_dset (d : Dict κ β) (k k' : κ) (v : β) : val (dset d k v) k' = if k = k' then some v else val d k' := by
  induction d with
  | nil => simp only [dset, val, List.find?]; split_ifs with h <;> simp [h]
  | cons a d ih =>
    obtain ⟨a, w⟩ := a
    simp only [dset]
    by_cases h : a = k
    · subst h
      rw [if_pos rfl]
      simp only [val, List.find?]
      by_cases h' : a = k'
      · simp [h']
      · simp [h']
    · rw [if_neg h]
      by_cases h' : a = k'
      · subst h'
        rw [if_neg (fun h' => h h'.symm)]
        simp [val, List.find?]
      · have e1 : val ((a, w) :: dset d k v) k' = val (dset d k v) k' := by simp [val, List.find?, h']
        have e2 : val ((a, w) :: d) k' = val d k' := by simp [val, List.find?, h']
        rw [e1, e2, ih]

theorem val_zipSet (d : Dict κ β) (names : List κ) (vs : List β) (hn : names.Nodup) (hl : vs.length = names.length) :
    (∀ i (hi : i < names.length), val (zipSet d names vs) names[i] = some vs[i]) ∧ ∀ k, k ∉ names → val (zipSet d names vs) k = val d k := by
  induction names generalizing d vs with
  | nil => exact ⟨fun i hi => absurd hi (Nat.not_lt_zero _), fun k _ => rfl⟩
  | cons n names ih =>
    cases vs with
    | nil => simp at hl
    | cons v vs =>
      rw [List.nodup_cons] at hn
      have e : zipSet d (n :: names) (v :: vs) = zipSet (dset d n v) names vs := rfl
      obtain ⟨i1, i2⟩ := ih (dset d n v) vs hn.2 (by simpa using hl)
      rw [e]
      refine ⟨fun i hi => ?_, fun k hk => ?_⟩
      · cases i with
        | zero => simp only [List.getElem_cons_zero]; rw [i2 n hn.1, val_dset, if_pos rfl]
        | succ i => simp only [List.getElem_cons_succ]; exact i1 i (by simpa using hi)
      · rw [List.mem_cons, not_or] at hk
        rw [i2 k hk.2, val_dset, if_neg (fun h => hk.1 h.symm)]

/-- **C80.** After a successful fit every fitted parameter of the equation is the optimum found, every other parameter is unchanged, and the
validity range is the range of the data. -/
theorem C80_stored (e : Eqn α κ β) (names : List κ) (t : α) (T : List α) (trials : List (List β)) (popt : List β)
    (hn : names.Nodup) (hl : popt.length = names.length) :
    (∀ i (hi : i < names.length), val (fit e names t T trials popt).1.p names[i] = some popt[i]) ∧
    (∀ k, k ∉ names → val (fit e names t T trials popt).1.p k = val e.p k) ∧
    ∃ lo hi, (fit e names t T trials popt).1.Tmin = .fin lo ∧ (fit e names t T trials popt).1.Tmax = .fin hi ∧
      lo ∈ t :: T ∧ hi ∈ t :: T ∧ ∀ x ∈ t :: T, lo ≤ x ∧ x ≤ hi := by
  obtain ⟨h1, h2⟩ := val_zipSet e.p names popt hn hl
  refine ⟨h1, h2, minL t T, maxL t T, rfl, rfl, ?_, ?_, ?_⟩
  · clear h1 h2
    unfold minL
    induction T generalizing t with
    | nil => simp
    | cons a T ih =>
      have := ih (min t a)
      rw [List.foldl_cons]
      rcases List.mem_cons.1 this with h | h
      · rw [h]; rcases min_choice t a with h | h <;> simp [h]
      · simp [h]
  · clear h1 h2
    unfold maxL
    induction T generalizing t with
    | nil => simp
    | cons a T ih =>
      have := ih (max t a)
      rw [List.foldl_cons]
      rcases List.mem_cons.1 this with h | h
      · rw [h]; rcases max_choice t a with h | h <;> simp [h]
      · simp [h]
  · have lo : ∀ (T : List α) (t : α), T.foldl min t ≤ t ∧ ∀ x ∈ T, T.foldl min t ≤ x := by
      intro T
      induction T with
      | nil => intro t; simp
      | cons a T ih =>
        intro t
        obtain ⟨h1, h2⟩ := ih (min t a)
        rw [List.foldl_cons]
        refine ⟨h1.trans (min_le_left _ _), fun x hx => ?_⟩
        rcases List.mem_cons.1 hx with rfl | hx
        · exact h1.trans (min_le_right _ _)
        · exact h2 x hx
    have hi : ∀ (T : List α) (t : α), t ≤ T.foldl max t ∧ ∀ x ∈ T, x ≤ T.foldl max t := by
      intro T
      induction T with
      | nil => intro t; simp
      | cons a T ih =>
        intro t
        obtain ⟨h1, h2⟩ := ih (max t a)
        rw [List.foldl_cons]
        refine ⟨(le_max_left _ _).trans h1, fun x hx => ?_⟩
        rcases List.mem_cons.1 hx with rfl | hx
        · exact (le_max_right _ _).trans h1
        · exact h2 x hx
    intro x hx
    rcases List.mem_cons.1 hx with rfl | hx
    · exact ⟨(lo T x).1, (hi T x).1⟩
    · exact ⟨(lo T t).2 x hx, (hi T t).2 x hx⟩

/-- **C80.** The parameters reported by `fit` are those stored in the equation if the solver's last evaluation happens to be the optimum. Missing:
any other last evaluation, see `C80_reported_false`. -/
theorem C80_reported_partial (e : Eqn α κ β) (names : List κ) (t : α) (T : List α) (trials : List (List β)) (popt : List β)
    (hn : names.Nodup) (hl : popt.length = names.length) (ht : ∀ v ∈ trials, v.length = names.length) (k : κ) :
    val (fit e names t T (trials ++ [popt]) popt).2 k = val (fit e names t T (trials ++ [popt]) popt).1.p k := by
  have fix : ∀ (l : List (List β)) (d : Dict κ β), (∀ v ∈ l, v.length = names.length) → k ∉ names →
      val (l.foldl (fun d v => zipSet d names v) d) k = val d k := by
    intro l
    induction l with
    | nil => intros; rfl
    | cons v l ih =>
      intro d hv hk
      rw [List.foldl_cons, ih _ (fun w hw => hv w (List.mem_cons_of_mem _ hw)) hk]
      exact (val_zipSet d names v hn (hv v List.mem_cons_self)).2 k hk
  show val ((trials ++ [popt]).foldl (fun d v => zipSet d names v) e.p) k = val (zipSet e.p names popt) k
  rw [List.foldl_append, List.foldl_cons, List.foldl_nil]
  by_cases hk : k ∈ names
  · obtain ⟨i, hi, rfl⟩ := List.getElem_of_mem hk
    rw [(val_zipSet _ names popt hn hl).1 i hi, (val_zipSet _ names popt hn hl).1 i hi]
  · rw [(val_zipSet _ names popt hn hl).2 k hk, (val_zipSet _ names popt hn hl).2 k hk, fix trials e.p ht hk]

/-- **C80.** In general they are not: `fit` reports the last parameters the solver tried, here 3 instead of the optimum 2. -/
theorem C80_reported_false : ∃ (trials : List (List ℚ)) (popt : List ℚ),
    let r := fit (α := ℚ) ⟨[("A", 1)], .fin 200, .fin 400⟩ ["A"] 300 [310] trials popt
    popt ∈ trials ∧ val r.1.p "A" = some 2 ∧ val r.2 "A" = some 3 :=
  ⟨[[1], [2], [3]], [2], by decide +kernel⟩

example : (["A", "B"] : List String).Nodup ∧ ([1, 2] : List ℚ).length = (["A", "B"] : List String).length := by decide

end Verif.PropEq
