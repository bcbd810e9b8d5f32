import Verif.Lemmas.UtilsAux

/-!
# C14 (range checks), C15 (temperature and pressure conversion), C16 (dictionary sum, symmetry), C72 (shape check)
-/

namespace Verif.Utils

variable {α : Type*} [Field α] [LinearOrder α] [IsStrictOrderedRing α]

/-- The numbers contained in an argument, `none` if it is not a number or a collection of numbers. -/
def Arg.elements : Arg α → Option (List (Fl α))
  | .num x => some [x]
  | .array0 x => some [x]
  | .array1 xs => some xs
  | .arrayN rows => some rows.flatten
  | .iter xs => some xs
  | .other => none

omit [Field α] [IsStrictOrderedRing α] in
/-- **C14.** `check_bounds` accepts an argument, and then returns it unchanged, exactly when it is a number or a collection
all of whose elements are numbers of the closed interval `[xmin, xmax]`. -/
theorem C14_bounds_accepts_iff (x y : Arg α) (xmin xmax : Fl α) :
    checkBounds x xmin xmax = .ok y ↔
      y = x ∧ ∃ es, x.elements = some es ∧ ∀ e ∈ es, Fl.Within xmin xmax e := by
  cases x with
  | num v =>
    simp only [checkBounds, Arg.elements, Option.some.injEq, exists_eq_left', List.mem_singleton, forall_eq,
      ← Fl.within_iff]
    split_ifs with h <;> simp [h, eq_comm]
  | array0 v =>
    simp only [checkBounds, Arg.elements, Option.some.injEq, exists_eq_left', List.mem_singleton, forall_eq,
      ← Fl.within_iff]
    split_ifs with h <;> simp [h, eq_comm]
  | array1 vs =>
    simp only [checkBounds, Arg.elements, Option.some.injEq, exists_eq_left', ← Fl.within_iff, List.all_eq_true]
    split_ifs with h
    · simp only [Except.ok.injEq, eq_comm (a := y)]; tauto
    · simp only [reduceCtorEq, false_iff]; tauto
  | arrayN rows =>
    simp only [checkBounds, Arg.elements, Option.some.injEq, exists_eq_left', ← Fl.within_iff]
    have hiff : rows.all (fun r => r.all (inRange xmin xmax)) = true ↔
        ∀ e ∈ rows.flatten, inRange xmin xmax e = true := by
      simp only [List.all_eq_true, List.mem_flatten]
      exact ⟨fun h e ⟨r, hr, he⟩ => h r hr e he, fun h r hr e he => h e ⟨r, hr, he⟩⟩
    split_ifs with h
    · simp only [Except.ok.injEq, eq_comm (a := y), hiff.mp h]
      exact ⟨fun h' => ⟨h', fun e he => hiff.mp h e he⟩, fun h' => h'.1⟩
    · have h' : ¬ ∀ e ∈ rows.flatten, inRange xmin xmax e = true := fun hc => h (hiff.mpr hc)
      cases hr : allRows xmin xmax rows with
      | error e => simp only [reduceCtorEq, false_iff]; tauto
      | ok b =>
        cases b with
        | false => simp only [reduceCtorEq, false_iff]; tauto
        | true => exact absurd (allRows_true _ _ _ hr) h
  | iter vs =>
    simp only [checkBounds, Arg.elements, Option.some.injEq, exists_eq_left', ← Fl.within_iff, List.all_eq_true]
    split_ifs with h
    · simp only [Except.ok.injEq, eq_comm (a := y)]; tauto
    · simp only [reduceCtorEq, false_iff]; tauto
  | other => simp [checkBounds, Arg.elements]

omit [Field α] [IsStrictOrderedRing α] in
/-- **C14.** NaN is never accepted, whatever the bounds. -/
theorem C14_nan_refused (x : Arg α) (xmin xmax : Fl α) (es : List (Fl α)) (h : x.elements = some es)
    (hn : Fl.nan ∈ es) : ∃ e, checkBounds x xmin xmax = .error e := by
  cases hc : checkBounds x xmin xmax with
  | error e => exact ⟨e, rfl⟩
  | ok y =>
    obtain ⟨-, es', h1, h2⟩ := (C14_bounds_accepts_iff x y xmin xmax).mp hc
    rw [h] at h1
    cases h1
    obtain ⟨_, _, _, _, _, h3, _⟩ := h2 _ hn
    simp [Fl.toExt] at h3

/-- The documented error, an out-of-range `RangeError`, is what a refused argument gives: numbers, one-dimensional arrays,
plain iterables, and those arrays of more dimensions whose first offending sub-array is a single number. -/
def Arg.RefusedByRange (xmin xmax : Fl α) : Arg α → Prop
  | .num _ | .array1 _ | .iter _ => True
  | .arrayN rows => ∃ pre v post, rows = pre ++ [v] :: post ∧ (∀ r ∈ pre, ∃ w, r = [w] ∧ Fl.Within xmin xmax w) ∧
      ¬ Fl.Within xmin xmax v
  | .array0 _ | .other => False

omit [Field α] [IsStrictOrderedRing α] in
/-- **C14.** Which error a refused argument gives, for every argument: `RangeError` in the cases listed by
`Arg.RefusedByRange`, numpy's `ValueError` for every other array with at least two dimensions, and `TypeError` for arrays
without dimensions and for arguments that are neither numbers nor collections. -/
theorem C14_refusal (x : Arg α) (xmin xmax : Fl α)
    (hbad : ∀ es, x.elements = some es → ∃ e ∈ es, ¬ Fl.Within xmin xmax e) :
    (x.RefusedByRange xmin xmax → checkBounds x xmin xmax = .error .RangeError) ∧
    (¬ x.RefusedByRange xmin xmax → (∃ rows, x = .arrayN rows) → checkBounds x xmin xmax = .error .ValueError) ∧
    (¬ x.RefusedByRange xmin xmax → (¬ ∃ rows, x = .arrayN rows) → checkBounds x xmin xmax = .error .TypeError) := by
  have hall : ∀ es, x.elements = some es → ¬ (es.all (inRange xmin xmax)) = true := by
    intro es hes hc
    obtain ⟨e, he, hw⟩ := hbad es hes
    rw [← Fl.within_iff] at hw
    exact hw (List.all_eq_true.1 hc e he)
  cases x with
  | num v =>
    have h := hall [v] rfl
    simp only [List.all_cons, List.all_nil, Bool.and_true] at h
    simp [Arg.RefusedByRange, checkBounds, h]
  | array0 v =>
    have h := hall [v] rfl
    simp only [List.all_cons, List.all_nil, Bool.and_true] at h
    simp [Arg.RefusedByRange, checkBounds, h]
  | array1 vs => simp only [Arg.RefusedByRange, checkBounds, if_neg (hall vs rfl)]; simp
  | iter vs => simp only [Arg.RefusedByRange, checkBounds, if_neg (hall vs rfl)]; simp
  | other => simp [Arg.RefusedByRange, checkBounds]
  | arrayN rows =>
    have h := hall rows.flatten rfl
    rw [List.all_flatten] at h
    refine ⟨fun hr => ?_, fun hr _ => ?_, fun _ hn => (hn ⟨rows, rfl⟩).elim⟩
    · simp only [checkBounds, if_neg h, (allRows_refused xmin xmax rows h).1 hr]
    · simp only [checkBounds, if_neg h, (allRows_refused xmin xmax rows h).2 hr]

-- non-vacuity
example : checkBounds (.array1 [.fin 1, .nan]) (.fin (0 : ℚ)) .pinf = .error .RangeError :=
  (C14_refusal (.array1 [.fin 1, .nan]) _ _ (fun es h => by
    cases h; exact ⟨.nan, by simp, by simp [Fl.Within, Fl.toExt]⟩)).1 trivial
example : checkBounds (.arrayN [[.fin 1], [.fin 5], [.fin 1]]) (.fin (0 : ℚ)) (.fin 2) = .error .RangeError := by decide +kernel
example : checkBounds (.iter [.fin 1, .fin 2]) (.fin (0 : ℚ)) .pinf = .ok (.iter [.fin 1, .fin 2]) := by decide +kernel

/-- **C14 (negative result).** For a two-dimensional array the promised `RangeError` is replaced by numpy's generic
`ValueError` about ambiguous truth values, and for a zero-dimensional array by a `TypeError`. -/
theorem C14_range_error_false :
    checkBounds (.arrayN [[.fin 1, .fin 5], [.fin 1, .fin 1]]) (.fin (0 : ℚ)) (.fin 2) = .error .ValueError ∧
    checkBounds (.array0 (.fin 5)) (.fin (0 : ℚ)) (.fin 2) = .error .TypeError := by
  constructor <;> decide +kernel

/-- **C14.** `check_in_set` accepts exactly the collections (or single items) whose members are all listed. -/
theorem C14_in_set_iff {β : Type*} [DecidableEq β] (x valid : List β) :
    ((∀ v ∈ x, v ∈ valid) → checkInSet x valid = .ok x) ∧
    ((¬ ∀ v ∈ x, v ∈ valid) → checkInSet x valid = .error .ValueError) := by
  unfold checkInSet
  constructor
  · intro h
    rw [if_pos]
    simpa using h
  · intro h
    rw [if_neg]
    simpa using h

example : ∀ v ∈ ["bar", "Pa"], v ∈ ["Pa", "bar", "MPa"] := by decide

omit [Field α] [IsStrictOrderedRing α] in
/-- **C14.** `check_valid_range` accepts exactly the pairs of numbers `r0 < r1` inside `[xmin, xmax]`; everything else is a
`RangeError`. -/
theorem C14_valid_range_iff (r : List (Fl α)) (xmin xmax : Fl α) :
    ((∃ r0 r1, r = [r0, r1] ∧ Fl.Below r0 r1 ∧ Fl.Within xmin xmax r0 ∧ Fl.Within xmin xmax r1) →
      checkValidRange r xmin xmax = .ok r) ∧
    ((¬ ∃ r0 r1, r = [r0, r1] ∧ Fl.Below r0 r1 ∧ Fl.Within xmin xmax r0 ∧ Fl.Within xmin xmax r1) →
      checkValidRange r xmin xmax = .error .RangeError) := by
  constructor
  · rintro ⟨r0, r1, rfl, h1, h2, h3⟩
    rw [← Fl.lt_iff] at h1
    rw [← Fl.within_iff] at h2 h3
    simp [checkValidRange, checkBounds, h1, h2, h3]
  · intro h
    unfold checkValidRange
    split
    · rename_i r0 r1
      split_ifs with h1
      · have h2 : ¬ ([r0, r1].all (inRange xmin xmax)) = true := by
          intro hc
          simp only [List.all_cons, List.all_nil, Bool.and_true, Bool.and_eq_true] at hc
          exact h ⟨r0, r1, rfl, (Fl.lt_iff _ _).mp h1, (Fl.within_iff _ _ _).mp hc.1, (Fl.within_iff _ _ _).mp hc.2⟩
        simp only [checkBounds, if_neg h2]
      · rfl
    · rfl

example : Fl.Below (.fin (0 : ℚ)) .pinf ∧ Fl.Within (.fin 0) .pinf (.fin (3 : ℚ)) := by
  rw [← Fl.lt_iff, ← Fl.within_iff]; constructor <;> rfl

/-! ### C15 -/

/-- The kelvin value of a reading. -/
def kelvin (unit : TUnit) (t : α) : α := match unit with | .C => t + 5463 / 20 | _ => t

/-- The pascal value of a reading. -/
def pascal (unit : PUnit) (p : α) : α :=
  match unit with
  | .bar => p * 10 ^ 5
  | .MPa => p * 10 ^ 6
  | _ => p

/-- **C15.** For finite readings in a known unit, `convert_check_temperature` returns exactly the kelvin values unless one of
them is negative (`RangeError`); the validity range only decides about the warning, which is issued iff some value lies
outside `[Tmin, Tmax]`. -/
theorem C15_temperature (T : List α) (unit : TUnit) (hu : unit ≠ .other) (Tmin Tmax : α) :
    ((∃ t ∈ T, kelvin unit t < 0) →
      convertCheckTemperature (T.map .fin) unit (.fin Tmin) (.fin Tmax) = .error .RangeError) ∧
    ((∀ t ∈ T, 0 ≤ kelvin unit t) →
      ∃ w, convertCheckTemperature (T.map .fin) unit (.fin Tmin) (.fin Tmax) =
          .ok (T.map (fun t => .fin (kelvin unit t)), w) ∧
        (w = true ↔ ∃ t ∈ T, kelvin unit t < Tmin ∨ Tmax < kelvin unit t)) := by
  have hk : (27315 / 100 : α) = 5463 / 20 := by norm_num
  have conv : tempConv unit (T.map .fin) = some (T.map fun t => Fl.fin (kelvin unit t)) := by
    cases unit with
    | K => rfl
    | C => simp [tempConv, kelvin, Fl.addFin, hk, Function.comp_def]
    | other => exact absurd rfl hu
  unfold convertCheckTemperature
  rw [conv]
  dsimp only
  constructor
  · rintro ⟨t, ht, h⟩
    rw [if_pos]
    simp only [List.any_map, List.any_eq_true, Function.comp_apply, Fl.lt, decide_eq_true_eq]
    exact ⟨t, ht, h⟩
  · intro h
    rw [if_neg]
    · refine ⟨_, rfl, ?_⟩
      simp only [List.any_map, Bool.or_eq_true, List.any_eq_true, Function.comp_apply, Fl.lt, decide_eq_true_eq]
      constructor
      · rintro (⟨t, h1, h2⟩ | ⟨t, h1, h2⟩)
        · exact ⟨t, h1, Or.inl h2⟩
        · exact ⟨t, h1, Or.inr h2⟩
      · rintro ⟨t, h1, h2 | h2⟩
        · exact Or.inl ⟨t, h1, h2⟩
        · exact Or.inr ⟨t, h1, h2⟩
    · simp only [List.any_map, List.any_eq_true, Function.comp_apply, Fl.lt, decide_eq_true_eq, not_exists, not_and, not_lt]
      exact h

example : ∀ t ∈ ([25, 100] : List ℚ), 0 ≤ kelvin .C t := by simp [kelvin]; norm_num

/-- **C15.** An unknown unit is refused, for temperature and pressure. -/
theorem C15_unknown_unit (T : List (Fl α)) (lo hi : Fl α) :
    convertCheckTemperature T .other lo hi = .error .ValueError ∧
    convertCheckPressure T .other lo hi = .error .ValueError := ⟨rfl, rfl⟩

/-- **C15.** `convert_check_pressure` is a pure unit conversion with the same decision logic. -/
theorem C15_pressure (P : List α) (unit : PUnit) (hu : unit ≠ .other) (Pmin Pmax : α) :
    ((∃ p ∈ P, p < 0) → convertCheckPressure (P.map .fin) unit (.fin Pmin) (.fin Pmax) = .error .RangeError) ∧
    ((∀ p ∈ P, 0 ≤ p) →
      ∃ w, convertCheckPressure (P.map .fin) unit (.fin Pmin) (.fin Pmax) =
          .ok (P.map (fun p => .fin (pascal unit p)), w) ∧
        (w = true ↔ ∃ p ∈ P, pascal unit p < Pmin ∨ Pmax < pascal unit p)) := by
  obtain ⟨f, hf, hf0, hp⟩ : ∃ f : α, pressFactor unit = some f ∧ 0 < f ∧ ∀ p, pascal unit p = p * f := by
    cases unit with
    | Pa => exact ⟨1, rfl, by norm_num, fun p => by simp [pascal]⟩
    | bar => exact ⟨100000, rfl, by norm_num, fun p => by simp [pascal]; norm_num⟩
    | MPa => exact ⟨1000000, rfl, by norm_num, fun p => by simp [pascal]; norm_num⟩
    | other => exact absurd rfl hu
  unfold convertCheckPressure
  rw [hf]
  simp only [List.map_map]
  have hmap : ((fun p => Fl.mulPos p f) ∘ Fl.fin : α → Fl α) = fun p => .fin (pascal unit p) := by
    funext p; simp [Fl.mulPos, hp]
  rw [hmap]
  constructor
  · rintro ⟨p, h1, h⟩
    rw [if_pos]
    simp only [List.any_map, List.any_eq_true, Function.comp_apply, Fl.lt, decide_eq_true_eq]
    exact ⟨p, h1, by rw [hp]; exact mul_neg_of_neg_of_pos h hf0⟩
  · intro h
    rw [if_neg]
    · refine ⟨_, rfl, ?_⟩
      simp only [List.any_map, Bool.or_eq_true, List.any_eq_true, Function.comp_apply, Fl.lt, decide_eq_true_eq]
      constructor
      · rintro (⟨t, h1, h2⟩ | ⟨t, h1, h2⟩)
        · exact ⟨t, h1, Or.inl h2⟩
        · exact ⟨t, h1, Or.inr h2⟩
      · rintro ⟨t, h1, h2 | h2⟩
        · exact Or.inl ⟨t, h1, h2⟩
        · exact Or.inr ⟨t, h1, h2⟩
    · simp only [List.any_map, List.any_eq_true, Function.comp_apply, Fl.lt, decide_eq_true_eq, not_exists, not_and, not_lt]
      intro p hp'
      rw [hp]
      exact mul_nonneg (h p hp') hf0.le

example : ∀ p ∈ ([1, 2] : List ℚ), 0 ≤ p := by simp

/-- **C15 (negative result).** The message promises `T > 0 K`, but absolute zero is accepted, and a NaN temperature passes
without error or warning for every validity range. -/
theorem C15_strictly_positive_false (lo hi : Fl ℚ) :
    (∃ w, convertCheckTemperature [.fin (0 : ℚ)] .K lo hi = .ok ([.fin 0], w)) ∧
    convertCheckTemperature [.nan] .K lo hi = .ok ([.nan], false) := by
  constructor
  · exact ⟨_, rfl⟩
  · cases lo <;> cases hi <;> rfl

/-! ### C16 -/

/-- **C16.** `add_dicts` returns the key-wise sum (absent keys count as 0); its keys are exactly the keys of both; with
`new=True` the first argument is unchanged, with `new=False` it becomes the returned value. -/
theorem C16_add_dicts {κ β : Type*} [DecidableEq κ] [AddMonoid β] (d1 d2 : Dict κ β) (new : Bool)
    (h1 : (d1.map Prod.fst).Nodup) (h2 : (d2.map Prod.fst).Nodup) :
    (∀ k, dget (addDicts d1 d2 new).1 k = dget d1 k + dget d2 k) ∧
    (∀ k, k ∈ (addDicts d1 d2 new).1.map Prod.fst ↔ k ∈ d1.map Prod.fst ∨ k ∈ d2.map Prod.fst) ∧
    ((addDicts d1 d2 new).1.map Prod.fst).Nodup ∧
    ((addDicts d1 d2 true).2 = d1) ∧ ((addDicts d1 d2 false).2 = (addDicts d1 d2 false).1) := by
  have e : (addDicts d1 d2 new).1 = addLoop d1 d2 := by cases new <;> rfl
  rw [e]
  refine ⟨addLoop_get d2 h2 d1, fun k => (addLoop_keys d2 d1 h1 k).2, ?_, rfl, rfl⟩
  cases d1 with
  | nil =>
    cases d2 with
    | nil => simp [addLoop]
    | cons x d2 => exact (addLoop_keys (x :: d2) [] h1 x.1).1
  | cons x d1 => exact (addLoop_keys d2 (x :: d1) h1 x.1).1

example : addDicts [("a", (1 : ℚ)), ("b", 2)] [("b", 3), ("c", 4)] true =
    ([("a", 1), ("b", 5), ("c", 4)], [("a", 1), ("b", 2)]) := by decide +kernel

/-- **C16.** As a map from keys to values the sum is commutative and associative. -/
theorem C16_add_dicts_comm_assoc {κ β : Type*} [DecidableEq κ] [AddCommMonoid β] (d1 d2 d3 : Dict κ β)
    (h1 : (d1.map Prod.fst).Nodup) (h2 : (d2.map Prod.fst).Nodup) (h3 : (d3.map Prod.fst).Nodup) (k : κ) :
    dget (addDicts d1 d2 true).1 k = dget (addDicts d2 d1 true).1 k ∧
    dget (addDicts (addDicts d1 d2 true).1 d3 true).1 k = dget (addDicts d1 (addDicts d2 d3 true).1 true).1 k := by
  have h12 := (C16_add_dicts d1 d2 true h1 h2).2.2.1
  have h23 := (C16_add_dicts d2 d3 true h2 h3).2.2.1
  rw [(C16_add_dicts d1 d2 true h1 h2).1, (C16_add_dicts d2 d1 true h2 h1).1,
    (C16_add_dicts _ d3 true h12 h3).1, (C16_add_dicts d1 _ true h1 h23).1, (C16_add_dicts d1 d2 true h1 h2).1,
    (C16_add_dicts d2 d3 true h2 h3).1]
  exact ⟨add_comm _ _, add_assoc _ _ _⟩

/-- **C16.** `enforce_symmetry` on a square matrix keeps the diagonal and the upper triangle, makes the matrix symmetric, is
idempotent and leaves symmetric matrices alone; other shapes are refused. -/
theorem C16_enforce_symmetry {β : Type*} {n : ℕ} (M : Fin n → Fin n → β) :
    ∃ M', enforceSymmetry M = .ok M' ∧ (∀ i j, i ≤ j → M' i j = M i j) ∧ (∀ i j, M' i j = M' j i) ∧
      enforceSymmetry M' = .ok M' ∧ ((∀ i j, M i j = M j i) → M' = M) := by
  have e : ∀ M : Fin n → Fin n → β, enforceSymmetry M = .ok fun i j => if j < i then M j i else M i j := by
    intro M
    unfold enforceSymmetry
    rw [dif_pos rfl]
    rfl
  refine ⟨fun i j => if j < i then M j i else M i j, e M, ?_, ?_, ?_, ?_⟩
  · intro i j h
    simp [not_lt.mpr h]
  · intro i j
    rcases lt_trichotomy i j with h | h | h
    · simp [h, not_lt.mpr h.le]
    · subst h; rfl
    · simp [h, not_lt.mpr h.le]
  · rw [e]
    congr 1
    funext i j
    by_cases h : j < i
    · simp [h, not_lt.mpr h.le]
    · simp [h]
  · intro h
    funext i j
    by_cases h' : j < i
    · simp [h', h j i]
    · simp [h']

/-- **C16.** A non-square matrix is refused. -/
theorem C16_enforce_symmetry_refusal {β : Type*} {n m : ℕ} (h : n ≠ m) (M : Fin n → Fin m → β) :
    enforceSymmetry M = .error .ValueError := by
  unfold enforceSymmetry; rw [dif_neg h]

/-! ### C72 -/

/-- An array with at least one dimension. -/
def IsArray (e : Option (List ℕ)) (s : List ℕ) : Prop := e = some s ∧ s ≠ []

theorem filterMap_shape (l : List (Option (List ℕ))) (s : List ℕ) :
    s ∈ l.filterMap arrayShape ↔ ∃ e ∈ l, IsArray e s := by
  simp only [List.mem_filterMap, IsArray]
  constructor
  · rintro ⟨e, he, h⟩
    refine ⟨e, he, ?_⟩
    match e, h with
    | some (a :: t), h => simp only [arrayShape, Option.some.injEq] at h; subst h; simp
  · rintro ⟨e, he, rfl, h⟩
    refine ⟨_, he, ?_⟩
    match s, h with
    | a :: t, _ => rfl

theorem length_filterMap_eq (l : List (Option (List ℕ))) :
    (l.filterMap arrayShape).length = l.length ↔
      ∀ e ∈ l, ∃ s, IsArray e s := by
  induction l with
  | nil => simp
  | cons e l ih =>
    match e with
    | none =>
      simp only [List.filterMap_cons, arrayShape, List.length_cons, List.mem_cons, forall_eq_or_imp, IsArray]
      have := List.length_filterMap_le arrayShape l
      constructor
      · intro h; omega
      · rintro ⟨⟨s, h, -⟩, -⟩; simp at h
    | some [] =>
      simp only [List.filterMap_cons, arrayShape, List.length_cons, List.mem_cons, forall_eq_or_imp, IsArray]
      have := List.length_filterMap_le arrayShape l
      constructor
      · intro h; omega
      · rintro ⟨⟨s, h, h'⟩, -⟩; exact absurd (Option.some.inj h).symm h'
    | some (a :: t) =>
      simp only [List.filterMap_cons, arrayShape, List.length_cons, List.mem_cons, forall_eq_or_imp, Nat.add_right_cancel_iff, ih]
      constructor
      · intro h; exact ⟨⟨a :: t, rfl, by simp⟩, h⟩
      · rintro ⟨-, h⟩; exact h

/-- **C72.** `check_shapes(a, b)` with at least one array in `a` succeeds with shape `s` iff every element of `a` is an array of
shape `s` and every array in `b` has shape `s`. -/
theorem C72_shapes_array_iff (a b : List (Option (List ℕ))) (s : List ℕ) (ha : ∃ e ∈ a, ∃ s', IsArray e s') :
    checkShapes a b = .ok (some s) ↔ (∀ e ∈ a, IsArray e s) ∧ (∀ e ∈ b, ∀ s', IsArray e s' → s' = s) := by
  unfold checkShapes
  dsimp only
  have mA := filterMap_shape a
  have mB := filterMap_shape b
  have lA := length_filterMap_eq a
  generalize hA : a.filterMap arrayShape = A at mA lA
  generalize hB : b.filterMap arrayShape = B at mB
  obtain ⟨e0, he0, s0, hs0⟩ := ha
  have h0 : s0 ∈ A := (mA s0).mpr ⟨e0, he0, hs0⟩
  obtain ⟨s1, A', rfl⟩ : ∃ s1 A', A = s1 :: A' := by
    cases A with
    | nil => simp at h0
    | cons x l => exact ⟨x, l, rfl⟩
  have hs1 : s1 ∈ s1 :: A' := by simp
  have hchk : ∀ (l1 l2 : List (List ℕ)), (¬ ((!(decide (l1.length = a.length) && decide (l1.dedup.length = 1)) ||
      !(if l2.isEmpty then true else decide ((l1 ++ l2).dedup.length = 1))) = true)) ↔
      (l1.length = a.length ∧ l1.dedup.length = 1 ∧ (l2.isEmpty = false → (l1 ++ l2).dedup.length = 1)) := by
    intro l1 l2
    cases h : l2.isEmpty <;> simp [h] <;> tauto
  have hsimp : (if (!(if (s1 :: A').isEmpty = true then true else
        (s1 :: A').length == a.length && (s1 :: A').dedup.length == 1) ||
      !(if B.isEmpty = true then true else if (s1 :: A').isEmpty = true then false
          else (s1 :: A' ++ B).dedup.length == 1)) = true then
        (Except.error Err.ShapeError : Except Err (Option (List ℕ))) else .ok (s1 :: A').head?) = .ok (some s) ↔
      ((s1 :: A').length = a.length ∧ (s1 :: A').dedup.length = 1 ∧
        (B.isEmpty = false → (s1 :: A' ++ B).dedup.length = 1)) ∧ s1 = s := by
    rw [← hchk]
    simp only [List.isEmpty_cons, Bool.false_eq_true, if_false, List.head?_cons]
    split_ifs with h h' h' <;> simp_all
  rw [hsimp]
  rw [lA, dedup_length_one (s1 :: A') s1 hs1, dedup_length_one (s1 :: A' ++ B) s1 (by simp)]
  constructor
  · rintro ⟨⟨h1, h2, h3⟩, rfl⟩
    constructor
    · intro e he
      obtain ⟨s', hs'⟩ := h1 e he
      have := h2 s' ((mA s').mpr ⟨e, he, hs'⟩)
      rwa [this] at hs'
    · intro e he s' hs'
      have hm : s' ∈ B := (mB s').mpr ⟨e, he, hs'⟩
      have : B.isEmpty = false := by cases B <;> simp_all
      exact h3 this s' (List.mem_append_right _ hm)
  · rintro ⟨h1, h2⟩
    have hall : ∀ x ∈ s1 :: A', x = s := by
      intro x hx
      obtain ⟨e, he, hxe⟩ := (mA x).mp hx
      have := h1 e he
      have h3 := hxe.1.symm.trans this.1
      exact Option.some.inj h3
    have h4 : s1 = s := hall s1 hs1
    refine ⟨⟨fun e he => ⟨s, h1 e he⟩, fun x hx => (hall x hx).trans h4.symm, fun _ x hx => ?_⟩, h4⟩
    rcases List.mem_append.mp hx with hx | hx
    · exact (hall x hx).trans h4.symm
    · obtain ⟨e, he, hxe⟩ := (mB x).mp hx
      exact (h2 e he x hxe).trans h4.symm

/-- **C72.** With only numbers in `a`, it succeeds (returning no shape) iff there is no array in `b`; any failure is a
`ShapeError`. -/
theorem C72_shapes_scalar_iff (a b : List (Option (List ℕ))) (ha : ∀ e ∈ a, ∀ s, ¬ IsArray e s) :
    (checkShapes a b = .ok none ↔ ∀ e ∈ b, ∀ s, ¬ IsArray e s) ∧
    (∀ c d e, checkShapes c d = .error e → e = .ShapeError) := by
  constructor
  · unfold checkShapes
    dsimp only
    have mA := filterMap_shape a
    have mB := filterMap_shape b
    generalize hA : a.filterMap arrayShape = A at mA
    generalize hB : b.filterMap arrayShape = B at mB
    have hA0 : A = [] := by
      cases A with
      | nil => rfl
      | cons x l =>
        obtain ⟨e, he, h⟩ := (mA x).mp (by simp)
        exact absurd h (ha e he x)
    subst hA0
    cases B with
    | nil =>
      simp only [List.isEmpty_nil, if_true, Bool.not_true, Bool.or_self, Bool.false_eq_true, if_false, List.head?_nil,
        true_iff]
      intro e he s hs
      exact absurd ((mB s).mpr ⟨e, he, hs⟩) (by simp)
    | cons x l =>
      obtain ⟨e, he, h⟩ := (mB x).mp (by simp)
      simp
      exact ⟨e, he, x, h⟩
  · intro c d e h
    unfold checkShapes at h
    dsimp only at h
    generalize (!(if (List.filterMap arrayShape c).isEmpty = true then true else _) || !_) = t at h
    cases t with
    | true => exact (Except.error.inj h).symm
    | false => cases h

example : checkShapes [some [2], some [2]] [none, some [2]] = .ok (some [2]) := by decide +kernel
example : checkShapes [some [2], none] [] = .error .ShapeError := by decide +kernel

end Verif.Utils
