import Verif.Lemmas.CopoData

/-! # C101: copolymerisation data sets -/

namespace Verif.CopoData

open Verif.Utils

variable {α : Type} [Field α]

/-- C101. A data set is created exactly when both names are non-empty, differ by more than case, and the shapes agree; the shapes are checked after the names. -/
theorem C101_construct (kind : Kind) (M1 M2 : String) (x y sx sy : Val α) :
    (∀ d, mk kind M1 M2 x y sx sy = .ok d → d = ⟨kind, M1, M2, x, y, sx, sy⟩ ∧ d.M1 ≠ "" ∧ d.M2 ≠ "" ∧ d.M1 ≠ d.M2)
      ∧ (mk kind M1 M2 x y sx sy = .error .ValueError ↔ M1 = "" ∨ M2 = "" ∨ M1.toLower = M2.toLower)
      ∧ (∀ xs ys : List α, x = .vec xs → y = .vec ys → ¬(M1 = "" ∨ M2 = "" ∨ M1.toLower = M2.toLower) →
        ((∃ d, mk kind M1 M2 x y sx sy = .ok d) ↔ xs.length = ys.length ∧ ∀ s, (s = sx ∨ s = sy) → ∀ l, s = .vec l → l.length = xs.length)) := by
  have hno : ∀ c d e, checkShapes c d = .error e → e = .ShapeError := (C72_shapes_scalar_iff [] [] (by simp)).2
  refine ⟨?_, ?_, ?_⟩
  · intro d h
    unfold mk at h
    split_ifs at h with hn
    push Not at hn
    cases hc : checkShapes [x.shape, y.shape] [sx.shape, sy.shape] with
    | error e => rw [hc] at h; cases h
    | ok s =>
      rw [hc] at h
      cases h
      exact ⟨rfl, hn.1, hn.2.1, fun h => hn.2.2 (by dsimp only at h; rw [h])⟩
  · unfold mk
    constructor
    · intro h
      by_contra hn
      rw [if_neg hn] at h
      cases hc : checkShapes [x.shape, y.shape] [sx.shape, sy.shape] with
      | error e => rw [hc] at h; rw [hno _ _ _ hc] at h; cases h
      | ok s => rw [hc] at h; cases h
    · intro h; rw [if_pos h]
  · intro xs ys hx hy hn
    subst hx hy
    have iff := fun s => C72_shapes_array_iff [(Val.vec xs).shape, (Val.vec ys).shape] [sx.shape, sy.shape] s
      ⟨some [xs.length], by simp [Val.shape], [xs.length], by simp [IsArray]⟩
    have hok : (∃ d, mk kind M1 M2 (.vec xs) (.vec ys) sx sy = .ok d) ↔ ∃ s, checkShapes [(Val.vec xs).shape, (Val.vec ys).shape] [sx.shape, sy.shape] = .ok (some s) := by
      unfold mk
      rw [if_neg hn]
      cases hc : checkShapes [(Val.vec xs).shape, (Val.vec ys).shape] [sx.shape, sy.shape] with
      | error e => simp
      | ok s =>
        have hs : s = some [xs.length] := by
          have := checkShapes_head _ _ _ hc
          rw [this]
          simp [Val.shape, arrayShape]
        simp [hs]
    rw [hok]
    constructor
    · rintro ⟨s, hs⟩
      obtain ⟨h1, h2⟩ := (iff s).1 hs
      have e1 := h1 _ (List.mem_cons_self)
      have e2 := h1 (Val.vec ys).shape (by simp)
      simp only [Val.shape, IsArray] at e1 e2
      have e1' : s = [xs.length] := by simpa using e1.1.symm
      have e2' : s = [ys.length] := by simpa using e2.1.symm
      refine ⟨by rw [e1'] at e2'; simpa using e2', ?_⟩
      rintro s' hs' l rfl
      have := h2 (some [l.length]) (by rcases hs' with h | h <;> rw [← h] <;> simp [Val.shape]) [l.length] (by simp [IsArray])
      rw [e1'] at this
      simpa using this
    · rintro ⟨h1, h2⟩
      refine ⟨[xs.length], (iff _).2 ⟨?_, ?_⟩⟩
      · intro e he
        simp only [List.mem_cons, List.not_mem_nil, or_false] at he
        rcases he with rfl | rfl <;> simp [Val.shape, IsArray, h1]
      · intro e he s' hs'
        simp only [List.mem_cons, List.not_mem_nil, or_false] at he
        rcases he with rfl | rfl
        · cases hsx : sx with
          | num v => rw [hsx] at hs'; simp [Val.shape, IsArray] at hs'
          | vec l => rw [hsx] at hs'; simp only [Val.shape, IsArray] at hs'; have := h2 sx (Or.inl rfl) l hsx; have h3 : s' = [l.length] := by simpa using hs'.1.symm
                     rw [h3, this]
        · cases hsx : sy with
          | num v => rw [hsx] at hs'; simp [Val.shape, IsArray] at hs'
          | vec l => rw [hsx] at hs'; simp only [Val.shape, IsArray] at hs'; have := h2 sy (Or.inr rfl) l hsx; have h3 : s' = [l.length] := by simpa using hs'.1.symm
                     rw [h3, this]

/-- Entry `i` of a value. -/
def Val.at : Val α → ℕ → Option α
  | .num x, _ => some x
  | .vec l, i => l[i]?

/-- C101. Which stored data each variable name refers to: `f` is the abscissa of composition and rate data but the ordinate of drift data; every other name is a `KeyError`. -/
theorem C101_getvar_names (d : Data α) : (d.kind = .mayo → getvar d "f" "" = .ok d.x ∧ getvar d "F" "" = .ok d.y) ∧
    (d.kind = .drift → getvar d "x" "" = .ok d.x ∧ getvar d "f" "" = .ok d.y) ∧
    (d.kind = .kp → getvar d "f" "" = .ok d.x ∧ getvar d "kp" "" = .ok d.y) ∧
    ∀ v M, v ∉ (["f", "F", "x", "kp"] : List String) → getvar d v M = .error .KeyError := by
  refine ⟨fun h => ?_, fun h => ?_, fun h => ?_, fun v M hv => ?_⟩
  · simp [getvar, h, varmap]
  · simp [getvar, h, varmap]
  · simp [getvar, h, varmap]
  · have : varmap d.kind v = none := by
      simp only [List.mem_cons, List.not_mem_nil, or_false, not_or] at hv
      unfold varmap
      split <;> simp_all
    simp [getvar, this]

/-- C101. `getvar(v, M)` refers to monomer `M`, whichever position it has: for the monomer the data were entered for it returns them, for the other one their complement to one, entry by entry. -/
theorem C101_getvar (d : Data α) (v : String) (hM : d.M1 ≠ "" ∧ d.M2 ≠ "" ∧ d.M1 ≠ d.M2) (hv : (varmap d.kind v).isSome) :
    ∃ a b, getvar d v d.M1 = .ok a ∧ getvar d v "" = .ok a ∧ getvar d v d.M2 = .ok b ∧ (∀ i, (a.at i).isSome = (b.at i).isSome) ∧ ∀ i x y, a.at i = some x → b.at i = some y → x + y = 1 := by
  obtain ⟨b, hb⟩ := Option.isSome_iff_exists.1 hv
  refine ⟨if b then d.x else d.y, (if b then d.x else d.y).compl, ?_, ?_, ?_, ?_, ?_⟩
  · unfold getvar; simp only [hb]; rw [if_neg hM.1]; exact if_pos trivial
  · unfold getvar; simp only [hb]; exact if_pos trivial
  · unfold getvar; simp only [hb]; rw [if_neg hM.2.1, if_neg (Ne.symm hM.2.2)]; exact if_pos trivial
  · intro i
    cases (if b then d.x else d.y) with
    | num x => rfl
    | vec l => simp [Val.at, Val.compl]
  · intro i x y h1 h2
    cases hc : (if b then d.x else d.y) with
    | num z =>
      rw [hc] at h1 h2
      simp only [Val.at, Val.compl, Option.some.injEq] at h1 h2
      rw [← h1, ← h2]; ring
    | vec l =>
      rw [hc] at h1 h2
      simp only [Val.at, Val.compl, List.getElem?_map] at h1 h2
      rw [h1] at h2
      simp only [Option.map_some, Option.some.injEq] at h2
      rw [← h2]; ring

/-- C101. An unknown variable raises KeyError, whatever the monomer; an unknown monomer raises ValueError. -/
theorem C101_getvar_errors (d : Data α) (v M : String) :
    (varmap d.kind v = none → getvar d v M = .error .KeyError)
      ∧ ((varmap d.kind v).isSome → M ≠ "" → M ≠ d.M1 → M ≠ d.M2 → getvar d v M = .error .ValueError) := by
  constructor
  · intro h; unfold getvar; rw [h]
  · intro h h1 h2 h3
    obtain ⟨b, hb⟩ := Option.isSome_iff_exists.1 h
    unfold getvar; simp only [hb]; rw [if_neg h1, if_neg h2, if_neg h3]

/-- C101. For a data set that `add_data` accepts, asking for the monomers of the model always succeeds (for the variables of its kind), also when they are listed in the opposite order. -/
theorem C101_model_names (d : Data α) (M1 M2 v : String) (h : CopoMulti.sameMonomers d.M1 d.M2 M1 M2 = true) (hv : (varmap d.kind v).isSome) :
    (∃ a, getvar d v M1 = .ok a) ∧ ∃ a, getvar d v M2 = .ok a := by
  obtain ⟨b, hb⟩ := Option.isSome_iff_exists.1 hv
  have key : ∀ M, (M = d.M1 ∨ M = d.M2) → ∃ a, getvar d v M = .ok a := by
    intro M hM
    unfold getvar
    simp only [hb]
    generalize (if b = true then d.x else d.y) = w
    split_ifs with h1 h2 h3
    · exact ⟨_, rfl⟩
    · exact ⟨_, rfl⟩
    · exact ⟨_, rfl⟩
    · exact absurd hM (by tauto)
  simp only [CopoMulti.sameMonomers, decide_eq_true_eq] at h
  rcases h with ⟨rfl, rfl⟩ | ⟨rfl, rfl⟩
  · exact ⟨key _ (Or.inl rfl), key _ (Or.inr rfl)⟩
  · exact ⟨key _ (Or.inr rfl), key _ (Or.inl rfl)⟩

/-- A propagation coefficient does not depend on which monomer one asks for: false, `getvar('kp', M2)` returns `1 - kp`. -/
theorem C101_kp_false : ∃ d : Data ℚ, mk .kp "MMA" "STY" (.vec [0.2]) (.vec [2000]) (.num 0.05) (.num 100) = .ok d
    ∧ getvar d "kp" "MMA" = .ok (.vec [2000]) ∧ getvar d "kp" "STY" = .ok (.vec [-1999]) := by
  refine ⟨⟨.kp, "MMA", "STY", .vec [0.2], .vec [2000], .num 0.05, .num 100⟩, mk_ok _ _ _ _ _ _ _ (some [1]) (by decide +kernel) rfl, rfl, ?_⟩
  show Except.ok (Val.vec [1 - 2000]) = _
  norm_num

example : ∃ d : Data ℚ, mk .mayo "STY" "MMA" (.vec [0.2, 0.5]) (.vec [0.3, 0.6]) (.num 0.01) (.num 0.05) = .ok d ∧ getvar d "F" "MMA" = .ok (.vec [1 - 0.3, 1 - 0.6]) ∧ (varmap d.kind "F").isSome :=
  ⟨⟨.mayo, "STY", "MMA", .vec [0.2, 0.5], .vec [0.3, 0.6], .num 0.01, .num 0.05⟩, mk_ok _ _ _ _ _ _ _ (some [2]) (by decide +kernel) rfl, rfl, rfl⟩

end Verif.CopoData
