import Verif.Spec.DistState
import Verif.Lemmas.Utils

/-! # Helper lemmas: state of distribution objects -/

namespace Verif.DistState

open Verif.Utils

variable {α : Type*} [Field α] [LinearOrder α] {P V R S : Type*}

theorem okBounds_ok (x lo hi : Fl α) (h : Fl.Within lo hi x) : okBounds x lo hi = .ok () := by
  unfold okBounds checkBounds
  dsimp only
  rw [if_pos ((Fl.within_iff _ _ _).mpr h)]

theorem okBounds_err (x lo hi : Fl α) (h : ¬ Fl.Within lo hi x) : okBounds x lo hi = .error .RangeError := by
  unfold okBounds checkBounds
  dsimp only
  rw [if_neg (fun h' => h ((Fl.within_iff _ _ _).mp h'))]

/-- The record of assigned values of an object. -/
def Obj.plain (o : Obj α P R) : Plain α := ⟨o.cls, o.DPn, o.PDI, o.M0⟩

/-- An object whose derived fields are up to date. -/
structure Good (L : Lib α P V R S) (o : Obj α P R) : Prop where
  par : o.par = some (L.internal o.cls o.DPn o.PDI)
  range : ∀ r, o.range = some r → r = L.range o.cls (L.internal o.cls o.DPn o.PDI)
  p2 : o.cls.isP2 = o.PDI.isSome

/-- World and reference state agree. -/
structure Rel (L : Lib α P V R S) (w : World α P V R) (s : List (Plain α)) : Prop where
  objs : w.objs.map Obj.plain = s
  good : ∀ (i : ℕ) (o : Obj α P R), w.objs[i]? = some o → Good L o
  cache : ∀ (c : Cls) (i order : ℕ) (v : V), w.cache c (i, order) = some v →
    ∃ o, w.objs[i]? = some o ∧ o.cls = c ∧ L.moment o.cls (L.internal o.cls o.DPn o.PDI) order = .ok v

theorem Rel.get {L : Lib α P V R S} {w : World α P V R} {s} (h : Rel L w s) (i : ℕ) : s[i]? = (w.objs[i]?).map Obj.plain := by
  rw [← h.objs, List.getElem?_map]

theorem Rel.clear {L : Lib α P V R S} {w : World α P V R} {s} (h : Rel L w s) (c : Cls) : Rel L (clear w c) s where
  objs := h.objs
  good := h.good
  cache := by
    intro c' i order v hv
    unfold DistState.clear at hv
    dsimp only at hv
    split_ifs at hv
    exact h.cache c' i order v hv

/-- Replacing an object after clearing the memo table of its class. -/
theorem Rel.put {L : Lib α P V R S} {w : World α P V R} {s} (h : Rel L w s) (i : ℕ) (o o' : Obj α P R) (hi : w.objs[i]? = some o)
    (hc : o'.cls = o.cls) (hg : Good L o') : Rel L (putObj (DistState.clear w o.cls) i o') (s.set i o'.plain) where
  objs := by
    unfold putObj DistState.clear
    dsimp only
    rw [List.map_set, h.objs]
  good := by
    intro j oj hj
    unfold putObj DistState.clear at hj
    dsimp only at hj
    rw [List.getElem?_set] at hj
    split_ifs at hj with h1 h2
    · cases hj; exact hg
    · exact h.good j oj hj
  cache := by
    intro c j order v hv
    unfold putObj DistState.clear at hv ⊢
    dsimp only at hv ⊢
    split_ifs at hv with h1
    obtain ⟨oj, h2, h3, h4⟩ := h.cache c j order v hv
    refine ⟨oj, ?_, h3, h4⟩
    rw [List.getElem?_set, if_neg, h2]
    rintro rfl
    rw [hi] at h2
    cases h2
    exact h1 h3.symm

/-- Replacing an object without changing what the moments depend on. -/
theorem Rel.put' {L : Lib α P V R S} {w : World α P V R} {s} (h : Rel L w s) (i : ℕ) (o o' : Obj α P R) (hi : w.objs[i]? = some o)
    (hc : o'.cls = o.cls) (hd : o'.DPn = o.DPn) (hp : o'.PDI = o.PDI) (hg : Good L o') : Rel L (putObj w i o') (s.set i o'.plain) where
  objs := by
    unfold putObj
    dsimp only
    rw [List.map_set, h.objs]
  good := by
    intro j oj hj
    unfold putObj at hj
    dsimp only at hj
    rw [List.getElem?_set] at hj
    split_ifs at hj with h1 h2
    · cases hj; exact hg
    · exact h.good j oj hj
  cache := by
    intro c j order v hv
    unfold putObj at hv ⊢
    dsimp only at hv ⊢
    obtain ⟨oj, h2, h3, h4⟩ := h.cache c j order v hv
    by_cases hij : i = j
    · subst hij
      rw [hi] at h2
      cases h2
      have hlt : i < w.objs.length := by
        by_contra hge
        rw [List.getElem?_eq_none (by omega)] at hi
        cases hi
      refine ⟨o', ?_, ?_, ?_⟩
      · rw [List.getElem?_set, if_pos rfl, if_pos hlt]
      · rw [hc, h3]
      · rw [hc, hd, hp, h4]
    · refine ⟨oj, ?_, h3, h4⟩
      rw [List.getElem?_set, if_neg hij, h2]

/-- Adding an object. -/
theorem Rel.push {L : Lib α P V R S} {w : World α P V R} {s} (h : Rel L w s) (o : Obj α P R) (hg : Good L o) :
    Rel L { w with objs := w.objs ++ [o] } (s ++ [o.plain]) where
  objs := by dsimp only; rw [List.map_append, h.objs]; rfl
  good := by
    intro j oj hj
    dsimp only at hj
    rw [List.getElem?_append] at hj
    split_ifs at hj with h1
    · exact h.good j oj hj
    · have : o = oj := by
        rcases hk : j - w.objs.length with _ | k
        · rw [hk] at hj; simpa using hj
        · rw [hk] at hj; simp at hj
      rw [← this]; exact hg
  cache := by
    intro c j order v hv
    obtain ⟨oj, h2, h3, h4⟩ := h.cache c j order v hv
    refine ⟨oj, ?_, h3, h4⟩
    dsimp only
    rw [List.getElem?_append_left, h2]
    by_contra hge
    rw [List.getElem?_eq_none (by omega)] at h2
    cases h2

theorem good_updated (L : Lib α P V R S) (o : Obj α P R) (h : o.cls.isP2 = o.PDI.isSome) : Good L (updated L o) where
  par := by
    unfold updated
    dsimp only
    rw [h]
    cases o.PDI <;> simp
  range := by
    intro r hr
    cases hr
  p2 := h

theorem cachedMoment_spec (L : Lib α P V R S) (w : World α P V R) (s) (h : Rel L w s) (i : ℕ) (o : Obj α P R)
    (hi : w.objs[i]? = some o) (order : ℕ) :
    Rel L (cachedMoment L w i o order).1 s ∧ (cachedMoment L w i o order).2 = o.plain.moment L order := by
  unfold cachedMoment
  cases hc : w.cache o.cls (i, order) with
  | some v =>
    obtain ⟨o', h1, h2, h3⟩ := h.cache _ _ _ _ hc
    rw [hi] at h1
    cases h1
    exact ⟨h, h3.symm⟩
  | none =>
    rw [(h.good i o hi).par]
    dsimp only
    have hm : o.plain.moment L order = L.moment o.cls (L.internal o.cls o.DPn o.PDI) order := rfl
    rw [hm]
    cases hv : L.moment o.cls (L.internal o.cls o.DPn o.PDI) order with
    | error e => exact ⟨h, rfl⟩
    | ok v =>
      refine ⟨⟨h.objs, h.good, ?_⟩, rfl⟩
      intro c j order' v' hv'
      dsimp only at hv'
      split_ifs at hv' with hk
      · obtain ⟨rfl, hk⟩ := hk
        obtain ⟨rfl, rfl⟩ := Prod.mk.inj hk
        cases hv'
        exact ⟨o, hi, rfl, hv⟩
      · exact h.cache c j order' v' hv'

theorem step_rel (L : Lib α P V R S) (w : World α P V R) (s) (h : Rel L w s) (op : Op α S) :
    Rel L (step L w op).1 (refStep L s op).1 ∧ (step L w op).2 = (refStep L s op).2 := by
  have hlen : s.length = w.objs.length := by rw [← h.objs, List.length_map]
  cases op with
  | new c d p m =>
    simp only [step, refStep, construct]
    by_cases ha : c.isP2 = p.isSome
    · rw [if_neg (by simp [ha]), if_neg (by simp [ha])]
      unfold okDPn okM0 okPDI
      by_cases h1 : Fl.Within (.fin 1) .pinf d
      · rw [okBounds_ok _ _ _ h1]
        dsimp only
        by_cases h2 : Fl.Within (.fin 0) .pinf m
        · rw [okBounds_ok _ _ _ h2]
          dsimp only
          cases p with
          | none =>
            rw [if_pos ⟨h1, h2, by simp⟩]
            refine ⟨?_, by rw [hlen]; rfl⟩
            exact (h.clear c).push _ (good_updated L _ ha)
          | some x =>
            dsimp only
            by_cases h3 : Fl.Within (.fin (1000001 / 1000000)) .pinf x
            · rw [okBounds_ok _ _ _ h3, if_pos ⟨h1, h2, by rintro _ ⟨⟩; exact h3⟩]
              refine ⟨?_, by rw [hlen]; rfl⟩
              exact ((h.clear c).clear c).push _ (good_updated L _ ha)
            · rw [okBounds_err _ _ _ h3, if_neg (by rintro ⟨_, _, hx⟩; exact h3 (hx x rfl))]
              exact ⟨h.clear c, rfl⟩
        · rw [okBounds_err _ _ _ h2, if_neg (fun hx => h2 hx.2.1)]
          exact ⟨h.clear c, rfl⟩
      · rw [okBounds_err _ _ _ h1, if_neg (fun hx => h1 hx.1)]
        exact ⟨h, rfl⟩
    · rw [if_pos (by simpa using ha), if_pos ha]
      exact ⟨h, rfl⟩
  | setDPn i v =>
    simp only [step, refStep, h.get i]
    cases hi : w.objs[i]? with
    | none => exact ⟨h, rfl⟩
    | some o =>
      simp only [Option.map_some, okDPn]
      by_cases h1 : Fl.Within (.fin 1) .pinf v
      · rw [okBounds_ok _ _ _ h1, if_pos h1]
        exact ⟨h.put i o _ hi rfl (good_updated L _ (h.good i o hi).p2), rfl⟩
      · rw [okBounds_err _ _ _ h1, if_neg h1]
        exact ⟨h, rfl⟩
  | setPDI i v =>
    simp only [step, refStep, h.get i]
    cases hi : w.objs[i]? with
    | none => exact ⟨h, rfl⟩
    | some o =>
      simp only [Option.map_some, okPDI, Obj.plain]
      by_cases hc : o.cls.isP2 = true
      · rw [if_pos hc, if_neg (not_not.mpr hc)]
        by_cases h1 : Fl.Within (.fin (1000001 / 1000000)) .pinf v
        · rw [okBounds_ok _ _ _ h1, if_pos h1]
          exact ⟨h.put i o _ hi rfl (good_updated L _ hc), rfl⟩
        · rw [okBounds_err _ _ _ h1, if_neg h1]
          exact ⟨h, rfl⟩
      · rw [if_neg hc, if_pos hc]
        exact ⟨h, rfl⟩
  | setM0 i v =>
    simp only [step, refStep, h.get i]
    cases hi : w.objs[i]? with
    | none => exact ⟨h, rfl⟩
    | some o =>
      simp only [Option.map_some, okM0]
      by_cases h1 : Fl.Within (.fin 0) .pinf v
      · rw [okBounds_ok _ _ _ h1, if_pos h1]
        exact ⟨h.put' i o { o with M0 := v } hi rfl rfl rfl ⟨(h.good i o hi).par, (h.good i o hi).range, (h.good i o hi).p2⟩, rfl⟩
      · rw [okBounds_err _ _ _ h1, if_neg h1]
        exact ⟨h, rfl⟩
  | getDPn i =>
    simp only [step, refStep, h.get i]
    cases hi : w.objs[i]? <;> exact ⟨h, rfl⟩
  | getPDI i =>
    simp only [step, refStep, h.get i]
    cases hi : w.objs[i]? with
    | none => exact ⟨h, rfl⟩
    | some o =>
      simp only [Option.map_some, Obj.plain]
      cases o.PDI <;> exact ⟨h, rfl⟩
  | getM0 i =>
    simp only [step, refStep, h.get i]
    cases hi : w.objs[i]? <;> exact ⟨h, rfl⟩
  | moment i order shift =>
    simp only [step, refStep, h.get i]
    cases hi : w.objs[i]? with
    | none => exact ⟨h, rfl⟩
    | some o =>
      obtain ⟨h1, h2⟩ := cachedMoment_spec L w s h i o hi order
      simp only [Option.map_some]
      rw [← h2]
      generalize cachedMoment L w i o order = r at h1 h2 ⊢
      rcases r with ⟨w', _ | v⟩ <;> exact ⟨h1, rfl⟩
  | pdf i x order b =>
    simp only [step, refStep, h.get i]
    cases hi : w.objs[i]? with
    | none => exact ⟨h, rfl⟩
    | some o =>
      obtain ⟨h1, h2⟩ := cachedMoment_spec L w s h i o hi order
      simp only [Option.map_some, (h.good i o hi).par]
      rw [← h2]
      generalize cachedMoment L w i o order = r at h1 h2 ⊢
      rcases r with ⟨w', _ | v⟩ <;> exact ⟨h1, rfl⟩
  | range i =>
    simp only [step, refStep, h.get i]
    cases hi : w.objs[i]? with
    | none => exact ⟨h, rfl⟩
    | some o =>
      have hg := h.good i o hi
      simp only [Option.map_some]
      cases hr : o.range with
      | some r =>
        refine ⟨h, ?_⟩
        rw [hg.range r hr]
        rfl
      | none =>
        rw [hg.par]
        refine ⟨?_, rfl⟩
        dsimp only
        have := h.put' i o { o with range := some (L.range o.cls (L.internal o.cls o.DPn o.PDI)) } hi rfl rfl rfl
          ⟨hg.par, by rintro r ⟨⟩; rfl, hg.p2⟩
        have e : s.set i (Obj.plain { o with range := some (L.range o.cls (L.internal o.cls o.DPn o.PDI)) }) = s := by
          have : (s[i]? = some o.plain) := by rw [h.get i, hi]; rfl
          apply List.ext_getElem?
          intro j
          rw [List.getElem?_set]
          split_ifs with h1 h2
          · subst h1; exact this.symm
          · subst h1; rw [List.getElem?_eq_none (by omega)] at this; cases this
          · rfl
        rw [e] at this
        rw [hg.par] at this
        exact this

theorem run_rel (L : Lib α P V R S) (ops : List (Op α S)) (w : World α P V R) (s) (h : Rel L w s) :
    Rel L (run L w ops).1 (refRun L s ops).1 ∧ (run L w ops).2 = (refRun L s ops).2 := by
  induction ops generalizing w s with
  | nil => exact ⟨h, rfl⟩
  | cons op ops ih =>
    obtain ⟨h1, h2⟩ := step_rel L w s h op
    obtain ⟨h3, h4⟩ := ih _ _ h1
    refine ⟨h3, ?_⟩
    show (step L w op).2 :: (run L (step L w op).1 ops).2 = _
    rw [h2, h4]
    rfl

theorem rel_empty (L : Lib α P V R S) : Rel L (World.empty : World α P V R) [] where
  objs := rfl
  good := by intro i o h; simp [World.empty] at h
  cache := by intro c i order v h; simp [World.empty] at h

theorem ref_setDPn (L : Lib α P V R S) (s : List (Plain α)) (i : ℕ) (v : Fl α) (r) (hr : (refStep L s (.setDPn i v)).2 = .ok r) :
    Fl.Within (.fin 1) .pinf v ∧ (refStep L (refStep L s (.setDPn i v)).1 (.getDPn i)).2 = .ok (.num v) := by
  simp only [refStep] at hr ⊢
  cases hi : s[i]? with
  | none => rw [hi] at hr; cases hr
  | some o =>
    have hlt : i < s.length := by
      by_contra hge
      rw [List.getElem?_eq_none (by omega)] at hi
      cases hi
    simp only [hi] at hr ⊢
    split_ifs at hr ⊢ with h1
    refine ⟨by assumption, ?_⟩
    rw [List.getElem?_set, if_pos rfl, if_pos hlt]

theorem ref_setPDI (L : Lib α P V R S) (s : List (Plain α)) (i : ℕ) (v : Fl α) (r) (hr : (refStep L s (.setPDI i v)).2 = .ok r) :
    Fl.Within (.fin (1000001 / 1000000)) .pinf v ∧ (refStep L (refStep L s (.setPDI i v)).1 (.getPDI i)).2 = .ok (.num v) := by
  simp only [refStep] at hr ⊢
  cases hi : s[i]? with
  | none => rw [hi] at hr; cases hr
  | some o =>
    have hlt : i < s.length := by
      by_contra hge
      rw [List.getElem?_eq_none (by omega)] at hi
      cases hi
    simp only [hi] at hr ⊢
    split_ifs at hr ⊢ with h1 h2
    refine ⟨by assumption, ?_⟩
    rw [List.getElem?_set, if_pos rfl, if_pos hlt]

theorem ref_setM0 (L : Lib α P V R S) (s : List (Plain α)) (i : ℕ) (v : Fl α) (r) (hr : (refStep L s (.setM0 i v)).2 = .ok r) :
    Fl.Within (.fin 0) .pinf v ∧ (refStep L (refStep L s (.setM0 i v)).1 (.getM0 i)).2 = .ok (.num v) := by
  simp only [refStep] at hr ⊢
  cases hi : s[i]? with
  | none => rw [hi] at hr; cases hr
  | some o =>
    have hlt : i < s.length := by
      by_contra hge
      rw [List.getElem?_eq_none (by omega)] at hi
      cases hi
    simp only [hi] at hr ⊢
    split_ifs at hr ⊢ with h1
    refine ⟨by assumption, ?_⟩
    rw [List.getElem?_set, if_pos rfl, if_pos hlt]

end Verif.DistState
