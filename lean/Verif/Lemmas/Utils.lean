import Verif.Model.Utils
import Verif.Spec.Utils
import Verif.Lemmas.Tactics

/-! # Helper lemmas for the argument checks -/

namespace Verif

variable {α : Type*} [LinearOrder α]

theorem Fl.le_iff (x y : Fl α) : Fl.le x y = true ↔ ∃ a b, x.toExt = some a ∧ y.toExt = some b ∧ a ≤ b := by
  cases x <;> cases y <;> simp [Fl.le, Fl.toExt]

theorem Fl.lt_iff (x y : Fl α) : Fl.lt x y = true ↔ Fl.Below x y := by
  cases x <;> cases y <;> simp [Fl.lt, Fl.toExt, Fl.Below]
  exact WithBot.coe_lt_coe.mpr (WithTop.coe_lt_top _)

theorem Fl.within_iff (lo hi x : Fl α) : Utils.inRange lo hi x = true ↔ Fl.Within lo hi x := by
  unfold Utils.inRange Fl.Within
  rw [Bool.and_eq_true, Fl.le_iff, Fl.le_iff]
  constructor
  · rintro ⟨⟨a, b, h1, h2, h3⟩, c, d, h4, h5, h6⟩
    rw [h2] at h4
    cases h4
    exact ⟨a, d, b, h1, h5, h2, h3, h6⟩
  · rintro ⟨l, h, e, h1, h2, h3, h4, h5⟩
    exact ⟨⟨l, e, h1, h3, h4⟩, e, h, h3, h2, h5⟩

namespace Utils

section dict
variable {κ β : Type*} [DecidableEq κ]

theorem dget_dset [Zero β] (d : Dict κ β) (k k' : κ) (v : β) :
    dget (dset d k v) k' = if k = k' then v else dget d k' := by
  induction d with
  | nil => simp [dset, dget]
  | cons x d ih =>
    obtain ⟨a, w⟩ := x
    by_cases h : a = k
    · subst h
      simp only [dset, if_true, dget]
      split_ifs <;> rfl
    · simp only [dset, if_neg h, dget, ih]
      by_cases h2 : a = k'
      · subst h2
        simp [h, Ne.symm h]
      · simp [h2]

theorem keys_dset (d : Dict κ β) (k : κ) (v : β) :
    (dset d k v).map Prod.fst = if k ∈ d.map Prod.fst then d.map Prod.fst else d.map Prod.fst ++ [k] := by
  induction d with
  | nil => simp [dset]
  | cons x d ih =>
    obtain ⟨a, w⟩ := x
    by_cases h : a = k
    · subst h; simp [dset]
    · simp only [dset, if_neg h, List.map_cons, ih, List.mem_cons, Ne.symm h, false_or]
      split_ifs <;> simp

theorem dget_of_not_mem [Zero β] (d : Dict κ β) (k : κ) (h : k ∉ d.map Prod.fst) : dget d k = 0 := by
  induction d with
  | nil => rfl
  | cons x d ih =>
    obtain ⟨a, w⟩ := x
    simp only [List.map_cons, List.mem_cons, not_or] at h
    simp [dget, Ne.symm h.1, ih h.2]

theorem addLoop_get [AddMonoid β] (d2 : Dict κ β) (hd : (d2.map Prod.fst).Nodup) (d1 : Dict κ β) (k : κ) :
    dget (addLoop d1 d2) k = dget d1 k + dget d2 k := by
  unfold addLoop
  induction d2 generalizing d1 with
  | nil => simp [dget]
  | cons x d2 ih =>
    obtain ⟨a, w⟩ := x
    simp only [List.map_cons, List.nodup_cons] at hd
    rw [List.foldl_cons, ih hd.2, dget_dset]
    simp only [dget]
    by_cases h : a = k
    · subst h
      simp [dget_of_not_mem d2 a hd.1]
    · simp [h]

theorem addLoop_keys [Zero β] [Add β] (d2 : Dict κ β) (d1 : Dict κ β) (h1 : (d1.map Prod.fst).Nodup) (k : κ) :
    ((addLoop d1 d2).map Prod.fst).Nodup ∧
      (k ∈ (addLoop d1 d2).map Prod.fst ↔ k ∈ d1.map Prod.fst ∨ k ∈ d2.map Prod.fst) := by
  unfold addLoop
  induction d2 generalizing d1 with
  | nil => simp [h1]
  | cons x d2 ih =>
    obtain ⟨a, w⟩ := x
    rw [List.foldl_cons]
    have hn : ((dset d1 a (dget d1 a + w)).map Prod.fst).Nodup := by
      rw [keys_dset]
      split_ifs with h
      · exact h1
      · rw [List.nodup_append]
        refine ⟨h1, by simp, ?_⟩
        intro b hb c hc
        simp only [List.mem_singleton] at hc
        subst hc
        rintro rfl
        exact h hb
    obtain ⟨h2, h3⟩ := ih _ hn
    refine ⟨h2, ?_⟩
    rw [h3, keys_dset]
    split_ifs with h
    · simp only [List.map_cons, List.mem_cons]
      constructor
      · rintro (h | h) <;> simp [h]
      · rintro (h' | rfl | h')
        · exact Or.inl h'
        · exact Or.inl h
        · exact Or.inr h'
    · simp only [List.mem_append, List.mem_singleton, List.map_cons, List.mem_cons]
      tauto

end dict

end Utils

end Verif
