import Verif.Model.CopoData
import Verif.Props.Utils
import Mathlib.Algebra.Order.Ring.Rat

/-! # Helper lemmas: copolymerisation data sets -/

namespace Verif.CopoData

open Verif.Utils

variable {α : Type} [Field α]

theorem checkShapes_head (a b : List (Option (List ℕ))) (s : Option (List ℕ)) (h : checkShapes a b = .ok s) : s = (a.filterMap arrayShape).head? := by
  unfold checkShapes at h
  dsimp only at h
  generalize (if (a.filterMap arrayShape).isEmpty = true then true else _) = c1 at h
  generalize (if (b.filterMap arrayShape).isEmpty = true then true else _) = c2 at h
  split_ifs at h
  injection h with h
  exact h.symm

theorem mk_ok (kind : Kind) (M1 M2 : String) (x y sx sy : Val α) (s : Option (List ℕ)) (h : ¬(M1 = "" ∨ M2 = "" ∨ M1.toLower = M2.toLower))
    (hs : checkShapes [x.shape, y.shape] [sx.shape, sy.shape] = .ok s) : mk kind M1 M2 x y sx sy = .ok ⟨kind, M1, M2, x, y, sx, sy⟩ := by
  unfold mk
  rw [if_neg h, hs]

end Verif.CopoData
