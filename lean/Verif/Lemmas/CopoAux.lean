import Verif.Lemmas.Copo

/-! # Helper lemmas: binary copolymerization models -/

namespace Verif.Copo

variable {α : Type*} [Field α] [LinearOrder α] [IsStrictOrderedRing α]

/-- Equation of the azeotrope inside `(0, 1)`. -/
theorem azeotrope_iff (f r1 r2 : α) (h0 : 0 < f) (h1 : f < 1) (hr1 : 0 ≤ r1) (hr2 : 0 ≤ r2) :
    instBinary f r1 r2 = some f ↔ (1 - r1) * f = (1 - r2) * (1 - f) := by
  have hd := den_pos h0.le h1.le hr1 hr2 (fun h => absurd h h1.ne) (fun h => absurd h h0.ne')
  rw [instBinary_eq h0.le h1.le hr1 hr2 (fun h => absurd h h1.ne) (fun h => absurd h h0.ne'), Option.some.injEq,
    div_eq_iff hd.ne']
  have h2 : 0 < 1 - f := sub_pos.mpr h1
  constructor
  · intro h
    have : f * (1 - f) * ((1 - r1) * f - (1 - r2) * (1 - f)) = 0 := by linear_combination -h
    rcases mul_eq_zero.mp this with h' | h'
    · exact absurd h' (by positivity)
    · linear_combination h'
  · intro h
    linear_combination (-(f * (1 - f))) * h

end Verif.Copo
