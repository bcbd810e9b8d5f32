import Verif.Props.Copo
import Verif.Props.RootsScalar

/-! # Helper lemmas: penultimate models; C75: azeotrope of a general model -/

namespace Verif.Copo

variable {α : Type*} [Field α] [LinearOrder α] [IsStrictOrderedRing α]

/-- Effective reactivity ratios of the penultimate model. -/
theorem pen_ri (m : Pen α) (f1 : α) (h0 : 0 ≤ f1) (h1 : f1 ≤ 1) (h21 : 0 < m.r21) (h12 : 0 < m.r12) :
    m.ri f1 = some (m.r21 * (f1 * m.r11 + (1 - f1)) / (f1 * m.r21 + (1 - f1)),
      m.r12 * ((1 - f1) * m.r22 + f1) / ((1 - f1) * m.r12 + f1)) := by
  have e1 := tden_pos h0 h1 h21.le (fun _ => h21.ne')
  have e2 := tden_pos (f := 1 - f1) (r := m.r12) (sub_nonneg.mpr h1) (by linarith) h12.le (fun _ => h12.ne')
  rw [sub_sub_cancel] at e2
  rw [mul_comm] at e1 e2
  unfold Pen.ri
  dsimp only
  rw [fdiv_ne e1.ne', fdiv_ne e2.ne']

end Verif.Copo
