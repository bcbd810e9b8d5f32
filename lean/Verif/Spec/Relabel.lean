import Mathlib.Logic.Equiv.Defs
import Mathlib.Data.Nat.Notation

/-!
# Relabelling of components

`σ` is the new order: position `i` of the relabelled data holds what was at position `σ i`.
-/

namespace Verif.Relabel.Spec

variable {N : ℕ} {β : Type*}

/-- A vector in the new order. -/
def vec (σ : Equiv.Perm (Fin N)) (v : Fin N → β) : Fin N → β := fun i => v (σ i)

/-- A matrix in the new order. -/
def mat (σ : Equiv.Perm (Fin N)) (M : Fin N → Fin N → β) : Fin N → Fin N → β := fun i j => M (σ i) (σ j)

/-- A symmetric matrix. -/
def Symm (M : Fin N → Fin N → β) : Prop := ∀ i j, M i j = M j i

end Verif.Relabel.Spec
