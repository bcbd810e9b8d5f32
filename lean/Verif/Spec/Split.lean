import Mathlib.Algebra.BigOperators.Fin
import Mathlib.Data.Real.Basic

/-!
# Listing a substance more than once

The `M` entries of the new list are portions of `N` substances: entry `j` is the portion `w j` of substance `σ j`.
-/

namespace Verif.Split.Spec

variable {M N : ℕ} {α β : Type*}

/-- The portions of every substance add up to one. -/
structure Portions [Field α] [LinearOrder α] (σ : Fin M → Fin N) (w : Fin M → α) : Prop where
  nonneg : ∀ j, 0 ≤ w j
  whole : ∀ i, ∑ j ∈ Finset.univ.filter (fun j => σ j = i), w j = 1

/-- An amount (mole fraction, feed, …) is divided. -/
def share [Mul α] (σ : Fin M → Fin N) (w : Fin M → α) (x : Fin N → α) : Fin M → α := fun j => w j * x (σ j)

/-- A property of a substance is repeated. -/
def copy (σ : Fin M → Fin N) (v : Fin N → β) : Fin M → β := fun j => v (σ j)

/-- A property of a pair of substances is repeated. -/
def copyM (σ : Fin M → Fin N) (A : Fin N → Fin N → β) : Fin M → Fin M → β := fun i j => A (σ i) (σ j)

end Verif.Split.Spec
