import Verif.Model.Cache

/-!
# Which histories leave the arrays of an object alone
-/

namespace Verif.Cache

variable {ι V M : Type} (body : M → ℝ → (ι → V) → V)

/-- All references in the tables and in object `o` are to existing arrays. -/
def WF (h : Heap ι V M) (o : ℕ) : Prop := (∀ m T r, h.memo o m T = some r → r < h.next) ∧ ∀ i, h.objs o i < h.next

/-- Nothing written into what object `o` refers to or has returned, and its attributes not assigned. -/
def Untouched (h : Heap ι V M) (o : ℕ) (l : List (Op ι V M)) : Prop :=
  (∀ p, Op.attrs o p ∉ l) ∧
    ∀ l1 r v l2, l = l1 ++ .write r v :: l2 → (∀ i, r ≠ h.objs o i) ∧ ∀ m T, (h.run body l1).memo o m T ≠ some r

/-- An object just made from existing arrays: none of its methods was called. -/
def Fresh (h : Heap ι V M) (o : ℕ) : Prop := (∀ m T, h.memo o m T = none) ∧ ∀ i, h.objs o i < h.next

end Verif.Cache
