import Verif.Model.Basic
import Mathlib.Algebra.Field.Basic
import Mathlib.Data.List.Nodup

/-!
# Model of reactions and reaction systems

`/repo/src/polykin/kinetics/reaction.py`. Species are represented by the index (`idx`) of their entry in the state vector; the code never assigns it, so a caller has to. A distribution occupies three consecutive entries, the moments of order 0, 1 and 2.
-/

namespace Verif.Reaction

variable {α : Type*} [Field α]

/-- `rx[i] += v` on a NumPy vector; `none` is IndexError (indices are natural numbers here). -/
def addAt (rx : List α) (i : ℕ) (v : α) : Option (List α) :=
  match rx[i]? with
  | none => none
  | some y => some (rx.set i (y + v))

/-- A propagation reaction `P(n) + M --> P(n+1) + (A)` (lines 211-231). -/
structure Propagation (α : Type*) where
  M : ℕ
  P : ℕ
  A : Option ℕ
  k : α → α

/-- `Propagation.eval` (lines 233-258): updates `rx` in place, returned here. -/
def Propagation.eval (p : Propagation α) (T : α) (x rx : List α) : Option (List α) := do
  let M ← x[p.M]?
  let P0 ← x[p.P]?
  let P1 ← x[p.P + 1]?
  let k := p.k T
  let r := k * M * P0
  let rx ← addAt rx p.M (-r)
  let rx ← addAt rx (p.P + 1) r
  let rx ← addAt rx (p.P + 2) (k * M * (2 * P1 + P0))
  match p.A with
  | none => return rx
  | some iA => addAt rx iA r

/-- `Reaction.rate` (lines 118-123) for a propagation reaction, whose reactants are `[M, P]`. -/
def Propagation.rate (p : Propagation α) (C : List α) (T : α) : Option α :=
  [p.M, p.P].foldlM (fun rate i => (C[i]?).map fun c => rate * c) (p.k T)

/-- `ReactionSystem.rates` (lines 189-203), given the reactions and the dimension. -/
def rates (reactions : List (Propagation α)) (dim : ℕ) (x : List α) (T : α) : Option (List α) :=
  reactions.foldlM (fun rx p => p.eval T x rx) (List.replicate dim 0)

/-- A `ReactionSystem`; reactions are compared by identity and represented by it. -/
structure System where
  reactions : List ℕ
  dim : ℕ
  deriving DecidableEq

/-- `ReactionSystem.__init__` (lines 141-168). `reaction.species()` is defined by no class of the module, so the first reaction raises. -/
def System.mk' (reactions : List ℕ) : Except Err System :=
  if reactions.length ≠ reactions.dedup.length then .error .ValueError
  else
    match reactions with
    | [] => .ok ⟨[], 0⟩
    | _ :: _ => .error .AttributeError

/-- `Reaction.__add__` (lines 125-131). -/
def addReactions (a b : ℕ) : Except Err System := System.mk' [a, b]

/-- `ReactionSystem.__add__` with a reaction (lines 178-183): returns `self`, changed; the result is both. -/
def System.addReaction (s : System) (r : ℕ) : System := { s with reactions := s.reactions ++ [r] }

/-- `ReactionSystem.__add__` with a system (lines 184-185). -/
def System.addSystem (s t : System) : Except Err System := System.mk' (s.reactions ++ t.reactions)

end Verif.Reaction
