import Verif.Model.DistState
import Verif.Spec.Utils

/-!
# Reference semantics of distribution objects

Objects are plain records of the values the user assigned; every query is recomputed from these records. There is no memo table and
there are no derived fields.
-/

namespace Verif.DistState

open Classical

/-- What the user assigned. -/
structure Plain (α : Type*) where
  cls : Cls
  DPn : Fl α
  PDI : Option (Fl α)
  M0 : Fl α

variable {α : Type*} [Field α] [LinearOrder α] {P V R S : Type*}

/-- Moments recomputed from the assigned values. -/
def Plain.moment (L : Lib α P V R S) (o : Plain α) (order : ℕ) : Except Err V :=
  L.moment o.cls (L.internal o.cls o.DPn o.PDI) order

/-- Reference semantics of one operation on the list of all records. -/
noncomputable def refStep (L : Lib α P V R S) (s : List (Plain α)) (op : Op α S) : List (Plain α) × Except Err (Res α V R) :=
  match op with
  | .new c d p m =>
    if c.isP2 ≠ p.isSome then (s, .error .TypeError)
    else if Fl.Within (.fin 1) .pinf d ∧ Fl.Within (.fin 0) .pinf m ∧ (∀ x, p = some x → Fl.Within (.fin (1000001 / 1000000)) .pinf x) then
      (s ++ [{ cls := c, DPn := d, PDI := p, M0 := m }], .ok (.obj s.length))
    else (s, .error .RangeError)
  | .setDPn i v =>
    match s[i]? with
    | none => (s, .error .NameError)
    | some o => if Fl.Within (.fin 1) .pinf v then (s.set i { o with DPn := v }, .ok .done) else (s, .error .RangeError)
  | .setPDI i v =>
    match s[i]? with
    | none => (s, .error .NameError)
    | some o =>
      if ¬ o.cls.isP2 then (s, .error .AttributeError)
      else if Fl.Within (.fin (1000001 / 1000000)) .pinf v then (s.set i { o with PDI := some v }, .ok .done)
      else (s, .error .RangeError)
  | .setM0 i v =>
    match s[i]? with
    | none => (s, .error .NameError)
    | some o => if Fl.Within (.fin 0) .pinf v then (s.set i { o with M0 := v }, .ok .done) else (s, .error .RangeError)
  | .getDPn i => (s, match s[i]? with | none => .error .NameError | some o => .ok (.num o.DPn))
  | .getPDI i => (s, match s[i]? with
    | none => .error .NameError
    | some o => match o.PDI with | none => .error .AttributeError | some p => .ok (.num p))
  | .getM0 i => (s, match s[i]? with | none => .error .NameError | some o => .ok (.num o.M0))
  | .moment i order shift => (s, match s[i]? with
    | none => .error .NameError
    | some o => (o.moment L order).map fun v => .val (L.massMoment v o.M0 order shift))
  | .pdf i x order b => (s, match s[i]? with
    | none => .error .NameError
    | some o => (o.moment L order).map fun v => .val (L.pdf o.cls (L.internal o.cls o.DPn o.PDI) o.M0 x order b v))
  | .range i => (s, match s[i]? with
    | none => .error .NameError
    | some o => .ok (.range (L.range o.cls (L.internal o.cls o.DPn o.PDI))))

/-- Reference semantics of a session. -/
noncomputable def refRun (L : Lib α P V R S) (s : List (Plain α)) : List (Op α S) → List (Plain α) × List (Except Err (Res α V R))
  | [] => (s, [])
  | op :: ops => ((refRun L (refStep L s op).1 ops).1, (refStep L s op).2 :: (refRun L (refStep L s op).1 ops).2)

end Verif.DistState
