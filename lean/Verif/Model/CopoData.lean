import Verif.Model.Utils
import Verif.Model.CopoMulti

/-!
# Model of the copolymerisation data sets

`/repo/src/polykin/copolymerization/copodataset.py`. Names are compared after ASCII lower-casing (`str.lower` also covers other alphabets). Weight, temperature, name and source are stored untouched and left out.
-/

namespace Verif.CopoData

open Verif.Utils

variable {α : Type*} [Field α]

/-- A float or a vector of floats. -/
inductive Val (α : Type*) where
  | num (x : α)
  | vec (x : List α)

/-- The shape as `check_shapes` sees it. -/
def Val.shape : Val α → Option (List ℕ)
  | .num _ => none
  | .vec l => some [l.length]

/-- `1 - x`. -/
def Val.compl : Val α → Val α
  | .num x => .num (1 - x)
  | .vec l => .vec (l.map fun x => 1 - x)

/-- `MayoDataset`, `DriftDataset`, `kpDataset`. -/
inductive Kind where
  | mayo | drift | kp
  deriving DecidableEq

/-- Which attribute `varmap` (lines 111, 164, 219) names: `true` for `x`, `false` for `y`. -/
def varmap : Kind → String → Option Bool
  | .mayo, "f" => some true
  | .mayo, "F" => some false
  | .drift, "x" => some true
  | .drift, "f" => some false
  | .kp, "f" => some true
  | .kp, "kp" => some false
  | _, _ => none

structure Data (α : Type*) where
  kind : Kind
  M1 : String
  M2 : String
  x : Val α
  y : Val α
  sx : Val α
  sy : Val α

/-- The constructors (lines 27-62). -/
def mk (kind : Kind) (M1 M2 : String) (x y sx sy : Val α) : Except Err (Data α) :=
  if M1 = "" ∨ M2 = "" ∨ M1.toLower = M2.toLower then .error .ValueError
  else
    match checkShapes [x.shape, y.shape] [sx.shape, sy.shape] with
    | .error e => .error e
    | .ok _ => .ok ⟨kind, M1, M2, x, y, sx, sy⟩

/-- `getvar` (lines 64-74); the default of `M` is the empty string. -/
def getvar (d : Data α) (varname M : String) : Except Err (Val α) :=
  match varmap d.kind varname with
  | none => .error .KeyError
  | some b =>
    let x := if b then d.x else d.y
    if M = "" then .ok x
    else if M = d.M1 then .ok x
    else if M = d.M2 then .ok x.compl
    else .error .ValueError

end Verif.CopoData
