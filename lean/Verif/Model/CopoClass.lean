import Verif.Model.Copo
import Verif.Model.CopoMulti

/-!
# Model of the copolymerisation model classes

Constructors and methods of `TerminalModel`, `ImplicitPenultimateModel` and `PenultimateModel`
(`/repo/src/polykin/copolymerization/{terminal,penultimate}.py`). The homopropagation coefficients are functions of the temperature
(`none`: not given); names are compared after ASCII lower-casing.
-/

namespace Verif.CopoClass

open Verif.Copo

variable {α : Type*} [Field α] [LinearOrder α] {τ : Type*}

/-- What `CopoModel.__init__` stores. -/
structure Base (α τ : Type*) where
  k1 : Option (τ → α)
  k2 : Option (τ → α)
  M1 : String
  M2 : String
  name : String

/-- `CopoModel.__init__` (`terminal.py` lines 46-64). -/
def baseInit (k1 k2 : Option (τ → α)) (M1 M2 name : String) : Except Err (Base α τ) :=
  if M1 ≠ "" ∧ M2 ≠ "" ∧ M1.toLower ≠ M2.toLower then .ok ⟨k1, k2, M1, M2, name⟩ else .error .ValueError

/-- `check_bounds(x, 0.0, np.inf, ...)`, one after the other. -/
def checkNonneg : List α → Except Err Unit
  | [] => .ok ()
  | x :: l => if 0 ≤ x then checkNonneg l else .error .RangeError

/-- The outcome of a constructor, and whether a warning was issued on the way. -/
structure Made (X : Type*) where
  warned : Bool
  out : Except Err X

/-- `TerminalModel`. -/
structure Terminal (α τ : Type*) extends Base α τ where
  r1 : α
  r2 : α

/-- `TerminalModel.__init__` (`terminal.py` lines 502-525). -/
def terminal (r1 r2 : α) (k1 k2 : Option (τ → α)) (M1 M2 name : String) : Made (Terminal α τ) :=
  match checkNonneg [r1, r2] with
  | .error e => ⟨false, .error e⟩
  | .ok _ => ⟨decide (1 < r1 ∧ 1 < r2), (baseInit k1 k2 M1 M2 name).map fun b => ⟨b, r1, r2⟩⟩

/-- `TerminalModel.from_Qe` (lines 527-566): a zero `Q` divides by zero. -/
noncomputable def fromQe (Qe1 Qe2 : ℝ × ℝ) (k1 k2 : Option (τ → ℝ)) (M1 M2 name : String) : Made (Terminal ℝ τ) :=
  if Qe1.1 = 0 ∨ Qe2.1 = 0 then ⟨false, .error .ZeroDivisionError⟩
  else
    let r := CopoMulti.convertQe ![Qe1.1, Qe2.1] ![Qe1.2, Qe2.2]
    terminal (r 0 1) (r 1 0) k1 k2 M1 M2 name

/-- `ImplicitPenultimateModel`. -/
structure Implicit (α τ : Type*) extends Terminal α τ where
  s1 : α
  s2 : α

/-- `ImplicitPenultimateModel.__init__` (`penultimate.py` lines 453-471). -/
def implicit (r1 r2 s1 s2 : α) (k1 k2 : Option (τ → α)) (M1 M2 name : String) : Made (Implicit α τ) :=
  match checkNonneg [s1, s2] with
  | .error e => ⟨false, .error e⟩
  | .ok _ =>
    let m := terminal r1 r2 k1 k2 M1 M2 name
    ⟨m.warned, m.out.map fun t => ⟨t, s1, s2⟩⟩

/-- `PenultimateModel`. -/
structure Penultimate (α τ : Type*) extends Base α τ, Pen α where

/-- `PenultimateModel.__init__` (`penultimate.py` lines 87-115). -/
def penultimate (r11 r12 r21 r22 s1 s2 : α) (k1 k2 : Option (τ → α)) (M1 M2 name : String) : Made (Penultimate α τ) :=
  match checkNonneg [r11, r12, r21, r22, s1, s2] with
  | .error e => ⟨false, .error e⟩
  | .ok _ => ⟨false, (baseInit k1 k2 M1 M2 name).map fun b => ⟨b, ⟨r11, r12, r21, r22, s1, s2⟩⟩⟩

/-- `F1` of the terminal and the implicit penultimate model (`terminal.py` lines 90-112, 594-598). -/
def Terminal.F1 (m : Terminal α τ) (f1 : α) : Except Err (Option α) := modelF1 (fun _ => some (m.r1, m.r2)) f1

/-- `kp` of the terminal model (lines 114-146, 600-608). -/
def Terminal.kp (m : Terminal α τ) (f1 : α) (T : τ) : Except Err (Option α) :=
  modelKp (fun _ => some (m.r1, m.r2)) (fun _ => (terminalKii (m.k1.map (· T)) (m.k2.map (· T))).map some) f1

/-- `kp` of the implicit penultimate model (`penultimate.py` lines 473-522). -/
def Implicit.kp (m : Implicit α τ) (f1 : α) (T : τ) : Except Err (Option α) :=
  modelKp (fun _ => some (m.r1, m.r2)) (penKiiE m.r1 m.r2 m.s1 m.s2 (m.k1.map (· T)) (m.k2.map (· T))) f1

/-- `F1` of the penultimate model (`terminal.py` lines 90-112, `penultimate.py` lines 117-150). -/
def Penultimate.F1 (m : Penultimate α τ) (f1 : α) : Except Err (Option α) := modelF1 m.toPen.ri f1

/-- `kp` of the penultimate model (`penultimate.py` lines 152-200). -/
def Penultimate.kp (m : Penultimate α τ) (f1 : α) (T : τ) : Except Err (Option α) :=
  modelKp m.toPen.ri (penKiiE m.r11 m.r22 m.s1 m.s2 (m.k1.map (· T)) (m.k2.map (· T))) f1

end Verif.CopoClass
