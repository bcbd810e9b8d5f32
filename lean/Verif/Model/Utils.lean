import Verif.Model.Float
import Mathlib.Data.List.Dedup

/-! # Model of the argument checks of `polykin/utils/tools.py` and helpers of `polykin/utils/math.py` -/

namespace Verif.Utils

variable {α : Type*} [Field α] [LinearOrder α]

/-- Kinds of argument distinguished by `check_bounds`: a real number, a numpy array with 0, 1 or ≥ 2 dimensions (the
latter as the list of its sub-arrays along the first axis, each flattened to the list of its elements), another iterable
of numbers, or anything else. -/
inductive Arg (α : Type*) where
  | num (x : Fl α)
  | array0 (x : Fl α)
  | array1 (xs : List (Fl α))
  | arrayN (rows : List (List (Fl α)))
  | iter (xs : List (Fl α))
  | other
  deriving DecidableEq

/-- `x >= xmin and x <= xmax`. -/
def inRange (xmin xmax x : Fl α) : Bool := Fl.le xmin x && Fl.le x xmax

/-- `bool(row >= xmin)`: numpy refuses the truth value of an array unless it has exactly one element. -/
def truthOfRow (p : Fl α → Bool) (row : List (Fl α)) : Except Err Bool :=
  match row with
  | [x] => .ok (p x)
  | _ => .error .ValueError

/-- The generator `all(xi >= xmin and xi <= xmax for xi in x)` when the items `xi` are arrays: it stops at the first false
item, or raises if an item is not a single number. -/
def allRows (xmin xmax : Fl α) : List (List (Fl α)) → Except Err Bool
  | [] => .ok true
  | row :: rows =>
    match truthOfRow (fun x => Fl.le xmin x) row with
    | .error e => .error e
    | .ok false => .ok false
    | .ok true =>
      match truthOfRow (fun x => Fl.le x xmax) row with
      | .error e => .error e
      | .ok false => .ok false
      | .ok true => allRows xmin xmax rows

/-- `check_bounds` (`/repo/src/polykin/utils/tools.py` lines 191-203). -/
def checkBounds (x : Arg α) (xmin xmax : Fl α) : Except Err (Arg α) :=
  match x with
  | .num v => if inRange xmin xmax v then .ok x else .error .RangeError
  | .array0 v => if inRange xmin xmax v then .ok x else .error .TypeError -- iteration over a 0-d array (line 197)
  | .array1 vs => if vs.all (inRange xmin xmax) then .ok x else .error .RangeError
  | .arrayN rows =>
    if rows.all (fun r => r.all (inRange xmin xmax)) then .ok x
    else -- falls through to the branch for iterables (line 197)
      match allRows xmin xmax rows with
      | .error e => .error e
      | .ok true => .ok x
      | .ok false => .error .RangeError
  | .iter vs => if vs.all (inRange xmin xmax) then .ok x else .error .RangeError
  | .other => .error .TypeError -- check_type, line 200

/-- `check_in_set` (lines 236-256); a scalar argument is the one-element list. -/
def checkInSet {β : Type*} [DecidableEq β] (x : List β) (valid : List β) : Except Err (List β) :=
  if x.all (fun v => decide (v ∈ valid)) then .ok x else .error .ValueError

/-- `check_valid_range` (lines 338-347) for a tuple of floats of any length. -/
def checkValidRange (r : List (Fl α)) (xmin xmax : Fl α) : Except Err (List (Fl α)) :=
  match r with
  | [r0, r1] =>
    if Fl.lt r0 r1 then
      match checkBounds (.iter [r0, r1]) xmin xmax with
      | .error e => .error e
      | .ok _ => .ok r
    else .error .RangeError
  | _ => .error .RangeError

/-- `elem.shape` if `elem` is an array with at least one dimension (lines 287-292). -/
def arrayShape : Option (List ℕ) → Option (List ℕ)
  | some (s :: t) => some (s :: t)
  | _ => none

/-- `check_shapes` (lines 284-311). An element is its shape: `none` for a Python number, `some []` for a 0-d array. -/
def checkShapes (a b : List (Option (List ℕ))) : Except Err (Option (List ℕ)) :=
  let shapesA := a.filterMap arrayShape
  let shapesB := b.filterMap arrayShape
  let checkA := if shapesA.isEmpty then true else shapesA.length == a.length && shapesA.dedup.length == 1
  let shape := shapesA.head?
  let checkB :=
    if shapesB.isEmpty then true
    else if shapesA.isEmpty then false
    else (shapesA ++ shapesB).dedup.length == 1
  if !checkA || !checkB then .error .ShapeError else .ok shape

/-- Temperature units of `convert_check_temperature`. -/
inductive TUnit where
  | K | C | other
  deriving DecidableEq, Repr

/-- Conversion to kelvin, `none` for an invalid unit (lines 403-408). `273.15` is the exact decimal. -/
def tempConv (unit : TUnit) (T : List (Fl α)) : Option (List (Fl α)) :=
  match unit with
  | .K => some T
  | .C => some (T.map fun t => Fl.addFin t (27315 / 100))
  | .other => none

/-- `convert_check_temperature` (lines 400-415) on the list of elements of `T`; returns the converted values and whether a
warning was issued. -/
def convertCheckTemperature (T : List (Fl α)) (unit : TUnit) (Tmin Tmax : Fl α) : Except Err (List (Fl α) × Bool) :=
  match tempConv unit T with
  | none => .error .ValueError
  | some TK =>
    if TK.any (fun t => Fl.lt t (.fin 0)) then .error .RangeError
    else .ok (TK, TK.any (fun t => Fl.lt t Tmin) || TK.any (fun t => Fl.lt Tmax t))

/-- Pressure units of `convert_check_pressure`. -/
inductive PUnit where
  | Pa | bar | MPa | other
  deriving DecidableEq, Repr

/-- Unit factor (lines 443-450). -/
def pressFactor (unit : PUnit) : Option α :=
  match unit with
  | .Pa => some 1
  | .bar => some 100000
  | .MPa => some 1000000
  | .other => none

/-- `convert_check_pressure` (lines 440-458). -/
def convertCheckPressure (P : List (Fl α)) (unit : PUnit) (Pmin Pmax : Fl α) : Except Err (List (Fl α) × Bool) :=
  match pressFactor unit with
  | none => .error .ValueError
  | some f =>
    let Pa := P.map fun p => Fl.mulPos p f
    if Pa.any (fun p => Fl.lt p (.fin 0)) then .error .RangeError
    else .ok (Pa, Pa.any (fun p => Fl.lt p Pmin) || Pa.any (fun p => Fl.lt Pmax p))

/-! ### Dictionaries -/

/-- A Python dict with numeric values: association list in insertion order (keys are unique when built by `dset`). -/
abbrev Dict (κ β : Type*) := List (κ × β)

/-- `d.get(key, 0.0)`. -/
def dget {κ β : Type*} [DecidableEq κ] [Zero β] (d : Dict κ β) (k : κ) : β :=
  match d with
  | [] => 0
  | (k', v) :: d => if k' = k then v else dget d k

/-- `d[key] = v`: replaces in place or appends. -/
def dset {κ β : Type*} [DecidableEq κ] (d : Dict κ β) (k : κ) (v : β) : Dict κ β :=
  match d with
  | [] => [(k, v)]
  | (k', v') :: d => if k' = k then (k', v) :: d else (k', v') :: dset d k v

/-- The loop of `add_dicts` (`/repo/src/polykin/utils/math.py` lines 65-66). -/
def addLoop {κ β : Type*} [DecidableEq κ] [Zero β] [Add β] (dout d2 : Dict κ β) : Dict κ β :=
  d2.foldl (fun d kv => dset d kv.1 (dget d kv.1 + kv.2)) dout

/-- `add_dicts` (lines 60-67), for two distinct dict objects. Returns the value of the returned dict and the contents of
the object `d1` after the call. -/
def addDicts {κ β : Type*} [DecidableEq κ] [Zero β] [Add β] (d1 d2 : Dict κ β) (new : Bool) : Dict κ β × Dict κ β :=
  let dout := addLoop d1 d2
  if new then (dout, d1) else (dout, dout)

/-- `enforce_symmetry` (lines 133-138): contents of the matrix after the in-place assignment `matrix[mask] = matrix.T[mask]`
(the right-hand side is a copy, so all values are read before any is written). Only the shape test is made. -/
def enforceSymmetry {β : Type*} {n m : ℕ} (M : Fin n → Fin m → β) : Except Err (Fin n → Fin m → β) :=
  if h : n = m then
    .ok fun i j => if (j : ℕ) < i then M (j.cast h.symm) (i.cast h) else M i j
  else .error .ValueError

end Verif.Utils
