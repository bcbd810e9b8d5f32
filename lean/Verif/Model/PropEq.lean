import Verif.Model.Utils

/-!
# Temperature-dependent property equations

Model of `PropertyEquationT` (`/repo/src/polykin/properties/equations/base.py`). The numerical equation of the subclass is an arbitrary
function of the temperature and the parameter dict.
-/

namespace Verif.PropEq

open Verif.Utils

variable {α : Type} [Field α] [LinearOrder α] {κ β V : Type} [DecidableEq κ]

/-- IEEE subtraction `x - y` of the temperature bounds. -/
def fsub : Fl α → Fl α → Fl α
  | .nan, _ => .nan
  | _, .nan => .nan
  | .fin a, .fin b => .fin (a - b)
  | .pinf, .pinf => .nan
  | .ninf, .ninf => .nan
  | .pinf, _ => .pinf
  | .ninf, _ => .ninf
  | .fin _, .pinf => .ninf
  | .fin _, .ninf => .pinf

/-- The state of a property equation: parameters and validity range (lines 44-46). -/
structure Eqn (α κ β : Type) where
  p : Dict κ β
  Tmin : Fl α
  Tmax : Fl α

/-- `PropertyEquationT.__init__` (lines 56-60), scalar range; `eps` is the machine epsilon `2^-52` of numpy. -/
def init (p : Dict κ β) (Tmin Tmax : Fl α) : Except Err (Eqn α κ β) := do
  let _ ← checkBounds (.num Tmin) (.fin 0) .pinf
  let _ ← checkBounds (.num Tmax) (.fin 0) .pinf
  let _ ← checkBounds (.num (fsub Tmax Tmin)) (.fin (1 / 2 ^ 52)) .pinf
  return ⟨p, Tmin, Tmax⟩

/-- `PropertyEquationT.__call__` (lines 82-83): values, and whether a warning is emitted. -/
def call (equation : Fl α → Dict κ β → V) (e : Eqn α κ β) (T : List (Fl α)) (unit : TUnit) : Except Err (List V × Bool) := do
  let (TK, w) ← convertCheckTemperature T unit e.Tmin e.Tmax
  return (TK.map fun t => equation t e.p, w)

/-- `for pname, pvalue in zip(names, values): d[pname] = pvalue` (lines 270-271, 300-301). -/
def zipSet (d : Dict κ β) (names : List κ) (values : List β) : Dict κ β :=
  (names.zip values).foldl (fun d kv => dset d kv.1 kv.2) d

/-- Smallest element of the data, `min(T)`. -/
def minL (t : α) (T : List α) : α := T.foldl min t

/-- Largest element of the data, `max(T)`. -/
def maxL (t : α) (T : List α) : α := T.foldl max t

/-- `PropertyEquationT.fit` (lines 259-302) up to printing and plotting. `names` are the parameters to be fitted, `t :: T` the data temperatures.
`scipy.optimize.curve_fit` is an oracle: it calls the fit function with any sequence `trials` of parameter vectors (each call overwrites entries
of `pdict`, lines 270-271) and returns `popt`. Result: the updated object and the reported parameters (line 302). -/
def fit (e : Eqn α κ β) (names : List κ) (t : α) (T : List α) (trials : List (List β)) (popt : List β) : Eqn α κ β × Dict κ β :=
  let pdict := trials.foldl (fun d v => zipSet d names v) e.p
  (⟨zipSet e.p names popt, .fin (minL t T), .fin (maxL t T)⟩, pdict)

end Verif.PropEq
