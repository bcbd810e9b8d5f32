import Verif.Model.Utils

/-!
# Model of the mutable state of analytical distributions (`polykin/distributions/base.py`)

Objects with the parameters the user assigns, the internal parameters derived from them, the per-class memo table of
`_moment_length` (`functools.cache`, keyed by object and order, cleared as a whole) and the per-object `cached_property`
`_range_length_default`. The formulas themselves are parameters of the model (`Lib`).
-/

namespace Verif.DistState

open Verif.Utils

variable {α : Type*} [Field α] [LinearOrder α]

/-- The analytical distribution classes (`/repo/src/polykin/distributions/analyticaldistributions.py` lines 28, 125, 222, 325). -/
inductive Cls where
  | Flory | Poisson | LogNormal | SchulzZimm
  deriving DecidableEq, Repr

/-- Subclass of `AnalyticalDistributionP2`, i.e. with an assignable PDI. -/
def Cls.isP2 : Cls → Bool
  | .Flory => false
  | .Poisson => false
  | .LogNormal => true
  | .SchulzZimm => true

/-- The formulas: internal parameters (`_a`, `_mu`, …) from DPn and PDI, moments and default range from internal parameters, mass
moment from a moment and `M0`, pdf from internal parameters, `M0`, size, order, flag and moment. -/
structure Lib (α P V R S : Type*) where
  internal : Cls → Fl α → Option (Fl α) → P
  moment : Cls → P → ℕ → Except Err V
  range : Cls → P → R
  massMoment : V → Fl α → ℕ → ℕ → V
  pdf : Cls → P → Fl α → S → ℕ → Bool → V → V

/-- A distribution object. `par = none`: internal parameters not yet assigned. -/
structure Obj (α P R : Type*) where
  cls : Cls
  DPn : Fl α
  PDI : Option (Fl α)
  M0 : Fl α
  par : Option P
  range : Option R

/-- All objects created so far and the memo table of each class. -/
structure World (α P V R : Type*) where
  objs : List (Obj α P R)
  cache : Cls → ℕ × ℕ → Option V

/-- `cache_clear()` of one class. -/
def clear {P V R : Type*} (w : World α P V R) (c : Cls) : World α P V R :=
  { w with cache := fun c' k => if c' = c then none else w.cache c' k }

/-- `_update_internal_parameters` of an object with the given DPn and PDI: the cached range is dropped; a P2 object whose PDI is
not yet set keeps its internal parameters (`except AttributeError`) (`base.py` lines 447-453, `analyticaldistributions.py` lines
81-83, 178-180, 281-289, 385-393). -/
def updated {P V R S : Type*} (L : Lib α P V R S) (o : Obj α P R) : Obj α P R :=
  { o with
    range := none
    par := if o.cls.isP2 && o.PDI.isNone then o.par else some (L.internal o.cls o.DPn o.PDI) }

/-- `check_bounds` on a single number. -/
def okBounds (x lo hi : Fl α) : Except Err Unit :=
  match checkBounds (.num x) lo hi with
  | .ok _ => .ok ()
  | .error e => .error e

/-- Bounds of DPn (`_pbounds[0]`, lines 576 and 657), of PDI (line 657) and of M0 (line 419). -/
def okDPn (x : Fl α) : Except Err Unit := okBounds x (.fin 1) .pinf
/-- See `okDPn`. -/
def okPDI (x : Fl α) : Except Err Unit := okBounds x (.fin (1000001 / 1000000)) .pinf
/-- See `okDPn`. -/
def okM0 (x : Fl α) : Except Err Unit := okBounds x (.fin 0) .pinf

/-- Observable result of an operation. -/
inductive Res (α V R : Type*) where
  | done
  | obj (i : ℕ)
  | num (x : Fl α)
  | val (v : V)
  | range (r : R)

/-- Operations a user can perform. `S` is the type of sizes. -/
inductive Op (α S : Type*) where
  | new (c : Cls) (DPn : Fl α) (PDI : Option (Fl α)) (M0 : Fl α)
  | setDPn (i : ℕ) (v : Fl α)
  | setPDI (i : ℕ) (v : Fl α)
  | setM0 (i : ℕ) (v : Fl α)
  | getDPn (i : ℕ)
  | getPDI (i : ℕ)
  | getM0 (i : ℕ)
  | moment (i : ℕ) (order shift : ℕ)
  | pdf (i : ℕ) (size : S) (order : ℕ) (sizeasmass : Bool)
  | range (i : ℕ)

section
variable {P V R S : Type*}

/-- `_moment_length(order)` through the memo table (lines 529-530); exceptions are not memoised. -/
def cachedMoment (L : Lib α P V R S) (w : World α P V R) (i : ℕ) (o : Obj α P R) (order : ℕ) : World α P V R × Except Err V :=
  match w.cache o.cls (i, order) with
  | some v => (w, .ok v)
  | none =>
    match o.par with
    | none => (w, .error .AttributeError)
    | some p =>
      match L.moment o.cls p order with
      | .error e => (w, .error e)
      | .ok v => ({ w with cache := fun c k => if c = o.cls ∧ k = (i, order) then some v else w.cache c k }, .ok v)

/-- `AnalyticalDistribution.__init__` (lines 579-584) and `AnalyticalDistributionP2.__init__` (lines 659-662): DPn, M0, PDI are
assigned in this order; an exception discards the object. -/
def construct (L : Lib α P V R S) (w : World α P V R) (c : Cls) (DPn : Fl α) (PDI : Option (Fl α)) (M0 : Fl α) :
    World α P V R × Except Err (Res α V R) :=
  if c.isP2 != PDI.isSome then (w, .error .TypeError) -- missing or unexpected argument
  else
    match okDPn DPn with
    | .error e => (w, .error e)
    | .ok _ =>
      let o1 : Obj α P R := updated L { cls := c, DPn := DPn, PDI := none, M0 := M0, par := none, range := none }
      let w := clear w c
      match okM0 M0 with
      | .error e => (w, .error e)
      | .ok _ =>
        match PDI with
        | none => ({ w with objs := w.objs ++ [o1] }, .ok (.obj w.objs.length))
        | some p =>
          match okPDI p with
          | .error e => (w, .error e)
          | .ok _ => ({ clear w c with objs := w.objs ++ [updated L { o1 with PDI := some p }] }, .ok (.obj w.objs.length))

/-- Replace object `i`. -/
def putObj (w : World α P V R) (i : ℕ) (o : Obj α P R) : World α P V R := { w with objs := w.objs.set i o }

/-- One operation. A name that refers to no object is a `NameError`. -/
def step (L : Lib α P V R S) (w : World α P V R) (op : Op α S) : World α P V R × Except Err (Res α V R) :=
  match op with
  | .new c d p m => construct L w c d p m
  | .setDPn i v => -- lines 591-595
    match w.objs[i]? with
    | none => (w, .error .NameError)
    | some o =>
      match okDPn v with
      | .error e => (w, .error e)
      | .ok _ => (putObj (clear w o.cls) i (updated L { o with DPn := v }), .ok .done)
  | .setPDI i v => -- lines 669-673; no setter in P1 classes
    match w.objs[i]? with
    | none => (w, .error .NameError)
    | some o =>
      if o.cls.isP2 then
        match okPDI v with
        | .error e => (w, .error e)
        | .ok _ => (putObj (clear w o.cls) i (updated L { o with PDI := some v }), .ok .done)
      else (w, .error .AttributeError)
  | .setM0 i v => -- lines 417-420
    match w.objs[i]? with
    | none => (w, .error .NameError)
    | some o =>
      match okM0 v with
      | .error e => (w, .error e)
      | .ok _ => (putObj w i { o with M0 := v }, .ok .done)
  | .getDPn i => -- line 589
    match w.objs[i]? with
    | none => (w, .error .NameError)
    | some o => (w, .ok (.num o.DPn))
  | .getPDI i => -- line 667; for P1 classes the PDI is computed from moments, see `.moment`
    match w.objs[i]? with
    | none => (w, .error .NameError)
    | some o =>
      match o.PDI with
      | some p => (w, .ok (.num p))
      | none => (w, .error .AttributeError)
  | .getM0 i => -- line 415
    match w.objs[i]? with
    | none => (w, .error .NameError)
    | some o => (w, .ok (.num o.M0))
  | .moment i order shift => -- lines 422-423
    match w.objs[i]? with
    | none => (w, .error .NameError)
    | some o =>
      match cachedMoment L w i o order with
      | (w, .error e) => (w, .error e)
      | (w, .ok v) => (w, .ok (.val (L.massMoment v o.M0 order shift)))
  | .pdf i s order b => -- lines 425-434
    match w.objs[i]? with
    | none => (w, .error .NameError)
    | some o =>
      match o.par with
      | none => (w, .error .AttributeError)
      | some p =>
        match cachedMoment L w i o order with
        | (w, .error e) => (w, .error e)
        | (w, .ok v) => (w, .ok (.val (L.pdf o.cls p o.M0 s order b v)))
  | .range i => -- `cached_property`, e.g. `analyticaldistributions.py` lines 120-122
    match w.objs[i]? with
    | none => (w, .error .NameError)
    | some o =>
      match o.range with
      | some r => (w, .ok (.range r))
      | none =>
        match o.par with
        | none => (w, .error .AttributeError)
        | some p => (putObj w i { o with range := some (L.range o.cls p) }, .ok (.range (L.range o.cls p)))

/-- A whole session: the results of all operations, and the final world. -/
def run (L : Lib α P V R S) (w : World α P V R) : List (Op α S) → World α P V R × List (Except Err (Res α V R))
  | [] => (w, [])
  | op :: ops =>
    let (w, r) := step L w op
    let (w, rs) := run L w ops
    (w, r :: rs)

/-- Nothing created yet. -/
def World.empty : World α P V R := { objs := [], cache := fun _ _ => none }

end

end Verif.DistState
