import Verif.Model.Acm
import Verif.Model.Eos

/-!
# Memoised parameter functions

Model of `functools.cache` on the methods `NRTL.alpha`, `NRTL.tau` (`/repo/src/polykin/thermo/acm/nrtl.py` lines 143, 161), `Wilson.Lambda`
(`wilson.py` line 112), `UNIQUAC.tau` (`uniquac.py` line 141), `FloryHuggins.chi` (`floryhuggins.py` line 128), `Cubic.a`, `Virial.Bij`
(`/repo/src/polykin/thermo/eos/cubic.py` line 104, `virial.py` line 111) and of `functools.cached_property` on `Cubic.b` (line 121). Arrays live in a heap
of numbered cells. An object holds references to the arrays it was built from (the constructors of the activity models store the arrays of the caller, not
copies: `nrtl.py` lines 135-141 and so on; the attributes `Tc`, `Pc`, `w` of the equations of state are public, `cubic.py` lines 95-98). The table of a memoised method
is shared by all objects and is keyed by object and temperature; it holds references to the arrays returned. Only scalar real temperatures are keys (an array
is not hashable and raises `TypeError`, not modelled). Entries are never dropped.
-/

namespace Verif.Cache

variable {ι V M : Type}

/-- State of the interpreter as far as it matters: array contents, the number of the next array, references held by each object, memo tables. -/
structure Heap (ι V M : Type) where
  cells : ℕ → V
  next : ℕ
  objs : ℕ → ι → ℕ
  memo : ℕ → M → ℝ → Option ℕ

/-- What can happen: the caller makes an array; makes an object or assigns its attributes (`o._a = r`, `o.Tc = r`); writes into an array they hold; calls a memoised method. -/
inductive Op (ι V M : Type) where
  | array (v : V)
  | attrs (o : ℕ) (p : ι → ℕ)
  | write (r : ℕ) (v : V)
  | call (o : ℕ) (m : M) (T : ℝ)

/-- Current contents of the arrays an object refers to. -/
def Heap.params (h : Heap ι V M) (o : ℕ) : ι → V := fun i => h.cells (h.objs o i)

/-- A new array. -/
def Heap.alloc (h : Heap ι V M) (v : V) : Heap ι V M := { h with cells := Function.update h.cells h.next v, next := h.next + 1 }

open Classical in
/-- Call of a memoised method with body `body` (`functools.cache`): look up `(self, T)`; on a miss evaluate the body with the present parameters, and remember the array. -/
noncomputable def Heap.call (body : M → ℝ → (ι → V) → V) (h : Heap ι V M) (o : ℕ) (m : M) (T : ℝ) : ℕ × Heap ι V M :=
  match h.memo o m T with
  | some r => (r, h)
  | none => (h.next, { h.alloc (body m T (h.params o)) with memo := fun o' m' T' => if o' = o ∧ m' = m ∧ T' = T then some h.next else h.memo o' m' T' })

/-- One step. -/
noncomputable def Heap.step (body : M → ℝ → (ι → V) → V) (h : Heap ι V M) : Op ι V M → Heap ι V M
  | .array v => h.alloc v
  | .attrs o p => { h with objs := Function.update h.objs o p }
  | .write r v => { h with cells := Function.update h.cells r v }
  | .call o m T => (h.call body o m T).2

/-- A history. -/
noncomputable def Heap.run (body : M → ℝ → (ι → V) → V) (h : Heap ι V M) (l : List (Op ι V M)) : Heap ι V M := l.foldl (Heap.step body) h

open Acm Eos Mixing

variable {N : ℕ}

/-- The memoised methods of `NRTL`. -/
inductive NrtlM where
  | tau
  | alpha

/-- The object seen through its six references. -/
def nrtlOf (p : Fin 6 → Mat N) : Nrtl N := ⟨p 0, p 1, p 2, p 3, p 4, p 5⟩

/-- Bodies of `NRTL.tau`, `NRTL.alpha`. -/
noncomputable def nrtlCalc (m : NrtlM) (T : ℝ) (p : Fin 6 → Mat N) : Mat N :=
  match m with
  | .tau => (nrtlOf p).tau T
  | .alpha => (nrtlOf p).alpha T

/-- `NRTL.gE` (lines 180-185): both methods are called, then the arrays are read. -/
noncomputable def nrtlGEc (R : ℝ) (h : Heap (Fin 6) (Mat N) NrtlM) (o : ℕ) (T : ℝ) (x : Fin N → ℝ) : ℝ :=
  let (t, h1) := h.call nrtlCalc o .tau T
  let (a, h2) := h1.call nrtlCalc o .alpha T
  nrtlGE R T x (h2.cells t) (h2.cells a)

/-- `NRTL.gamma` (line 188). -/
noncomputable def nrtlGammac (h : Heap (Fin 6) (Mat N) NrtlM) (o : ℕ) (T : ℝ) (x : Fin N → ℝ) : Fin N → ℝ :=
  let (t, h1) := h.call nrtlCalc o .tau T
  let (a, h2) := h1.call nrtlCalc o .alpha T
  nrtlGamma x (h2.cells t) (h2.cells a)

/-- The object seen through its four references. -/
def wilsonOf (p : Fin 4 → Mat N) : Wilson N := ⟨p 0, p 1, p 2, p 3⟩

/-- Body of `Wilson.Lambda`. -/
noncomputable def wilsonCalc (_ : Unit) (T : ℝ) (p : Fin 4 → Mat N) : Mat N := (wilsonOf p).Lambda T

/-- `Wilson.gE` (`wilson.py` line 131). -/
noncomputable def wilsonGEc (R : ℝ) (h : Heap (Fin 4) (Mat N) Unit) (o : ℕ) (T : ℝ) (x : Fin N → ℝ) : ℝ :=
  let (l, h1) := h.call wilsonCalc o () T
  wilsonGE R T x (h1.cells l)

/-- `Wilson.gamma` (line 134). -/
noncomputable def wilsonGammac (h : Heap (Fin 4) (Mat N) Unit) (o : ℕ) (T : ℝ) (x : Fin N → ℝ) : Fin N → ℝ :=
  let (l, h1) := h.call wilsonCalc o () T
  wilsonGamma x (h1.cells l)

/-- The object seen through its references to matrices (`q`, `r` are not used by `tau`). -/
def uniquacOf (q r : Fin N → ℝ) (p : Fin 4 → Mat N) : Uniquac N := ⟨q, r, p 0, p 1, p 2, p 3⟩

/-- Body of `UNIQUAC.tau`. -/
noncomputable def uniquacCalc (_ : Unit) (T : ℝ) (p : Fin 4 → Mat N) : Mat N := (uniquacOf 0 0 p).tau T

/-- `UNIQUAC.gE` (`uniquac.py` lines 160-172). -/
noncomputable def uniquacGEc (R : ℝ) (h : Heap (Fin 4) (Mat N) Unit) (o : ℕ) (q r : Fin N → ℝ) (T : ℝ) (x : Fin N → ℝ) : ℝ :=
  let (l, h1) := h.call uniquacCalc o () T
  uniquacGE R T x q r (h1.cells l)

/-- `UNIQUAC.gamma` (line 175). -/
noncomputable def uniquacGammac (h : Heap (Fin 4) (Mat N) Unit) (o : ℕ) (q r : Fin N → ℝ) (T : ℝ) (x : Fin N → ℝ) : Fin N → ℝ :=
  let (l, h1) := h.call uniquacCalc o () T
  uniquacGamma x q r (h1.cells l)

/-- The object seen through its five references. -/
def fhOf (p : Fin 5 → Mat N) : FloryHuggins N := ⟨p 0, p 1, p 2, p 3, p 4⟩

/-- Body of `FloryHuggins.chi`. -/
noncomputable def fhCalc (_ : Unit) (T : ℝ) (p : Fin 5 → Mat N) : Mat N := (fhOf p).chi T

/-- `FloryHuggins.Dgmix` (`floryhuggins.py` lines 172-175). -/
noncomputable def fhDgmixc (R : ℝ) (h : Heap (Fin 5) (Mat N) Unit) (o : ℕ) (T : ℝ) (phi m : Fin N → ℝ) : ℝ :=
  let (l, h1) := h.call fhCalc o () T
  fhDgmix R T phi m (h1.cells l)

/-- The memoised members of `Cubic`. -/
inductive CubicM where
  | a
  | b

/-- The object seen through its references to `Tc`, `Pc`, `w`. -/
def cubicOf (kind : Kind) (p : Fin 3 → Fin N → ℝ) (k : Option (Mat N)) : Cubic N := ⟨kind, p 0, p 1, p 2, k⟩

/-- Bodies of `Cubic.a` and `Cubic.b`; `b` is a property, stored in the object and keyed by the object alone: it is called with `T = 0` here. -/
noncomputable def cubicCalc (R : ℝ) (kind : Kind) (m : CubicM) (T : ℝ) (p : Fin 3 → Fin N → ℝ) : Fin N → ℝ :=
  match m with
  | .a => a R (cubicOf kind p none) T
  | .b => b R (cubicOf kind p none)

/-- `Cubic.P` (`cubic.py` lines 227-231, `am` line 156, `bm` line 179); the matrix `k` is read at each call. -/
noncomputable def cubicPc (R : ℝ) (kind : Kind) (h : Heap (Fin 3) (Fin N → ℝ) CubicM) (o : ℕ) (k : Option (Mat N)) (T v : ℝ) (z : Fin N → ℝ) : ℝ :=
  let (ra, h1) := h.call (cubicCalc R kind) o .a T
  let am := geometric z (h1.cells ra) k
  let (rb, h2) := h1.call (cubicCalc R kind) o .b 0
  let bm := ∑ i, z i * h2.cells rb i
  R * T / (v - bm) - am / (v ^ 2 + kind.u * v * bm + kind.w * bm ^ 2)

end Verif.Cache
