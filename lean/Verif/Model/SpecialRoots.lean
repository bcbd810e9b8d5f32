import Verif.Model.RootsScalar
import Verif.Model.PDiv
import Mathlib.Analysis.SpecialFunctions.Trigonometric.Arctan
import Mathlib.Order.WithBot

/-!
# Model of `roots_xtanx` and `roots_xcotx`

`/repo/src/polykin/math/special.py`. The parameter `a` is a real number or `inf` (`⊤`).
The complex-step derivative taken by `root_newton` is modelled with dual numbers: a function maps `(x, h)` to `(f x, h * f' x)`,
which is the complex value up to terms of order `h^2` (`h = eps`).
-/

namespace Verif.SpecialRoots

open Real

noncomputable section

/-- `lambda x: x * tan(x) - a` (line 111). -/
def tanF (a : ℝ) (z : ℝ × ℝ) : ℝ × ℝ := (z.1 * tan z.1 - a, z.2 * (tan z.1 + z.1 / cos z.1 ^ 2))

/-- `lambda x: x / tan(x) + a - 1` (line 168); where `tan` has a pole the quotient is zero, here as in the code (up to rounding). -/
def cotF (a : ℝ) (z : ℝ × ℝ) : ℝ × ℝ := (z.1 / tan z.1 + a - 1, z.2 * (cos z.1 / sin z.1 - z.1 / sin z.1 ^ 2))

/-- The inner loops of lines 121-125 and 178-182, `n` passes left. -/
def fpLoop (g : ℝ → ℝ) (tolx : ℝ) : ℕ → ℝ → ℝ
  | 0, e => e
  | n + 1, e =>
    let eNew := g e
    if |eNew - e| < tolx then e else fpLoop g tolx n eNew

/-- One entry of `roots_xtanx` (lines 100-126). -/
def xtanxEntry (a : WithTop ℝ) (tolx : ℝ) (i : ℕ) : Except Err ℝ :=
  match a with
  | ⊤ => .ok ((i + 1 / 2) * π)
  | (a : ℝ) =>
    if a = 0 then .ok (i * π)
    else if a < 100 then do
      let s ← pdiv (0.5 * a) (a + 1)
      let r ← rootNewton (tanF a) (π * (i + s)) tolx 1e-10 50
      return r.1.x
    else
      let x0 := i * π
      .ok (x0 + fpLoop (fun e => arctan (a / (x0 + e))) tolx 10 1)

/-- `roots_xtanx` (lines 75-128), without the cache. -/
def rootsXtanx (a : WithTop ℝ) (N : ℕ) (tolx : ℝ) : Except Err (List ℝ) := (List.range N).mapM (xtanxEntry a tolx)

/-- One entry of `roots_xcotx` (lines 157-183). -/
def xcotxEntry (a : WithTop ℝ) (tolx : ℝ) (i : ℕ) : Except Err ℝ :=
  match a with
  | ⊤ => .ok ((i + 1) * π)
  | (a : ℝ) =>
    if a = 1 then .ok ((i + 1 / 2) * π)
    else if a < 2 then do
      let r ← rootNewton (cotF a) ((i + 1 / 2) * π) tolx 1e-10 50
      return r.1.x
    else
      let x0 := (i + 1) * π
      .ok (x0 + fpLoop (fun e => arctan ((x0 + e) / (1 - a))) tolx 30 0)

/-- `roots_xcotx` (lines 132-185), without the cache. -/
def rootsXcotx (a : WithTop ℝ) (N : ℕ) (tolx : ℝ) : Except Err (List ℝ) := (List.range N).mapM (xcotxEntry a tolx)

/-- Memory of the process as far as the cached functions see it: the arrays by address, and for each argument tuple the address of the array returned first. -/
structure Mem where
  heap : List (List ℝ)
  cache : List ((WithTop ℝ × ℕ × ℝ) × ℕ)

/-- A call of a function decorated with `functools.cache` (lines 74, 131): the array object stored for equal arguments is returned again; otherwise
the function runs and its array is stored. The result is an address. -/
def cachedCall (f : WithTop ℝ → ℕ → ℝ → Except Err (List ℝ)) (key : WithTop ℝ × ℕ × ℝ) (m : Mem) : Except Err (ℕ × Mem) :=
  open Classical in
  match m.cache.find? (fun e => e.1 = key) with
  | some e => .ok (e.2, m)
  | none => do
    let v ← f key.1 key.2.1 key.2.2
    return (m.heap.length, ⟨m.heap ++ [v], (key, m.heap.length) :: m.cache⟩)

/-- The caller's `array[i] = y`. -/
def Mem.write (m : Mem) (addr i : ℕ) (y : ℝ) : Mem := ⟨m.heap.modify addr (fun l => l.set i y), m.cache⟩

end

end Verif.SpecialRoots
