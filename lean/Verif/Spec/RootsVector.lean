import Verif.Model.RootsVector

/-!
# Specification: the history of a quasi-Newton run

Independent of the bookkeeping of the loop (counters and flags): a run is the list of its global steps, and each reason for stopping is a statement about that
list.
-/

namespace Verif.RootsVector

variable {n : ℕ}

/-- One step of the global method: the point it started from and what came out. -/
structure Step (n : ℕ) where
  x : Vec n
  o : GMOut n

/-- Where a run stands (most recent step first): a step that failed leaves the point as it was. -/
def here (x0 : Vec n) : List (Step n) → Vec n
  | [] => x0
  | a :: _ => if a.o.success then a.o.xp else a.x

/-- The possible histories from `x0`, most recent step first: each step is a step of the chosen global method from the current point, with the value of the
function there. -/
inductive History (f : Vec n → Vec n) (L : LinAlg n) (P : QParams n) (x0 : Vec n) : List (Step n) → Prop
  | nil : History f L P x0 []
  | cons {hist : List (Step n)} (h : History f L P x0 hist) (gc p : Vec n) (S : L.S) (t : ℝ) (o : GMOut n)
      (ho : globalStep P.gm P.fuel f P.sclf (here x0 hist) (f (here x0 hist)) gc p (L.Rmat S) P.tolx P.sclx P.maxlen t =
        some (.ok o)) : History f L P x0 (⟨here x0 hist, o⟩ :: hist)

/-- The number of steps of maximal length up to now, without interruption. -/
def maxRun (hist : List (Step n)) : ℕ := (hist.takeWhile (fun a => a.o.ismaxstep)).length

/-- Reasons not to stop after step `a`, the earlier steps being `t`. A failed step is forgiven only after a successful one; a successful step must be neither
within tolerance, nor too short, nor (with a global method) the fifth of maximal length in a row. -/
def Continued (P : QParams n) (a : Step n) (t : List (Step n)) : Prop :=
  (a.o.success = false → ∃ b t', t = b :: t' ∧ b.o.success = true) ∧
  (a.o.success = true → (∃ i, P.tolf < |P.sclf i * a.o.fp i|) ∧
    (∃ i, P.tolx * max |a.o.xp i| (1 / P.sclx i) < |a.o.xp i - a.x i|) ∧ (P.gm ≠ .plain → maxRun (a :: t) < 5))

/-- The run had no reason to stop at any of these steps. -/
def Ongoing (P : QParams n) : List (Step n) → Prop
  | [] => True
  | a :: t => Continued P a t ∧ Ongoing P t

/-- What a result says about the history of the run. -/
structure Explains (P : QParams n) (x0 : Vec n) (hist : List (Step n)) (r : QResult n) : Prop where
  x : r.x = here x0 hist
  niter : r.message ≠ .qr → r.niter = hist.length
  qr : r.message = .qr → r.niter = hist.length + 1 ∧ Ongoing P hist
  maxiter : r.message = .maxiter → r.niter = P.maxiter ∧ Ongoing P hist
  earlier : Ongoing P hist.tail
  tolf : r.message = .tolf → ∃ a t, hist = a :: t ∧ a.o.success = true
  tolx : r.message = .tolx → ∃ a t, hist = a :: t ∧ a.o.success = true ∧
    ∀ i, |r.x i - a.x i| ≤ P.tolx * max |r.x i| (1 / P.sclx i)
  maxSteps : r.message = .maxSteps → P.gm ≠ .plain ∧ 5 ≤ maxRun hist
  fail : r.message = .globalFail → ∃ a t, hist = a :: t ∧ a.o.success = false ∧ ∀ b t', t = b :: t' → b.o.success = false

end Verif.RootsVector
