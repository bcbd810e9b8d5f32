import Verif.Model.Basic
import Verif.Model.Div
import Verif.Model.RootsScalar

/-!
# Model of the binary copolymerization models (`polykin/copolymerization/{binary,terminal,penultimate}.py`)

Arguments are single numbers: the code applies the same formula elementwise to arrays. `Option`: `none` is a result that is not a
finite number (a zero divisor).
-/

namespace Verif.Copo

variable {α : Type*} [Field α] [LinearOrder α]

/-- `inst_copolymer_binary` (`/repo/src/polykin/copolymerization/binary.py` lines 81-83). -/
def instBinary (f1 r1 r2 : α) : Option α :=
  let f2 := 1 - f1
  fdiv (r1 * f1 ^ 2 + f1 * f2) (r1 * f1 ^ 2 + 2 * f1 * f2 + r2 * f2 ^ 2)

/-- `kp_average_binary` (lines 142-144). A zero `k11` or `k22` counts as not finite. -/
def kpBinary (f1 r1 r2 k11 k22 : α) : Option α :=
  let f2 := 1 - f1
  match fdiv (r1 * f1) k11, fdiv (r2 * f2) k22 with
  | some a, some b => fdiv (r1 * f1 ^ 2 + r2 * f2 ^ 2 + 2 * f1 * f2) (a + b)
  | _, _ => none

/-- `df1dx`, the right-hand side of the composition drift (lines 236-261; also terminal.py lines 211-213). -/
def df1dx (x f1 r1 r2 : α) : Option α :=
  match instBinary f1 r1 r2 with
  | some F1 => fdiv (f1 - F1) (1 - x + eps)
  | none => none

/-! ### Terminal model -/

/-- Values of the dict returned by `transitions`. -/
structure Trans (α : Type*) where
  P11 : α
  P12 : α
  P21 : α
  P22 : α

/-- `TerminalModel.azeotrope` (lines 586-592); the `None` of Python is `none`. -/
def azeotrope (r1 r2 : α) : Option α := if r1 < 1 ∧ r2 < 1 then some ((1 - r2) / (2 - r1 - r2)) else none

/-- `F1` (lines 109-112). -/
def modelF1 (ri : α → Option (α × α)) (f1 : α) : Except Err (Option α) :=
  if 0 ≤ f1 ∧ f1 ≤ 1 then .ok (match ri f1 with | some r => instBinary f1 r.1 r.2 | none => none) else .error .RangeError

/-- `TerminalModel.transitions` (lines 640-654). -/
def transitions (r1 r2 f1 : α) : Except Err (Option (Trans α)) :=
  if 0 ≤ f1 ∧ f1 ≤ 1 then
    let f2 := 1 - f1
    match fdiv (r1 * f1) (r1 * f1 + f2), fdiv (r2 * f2) (r2 * f2 + f1) with
    | some P11, some P22 => .ok (some ⟨P11, 1 - P11, 1 - P22, P22⟩)
    | _, _ => .ok none
  else .error .RangeError

/-- Values of the dict returned by `triads`. -/
structure Triads (α : Type*) where
  A111 : α
  A112 : α
  A212 : α
  A222 : α
  A221 : α
  A121 : α

/-- `TerminalModel.triads` (lines 689-715) from the transition probabilities. -/
def triadsOf (P : Trans α) : Triads α :=
  let F1 := P.P21 / (P.P12 + P.P21 + eps)
  let F2 := 1 - F1
  ⟨F1 * P.P11 ^ 2, F1 * 2 * P.P11 * P.P12, F1 * P.P12 ^ 2, F2 * P.P22 ^ 2, F2 * 2 * P.P22 * P.P21, F2 * P.P21 ^ 2⟩

/-- `TerminalModel.triads` (lines 689-715). -/
def triads (r1 r2 f1 : α) : Except Err (Option (Triads α)) :=
  match transitions r1 r2 f1 with
  | .error e => .error e
  | .ok P => .ok (P.map triadsOf)

/-- `(1 - P)*P**(k - 1)`, `k ≥ 1` (line 769; also `sequence_multi`, `multicomponent.py` line 659). -/
def seqProb (P : α) (k : ℕ) : α := (1 - P) * P ^ (k - 1)

/-- `1/(1 - P + eps)` (line 763; also `multicomponent.py` line 653). -/
def seqMean (P : α) : α := 1 / (1 - P + eps)

/-- `TerminalModel.sequence` (lines 757-772); `k = none` for the mean. -/
def sequence (r1 r2 f1 : α) (k : Option ℕ) : Except Err (Option (α × α)) :=
  match transitions r1 r2 f1 with
  | .error e => .error e
  | .ok P => .ok (P.map fun P => match k with
    | none => (seqMean P.P11, seqMean P.P22)
    | some k => (seqProb P.P11 k, seqProb P.P22 k))

/-- `TerminalModel.kii` (lines 600-608); `k1`, `k2` are the values of the rate coefficients at the temperature (`none`: not given). -/
def terminalKii (k1 k2 : Option α) : Except Err (α × α) :=
  match k1, k2 with
  | some a, some b => .ok (a, b)
  | _, _ => .error .ValueError

/-- `kp` (lines 143-146) given the results of `ri` and `kii`. -/
def modelKp (ri : α → Option (α × α)) (kii : α → Except Err (Option (α × α))) (f1 : α) : Except Err (Option α) :=
  if 0 ≤ f1 ∧ f1 ≤ 1 then
    match kii f1 with
    | .error e => .error e
    | .ok k => .ok (match ri f1, k with
      | some r, some k => kpBinary f1 r.1 r.2 k.1 k.2
      | _, _ => none)
  else .error .RangeError

/-! ### Penultimate model -/

/-- Parameters of `PenultimateModel`. -/
structure Pen (α : Type*) where
  r11 : α
  r12 : α
  r21 : α
  r22 : α
  s1 : α
  s2 : α

/-- `PenultimateModel.ri` (`penultimate.py` lines 143-150). -/
def Pen.ri (m : Pen α) (f1 : α) : Option (α × α) :=
  let f2 := 1 - f1
  match fdiv (m.r21 * (f1 * m.r11 + f2)) (f1 * m.r21 + f2), fdiv (m.r12 * (f2 * m.r22 + f1)) (f2 * m.r12 + f1) with
  | some a, some b => some (a, b)
  | _, _ => none

/-- The common formula of `PenultimateModel.kii` (lines 190-198) and `ImplicitPenultimateModel.kii` (lines 512-520), with
`(ra, rb) = (r11, r22)` resp. `(r1, r2)`. -/
def penKii (ra rb s1 s2 f1 k1 k2 : α) : Option (α × α) :=
  let f2 := 1 - f1
  match fdiv f2 s1, fdiv f1 s2 with
  | some u, some v =>
    match fdiv (k1 * (f1 * ra + f2)) (f1 * ra + u), fdiv (k2 * (f2 * rb + f1)) (f2 * rb + v) with
    | some a, some b => some (a, b)
    | _, _ => none
  | _, _ => none

/-- `kii` with the check for missing coefficients (lines 187-188, 509-510). -/
def penKiiE (ra rb s1 s2 : α) (k1 k2 : Option α) (f1 : α) : Except Err (Option (α × α)) :=
  match k1, k2 with
  | some a, some b => .ok (penKii ra rb s1 s2 f1 a b)
  | _, _ => .error .ValueError

/-- Values of the dict returned by `PenultimateModel.transitions`. -/
structure PenTrans (α : Type*) where
  P111 : α
  P211 : α
  P112 : α
  P212 : α
  P222 : α
  P122 : α
  P221 : α
  P121 : α

/-- `PenultimateModel.transitions` (lines 232-263). -/
def Pen.transitions (m : Pen α) (f1 : α) : Except Err (Option (PenTrans α)) :=
  if 0 ≤ f1 ∧ f1 ≤ 1 then
    let f2 := 1 - f1
    match fdiv (m.r11 * f1) (m.r11 * f1 + f2), fdiv (m.r21 * f1) (m.r21 * f1 + f2),
      fdiv (m.r22 * f2) (m.r22 * f2 + f1), fdiv (m.r12 * f2) (m.r12 * f2 + f1) with
    | some P111, some P211, some P222, some P122 =>
      .ok (some ⟨P111, P211, 1 - P111, 1 - P211, P222, P122, 1 - P222, 1 - P122⟩)
    | _, _, _, _ => .ok none
  else .error .RangeError

/-- One group of three of `PenultimateModel.triads` (lines 305-311, 313-319). -/
def penTriad (Piii Pjii : α) : α × α × α :=
  let a := Pjii * Piii / (1 - Piii + eps)
  let b := 2 * Pjii
  let c := 1 - Pjii
  let s := a + b + c
  (a / s, b / s, c / s)

/-- `PenultimateModel.triads` (lines 299-330). -/
def Pen.triads (m : Pen α) (f1 : α) : Except Err (Option (Triads α)) :=
  match m.transitions f1 with
  | .error e => .error e
  | .ok P => .ok (P.map fun P =>
    let g1 := penTriad P.P111 P.P211
    let g2 := penTriad P.P222 P.P122
    ⟨g1.1, g1.2.1, g1.2.2, g2.1, g2.2.1, g2.2.2⟩)

/-- `np.where(k == 1, 1 - P211, P211*(1 - P111)*P111**(k - 2))`, `k ≥ 1` (lines 388-389). -/
def penSeqProb (Piii Pjii : α) (k : ℕ) : α := if k = 1 then 1 - Pjii else Pjii * (1 - Piii) * Piii ^ (k - 2)

/-- `1 + P211/(1 - P111 + eps)` (lines 383-384). -/
def penSeqMean (Piii Pjii : α) : α := 1 + Pjii / (1 - Piii + eps)

/-- `PenultimateModel.sequence` (lines 376-391). -/
def Pen.sequence (m : Pen α) (f1 : α) (k : Option ℕ) : Except Err (Option (α × α)) :=
  match m.transitions f1 with
  | .error e => .error e
  | .ok P => .ok (P.map fun P => match k with
    | none => (penSeqMean P.P111 P.P211, penSeqMean P.P222 P.P122)
    | some k => (penSeqProb P.P111 P.P211 k, penSeqProb P.P222 P.P122 k))

/-! ### Azeotrope of a general model -/

/-- `np.allclose(v, 1.0, atol=1e-2)` with the default `rtol = 1e-5`. -/
def allcloseOne (v : List α) : Bool := v.all fun a => |a - 1| ≤ 1 / 100 + 1 / 100000 * |(1 : α)|

/-- `fzero` (`terminal.py` lines 164-165). A value that is not finite is replaced by 0; this cannot happen for `0 < f1 < 1` and
non-negative reactivity ratios. -/
def fzero (ri : α → Option (α × α)) (f1 : α) : α :=
  match ri f1 with
  | some r => match instBinary f1 r.1 r.2 with
    | some F => F - f1
    | none => 0
  | none => 0

/-- `CopoModel.azeotrope` (lines 149-177), used by `PenultimateModel`; `root_brent` with its default tolerances and 50 iterations.
The warnings are left out. -/
def copoAzeotrope (ri : α → Option (α × α)) : Option α :=
  let chk := match ri (1 / 10), ri (9 / 10) with
    | some a, some b => allcloseOne [a.1, a.2, b.1, b.2]
    | _, _ => false
  if chk then none
  else match rootBrent (fzero ri) (1 / 10000) (9999 / 10000) (1 / 1000000) (1 / 1000000) 50 with
    | .ok (sol, _) => if sol.success then some sol.x else none
    | .error _ => none

end Verif.Copo
