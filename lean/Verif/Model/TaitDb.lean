import Verif.Model.Tait

/-!
# The Tait database

Model of `Tait.from_database` (`/repo/src/polykin/properties/pvt/tait.py` lines 263-280), `load_PVT_parameters` (`io.py` lines 12-21; the file is read once and
kept, which makes no difference here) and the table `/repo/src/polykin/properties/pvt/Tait_parameters.tsv` (lines 2-29), transcribed by a script. Numbers are exact
decimals.
-/

namespace Verif.Tait

/-- A line of the table. -/
structure Row where
  name : String
  A0 : ℚ
  A1 : ℚ
  A2 : ℚ
  B0 : ℚ
  B1 : ℚ
  Tmin : ℚ
  Tmax : ℚ
  Pmin : ℚ
  Pmax : ℚ

/-- `Tait_parameters.tsv`. -/
def table : List Row := [
  ⟨"BR", 1.0969e-3, 7.6789e-7, (-2.2216e-10), 1.7596e8, 4.3355e-3, 277, 328, 1.00e5, 2.83e8⟩,
  ⟨"HDPE", 1.1567e-3, 6.2888e-7, 1.1268e-9, 1.7867e8, 4.7254e-3, 415, 472, 1.00e5, 2.00e8⟩,
  ⟨"HMDS", 1.2727e-3, 1.6849e-6, 4.3376e-9, 5.8910e7, 1.1203e-2, 298, 343, 0, 9.00e8⟩,
  ⟨"i-PB", 1.1561e-3, 6.1015e-7, 8.3234e-10, 1.8382e8, 4.7833e-3, 407, 514, 0, 1.96e8⟩,
  ⟨"i-PMMA", 7.9770e-4, 5.5274e-7, (-1.4503e-10), 2.9210e8, 4.1960e-3, 328, 463, 1.00e5, 2.00e8⟩,
  ⟨"i-PP", 1.2033e-3, 4.8182e-7, 7.7589e-10, 1.4236e8, 4.0184e-3, 447, 571, 0, 1.96e8⟩,
  ⟨"LDPE", 1.1004e-3, 1.4557e-6, (-1.5749e-9), 1.7598e8, 4.6677e-3, 398, 471, 1.00e5, 2.00e8⟩,
  ⟨"LLDPE", 1.1105e-3, 1.2489e-6, (-4.0642e-10), 1.7255e8, 4.4256e-3, 420, 473, 1.00e5, 2.00e8⟩,
  ⟨"PA", 7.8153e-4, 3.6134e-7, 2.7519e-10, 3.4019e8, 3.8021e-3, 455, 588, 0, 1.77e8⟩,
  ⟨"PBMA", 9.3282e-4, 5.7856e-7, 5.7343e-10, 2.2569e8, 5.3116e-3, 295, 473, 1.00e5, 2.00e8⟩,
  ⟨"PC", 7.9165e-4, 4.4201e-7, 2.8583e-10, 3.1268e8, 3.9728e-3, 430, 610, 0, 1.77e8⟩,
  ⟨"PCHMA", 8.7410e-4, 4.9035e-7, 3.2707e-10, 3.0545e8, 5.5030e-3, 383, 472, 1.00e5, 2.00e8⟩,
  ⟨"PDMS", 1.0122e-3, 7.7266e-7, 1.9944e-9, 8.7746e7, 6.2560e-3, 298, 343, 0, 1.00e8⟩,
  ⟨"PDMS3", 1.0736e-3, 1.2837e-6, 1.4565e-10, 7.3947e7, 8.0773e-3, 298, 343, 0, 9.00e8⟩,
  ⟨"PDMS10", 1.0536e-3, 1.1041e-6, 4.6289e-10, 8.1208e7, 7.1257e-3, 298, 343, 0, 9.00e8⟩,
  ⟨"PDMS20", 1.0271e-3, 1.1054e-6, (-2.7259e-10), 8.5511e7, 6.7944e-3, 298, 343, 0, 9.00e8⟩,
  ⟨"PDMS100", 1.0095e-3, 1.0662e-6, (-3.6476e-10), 8.8352e7, 6.3228e-3, 298, 343, 0, 9.00e8⟩,
  ⟨"PDMS350", 1.0056e-3, 1.0003e-6, 1.2039e-11, 9.0488e7, 6.4221e-3, 298, 343, 0, 9.00e8⟩,
  ⟨"PDMS1000", 1.0076e-3, 9.1603e-7, 8.2159e-10, 8.9137e7, 6.3938e-3, 298, 343, 0, 9.00e8⟩,
  ⟨"PHENOXY", 8.3796e-4, 3.6449e-7, 5.2933e-10, 3.5434e8, 4.3649e-3, 349, 574, 0, 1.77e8⟩,
  ⟨"PIB", 1.0890e-3, 2.5554e-7, 2.2682e-9, 1.9410e8, 3.9995e-3, 326, 383, 0, 1.00e8⟩,
  ⟨"PMMA", 8.2396e-4, 3.0490e-7, 7.0201e-10, 2.9803e8, 4.3789e-3, 387, 432, 1.00e5, 2.00e8⟩,
  ⟨"PMP", 1.2078e-3, 5.1461e-7, 9.7366e-10, 1.4978e8, 4.6302e-3, 514, 592, 0, 1.96e8⟩,
  ⟨"POM", 8.3198e-4, 2.7550e-7, 2.2000e-9, 3.1030e8, 4.4652e-3, 462, 492, 0, 1.96e8⟩,
  ⟨"PoMS", 9.3905e-4, 5.1288e-7, 5.9157e-11, 2.4690e8, 3.6633e-3, 413, 471, 1.00e5, 1.80e8⟩,
  ⟨"PS", 9.3805e-4, 3.3086e-7, 6.6910e-10, 2.5001e8, 4.1815e-3, 389, 469, 1.00e5, 2.00e8⟩,
  ⟨"PTFE", 4.6867e-4, 1.1542e-7, 1.1931e-9, 4.0910e8, 9.2556e-3, 604, 646, 0, 3.92e8⟩,
  ⟨"PVAC", 8.2832e-4, 4.7205e-7, 1.1364e-9, 1.8825e8, 3.8774e-3, 337, 393, 0, 1.00e8⟩]

/-- `cls(**parameters, name=name)` (line 275). -/
noncomputable def Row.make (r : Row) : Except Err Tait :=
  init r.A0 r.A1 r.A2 r.B0 r.B1 r.Tmin (some r.Tmax) r.Pmin (some r.Pmax)

/-- `Tait.from_database(name)` (lines 271-280): the first line with the name; `none` (and a message on the screen) if there is none. Errors of the constructor are not caught. -/
noncomputable def fromDatabase (name : String) : Except Err (Option Tait) :=
  match table.filter fun r => r.name = name with
  | [] => .ok none
  | r :: _ => r.make.map some

end Verif.Tait
